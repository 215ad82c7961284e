import Verif.Lemmas.Surround
import Verif.Props.Reading
import Verif.Props.Headers
/-!
# C12, C20, C21, C65: the whole body, closures, requests and handles
-/
namespace Multipart
variable {D : Deps} {evs : List Ev} {b : Bytes} {s t : BR}

/-! ## C12 -/

/-- C12: for a body consisting of a preamble without a delimiter start, parts up to the closing delimiter, and anything behind, the
caller gets exactly these parts; neither preamble nor epilogue appears. -/
theorem C12_preamble_epilogue (hD : D.Sane) (hn : NoStall evs) (hne : NoErr evs) {pre body epi : Bytes}
    {es got : List (FieldHeaders × Bytes)} {fin : Ending} (hb : Ev.bytes evs = pre ++ body ++ epi)
    (hpre : ∀ q, q < pre.length → ¬ OccursAt (dashes ++ b) (pre ++ body) q) (hP : Parts D (dashes ++ b) body es .closed)
    (hR : Reads D (withBody evs b) got fin) :
    fin = .closed ∧ All2 (fun a e => a.1 = e.1 ∧ DataOk (dashes ++ b) evs e.2 a.2) got es :=
  C10_entries_are_parts hD hn hne (by rw [hb]; exact (hP.preamble (by simp [dashes]) hpre).epilogue (by simp [dashes]) rfl epi) hR

/-- C12 for a preamble alone: also bodies that end in an error are read alike. -/
theorem C12_preamble (hD : D.Sane) (hn : NoStall evs) (hne : NoErr evs) {pre body : Bytes}
    {es got : List (FieldHeaders × Bytes)} {fin fin' : Ending} (hb : Ev.bytes evs = pre ++ body)
    (hpre : ∀ q, q < pre.length → ¬ OccursAt (dashes ++ b) (pre ++ body) q) (hP : Parts D (dashes ++ b) body es fin')
    (hR : Reads D (withBody evs b) got fin) :
    fin = fin' ∧ All2 (fun a e => a.1 = e.1 ∧ DataOk (dashes ++ b) evs e.2 a.2) got es :=
  C10_entries_are_parts hD hn hne (by rw [hb]; exact hP.preamble (by simp [dashes]) hpre) hR

theorem Sample.wellFormed : WellFormedPart refDeps (dashes ++ Sample.bnd) (Sample.hdr ++ b!"hello\r\n--b--\r\n") Sample.fh b!"hello" b!"hello\r\n--b--\r\n" :=
  ⟨⟨Sample.hdr, _, Sample.headerBlock (by decide +kernel), by decide +kernel, by decide,
    fun h => absurd h (by decide)⟩, .crlf (by decide) ⟨b!"--b--\r\n", rfl⟩⟩

theorem Sample.parts : Parts refDeps (dashes ++ Sample.bnd) (b!"--b\r\n" ++ Sample.hdr ++ b!"hello\r\n--b--\r\n") [(Sample.fh, b!"hello")] .closed :=
  .part (.part (p := 0) (by decide +kernel) (by decide +kernel)) Sample.wellFormed
    (.close (.close (p := 7) (rest := b!"\r\n") (by decide +kernel) (by decide +kernel)))

example : Ev.bytes Sample.evs = b!"pre" ++ (b!"--b\r\n" ++ Sample.hdr ++ b!"hello\r\n--b--\r\n") ++ b!"epi" := by decide +kernel
example : ∀ q, q < (b!"pre").length → ¬ OccursAt (dashes ++ Sample.bnd) (b!"pre" ++ (b!"--b\r\n" ++ Sample.hdr ++ b!"hello\r\n--b--\r\n")) q := by
  decide +kernel

/-- C12_preamble_epilogue and C12_preamble. -/
example {got : List (FieldHeaders × Bytes)} {fin : Ending} (hR : Reads refDeps (withBody Sample.evs Sample.bnd) got fin) :
    All2 (fun a e => a.1 = e.1 ∧ DataOk (dashes ++ Sample.bnd) Sample.evs e.2 a.2) got [(Sample.fh, b!"hello")] :=
  (C12_preamble_epilogue (pre := b!"pre") (epi := b!"epi") refDeps_sane (by decide +kernel) Sample.noErr1 (by decide +kernel) (by decide +kernel) Sample.parts hR).2

example {got : List (FieldHeaders × Bytes)} {fin : Ending} (hR : Reads refDeps (withBody [.data b!"pre--b\r\nConte", .data (Sample.hdr.drop 5 ++ b!"hello\r\n--b--\r\n")] Sample.bnd) got fin) : fin = .closed :=
  (C12_preamble (pre := b!"pre") refDeps_sane (by decide +kernel) (by intro e; simp) (by decide +kernel) (by decide +kernel) Sample.parts hR).1

/-! ## C20 -/

/-- The loop a user writes by hand: call `read_entry` until it reports the end or an error, and give each entry to `f`. -/
inductive ByHand (D : Deps) {σ : Type} (f : Visitor σ) : σ → BR → Res Unit × σ × BR → Prop
  | entry {st : σ} {s t : BR} {fh : FieldHeaders} {r : Res Unit × σ × BR} : s.readEntry D = (.ok (some fh), t) →
      ByHand D f (f st fh t).2 (t.run (f st fh t).1).2 r → ByHand D f st s r
  | done {st : σ} {s t : BR} : s.readEntry D = (.ok none, t) → ByHand D f st s (.ok (), st, t)
  | fail {st : σ} {s t : BR} {e : IoErr} : s.readEntry D = (.err e, t) → ByHand D f st s (.err e, st, t)

theorem ByHand.unique {σ : Type} {f : Visitor σ} {st : σ} {r r' : Res Unit × σ × BR} (h : ByHand D f st s r) (h' : ByHand D f st s r') : r = r' := by
  induction h with
  | entry a _ ih =>
    cases h' with
    | entry a' h'' => rw [a] at a'; simp only [Prod.mk.injEq, Res.ok.injEq, Option.some.injEq] at a'; obtain ⟨rfl, rfl⟩ := a'; exact ih h''
    | done a' => rw [a] at a'; simp at a'
    | fail a' => rw [a] at a'; simp at a'
  | done a =>
    cases h' with
    | entry a' h'' => rw [a] at a'; simp at a'
    | done a' => rw [a] at a'; simp at a'; rw [a']
    | fail a' => rw [a] at a'; simp at a'
  | fail a =>
    cases h' with
    | entry a' h'' => rw [a] at a'; simp at a'
    | done a' => rw [a] at a'; simp at a'
    | fail a' => rw [a] at a'; simp at a'; rw [a'.1, a'.2]

theorem foreachLoop_byHand (hD : D.Sane) {σ : Type} (f : Visitor σ) : ∀ (n : Nat) (st : σ) (s : BR), s.Inv → s.unread.length < n →
    ByHand D f st s (foreachLoop D f n st s) := by
  intro n
  induction n with
  | zero => intro st s _ h; omega
  | succ n ih =>
    intro st s hi hlt
    have hnp := BR.readEntry_noPanic hD hi
    have hti := BR.readEntry_inv hD hi
    unfold foreachLoop
    rcases hre : s.readEntry D with ⟨r, t⟩
    rw [hre] at hnp hti
    cases r with
    | ok o =>
      cases o with
      | none => exact .done hre
      | some fh =>
        have hs := BR.readEntry_shrinks hD hi hre
        have hti : t.Inv := hti
        obtain ⟨r1, -⟩ := BR.run_skipped (f st fh t).1 hti
        refine .entry hre (ih _ _ (BR.run_inv _ hti) ?_)
        rw [r1, List.length_drop]; omega
    | err e => exact .fail hre
    | panic => exact absurd rfl hnp.1
    | hang => exact absurd rfl hnp.2

/-- C20: `foreach_entry` with any closure ends, and is the loop over `read_entry` written by hand: same entries in the same order given to
the closure, same result, same final state. -/
theorem C20_foreach_entry (hD : D.Sane) {σ : Type} (f : Visitor σ) (st : σ) (hr : Reachable D evs b s) (r : Res Unit × σ × BR) :
    ByHand D f st s r ↔ foreachEntry D f st s = r := by
  have h : ByHand D f st s (foreachEntry D f st s) :=
    foreachLoop_byHand hD f _ st s (hr.spec hD).1 (by rw [BR.pending_eq]; omega)
  exact ⟨fun h' => h.unique h', fun e => e ▸ h⟩

/-- C20 for closures that read every field to its end: they see exactly the parts of the body. -/
theorem C20_sees_parts (hD : D.Sane) (hn : NoStall evs) (hne : NoErr evs) {es : List (FieldHeaders × Bytes)} {fin : Ending}
    (hP : Parts D (dashes ++ b) (Ev.bytes evs) es fin) (rd : FieldHeaders → BR → List FieldOp)
    (hrd : ∀ (fh : FieldHeaders) (t : BR), Reachable D evs b t → (t.run (rd fh t)).2.AtEof) :
    let r := foreachEntry D (fun got fh t => (rd fh t, got ++ [(fh, (t.run (rd fh t)).1)])) [] (withBody evs b)
    r.1 = fin.result ∧
    All2 (fun a e => a.1 = e.1 ∧ DataOk (dashes ++ b) evs e.2 a.2) r.2.1 es := by
  intro r
  have h : ByHand D (fun got fh t => (rd fh t, got ++ [(fh, (t.run (rd fh t)).1)])) [] (withBody evs b) r :=
    (C20_foreach_entry hD _ _ ⟨[], rfl⟩ r).mpr rfl
  have key : ∀ {acc s r}, ByHand D (fun got fh t => (rd fh t, got ++ [(fh, (t.run (rd fh t)).1)])) acc s r → Reachable D evs b s →
      ∃ got fin, Reads D s got fin ∧ r.2.1 = acc ++ got ∧ r.1 = fin.result := by
    intro acc s r h hr
    induction h with
    | @entry acc s t fh r a _ ih =>
      have ht : Reachable D evs b t := by
        have : Reachable D evs b (s.readEntry D).2 := hr.step .readEntry
        rw [a] at this; exact this
      obtain ⟨got, fin, h1, h2, h3⟩ := ih (ht.run _)
      exact ⟨_, fin, .entry a (hrd fh t ht) h1, by rw [h2]; simp, h3⟩
    | done a => exact ⟨[], .closed, .close a, by simp, rfl⟩
    | @fail acc s t e a => exact ⟨[], .failed e, .fail a, by simp, rfl⟩
  obtain ⟨got, fin', h1, h2, h3⟩ := key h ⟨[], rfl⟩
  obtain ⟨rfl, h5⟩ := C10_entries_are_parts hD hn hne hP h1
  exact ⟨h3, by rw [h2]; simpa using h5⟩

/-- C20_foreach_entry: a closure that collects the names. -/
example : (foreachEntry refDeps (fun (got : List Bytes) fh _ => ([.read 100], got ++ [fh.name])) [] (withBody Sample.evs Sample.bnd)).2.1 = [b!"a"] := by
  decide +kernel

open Classical in
/-- Closures as in `C20_sees_parts` exist, e.g. ones that read byte by byte. -/
example (hD : D.Sane) (evs : List Ev) (b : Bytes) : ∃ rd : FieldHeaders → BR → List FieldOp,
    ∀ (fh : FieldHeaders) (t : BR), Reachable D evs b t → (t.run (rd fh t)).2.AtEof := by
  have h : ∀ t : BR, ∃ os, Reachable D evs b t → (t.run os).2.AtEof := fun t =>
    if h : Reachable D evs b t then
      let ⟨_, hk⟩ := C01_reaches_eof hD h (n := 1) (by decide)
      ⟨_, fun _ => hk⟩
    else ⟨[], fun h' => absurd h' h⟩
  exact ⟨fun _ t => Classical.choose (h t), fun _ t => Classical.choose_spec (h t)⟩

/-! ## C21 -/

/-- C21: a request without boundary is returned unchanged; otherwise the reader reads its body, nothing consumed, looking for `--` and
the boundary. -/
theorem C21_from_request {ρ : Type} (H : HttpRequest ρ) (req : ρ) :
    (∀ r, fromRequest H req = .error r ↔ H.multipartBoundary req = none ∧ r = req) ∧
    (∀ m, fromRequest H req = .ok m → ∃ b, H.multipartBoundary req = some b ∧ m.delim = b!"--" ++ b ∧ m.unread = Ev.bytes (H.body req) ∧
      m.evs = H.body req ∧ Reachable D (H.body req) b m) := by
  unfold fromRequest
  cases H.multipartBoundary req with
  | none => exact ⟨fun r => by simp [eq_comm], fun m h => by simp at h⟩
  | some b => exact ⟨fun r => by simp, fun m h => by simp at h; subst h; exact ⟨b, rfl, rfl, rfl, rfl, [], rfl⟩⟩

/-! ## C65 -/

/-- A call on a field handle. -/
inductive HOp where
  | next
  | data (o : FieldOp)

/-- Its effect; `none` is a panic or a hang. -/
def EntryHandle.hop (D : Deps) (h : EntryHandle) : HOp → Option EntryHandle
  | .next => match h.nextInplace D with
    | (.panic, _) => none
    | (.hang, _) => none
    | (_, h) => some h
  | .data o => match h.op o with
    | (.panic, _) => none
    | (.hang, _) => none
    | (_, h) => some h

/-- A history of calls. -/
def EntryHandle.hops (D : Deps) (h : EntryHandle) : List HOp → Option EntryHandle
  | [] => some h
  | o :: os => (h.hop D o).bind (·.hops D os)

/-- C65: whatever calls are made on a handle that owns its reader, none panics, and it always owns its reader afterwards - in a state that
`read_entry` calls would have led to. -/
theorem C65_handle_usable (hD : D.Sane) (hr : Reachable D evs b s) (fh : FieldHeaders) (os : List HOp) :
    ∃ fh' t, ({ headers := fh, inner := some s } : EntryHandle).hops D os = some { headers := fh', inner := some t } ∧ Reachable D evs b t := by
  induction os generalizing s fh with
  | nil => exact ⟨fh, s, rfl, hr⟩
  | cons o os ih =>
    have hstep : ∃ fh' t, ({ headers := fh, inner := some s } : EntryHandle).hop D o = some { headers := fh', inner := some t } ∧ Reachable D evs b t := by
      cases o with
      | next =>
        have hnp := BR.readEntry_noPanic hD (hr.spec hD).1
        have hst := hr.step .readEntry
        have hst : Reachable D evs b (s.readEntry D).2 := hst
        simp only [EntryHandle.hop, EntryHandle.nextInplace]
        rcases hre : s.readEntry D with ⟨r, t⟩
        rw [hre] at hnp hst
        cases r with
        | ok x => cases x with
          | none => exact ⟨_, t, rfl, hst⟩
          | some fh' => exact ⟨_, t, rfl, hst⟩
        | err e => exact ⟨_, t, rfl, hst⟩
        | panic => exact absurd rfl hnp.1
        | hang => exact absurd rfl hnp.2
      | data o => exact ⟨fh, _, rfl, hr.step (.field o)⟩
    obtain ⟨fh', t, h1, h2⟩ := hstep
    unfold EntryHandle.hops
    rw [h1]
    exact ih h2 fh'

/-- C65: `next_entry_inplace` reports what `read_entry` on its reader reports, and takes over the new headers exactly when there is an entry. -/
theorem C65_inplace_result (hD : D.Sane) (hr : Reachable D evs b s) (fh : FieldHeaders) :
    (∀ fh', (s.readEntry D).1 = .ok (some fh') → ({ headers := fh, inner := some s } : EntryHandle).nextInplace D =
      (.ok true, { headers := fh', inner := some (s.readEntry D).2 })) ∧
    ((s.readEntry D).1 = .ok none → ({ headers := fh, inner := some s } : EntryHandle).nextInplace D =
      (.ok false, { headers := fh, inner := some (s.readEntry D).2 })) ∧
    (∀ e, (s.readEntry D).1 = .err e → ({ headers := fh, inner := some s } : EntryHandle).nextInplace D =
      (.err e, { headers := fh, inner := some (s.readEntry D).2 })) := by
  have := hr.spec hD
  unfold EntryHandle.nextInplace
  rcases hre : s.readEntry D with ⟨r, t⟩
  refine ⟨fun fh' h => ?_, fun h => ?_, fun e h => ?_⟩ <;> simp only at h <;> subst h <;> simp [hre]

/-- C65_handle_usable and C65_inplace_result: a handle on the field of `Sample.evs`. -/
example : (({ headers := Sample.fh, inner := some Sample.s1 } : EntryHandle).hops refDeps [.data (.read 2), .next, .next, .data .fillBuf]).isSome = true := by
  decide +kernel

end Multipart

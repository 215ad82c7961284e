import Verif.Spec.Decided
import Verif.Props.CausalSave
import Verif.Props.Bounded
import Verif.Props.IronOversize
import Verif.Props.ExampleDisk
/-!
# C147: a bounded number of bytes decides about a request
-/
namespace Multipart

variable {D : Deps} {b : Bytes} {n p fuel : Nat} {cfg : Settings} {w : World} {before : List Ev} {i : Intercept}

namespace Sample

/-- A field of any length, letter by letter, that has not ended. -/
def evsOpen (N : Nat) : List Ev := .data (b!"--b\r\n" ++ hdr) :: List.replicate N (.data [0x61])

theorem evsOpen_length (N : Nat) : (Ev.bytes (evsOpen N)).length = N + 49 := by
  have : Ev.bytes (evsOpen N) = (b!"--b\r\n" ++ hdr) ++ List.replicate N 0x61 := by simp [Sample.evsOpen, Ev.bytes, Ev.bytes_letters]
  rw [this, List.length_append, List.length_replicate, Nat.add_comm]
  rfl

theorem evsOpen_fine (N : Nat) : NoStall (evsOpen N) ∧ ReadsUpTo 49 (evsOpen N) ∧ FirstAt (dashes ++ bnd) (Ev.bytes (evsOpen N)) 0 := by
  refine ⟨?_, ?_, ⟨_, rfl⟩, by intro q hq; omega⟩
  · intro h
    simp [evsOpen, List.mem_replicate] at h
  · intro bs h
    simp [evsOpen, List.mem_replicate] at h
    rcases h with rfl | ⟨-, rfl⟩ <;> decide

end Sample

/-- C147 for saving: when so many bytes have arrived, the result of saving the request, and what is on the disk then, are the same whatever follows, and nothing of it is read. -/
theorem C147_saved (hD : D.Sane) (hn : NoStall before) (hr : ReadsUpTo n before) (hl : cfg.sizeLimit < u64Max) (hc : cfg.countLimit ≤ u32Max) (hp : FirstAt (dashes ++ b) (Ev.bytes before) p)
    (hfar : cfg.readBound b n p ≤ (Ev.bytes before).length) (e : Entries) :
    ∃ r w' es, ∀ after, ∃ t, withEntries D cfg fuel e w (withBody (before ++ after) b) = (r, w', t) ∧ t.evs = es ++ after := by
  rcases h : withEntries D cfg fuel e w (withBody (before ++ [.err (.other 0)]) b) with ⟨r, w', t⟩
  have hb : Ev.bytes (before ++ [.err (.other 0)]) = Ev.bytes before := by rw [Ev.bytes_append]; exact List.append_nil _
  have h1 := C135_request_partial (evs := before ++ [.err (.other 0)]) (fuel := fuel) (w := w) (n := n) (b := b) (cfg := cfg) hD (by simpa [NoStall] using hn) (by intro bs hbs; simp at hbs; exact hr bs hbs) hl hc (by rw [hb]; exact hp) rfl e
  rw [hb, h] at h1
  unfold Settings.readBound minBuffer at hfar
  have hne : t.evs ≠ [] := by
    intro h0
    simp only [h0, Ev.bytes, List.length_nil] at h1
    simp at h1
    omega
  have hinv : (withBody (before ++ [.err (.other 0)]) b).Inv := BR.fromReader_inv _ _
  have hk := (kept_inv (withBody (before ++ [.err (.other 0)]) b).evs).withEntries (cfg := cfg) (fuel := fuel) (w := w) (e := e)
    (fun s h => ⟨BR.sop_inv hD h.1 .readEntry, (BR.readEntry_evs hD h.1).trans h.2⟩) (s := withBody (before ++ [.err (.other 0)]) b) ⟨hinv, List.suffix_rfl⟩
  rw [h] at hk
  obtain ⟨xs, hxs⟩ := hk.2
  have hxs : xs ++ t.evs = before ++ [.err (.other 0)] := hxs
  obtain ⟨es, y, hy⟩ : ∃ es y, t.evs = es ++ [y] := ⟨_, _, (List.dropLast_concat_getLast hne).symm⟩
  rw [hy, ← List.append_assoc] at hxs
  obtain ⟨-, hyy⟩ := List.append_inj' hxs rfl
  refine ⟨r, w', es, fun after => ?_⟩
  exact C133_request (os := []) hD (by simp) h (by rw [hy, hyy]) after

example : ∃ r w' es, ∀ after, ∃ t, withEntries refDeps Sample.tiny 10 (Entries.new (.perm [b!"d"])) Sample.disk (withBody (Sample.evsOpen 1000000 ++ after) Sample.bnd) = (r, w', t) ∧ t.evs = es ++ after :=
  C147_saved refDeps_sane (Sample.evsOpen_fine _).1 (Sample.evsOpen_fine _).2.1 (by decide) (by decide) (Sample.evsOpen_fine _).2.2 (by rw [Sample.evsOpen_length]; decide +kernel) _

/-- The reader and the rest of the stream do not matter for what `Intercept` does with the result. -/
theorem Intercept.before_decided (hs : i.limitBehavior = .throwError) {req : HyperReq} (hb : ironHttp.multipartBoundary req = some b) (made : Except IoErr Path) (fail : Option (IoErr × (Path → Bool))) (ext : Option Entries)
    (h : ∀ e w, ∃ r w' es, ∀ after, ∃ t, withEntries D i.settings fuel e w (withBody (before ++ after) b) = (r, w', t) ∧ t.evs = es ++ after) (after after' : List Ev) :
    i.before D fuel made fail w { req with body := before ++ after } ext = i.before D fuel made fail w { req with body := before ++ after' } ext := by
  have hreq : ∀ evs, fromRequest ironHttp { req with body := evs } = .ok (withBody evs b) := by
    intro evs
    unfold fromRequest
    rw [show ironHttp.multipartBoundary { req with body := evs } = some b from hb]
    rfl
  suffices hx : i.readRequest D fuel made fail w { req with body := before ++ after } = i.readRequest D fuel made fail w { req with body := before ++ after' } by
    unfold Intercept.before
    rw [hx]
  unfold Intercept.readRequest
  rw [hreq, hreq]
  cases made with
  | error er => rfl
  | ok dir =>
    simp only [hs]
    obtain ⟨r, w', es, hr⟩ := h (Entries.new (.temp dir)) { w with dirs := w.dirs ++ [dir] }
    obtain ⟨t, h1, -⟩ := hr after
    obtain ⟨t', h2, -⟩ := hr after'
    unfold Intercept.readRequestStrict withTempDir
    rw [h1, h2]
    rcases r with e | ⟨p, _ | _ | _ | er⟩ | er | _ | _ <;> try rfl
    simp only
    cases p.part <;> rfl

/-- C147 for Iron: when so many bytes have arrived, the answer of a strict middleware, the entries it hands on and the disk are the same whatever follows. -/
theorem C147_strict (hD : D.Sane) (ht : i.Typed) (hs : i.limitBehavior = .throwError) (hl : i.fileSizeLimit < u64Max) {req : HyperReq} (hb : ironHttp.multipartBoundary req = some b) (hn : NoStall before) (hr : ReadsUpTo n before)
    (hp : FirstAt (dashes ++ b) (Ev.bytes before) p) (hfar : i.settings.readBound b n p ≤ (Ev.bytes before).length) (made : Except IoErr Path) (fail : Option (IoErr × (Path → Bool))) (ext : Option Entries) (after after' : List Ev) :
    i.before D fuel made fail w { req with body := before ++ after } ext = i.before D fuel made fail w { req with body := before ++ after' } ext :=
  Intercept.before_decided hs hb made fail ext (fun e _ => C147_saved hD hn hr hl ht.settings.count hp hfar e) after after'

example (after after' : List Ev) : Intercept.default.before refDeps 1000 (.ok [b!"tmp"]) none Sample.disk (Sample.ironReq (Sample.evsOpen 100000000 ++ after)) none =
    Intercept.default.before refDeps 1000 (.ok [b!"tmp"]) none Sample.disk (Sample.ironReq (Sample.evsOpen 100000000 ++ after')) none :=
  C147_strict (req := Sample.ironReq []) (n := 49) (p := 0) refDeps_sane ⟨by decide, by decide⟩ rfl (by decide) (b := Sample.bnd) rfl (Sample.evsOpen_fine _).1 (Sample.evsOpen_fine _).2.1 (Sample.evsOpen_fine _).2.2
    (by rw [Sample.evsOpen_length]; decide +kernel) _ _ _ after after'

theorem withBody_boundary {evs evs' : List Ev} {b b' : Bytes} (h : withBody evs b = withBody evs' b') : b = b' := List.append_cancel_left (congrArg BR.delim h)

theorem ExampleReq.put_multipart {req : ExampleReq} {evs : List Ev} (h : req.multipart = some (withBody evs b)) (evs' : List Ev) : (req.put evs').multipart = some (withBody evs' b) := by
  cases req with
  | tiny r =>
    unfold ExampleReq.multipart at h
    rcases fromRequest_cases tinyHttp r with ⟨b', h1, h2⟩ | ⟨-, h2⟩ <;> simp only [h2] at h
    · cases withBody_boundary (Option.some.inj h)
      simp only [ExampleReq.put, ExampleReq.multipart, fromRequest, show tinyHttp.multipartBoundary { r with body := evs' } = some b from h1]
      rfl
    · cases h
  | iron r =>
    unfold ExampleReq.multipart at h
    rcases fromRequest_cases ironHttp r with ⟨b', h1, h2⟩ | ⟨-, h2⟩ <;> simp only [h2] at h
    · cases withBody_boundary (Option.some.inj h)
      simp only [ExampleReq.put, ExampleReq.multipart, fromRequest, show ironHttp.multipartBoundary { r with body := evs' } = some b from h1]
      rfl
    · cases h
  | nickel r =>
    unfold ExampleReq.multipart multipartBody at h
    rcases fromRequest_cases nickelHttp r with ⟨b', h1, h2⟩ | ⟨-, h2⟩ <;> simp only [h2] at h
    · cases withBody_boundary (Option.some.inj h)
      simp only [ExampleReq.put, ExampleReq.multipart, multipartBody, fromRequest, show nickelHttp.multipartBoundary { r with body := evs' } = some b from h1]
      rfl
    · cases h
  | hyper r =>
    unfold ExampleReq.multipart switchHandle at h
    rcases fromRequest_cases hyperHttp r with ⟨b', h1, h2⟩ | ⟨-, h2⟩ <;> simp only [h2] at h
    · cases withBody_boundary (Option.some.inj h)
      simp only [ExampleReq.put, ExampleReq.multipart, switchHandle, fromRequest, show hyperHttp.multipartBoundary { r with body := evs' } = some b from h1]
      rfl
    · cases h
  | rocket r =>
    simp only [ExampleReq.put, ExampleReq.multipart] at h ⊢
    split at h
    · rename_i h0
      split at h
      · cases h
      · cases withBody_boundary (Option.some.inj h)
        exact if_pos h0
    · cases h

/-- The answer in terms of the request that is saved. -/
theorem ExampleReq.answer_same {req : ExampleReq} {T : TempEnv} {S : Surroundings} {m m' : BR} {evs evs' : List Ev} (h : (req.put evs).multipart = some m) (h' : (req.put evs').multipart = some m') {r : SaveRes Entries PartialEntries} {w' : World} {t t' : BR}
    (hs : tempSave D .default fuel T w m = (r, w', t)) (hs' : tempSave D .default fuel T w m' = (r, w', t')) : (req.put evs).answer D fuel T S w = (req.put evs').answer D fuel T S w := by
  cases req with
  | tiny q =>
    simp only [ExampleReq.put, ExampleReq.multipart] at h h'
    simp only [ExampleReq.put, ExampleReq.answer, tinyAnswer, tinyProcess]
    split at h <;> cases h
    split at h' <;> cases h'
    rename_i e1 _ e2
    simp only [e1, e2, hs, hs']
    cases r <;> rfl
  | iron q =>
    simp only [ExampleReq.put, ExampleReq.multipart] at h h'
    simp only [ExampleReq.put, ExampleReq.answer, ironAnswer]
    split at h <;> cases h
    split at h' <;> cases h'
    rename_i e1 _ e2
    simp only [e1, e2, hs, hs']
    cases r <;> rfl
  | nickel q =>
    simp only [ExampleReq.put, ExampleReq.multipart] at h h'
    simp only [ExampleReq.put, ExampleReq.answer, nickelAnswer, h, h', hs, hs']
    cases r <;> rfl
  | hyper q =>
    simp only [ExampleReq.put, ExampleReq.multipart, switchHandle] at h h'
    simp only [ExampleReq.put, ExampleReq.answer, hyperAnswer, switchHandle]
    split at h <;> cases h
    split at h' <;> cases h'
    simp only [hyperMultipart, hs, hs']
    cases r <;> rfl
  | rocket q =>
    simp only [ExampleReq.put, ExampleReq.multipart] at h h'
    simp only [ExampleReq.put, ExampleReq.answer, rocketAnswer]
    split at h
    · rename_i h0
      simp only [h0, if_true] at h' ⊢
      split at h
      · cases h
      · rename_i e1
        cases h
        rw [e1] at h'
        cases h'
        simp only [e1, rocketProcess, hs, hs']
        cases r <;> rfl
    · cases h

/-- C147 for the example servers. -/
theorem C147_examples (hD : D.Sane) {req : ExampleReq} {evs : List Ev} (hb : req.multipart = some (withBody evs b)) (hn : NoStall before) (hr : ReadsUpTo n before) (hp : FirstAt (dashes ++ b) (Ev.bytes before) p)
    (hfar : Settings.default.readBound b n p ≤ (Ev.bytes before).length) (T : TempEnv) (S : Surroundings) (fail : Option (IoErr × (Path → Bool))) (after after' : List Ev) :
    (req.put (before ++ after)).answer D fuel T S w = (req.put (before ++ after')).answer D fuel T S w ∧
    (req.put (before ++ after)).answered D fuel T fail w = (req.put (before ++ after')).answered D fuel T fail w := by
  have hm := ExampleReq.put_multipart hb
  obtain ⟨r, w', t, t', h1, h2⟩ : ∃ r w' t t', tempSave D .default fuel T w (withBody (before ++ after) b) = (r, w', t) ∧ tempSave D .default fuel T w (withBody (before ++ after') b) = (r, w', t') := by
    unfold tempSave tempWithPrefix requestTemp
    cases T.tempdir b!"multipart-rs" with
    | error er => exact ⟨_, _, _, _, rfl, rfl⟩
    | ok dir =>
      obtain ⟨r, w', es, h⟩ := C147_saved (fuel := fuel) (w := { w with dirs := w.dirs ++ [dir] }) (cfg := .default) hD hn hr (by decide) (by decide) hp hfar (Entries.new (.temp dir))
      obtain ⟨t, h1, -⟩ := h after
      obtain ⟨t', h2, -⟩ := h after'
      exact ⟨r, w', t, t', h1, h2⟩
  refine ⟨ExampleReq.answer_same (hm _) (hm _) h1 h2, ?_⟩
  unfold ExampleReq.answered
  rw [hm, hm]
  simp only [h1, h2]
  cases r with
  | part p x => simp only [ExampleReq.kept_dir]
  | _ => rfl

example (T : TempEnv) (S : Surroundings) (after after' : List Ev) : ironAnswer refDeps 1000 T S Sample.disk (Sample.ironReq (Sample.evsOpen 3000000000 ++ after)) = ironAnswer refDeps 1000 T S Sample.disk (Sample.ironReq (Sample.evsOpen 3000000000 ++ after')) :=
  (C147_examples (req := .iron (Sample.ironReq [])) (n := 49) (p := 0) (b := Sample.bnd) (evs := []) refDeps_sane rfl (Sample.evsOpen_fine _).1 (Sample.evsOpen_fine _).2.1 (Sample.evsOpen_fine _).2.2
    (by rw [Sample.evsOpen_length]; decide +kernel) T S none after after').1

/-! ## A lenient middleware -/

namespace Sample

theorem evsOpen_bytes (N : Nat) (t : Bytes) : Ev.bytes (evsOpen N ++ [.data t]) = b!"--b\r\n" ++ (hdr ++ (List.replicate N 0x61 ++ t)) := by
  rw [Ev.bytes_append]
  simp [evsOpen, Ev.bytes, Ev.bytes_letters]

theorem letters_absent (N : Nat) : Absent (dashes ++ bnd) (List.replicate N 0x61) := by
  rintro k ⟨r, hr⟩
  have : (0x2D : UInt8) ∈ (List.replicate N (0x61 : UInt8)).drop k := by rw [← hr]; simp [dashes]
  have := List.mem_of_mem_drop this
  simp [List.mem_replicate] at this

theorem open_first (N : Nat) (t : Bytes) : FirstAt (dashes ++ bnd) (List.replicate N 0x61 ++ (b!"\r\n--b" ++ t)) (N + 2) := by
  have h := FirstAt.sep (d := dashes ++ bnd) (c := 0x0D) (xs := List.replicate N 0x61) (ys := b!"\n--b" ++ t) (p := 1) (by decide) (by decide) (letters_absent N) (by
    have : FirstAt (dashes ++ bnd) b!"\n--b" 1 := by decide
    exact this.append (by decide) t)
  have e : (List.replicate N (0x61 : UInt8)).length + 1 + 1 = N + 2 := by simp
  rw [e] at h
  exact h

theorem open_part (N : Nat) (t : Bytes) : WellFormedPart refDeps (dashes ++ bnd) (hdr ++ (List.replicate N 0x61 ++ (b!"\r\n--b" ++ t))) fh (List.replicate N 0x61) (List.replicate N 0x61 ++ (b!"\r\n--b" ++ t)) := by
  have h1 := open_first N t
  refine ⟨⟨hdr, _, headerBlock ?_, by decide +kernel, by decide, fun h => ?_⟩, .crlf (by simpa using h1) ⟨b!"--b" ++ t, by simp [crlf]⟩⟩
  · have h2 := FirstAt.sep (d := dashes ++ bnd) (c := 0x0A) (xs := hdr.dropLast) (by decide) (by decide) (findSub_eq_none_iff.mp (by decide +kernel)) h1
    intro q hq h
    exact h2.2 q (by have : hdr.dropLast.length + 1 = hdr.length := by decide
                     omega) h
  · have := h1.unique h
    simp at this

theorem open_parts (N : Nat) {t : Bytes} {fin : Ending} (h : Parts refDeps (dashes ++ bnd) (List.replicate N 0x61 ++ (b!"\r\n--b" ++ t)) [] fin) :
    Parts refDeps (dashes ++ bnd) (Ev.bytes (evsOpen N ++ [.data (b!"\r\n--b" ++ t)])) [(fh, List.replicate N 0x61)] fin := by
  rw [evsOpen_bytes]
  refine .part (.part (p := 0) ⟨⟨_, rfl⟩, by intro q hq; omega⟩ rfl) (open_part N t) h

theorem open_drop (N : Nat) (t : Bytes) : (List.replicate N (0x61 : UInt8) ++ (b!"\r\n--b" ++ t)).drop (N + 2 + (dashes ++ bnd).length) = t := by
  have h1 : N + 2 + (dashes ++ bnd).length = N + 5 := rfl
  rw [h1, List.drop_append, List.length_replicate, Nat.add_sub_cancel_left]
  simp

theorem open_closed (N : Nat) : Parts refDeps (dashes ++ bnd) (Ev.bytes (evsOpen N ++ [.data b!"\r\n--b--"])) [(fh, List.replicate N 0x61)] .closed :=
  open_parts N (t := b!"--") (.close (.close (rest := []) (open_first N b!"--") (open_drop N b!"--")))

theorem open_damaged (N : Nat) : Parts refDeps (dashes ++ bnd) (Ev.bytes (evsOpen N ++ [.data b!"\r\n--b??"])) [(fh, List.replicate N 0x61)] (.failed .invalidData) := by
  have e := open_drop N b!"??"
  exact open_parts N (t := b!"??") (.damaged (.damaged (open_first N b!"??") (by simp [dashes, bnd]) (by rw [e]; decide) (by rw [e]; decide)))

theorem open_splits {N : Nat} {t : Bytes} {j : Nat} (h : SplitAt (evsOpen N ++ [.data t]) j) : j = 0 ∨ (49 ≤ j ∧ j ≤ 49 + N) ∨ j = 49 + N + t.length := by
  obtain ⟨a, c, h1, h2⟩ := h
  cases a with
  | nil => exact .inl h2.symm
  | cons x a =>
    right
    simp only [evsOpen, List.cons_append, List.cons.injEq] at h1
    obtain ⟨rfl, h1⟩ := h1
    have h2 : 49 + (Ev.bytes a).length = j := by
      rw [← h2]
      show _ = ((b!"--b\r\n" ++ hdr) ++ Ev.bytes a).length
      rw [List.length_append]
      rfl
    rcases List.append_eq_append_iff.mp h1 with ⟨r, e1, e2⟩ | ⟨r, e1, e2⟩
    · cases r with
      | nil =>
        rw [List.append_nil] at e1
        subst e1
        rw [Ev.bytes_letters, List.length_replicate] at h2
        left; omega
      | cons y r =>
        right
        simp only [List.cons_append, List.cons.injEq] at e2
        obtain ⟨rfl, e2⟩ := e2
        obtain ⟨rfl, -⟩ := List.append_eq_nil_iff.mp e2.symm
        subst e1
        rw [Ev.bytes_append, Ev.bytes_letters, List.length_append, List.length_replicate] at h2
        simp [Ev.bytes] at h2
        omega
    · left
      have h3 := congrArg (fun x => (Ev.bytes x).length) e1
      simp only [Ev.bytes_letters, Ev.bytes_append, List.length_append, List.length_replicate] at h3
      omega

theorem open_uncut (N : Nat) (t : Bytes) : ¬ CutLine (dashes ++ bnd) (evsOpen N ++ [.data t]) := by
  rintro ⟨k, tail, htail, hocc, hsp⟩
  have hl : tail.length = 2 := by rcases htail with rfl | rfl <;> rfl
  rw [evsOpen_bytes] at hocc
  have hd : (dashes ++ bnd).length = 3 := rfl
  rw [hd] at hsp
  obtain ⟨r, hr⟩ := hocc
  have hlen := congrArg List.length hr
  have h0 : (b!"--b\r\n" ++ hdr).length = 49 := by decide
  simp only [List.length_append, List.length_drop, List.length_replicate, hl] at hlen h0
  have hd' : dashes.length = 2 ∧ bnd.length = 1 := ⟨rfl, rfl⟩
  have hk : 45 ≤ k ∧ k + 3 ≤ 49 + N := by
    rcases hsp with hsp | hsp <;> rcases open_splits hsp with h | h | h <;> omega
  have hb : (b!"--b\r\n" ++ (hdr ++ (List.replicate N 0x61 ++ t)))[k + 2]? = some 0x62 := by
    have := congrArg (fun x : Bytes => x[2]?) hr
    simp only [List.getElem?_drop] at this
    rw [← this]
    rfl
  have e : b!"--b\r\n" ++ (hdr ++ (List.replicate N 0x61 ++ t)) = (b!"--b\r\n" ++ hdr).take 47 ++ ((crlf ++ List.replicate N 0x61) ++ t) := by
    have : b!"--b\r\n" ++ hdr = (b!"--b\r\n" ++ hdr).take 47 ++ crlf := by decide
    have := congrArg (· ++ (List.replicate N 0x61 ++ t)) this
    simpa only [List.append_assoc] using this
  have h47 : ((b!"--b\r\n" ++ hdr).take 47).length = 47 := by decide
  rw [e, List.getElem?_append_right (by omega), h47, List.getElem?_append_left (by simp [crlf]; omega)] at hb
  have := List.mem_of_getElem? hb
  simp [crlf, List.mem_replicate] at this

end Sample

/-- C147: nothing like that is true of a lenient middleware. However many bytes of a request have arrived, in short reads and with the first delimiter at the beginning: it may be that it depends on what follows whether the request is handed on
or answered with an error. -/
theorem C147_lenient (ht : i.Typed) (hs : i.limitBehavior = .continue_) (h1 : 1 < i.fileCountLimit) {N : Nat} (hN : N < 2 ^ 63) {dir : Path} (hw : DiskReady w dir 1) (fail : Option (IoErr × (Path → Bool))) :
    ∃ (req : HyperReq) (b : Bytes) (before after after' : List Ev), ironHttp.multipartBoundary req = some b ∧ NoStall before ∧ ReadsUpTo 49 before ∧ FirstAt (dashes ++ b) (Ev.bytes before) 0 ∧ N ≤ (Ev.bytes before).length ∧
      ∃ m, ∀ fuel, m ≤ fuel → (∃ e w', i.before refDeps fuel (.ok dir) fail w { req with body := before ++ after } none = (.ok (.ok ()), some e, w')) ∧
        ∃ er w', i.before refDeps fuel (.ok dir) fail w { req with body := before ++ after' } none = (.ok (.error er), none, w') := by
  have hb : Ev.bytes (Sample.evsOpen N) = b!"--b\r\n" ++ (Sample.hdr ++ List.replicate N 0x61) := by
    simp [Sample.evsOpen, Ev.bytes, Ev.bytes_letters]
  have hst : ∀ t, t ≠ [] → NoStall (Sample.evsOpen N ++ [.data t]) := by
    intro t ht h
    simp [Sample.evsOpen, List.mem_replicate] at h
    exact ht h
  have hne : ∀ t, NoErr (Sample.evsOpen N ++ [.data t]) := by
    intro t e h
    simp [Sample.evsOpen, List.mem_replicate] at h
  have hlen : ∀ t : Bytes, t.length ≤ 10 → (Ev.bytes (Sample.evsOpen N ++ [.data t])).length ≤ u64Max := by
    intro t ht
    rw [Sample.evsOpen_bytes]
    have : Sample.hdr.length = 44 := by decide
    simp only [List.length_append, List.length_replicate, this]
    have : u64Max = 2 ^ 64 - 1 := by decide
    have : (2 : Nat) ^ 63 = 9223372036854775808 := by decide
    have : (2 : Nat) ^ 64 = 18446744073709551616 := by decide
    simp
    omega
  let req : HyperReq := Sample.ironReq []
  obtain ⟨m1, hm1⟩ := C110_passes_partial (b := Sample.bnd) (req := Sample.ironReq (Sample.evsOpen N ++ [Ev.data b!"\r\n--b--"])) (i := i) (w := w) (dir := dir) (fail := fail) refDeps_sane (m := ⟨.multipart, .formData, [(.boundary, .ext b!"b")]⟩)
    ⟨by simp, by simp, by simp, by intro p hp; simp only [List.mem_singleton] at hp; subst hp; decide⟩ rfl ⟨rfl, rfl⟩ ⟨[], .boundary, .ext b!"b", [], rfl, rfl, rfl, by simp⟩ hs ht (hst b!"\r\n--b--" (by simp)) (hne b!"\r\n--b--") (Sample.open_closed N) (hlen b!"\r\n--b--" (by decide))
    h1 hw (fun h => absurd h (Sample.open_uncut N b!"\r\n--b--")) none
  obtain ⟨m2, hm2⟩ := C60_returns_parts_partial (i := i) (fail := fail) (dir := dir) (w := { w with dirs := w.dirs ++ [dir] }) refDeps_sane (hst b!"\r\n--b??" (by simp)) (hne _) (Sample.open_damaged N) h1
  refine ⟨req, Sample.bnd, Sample.evsOpen N, [.data b!"\r\n--b--"], [.data b!"\r\n--b??"], rfl, ?_, ?_, ⟨?_, by intro q hq; omega⟩, ?_, m1 + m2, fun fuel hf => ⟨?_, ?_⟩⟩
  · intro h
    exact hst [0] (by simp) (List.mem_append_left _ h)
  · intro bs h
    simp [Sample.evsOpen, List.mem_replicate] at h
    rcases h with rfl | ⟨-, rfl⟩ <;> decide
  · rw [hb]; exact ⟨_, rfl⟩
  · rw [hb]; simp only [List.length_append, List.length_replicate]; omega
  · obtain ⟨e, w', fs, g, -⟩ := hm1 fuel (by omega)
    exact ⟨e, w', g⟩
  · obtain ⟨out, w', t, g1, g2⟩ := hm2 fuel (by omega)
    have hx : ∃ er, out = .error er := by
      rcases out with er | _ | e
      · exact ⟨er, rfl⟩
      · exact absurd rfl g2
      · have := (C60_entries refDeps_sane (hst b!"\r\n--b??" (by simp)) (hne _) ht (hlen _ (by decide)) (Sample.open_damaged N) g1).1
        cases this
    obtain ⟨er, rfl⟩ := hx
    refine ⟨er, w', ?_⟩
    have hreq : fromRequest ironHttp { req with body := Sample.evsOpen N ++ [.data b!"\r\n--b??"] } = .ok (withBody (Sample.evsOpen N ++ [.data b!"\r\n--b??"]) Sample.bnd) := rfl
    unfold Intercept.before Intercept.readRequest
    rw [hreq]
    simp only [hs, g1]

example : ({ Intercept.default with limitBehavior := .continue_ } : Intercept).Typed ∧ 1 < Intercept.default.fileCountLimit ∧ DiskReady (Sample.bigDisk 1) [b!"tmp"] 1 := ⟨⟨by decide, by decide⟩, by decide, Sample.bigDisk_ready _ 1⟩

end Multipart

import Verif.Lemmas.Cut
import Verif.Props.Upload
namespace Multipart

variable {D : Deps} {evs : List Ev} {b d : Bytes} {s t : BR} {es got : List (FieldHeaders × Bytes)} {fin fin' : Ending} {u w rest : Bytes}

/-! # C86: bodies that are cut off -/

/-- `read_entry` at a part with no delimiter behind it. -/
theorem BR.readEntry_unfinished (hD : D.Sane) (hi : s.Inv) (hst : s.st ≠ .atEnd) (hd : s.Drained) (hn : NoStall s.evs) (hne : NoErr s.evs)
    (hN : NextIs s.delim s.unread (.part rest)) :
    (s.readEntry D).1 = .err .invalidData ∨
    ∃ fh P n hs, (s.readEntry D).1 = .ok (some fh) ∧ P <+: rest ∧ D.parseHeaders P = .complete n hs ∧ FieldHeaders.parse D hs = .ok fh ∧ n ≤ P.length ∧
      (s.readEntry D).2.unread = rest.drop n := by
  have hsi := BR.setMin_inv hi minBufSize
  have hx := BR.consumeBoundary_exact hsi s.setMin_entryMin hst hd hne hn hN
  unfold BR.readEntry
  rcases hcb : (s.setMin minBufSize).consumeBoundary with ⟨r, t⟩
  rw [hcb] at hx
  simp only [Verdict.result] at hx
  obtain ⟨rfl, hx2⟩ := hx
  have hu := hx2 rest (.inl rfl)
  have hh := BR.readHeaders_spec hD (BR.consumeBoundary_true hsi hcb).1
  simp only
  generalize BR.readHeaders D t = x at hh ⊢
  obtain ⟨x1, x2⟩ := x
  simp only at hh ⊢
  cases hh with
  | ok a _ _ c _ e =>
    obtain ⟨P, h1, h2, _, h4⟩ := c
    rw [hu] at h1
    exact .inr ⟨_, P, _, _, rfl, h1, h4, e, h2, by rw [a.unread, hu]⟩
  | err => exact .inl rfl

theorem reads_unfinished (hD : D.Sane) (hn : NoStall evs) (hne : NoErr evs) (hr : Reads D s got fin) (ha : Absent d rest) :
    ∀ {es w}, s.Inv → s.delim = d → s.evs <:+ evs → s.unread <:+ Ev.bytes evs → s.st ≠ .atEnd → s.Drained → PartsTo D d s.unread es w → NextIs d w (.part rest) →
      ∃ got1 got2, got = got1 ++ got2 ∧ All2 (fun a p => a.1 = p.1 ∧ DataOk d evs p.2 a.2) got1 es ∧
        ((got2 = [] ∧ fin = .failed .invalidData) ∨
          ∃ fh x P n hs, got2 = [(fh, x)] ∧ fin = .failed .unexpectedEof ∧ P <+: rest ∧ D.parseHeaders P = .complete n hs ∧ FieldHeaders.parse D hs = .ok fh ∧
            n ≤ P.length ∧ x <+: rest.drop n) := by
  induction hr with
  | @close s t hc =>
    intro es w hi hd hevs hu hst hdr hp hw
    subst hd
    have hn' := hn.suffix hevs; have hne' := hne.suffix hevs
    cases hp with
    | nil =>
      rcases BR.readEntry_unfinished hD hi hst hdr hn' hne' hw with h | ⟨_, _, _, _, h, _⟩ <;> rw [hc] at h <;> simp at h
    | part a b _ =>
      obtain ⟨H, hs, h1, h2, h3, h4⟩ := b.headers
      have := BR.readEntry_exact hD hi hst hdr hn' hne' a h1 b.data h4 h3 h2
      rw [hc] at this; simp at this
  | @fail s t e hc =>
    intro es w hi hd hevs hu hst hdr hp hw
    subst hd
    have hn' := hn.suffix hevs; have hne' := hne.suffix hevs
    cases hp with
    | nil =>
      rcases BR.readEntry_unfinished hD hi hst hdr hn' hne' hw with h | ⟨_, _, _, _, h, _⟩ <;> rw [hc] at h <;> simp at h
      subst h
      exact ⟨[], [], rfl, .nil, .inl ⟨rfl, rfl⟩⟩
    | part a b _ =>
      obtain ⟨H, hs, h1, h2, h3, h4⟩ := b.headers
      have := BR.readEntry_exact hD hi hst hdr hn' hne' a h1 b.data h4 h3 h2
      rw [hc] at this; simp at this
  | @entry s t fh os got fin hc heof hrest ih =>
    intro es w hi hd hevs hu hst hdr hp hw
    subst hd
    have hn' := hn.suffix hevs; have hne' := hne.suffix hevs
    have hti : t.Inv := by have := BR.readEntry_inv hD hi; rw [hc] at this; exact this
    have htd : t.delim = s.delim := by have := BR.readEntry_delim hD hi; rw [hc] at this; exact this
    have hte : t.evs <:+ s.evs := by have := BR.readEntry_evs hD hi; rw [hc] at this; exact this
    have htu : t.unread <:+ s.unread := by have := BR.readEntry_suffix hD hi; rw [hc] at this; exact this
    have htst : t.st ≠ .atEnd := by
      have hsp := BR.readEntry_spec hD hi
      rw [hc] at hsp
      simp only at hsp
      cases hsp with | entry => assumption
    obtain ⟨r1, r2, r3, r4, r5⟩ := BR.run_skipped os hti
    have hri := BR.run_inv os hti
    have hru := BR.run_unread os hti
    have hst' : (t.run os).2.st ≠ .atEnd := fun h => htst (r5.mp h)
    have hev' := r4.trans (hte.trans hevs)
    have hu' : (t.run os).2.unread <:+ Ev.bytes evs := by rw [r1]; exact (List.drop_suffix _ _).trans (htu.trans hu)
    cases hp with
    | nil =>
      rcases BR.readEntry_unfinished hD hi hst hdr hn' hne' hw with h | ⟨fh', P, n, hs, h, h1, h2, h3, h4, h5⟩ <;> rw [hc] at h <;> simp at h
      subst h
      rw [hc] at h5
      simp only at h5
      have habs : Absent (t.run os).2.delim (t.run os).2.unread := by
        rw [r3, htd, r1, h5]
        intro q hq
        rw [occursAt_drop, occursAt_drop] at hq
        exact ha _ hq
      have hx := (BR.readEntry_other (D := D) hri hst' (BR.AtEof.drained hri heof) (hn.suffix hev') (hne.suffix hev')).2.2 (.none habs)
      have hend : got = [] ∧ fin = .failed .unexpectedEof := by
        cases hrest with
        | close h => rw [h] at hx; simp at hx
        | fail h => rw [h] at hx; simp at hx; subst hx; exact ⟨rfl, rfl⟩
        | entry h => rw [h] at hx; simp at hx
      obtain ⟨rfl, rfl⟩ := hend
      refine ⟨[], [_], rfl, .nil, .inr ⟨_, _, P, n, hs, rfl, rfl, h1, h2, h3, h4, ?_⟩⟩
      rw [← h5, ← hru]
      exact List.prefix_append _ _
    | @part _ rest' X _ dat fh' es' a b hpt =>
      obtain ⟨H, hs, h1, h2, h3, h4⟩ := b.headers
      have hex := BR.readEntry_exact hD hi hst hdr hn' hne' a h1 b.data h4 h3 h2
      rw [hc] at hex
      simp only [Res.ok.injEq, Option.some.injEq] at hex
      obtain ⟨rfl, rfl⟩ := hex
      obtain ⟨w', h6, h7⟩ := hpt.drop (by rw [htd] at r2; exact r2) hw
      rw [← r1] at h6
      obtain ⟨g1, g2, rfl, g3, g4⟩ := ih hri (r3.trans htd) hev' hu' hst' (BR.AtEof.drained hri heof) h6 h7
      exact ⟨_ :: g1, g2, rfl, .cons ⟨rfl, BR.field_dataOk hD hi hevs hu hc hn b.data os heof⟩ g3, g4⟩

/-- `received` is a body cut off: `u` are the parts `es` and a closing delimiter line with `tail` behind it, and at least the last byte of this line is missing. -/
structure CutOff (D : Deps) (d received : Bytes) (es : List (FieldHeaders × Bytes)) : Prop where
  body : ∃ u w tail lost, PartsTo D d u es w ∧ NextIs d w (.close tail) ∧ u = received ++ lost ∧ tail.length < lost.length

/-- C86: of a body that is cut off anywhere before the end of its closing delimiter line, a caller who reads all entries gets those parts exactly whose delimiter is complete in what was
received, then possibly one entry with the headers of the next part and a piece of its data, and then always an error. -/
theorem C86_cut (hD : D.Sane) (hI : D.Incremental) (hn : NoStall evs) (hne : NoErr evs) (hc : CutOff D (dashes ++ b) (Ev.bytes evs) es) (hr : Reads D (withBody evs b) got fin) :
    ∃ k w got1 got2, k ≤ es.length ∧ PartsTo D (dashes ++ b) (Ev.bytes evs) (es.take k) w ∧ LastPart (dashes ++ b) w ∧
      got = got1 ++ got2 ∧ All2 (fun a p => a.1 = p.1 ∧ DataOk (dashes ++ b) evs p.2 a.2) got1 (es.take k) ∧
      (fin = .failed .unexpectedEof ∨ (fin = .failed .invalidData ∧ got2 = [])) ∧
      (got2 = [] ∨ ∃ fh dat x, es[k]? = some (fh, dat) ∧ got2 = [(fh, x)] ∧ (x <+: dat ++ crlf ++ (dashes ++ b) ∨ x <+: dat ++ (dashes ++ b))) := by
  obtain ⟨u, w, tail, lost, hP, hw, rfl, hl⟩ := hc
  have hd : dashes ++ b ≠ [] := by simp [dashes]
  obtain ⟨k, w', hk, h1, h2⟩ := hP.cut hd hw hl rfl
  rcases h2 with h2 | ⟨rest', fh, dat, X, h2, h3, h4, h5⟩
  · obtain ⟨h6, h7⟩ := C10_entries_are_parts hD hn hne (h1.truncated h2) hr
    exact ⟨k, w', got, [], hk, h1, .truncated h2, by simp, h7, .inl h6, .inl rfl⟩
  · obtain ⟨got1, got2, g1, g2, g3⟩ := reads_unfinished hD hn hne hr h4 (BR.fromReader_inv evs b) rfl List.suffix_rfl (by simp [withBody, BR.fromReader, BR.unread])
      (by simp [withBody, BR.fromReader]) (by intro h; simp [withBody, BR.fromReader] at h) (by simpa [withBody, BR.fromReader, BR.unread] using h1) h3
    refine ⟨k, w', got1, got2, hk, h1, .unfinished h3 h4, g1, g2, ?_⟩
    rcases g3 with ⟨g3, g4⟩ | ⟨fh', x, P, n, hs, g3, g4, g5, g6, g7, g8, g9⟩
    · exact ⟨.inr ⟨g4, g3⟩, .inl g3⟩
    · refine ⟨.inl g4, .inr ⟨fh, dat, x, h2, ?_⟩⟩
      obtain ⟨⟨H, hs', hb, e1, -, -⟩, e2⟩ := h5
      obtain ⟨more, rfl⟩ := g5
      have e3 := hb.parses X
      rw [← hb.split, List.append_assoc, hI _ _ _ g6] at e3
      simp only [HParse.complete.injEq] at e3
      obtain ⟨rfl, rfl⟩ := e3
      rw [g7] at e1
      cases e1
      refine ⟨g3, ?_⟩
      -- the data that was received
      obtain ⟨X', hX, hX'⟩ : ∃ X', (P ++ more).drop H.length = X' ∧ X = X' ++ lost := by
        refine ⟨_, rfl, ?_⟩
        have := congrArg (List.drop H.length) hb.split
        rw [List.drop_left, List.drop_append_of_le_length (by simp; omega)] at this
        exact this.symm
      rw [hX] at g9
      have hshort : ∀ p, OccursAt (dashes ++ b) X p → X'.length < p + (dashes ++ b).length := by
        intro p hp
        rw [hX'] at hp
        by_cases hlt : X'.length < p + (dashes ++ b).length
        · exact hlt
        · have := occursAt_of_append hp (by omega)
          rw [← hX, occursAt_drop] at this
          exact absurd this (h4 _)
      have hx : x <+: X := g9.trans (by rw [hX']; exact List.prefix_append _ _)
      have aux : ∀ {pre : Bytes}, pre <+: X → OccursAt (dashes ++ b) X pre.length → x <+: pre ++ (dashes ++ b) := by
        rintro pre ⟨z, rfl⟩ ho
        have h6 := hshort _ ho
        have h7 := g9.length_le
        obtain ⟨y, hy⟩ := ho
        rw [List.drop_left] at hy
        subst hy
        exact List.prefix_of_prefix_length_le hx ⟨y, by simp⟩ (by simp at *; omega)
      cases e2 with
      | crlf a c => exact .inl (aux c (by have := a.1; simpa [Multipart.crlf] using this))
      | bare a c _ => exact .inr (aux c a.1)

namespace Sample

/-- The body of `evsTwo`, cut off in the second field. -/
def evsShort : List Ev := [.data (b!"--b\r\n" ++ hdr ++ b!"one\r\n--b\r\n" ++ hdr), .data b!"tw"]

theorem evsShort_off : CutOff refDeps (dashes ++ bnd) (Ev.bytes evsShort) [(fh, b!"one"), (fh, b!"two")] :=
  ⟨Ev.bytes evsTwo, _, b!"\r\n", b!"o\r\n--b--\r\n", .part (.part (p := 0) (by decide +kernel) (by decide +kernel)) wellFormed1 (.part (.part (p := 5) (by decide +kernel) (by decide +kernel)) wellFormed2 .nil),
    .close (p := 5) (by decide +kernel) (by decide +kernel), by decide +kernel, by decide⟩

end Sample

/-- The hypotheses of C86_cut are met, too. -/
example : NoStall Sample.evsShort ∧ NoErr Sample.evsShort ∧ CutOff refDeps (dashes ++ Sample.bnd) (Ev.bytes Sample.evsShort) [(Sample.fh, b!"one"), (Sample.fh, b!"two")] ∧
    ∃ got fin, Reads refDeps (withBody Sample.evsShort Sample.bnd) got fin :=
  ⟨by decide +kernel, by intro e; simp [Sample.evsShort], Sample.evsShort_off, C10_reads_total (evs := _) (b := _) refDeps_sane ⟨[], rfl⟩⟩

/-- C86: saving such a request never reports `Full`. -/
theorem C86_never_full {cfg : Settings} {fuel : Nat} {w w' : World} {e : Entries} {t : BR} (hD : D.Sane) (hI : D.Incremental) (hn : NoStall evs) (hne : NoErr evs)
    (hc : CutOff D (dashes ++ b) (Ev.bytes evs) es) (ht : cfg.Typed) (ho : cfg.openOpts.createNew = true) (dir : SaveDir) :
    withEntries D cfg fuel (Entries.new dir) w (withBody evs b) ≠ (.full e, w', t) := by
  intro h
  obtain ⟨fs, s1, h1, h2, -, -, -⟩ := C53_all_read ht dir h
  obtain ⟨got, -, g2⟩ := h1.reads hD hn ho ⟨[], rfl⟩
  obtain ⟨k, w, got1, got2, -, -, -, -, -, h3, -⟩ := C86_cut hD hI hn hne hc (g2 [] .closed (.close h2))
  simp at h3

example : withEntries refDeps Settings.default 9 (Entries.new (.perm [b!"d"])) Sample.readyDisk (withBody Sample.evsShort Sample.bnd) ≠
    (.full (Entries.new (.perm [b!"d"])), Sample.readyDisk, withBody [] Sample.bnd) :=
  C86_never_full refDeps_sane refDeps_incremental (by decide +kernel) (by intro e; simp [Sample.evsShort]) Sample.evsShort_off ⟨by decide, by decide, by decide, rfl⟩ rfl _

/-! ## What the clients send -/

theorem All2.take {α β : Type} {R : α → β → Prop} {as : List α} {bs : List β} (h : All2 R as bs) (k : Nat) : All2 R (as.take k) (bs.take k) := by
  induction h generalizing k with
  | nil => simpa using All2.nil
  | cons a _ ih =>
    cases k with
    | zero => exact .nil
    | succ k => exact .cons a (ih k)

theorem upToDelim_prefix (b tail : Bytes) (fs : List OutField) (j : Nat) (h : j ≤ fs.length) : upToDelim b (fs.take j) <+: encodeWith b tail fs := by
  induction fs generalizing j with
  | nil =>
    have : j = 0 := by simpa using h
    subst this
    exact encodeWith_prefix b tail []
  | cons f fs ih =>
    cases j with
    | zero => exact encodeWith_prefix b tail _
    | succ j =>
      obtain ⟨z, hz⟩ := ih j (by simpa using h)
      refine ⟨z, ?_⟩
      simp only [List.take_succ_cons, upToDelim, encodeWith, List.append_assoc, hz]

theorem upToDelim_to (b z : Bytes) (fs : List OutField) : upToDelim b fs ++ z = encodeTo b (dashes ++ b ++ z) fs := by
  induction fs with
  | nil => rfl
  | cons f fs ih => simp only [upToDelim, encodeTo, List.append_assoc, ih]

variable {fs : List OutField} {cts : List (Option Mime)}

/-- What a server gets of the first `n` bytes that a client sends for `fs`: the fields that are complete, in order and exactly, then possibly the next one with a piece of its data, and an error. -/
def GetsCut (b : Bytes) (evs : List Ev) (fs : List OutField) (cts : List (Option Mime)) (got : List (FieldHeaders × Bytes)) (fin : Ending) (arrived : List OutField → Prop) : Prop :=
  ∃ k got1 got2, k ≤ fs.length ∧ (∀ j, j ≤ fs.length → arrived (fs.take j) → j ≤ k) ∧
    got = got1 ++ got2 ∧ All2 (fun a p => a.1 = p.1 ∧ DataOk (dashes ++ b) evs p.2 a.2) got1 (List.zipWith OutField.asRead (fs.take k) (cts.take k)) ∧
    (fin = .failed .unexpectedEof ∨ (fin = .failed .invalidData ∧ got2 = [])) ∧
    (got2 = [] ∨ ∃ f ct x, fs[k]? = some f ∧ cts[k]? = some ct ∧ got2 = [(⟨f.name, f.filename, ct⟩, x)] ∧ (x <+: f.data ++ crlf ++ (dashes ++ b) ∨ x <+: f.data ++ (dashes ++ b)))

theorem gets_cut (hD : D.Sane) (hI : D.Incremental) (hT : D.Tokenizes) (hb : SafeBoundary b) (hs : All2 (Sendable D b) fs cts) (hn : NoStall evs) (hne : NoErr evs)
    {pre tail lost : Bytes} (hpre : ∀ z, dashes ++ b <+: z → FirstAt (dashes ++ b) (pre ++ z) pre.length) (he : pre ++ encodeWith b tail fs = Ev.bytes evs ++ lost)
    (hl : tail.length < lost.length) (hr : Reads D (withBody evs b) got fin) :
    GetsCut b evs fs cts got fin (fun gs => (pre ++ upToDelim b gs).length ≤ (Ev.bytes evs).length) := by
  have hd : dashes ++ b ≠ [] := by simp [dashes]
  obtain ⟨w, h1, h2⟩ := encodeWith_partsTo hT hb tail hs pre (hpre _ (encodeWith_prefix b tail fs))
  obtain ⟨k, w', got1, got2, k1, k2, k3, k4, k5, k6, k7⟩ := C86_cut hD hI hn hne ⟨⟨_, _, _, lost, h1, h2, he, hl⟩⟩ hr
  rw [List.length_zipWith, hs.length, Nat.min_self, ← hs.length] at k1
  rw [List.take_zipWith] at k2 k5
  refine ⟨k, got1, got2, k1, ?_, k4, k5, k6, ?_⟩
  · intro j hj hja
    obtain ⟨y, hy⟩ := upToDelim_prefix b tail fs j hj
    have hp : pre ++ upToDelim b (fs.take j) <+: Ev.bytes evs := by
      refine List.prefix_of_prefix_length_le (l₃ := Ev.bytes evs ++ lost) ?_ (List.prefix_append _ _) hja
      rw [← he, ← hy, ← List.append_assoc]
      exact List.prefix_append _ _
    obtain ⟨z, hz⟩ := hp
    rw [List.append_assoc, upToDelim_to] at hz
    have hzp : ∀ gs, dashes ++ b <+: encodeTo b (dashes ++ b ++ z) gs := by
      intro gs
      cases gs <;> simp only [encodeTo, List.append_assoc] <;> rw [← List.append_assoc] <;> exact List.prefix_append _ _
    obtain ⟨pre', m1, -⟩ := encodeTo_partsTo hT hb (z := dashes ++ b ++ z) (List.prefix_append _ _) (hs.take j) pre (hpre _ (hzp _))
    rw [hz] at m1
    have := k2.le hd m1 k3
    simp only [List.length_zipWith, List.length_take, hs.length] at this
    have := hs.length
    omega
  · rcases k7 with k7 | ⟨fh, dat, x, k7, k8, k9⟩
    · exact .inl k7
    · rw [List.getElem?_zipWith] at k7
      cases hf : fs[k]? with
      | none => rw [hf] at k7; simp at k7
      | some f =>
        cases hc : cts[k]? with
        | none => rw [hf, hc] at k7; simp at k7
        | some ct =>
          rw [hf, hc] at k7
          simp only [OutField.asRead, Option.some.injEq, Prod.mk.injEq] at k7
          obtain ⟨rfl, rfl⟩ := k7
          exact .inr ⟨f, ct, x, rfl, rfl, k8, k9⟩

theorem standsFor_unique {env : FileEnv} {os : List ClientOp} {fs gs : List OutField} (h : All2 (StandsFor env) os fs) (h' : All2 (StandsFor env) os gs) : fs = gs := by
  induction h generalizing gs with
  | nil => cases h'; rfl
  | cons hf _ ih =>
    cases h' with
    | cons hf' h' => rw [hf.unique hf', ih h']

theorem StandsFor.opens {env : FileEnv} {o : ClientOp} {f : OutField} (h : StandsFor env o f) {n : Bytes} {p : Path} (ho : o = .file n p) : ∃ evs, env.open_ p = .ok evs := by
  cases h with
  | file _ _ _ evs h => cases ho; exact ⟨evs, h⟩
  | fileUnnamed _ _ evs h => cases ho; exact ⟨evs, h⟩
  | _ => cases ho

/-- C86 for the client: if the server receives less than the body up to the closing `--`, it reads the fields whose data and delimiter arrived, possibly the next field with a piece of its
data, and then always gets an error. -/
theorem C86_client {env : FileEnv} {req : ClientReq} {os : List ClientOp} {s : ClientStream} {lost : Bytes} (hD : D.Sane) (hI : D.Incremental) (hT : D.Tokenizes) (hb : SafeBoundary b)
    (h : plainRequest env req b os = (.ok (), some s)) (hos : All2 (StandsFor env) os fs) (hs : All2 (Sendable D b) fs cts) (hn : NoStall evs) (hne : NoErr evs)
    (he : s.sink.got = Ev.bytes evs ++ lost) (hl : 2 < lost.length) (hr : Reads D (withBody evs b) got fin) :
    GetsCut b evs fs cts got fin (fun gs => (upToDelim b gs).length ≤ (Ev.bytes evs).length) := by
  obtain ⟨fs', hos', hg, -⟩ := C23_body h
  have := standsFor_unique hos' hos
  subst this
  rw [hg, encode_with] at he
  exact gets_cut (pre := []) (tail := crlf) hD hI hT hb hs hn hne (fun z hz => ⟨hz, fun q hq => by simp at hq⟩) (by simpa using he) (by simpa [crlf] using hl) hr

/-- C86 for a client that fails on the way: the server gets an error too, unless only the last CRLF was missing. -/
theorem C86_failed_client {env : FileEnv} {req : ClientReq} {os : List ClientOp} {s : ClientStream} {e : IoErr} (hD : D.Sane) (hI : D.Incremental) (hT : D.Tokenizes) (hb : SafeBoundary b)
    (h : plainRequest env req b os = (.err e, some s)) (hos : All2 (StandsFor env) os fs) (hs : All2 (Sendable D b) fs cts) (hn : NoStall evs) (hne : NoErr evs)
    (he : s.sink.got = Ev.bytes evs) (hl : (Ev.bytes evs).length + 2 < (encode b fs).length) (hr : Reads D (withBody evs b) got fin) :
    GetsCut b evs fs cts got fin (fun gs => (upToDelim b gs).length ≤ (Ev.bytes evs).length) := by
  obtain ⟨os1, os2, fs', _, rfl, hos', hg, hpost, -⟩ := C25_failure h
  have : os2 = [] := by
    by_cases h0 : os2 = []
    · exact h0
    · obtain ⟨n, p, err, rest, rfl, ho⟩ := hpost h0
      have h1 := (All2.split hos).2
      generalize fs.drop os1.length = gs at h1
      cases h1 with
      | cons h1 _ =>
        obtain ⟨_, h2⟩ := h1.opens rfl
        rw [h2] at ho; cases ho
  subst this
  rw [List.append_nil] at hos
  have := standsFor_unique hos' hos
  subst this
  obtain ⟨lost, hlost⟩ := hg
  rw [he] at hlost
  rw [← hlost, List.length_append] at hl
  rw [encode_with] at hlost
  exact gets_cut (pre := []) (tail := crlf) hD hI hT hb hs hn hne (fun z hz => ⟨hz, fun q hq => by simp at hq⟩) (by simpa using hlost.symm) (by simp only [crlf, List.length_cons, List.length_nil]; omega) hr

/-- C86 for the lazy client: its body ends with the closing `--`, so that every missing byte is noticed. -/
theorem C86_lazy_client {env : LazyEnv} {os : List ClientOp} {p : Prepared} {ns : List Nat} {u lost : Bytes} (hD : D.Sane) (hI : D.Incremental) (hT : D.Tokenizes) (hb : SafeBoundary b)
    (h : PreparedFrom env b os p) (hre : NoReadErr env.toFileEnv os) (ho : os ≠ []) (hos : All2 (StandsFor env.toFileEnv) os fs) (hs : All2 (Sendable D b) (lazyOrder fs) cts)
    (hn : NoStall evs) (hne : NoErr evs) (hu : ReadsOut p ns u) (he : u = Ev.bytes evs ++ lost) (hl : lost ≠ []) (hr : Reads D (withBody evs b) got fin) :
    GetsCut b evs (lazyOrder fs) cts got fin (fun gs => (crlf ++ upToDelim b gs).length ≤ (Ev.bytes evs).length) := by
  have hne0 : lazyOrder fs ≠ [] := fun hh => ho ((all2_nil_iff hos).mpr (lazyOrder_eq_nil.mp hh))
  rw [readsOut_eq h hre hos hu, encodeLazy_with b _ hne0] at he
  have hd : dashes ++ b ≠ [] := by simp [dashes]
  have hnil : Absent (dashes ++ b) [] := fun q h => hd (by simpa [OccursAt] using h)
  refine gets_cut (pre := crlf) (tail := []) hD hI hT hb hs hn hne (fun z hz => ?_) he (by simpa using List.length_pos_iff.mpr hl) hr
  have h0 : FirstAt (dashes ++ b) z 0 := ⟨hz, fun q hq => by omega⟩
  have hfirst := FirstAt.sep hd (hb.notMem (by decide : (0x0D : Byte) ∈ b!"\r\n\"; :=")) hnil (FirstAt.sep hd (hb.notMem (by decide : (0x0A : Byte) ∈ b!"\r\n\"; :=")) hnil h0)
  simpa [crlf] using hfirst

/-- The hypotheses of C86_client are met. -/
example : plainRequest Sample.env Sample.req b!"b" Sample.ops = (.ok (), some Sample.sent) ∧ All2 (StandsFor Sample.env) Sample.ops Sample.flds ∧
    All2 (Sendable refDeps b!"b") Sample.flds Sample.flctypes ∧ Sample.sent.sink.got = Ev.bytes [.data (Sample.sent.sink.got.take 100)] ++ Sample.sent.sink.got.drop 100 ∧
    2 < (Sample.sent.sink.got.drop 100).length ∧ ∃ got fin, Reads refDeps (withBody [.data (Sample.sent.sink.got.take 100)] b!"b") got fin :=
  ⟨Sample.sent_eq, Sample.ops_fields, Sample.sendable, by simp [Ev.bytes], by decide +kernel, C10_reads_total (evs := _) (b := _) refDeps_sane ⟨[], rfl⟩⟩

/-- The hypotheses of C86_failed_client are met. -/
example : plainRequest Sample.env Sample.badReq b!"b" Sample.ops = (.err (.other 7), some Sample.badSent) ∧ All2 (StandsFor Sample.env) Sample.ops Sample.flds ∧
    Sample.badSent.sink.got = Ev.bytes [.data b!"--"] ∧ (Ev.bytes [.data b!"--"]).length + 2 < (encode b!"b" Sample.flds).length ∧
    ∃ got fin, Reads refDeps (withBody [.data b!"--"] b!"b") got fin :=
  ⟨Sample.badSent_eq, Sample.ops_fields, by decide +kernel, by decide +kernel, C10_reads_total (evs := _) (b := _) refDeps_sane ⟨[], rfl⟩⟩

/-- The hypotheses of C86_lazy_client are met. -/
example : PreparedFrom Sample.lenv b!"b" Sample.lops (Sample.lprep Sample.lops) ∧ ReadsOut (Sample.lprep Sample.lops) [7, 50, 300, 300] Sample.lread ∧
    Sample.lread = Ev.bytes [.data (Sample.lread.take 100)] ++ Sample.lread.drop 100 ∧ Sample.lread.drop 100 ≠ [] ∧
    ∃ got fin, Reads refDeps (withBody [.data (Sample.lread.take 100)] b!"b") got fin :=
  ⟨Sample.lprep_ok (by decide +kernel), ⟨by decide, by decide +kernel, rfl⟩, by simp [Ev.bytes], by decide +kernel, C10_reads_total (evs := _) (b := _) refDeps_sane ⟨[], rfl⟩⟩

end Multipart

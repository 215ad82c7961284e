import Verif.Props.Retry
import Verif.Props.Split
/-!
# Small bodies (C07, C11, C16, C85)

What is wrong with C07, C11, C16 and C85 needs a body that is longer than the minimum buffer (1024 bytes, or twice the delimiter). For shorter ones they hold in full.
-/
namespace Multipart

variable {D : Deps} {evs evs' : List Ev} {b : Bytes} {s t : BR} {es got : List (FieldHeaders × Bytes)} {fin fin' : Ending}

/-- Without errors of the stream there is nothing to retry. -/
theorem RetryReads.reads (hD : D.Sane) (h : RetryReads D s got fin) : s.Inv → NoErr s.evs → NoStall s.evs → s.Drained → Reads D s got fin := by
  induction h with
  | close hc => exact fun _ _ _ _ => .close hc
  | fail hc _ => exact fun _ _ _ _ => .fail hc
  | @retry s t e es fin hc hown _ _ =>
    intro hi hne hn hdr
    exfalso
    by_cases hst : s.st = .atEnd
    · have := BR.readEntry_spec hD hi
      rw [hc] at this
      simp only at this
      cases this with
      | badHeaders a => exact absurd hst a
      | noBoundary a => exact absurd hst a
    · rcases BR.readEntry_faulty hD hi hst hdr hn with ⟨e', h1, -⟩ | ⟨h1, -⟩
      · exact hne _ h1
      · exact hown (h1 e (by rw [hc]))
  | @entry s t fh os got fin hc heof _ ih =>
    intro hi hne hn hdr
    have hti : t.Inv := by have := BR.readEntry_inv hD hi; rw [hc] at this; exact this
    have hte : t.evs <:+ s.evs := by have := BR.readEntry_evs hD hi; rw [hc] at this; exact this
    have hev := (BR.run_skipped os hti).2.2.2.1.trans hte
    exact .entry hc heof (ih (BR.run_inv os hti) (fun e he => hne e (hev.subset he)) (hn.suffix hev) (heof.drained (BR.run_inv os hti)))

/-- A list of events has no error, or a first one. -/
theorem Ev.first_err : ∀ (evs : List Ev), NoErr evs ∨ ∃ (cs : List Bytes) (e : IoErr) (r : List Ev), evs = cs.map .data ++ .err e :: r := by
  intro evs
  induction evs with
  | nil => exact .inl (by intro e; simp)
  | cons ev evs ih =>
    cases ev with
    | err e => exact .inr ⟨[], e, evs, rfl⟩
    | data c =>
      rcases ih with h | ⟨cs, e, r, rfl⟩
      · exact .inl (by intro e he; simp at he; exact h e he)
      · exact .inr ⟨c :: cs, e, r, rfl⟩

theorem Ev.bytes_first_err (cs : List Bytes) (e : IoErr) (r : List Ev) : Ev.bytes (cs.map .data ++ .err e :: r) = cs.flatten ++ Ev.bytes r := by
  induction cs with
  | nil => simp [Ev.bytes]
  | cons c cs ih => simp [Ev.bytes, ih]

/-- An error in front of the minimum buffer is what `read_entry` returns, and nothing else happens. -/
theorem BR.readEntry_surfaces {x d : Bytes} {m : Nat} {cs : List Bytes} {e : IoErr} {r : List Ev} (hne : ∀ c ∈ cs, c ≠ []) (hl : x.length + cs.flatten.length < entryBuf d) :
    (⟨x, cs.map .data ++ .err e :: r, m, d, 0, .searching⟩ : BR).readEntry D = (.err e, ⟨x ++ cs.flatten, r, entryBuf d, d, 0, .searching⟩) := by
  have hm : Nat.max (d.length * 2) minBufSize = entryBuf d := by
    simp only [entryBuf, minBufSize]
    rw [Nat.mul_comm]
    exact Nat.max_comm _ _
  unfold BR.readEntry BR.consumeBoundary
  simp only [BR.setMin, hm, reduceCtorEq, if_false]
  rw [BR.searchLoop]
  simp only [if_true]
  unfold BR.readToBoundary
  simp only
  rw [fill_surfaces _ e r cs x hne hl]

/-- All of a small body is buffered by the first call of `read_entry`. -/
theorem BR.readEntry_buffered {x : Bytes} {m : Nat} (hn : NoStall evs) (he : NoErr evs) (hn' : NoStall evs') (he' : NoErr evs') (hb : x ++ Ev.bytes evs = Ev.bytes evs')
    (hl : (Ev.bytes evs').length ≤ entryBuf (dashes ++ b)) : (⟨x, evs, m, dashes ++ b, 0, .searching⟩ : BR).readEntry D = (withBody evs' b).readEntry D := by
  have hm : Nat.max ((dashes ++ b).length * 2) minBufSize = entryBuf (dashes ++ b) := by
    simp only [entryBuf, minBufSize]
    rw [Nat.mul_comm]
    exact Nat.max_comm _ _
  suffices h : ∀ (x : Bytes) (evs : List Ev), NoStall evs → NoErr evs → (x ++ Ev.bytes evs).length ≤ entryBuf (dashes ++ b) →
      (⟨x, evs, entryBuf (dashes ++ b), dashes ++ b, 0, .searching⟩ : BR).consumeBoundary = (⟨x ++ Ev.bytes evs, [], entryBuf (dashes ++ b), dashes ++ b, 0, .searching⟩ : BR).consumeBoundary by
    unfold BR.readEntry
    simp only [withBody, BR.fromReader, BR.setMin, hm]
    rw [h x evs hn he (by rw [hb]; exact hl), h [] evs' hn' he' (by simpa using hl), hb]
    simp
  intro x evs hn he hl
  unfold BR.consumeBoundary
  have hp : (⟨x, evs, entryBuf (dashes ++ b), dashes ++ b, 0, .searching⟩ : BR).pending = (⟨x ++ Ev.bytes evs, [], entryBuf (dashes ++ b), dashes ++ b, 0, .searching⟩ : BR).pending := by
    simp [BR.pending, Ev.bytes]
  have hrd : (⟨x, evs, entryBuf (dashes ++ b), dashes ++ b, 0, .searching⟩ : BR).readToBoundary = (⟨x ++ Ev.bytes evs, [], entryBuf (dashes ++ b), dashes ++ b, 0, .searching⟩ : BR).readToBoundary := by
    unfold BR.readToBoundary
    simp only
    rw [fill_small hn he hl]
    simp [fill]
  simp only [reduceCtorEq, if_false]
  rw [hp, BR.searchLoop, BR.searchLoop, hrd]
  simp only [if_true]

theorem retryReads_small (hD : D.Sane) (hn' : NoStall evs') (he' : NoErr evs') (hl : (Ev.bytes evs').length < entryBuf (dashes ++ b)) (hR : RetryReads D s got fin) :
    ∀ {x : Bytes} {m : Nat} {evs : List Ev}, s = ⟨x, evs, m, dashes ++ b, 0, .searching⟩ → NoStall evs → ForeignErrs evs → x ++ Ev.bytes evs = Ev.bytes evs' →
      Reads D (withBody evs' b) got fin := by
  induction hR with
  | @close s t hc =>
    rintro x m evs rfl hn hf hb
    rcases Ev.first_err evs with hne | ⟨cs, e, r, rfl⟩
    · rw [BR.readEntry_buffered hn hne hn' he' hb (by omega)] at hc
      exact .close hc
    · rw [BR.readEntry_surfaces (fun c hc h => hn (by simp [← h, hc])) (by rw [Ev.bytes_first_err] at hb; rw [← hb] at hl; simp at hl ⊢; omega)] at hc
      simp at hc
  | @fail s t e hc hown =>
    rintro x m evs rfl hn hf hb
    rcases Ev.first_err evs with hne | ⟨cs, e, r, rfl⟩
    · rw [BR.readEntry_buffered hn hne hn' he' hb (by omega)] at hc
      exact .fail hc
    · rw [BR.readEntry_surfaces (fun c hc h => hn (by simp [← h, hc])) (by rw [Ev.bytes_first_err] at hb; rw [← hb] at hl; simp at hl ⊢; omega)] at hc
      simp only [Prod.mk.injEq, Res.err.injEq] at hc
      rw [← hc.1] at hown
      exact absurd hown (hf _ (by simp))
  | @retry s t e es fin hc hown _ ih =>
    rintro x m evs rfl hn hf hb
    rcases Ev.first_err evs with hne | ⟨cs, e, r, rfl⟩
    · rw [BR.readEntry_buffered hn hne hn' he' hb (by omega)] at hc
      rcases BR.readEntry_faulty hD (BR.fromReader_inv evs' b) (by simp [BR.fromReader]) (by intro h; simp [BR.fromReader] at h) hn' with ⟨e', h1, -⟩ | ⟨h1, -⟩
      · exact absurd h1 (he' _)
      · exact absurd (h1 e (by rw [show BR.fromReader evs' b = withBody evs' b from rfl, hc])) hown
    · rw [BR.readEntry_surfaces (fun c hc h => hn (by simp [← h, hc])) (by rw [Ev.bytes_first_err] at hb; rw [← hb] at hl; simp at hl ⊢; omega)] at hc
      simp only [Prod.mk.injEq] at hc
      exact ih hc.2.symm (fun h => hn (by simp [h])) (fun e he => hf e (by simp [he])) (by rw [← hb, Ev.bytes_first_err]; simp)
  | @entry s t fh os got fin hc heof hR _ =>
    rintro x m evs rfl hn hf hb
    rcases Ev.first_err evs with hne | ⟨cs, e, r, rfl⟩
    · rw [BR.readEntry_buffered hn hne hn' he' hb (by omega)] at hc
      have hi := BR.fromReader_inv evs' b
      have hti : t.Inv := by have := BR.readEntry_inv hD hi; rw [show BR.fromReader evs' b = withBody evs' b from rfl, hc] at this; exact this
      have hte : t.evs <:+ evs' := by have := BR.readEntry_evs hD hi; rw [show BR.fromReader evs' b = withBody evs' b from rfl, hc] at this; exact this
      have hev := (BR.run_skipped os hti).2.2.2.1.trans hte
      exact .entry hc heof (hR.reads hD (BR.run_inv os hti) (fun e he => he' e (hev.subset he)) (hn'.suffix hev) (heof.drained (BR.run_inv os hti)))
    · rw [BR.readEntry_surfaces (fun c hc h => hn (by simp [← h, hc])) (by rw [Ev.bytes_first_err] at hb; rw [← hb] at hl; simp at hl ⊢; omega)] at hc
      simp at hc

theorem Ev.data_only (evs : List Ev) (hn : NoStall evs) : ∃ evs', NoStall evs' ∧ NoErr evs' ∧ Ev.bytes evs' = Ev.bytes evs := by
  induction evs with
  | nil => exact ⟨[], by simp [NoStall], by intro e; simp, rfl⟩
  | cons ev evs ih =>
    obtain ⟨l, h1, h2, h3⟩ := ih (fun h => hn (by simp [h]))
    cases ev with
    | err e => exact ⟨l, h1, h2, by rw [h3]; rfl⟩
    | data c =>
      refine ⟨.data c :: l, ?_, ?_, by simp [Ev.bytes, h3]⟩
      · intro h
        simp only [List.mem_cons, Ev.data.injEq] at h
        rcases h with h | h
        · exact hn (by simp [← h])
        · exact h1 h
      · intro e h
        simp at h
        exact h2 e h

/-- C85 for bodies shorter than the minimum buffer (1024 bytes, or twice the delimiter): whatever errors the stream makes and wherever, a caller that repeats the call after each of them gets
exactly the parts of the body, and the right end. -/
theorem C85_small_partial (hD : D.Sane) (hn : NoStall evs) (hf : ForeignErrs evs) (hl : (Ev.bytes evs).length < entryBuf (dashes ++ b)) (hP : Parts D (dashes ++ b) (Ev.bytes evs) es fin)
    (hR : RetryReads D (withBody evs b) got fin') : got = es ∧ fin' = fin := by
  obtain ⟨evs', h1, h2, h3⟩ := Ev.data_only evs hn
  have := retryReads_small hD h1 h2 (by rw [h3]; exact hl) hR (x := []) rfl hn hf (by rw [h3]; rfl)
  exact C93_exact_partial hD h1 h2 (by rw [h3]; omega) (by rw [h3]; exact hP) this

/-- The hypotheses of C85_small_partial are met. -/
example : NoStall Sample.evsInt ∧ ForeignErrs Sample.evsInt ∧ (Ev.bytes Sample.evsInt).length < entryBuf (dashes ++ Sample.bnd) ∧
    Parts refDeps (dashes ++ Sample.bnd) (Ev.bytes Sample.evsInt) [(Sample.fh, b!"hello")] .closed ∧ ∃ got fin, RetryReads refDeps (withBody Sample.evsInt Sample.bnd) got fin :=
  ⟨by decide +kernel, Sample.evsInt_foreign, by decide +kernel, Sample.parts, C85_total refDeps_sane (by decide +kernel) Sample.evsInt_foreign⟩

/-! ## Skipping fields, damaged delimiters, bad headers -/

/-- A `Multipart` over `evs` of which nothing but `read_entry` was used first, as the API has it. -/
def Started (D : Deps) (evs : List Ev) (b : Bytes) (s : BR) : Prop := s = withBody evs b ∨ ∃ os, s = (withBody evs b).session D (.readEntry :: os)

/-- For a small body it is as if it came in one piece. -/
theorem one_piece (hn : NoStall evs) (he : NoErr evs) (hl : (Ev.bytes evs).length ≤ entryBuf (dashes ++ b)) :
    ∃ evs', NoStall evs' ∧ NoErr evs' ∧ Ev.bytes evs' = Ev.bytes evs ∧ (∀ k, SplitAt evs' k → k = 0 ∨ k = (Ev.bytes evs).length) ∧
      ∀ s, Started D evs b s → ∃ s', Reachable D evs' b s' ∧ s.unread = s'.unread ∧ s.readEntry D = s'.readEntry D ∧ ((∃ os, s = (withBody evs b).session D (.readEntry :: os)) → s = s') := by
  have key : ∀ evs', NoStall evs' → NoErr evs' → Ev.bytes evs' = Ev.bytes evs →
      ∀ s, Started D evs b s → ∃ s', Reachable D evs' b s' ∧ s.unread = s'.unread ∧ s.readEntry D = s'.readEntry D ∧ ((∃ os, s = (withBody evs b).session D (.readEntry :: os)) → s = s') := by
    intro evs' h1 h2 h3 s hs
    by_cases ho : ∃ os, s = (withBody evs b).session D (.readEntry :: os)
    · obtain ⟨os, ho⟩ := ho
      rw [C93_session_partial hn he h1 h2 h3.symm hl] at ho
      exact ⟨s, ⟨_, ho⟩, rfl, rfl, fun _ => rfl⟩
    · rcases hs with rfl | hs
      · exact ⟨withBody evs' b, ⟨[], rfl⟩, by simp [withBody, BR.fromReader, BR.unread, h3], C93_same_partial hn he h1 h2 h3.symm hl, fun h => absurd h ho⟩
      · exact absurd hs ho
  by_cases h0 : Ev.bytes evs = []
  · refine ⟨[], by simp [NoStall], by intro e; simp, by rw [h0]; rfl, ?_, key [] (by simp [NoStall]) (by intro e; simp) (by rw [h0]; rfl)⟩
    rintro k ⟨x, y, h1, h2⟩
    have : x = [] := by cases x <;> simp at h1 ⊢
    subst this
    exact .inl h2.symm
  · have hn1 : NoStall [.data (Ev.bytes evs)] := by
      intro h
      simp only [List.mem_singleton, Ev.data.injEq] at h
      exact h0 h.symm
    have he1 : NoErr [.data (Ev.bytes evs)] := by intro e; simp
    have hb : Ev.bytes [.data (Ev.bytes evs)] = Ev.bytes evs := by simp [Ev.bytes]
    refine ⟨_, hn1, he1, hb, ?_, key _ hn1 he1 hb⟩
    rintro k ⟨x, y, h1, h2⟩
    cases x with
    | nil => exact .inl h2.symm
    | cons z x =>
      have : x = [] := by cases x <;> simp at h1 ⊢
      subst this
      simp at h1
      rw [← h1.1] at h2
      exact .inr (by rw [← h2, hb])

/-- A delimiter at the very end of the body, or with one byte behind it, is that of a body that was cut off. -/
theorem cut_at_end {d gone u : Bytes} {p : Nat} (hp : FirstAt d u p) (h : gone.length + p + d.length = (gone ++ u).length ∨ gone.length + p + d.length + 1 = (gone ++ u).length) : NextIs d u .truncated :=
  .cut hp (by simp only [List.length_append] at h; omega)

/-- C07 for small bodies: skipping a field is the same as reading it. -/
theorem C07_small_partial (hD : D.Sane) (hn : NoStall evs) (hne : NoErr evs) (hl : (Ev.bytes evs).length ≤ entryBuf (dashes ++ b)) {us : List SOp}
    (hr : s = (withBody evs b).session D (.readEntry :: us)) (os : List FieldOp)
    (hw : ∀ rest, NextIs (dashes ++ b) s.unread (.part rest) → (∃ fh dat X, WellFormedPart D (dashes ++ b) rest fh dat X) ∨ NoFieldHeaders D (dashes ++ b) rest) (heof : (s.run os).2.AtEof) :
    (s.readEntry D).1 = ((s.run os).2.readEntry D).1 ∧ (∀ o, (s.readEntry D).1 = .ok o → (s.readEntry D).2.unread = ((s.run os).2.readEntry D).2.unread) := by
  obtain ⟨evs', h1, h2, h3, h4, h5⟩ := one_piece (D := D) hn hne hl
  obtain ⟨s', hr', -, -, h6⟩ := h5 s (.inr ⟨us, hr⟩)
  have := h6 ⟨us, hr⟩
  subst this
  rcases C07_skip_partial hD h1 h2 hr' os hw heof with h | ⟨h, gone, p, hg, hp, -, hk⟩
  · exact h
  · have ht : NextIs (dashes ++ b) s.unread .truncated := by
      refine cut_at_end (gone := gone) hp ?_
      rw [← hg, h3]
      have hd : 2 ≤ (dashes ++ b).length := by simp [dashes]
      rcases hk with hk | hk
      · rcases h4 _ hk with g | g
        · omega
        · exact .inl g
      · rcases h4 _ hk with g | g
        · omega
        · exact .inr g
    refine ⟨?_, fun o ho => by rw [h] at ho; cases ho⟩
    obtain ⟨hi, -, hdl, hev⟩ := hr'.spec hD
    obtain ⟨r1, r2, r3, r4, r5⟩ := BR.run_skipped os hi
    have hri := BR.run_inv os hi
    by_cases hst : s.st = .atEnd
    · rw [BR.readEntry_atEnd hst] at h; cases h
    · rw [h, (BR.readEntry_other (D := D) hri (fun h => hst (r5.mp h)) (heof.drained hri) (h1.suffix (r4.trans hev)) (h2.suffix (r4.trans hev))).2.2 (by rw [r1, r3, hdl]; exact ht.drop (by rw [← hdl]; exact r2))]

/-- The hypotheses of C07_small_partial are met: the second field of `evsTwo` behind the unread first one. -/
example : NoStall Sample.evsTwo ∧ NoErr Sample.evsTwo ∧ (Ev.bytes Sample.evsTwo).length ≤ entryBuf (dashes ++ Sample.bnd) ∧
    NextIs (dashes ++ Sample.bnd) ((withBody Sample.evsTwo Sample.bnd).session refDeps [.readEntry]).unread (.part (Sample.hdr ++ b!"two\r\n--b--\r\n")) ∧
    WellFormedPart refDeps (dashes ++ Sample.bnd) (Sample.hdr ++ b!"two\r\n--b--\r\n") Sample.fh b!"two" b!"two\r\n--b--\r\n" ∧
    (((withBody Sample.evsTwo Sample.bnd).session refDeps [.readEntry]).run [.read 3]).2.AtEof :=
  ⟨by decide +kernel, Sample.noErrTwo, by decide +kernel, .part (p := 5) (by decide +kernel) (by decide +kernel), Sample.wellFormed2, by decide +kernel⟩

/-- C11 for small bodies: a damaged delimiter is invalid data. -/
theorem C11_small_partial (hD : D.Sane) (hn : NoStall evs) (hne : NoErr evs) (hl : (Ev.bytes evs).length ≤ entryBuf (dashes ++ b)) (hr : Started D evs b s)
    (hend : (s.readEntry D).1 ≠ .ok none) (hd : NextIs (dashes ++ b) s.unread .damaged) : (s.readEntry D).1 = .err .invalidData := by
  obtain ⟨evs', h1, h2, h3, h4, h5⟩ := one_piece (D := D) hn hne hl
  obtain ⟨s', hr', hu, hre, -⟩ := h5 s hr
  rw [hre] at hend ⊢
  rw [hu] at hd
  rcases (C11_damaged_kind_partial hD h1 h2 hr' hend hd).1 with h | ⟨-, gone, p, hg, hp, -, hk⟩
  · exact h
  · have ht : NextIs (dashes ++ b) s'.unread .truncated := by
      refine cut_at_end (gone := gone) hp ?_
      rw [← hg, h3]
      have hd : 2 ≤ (dashes ++ b).length := by simp [dashes]
      rcases hk with hk | hk
      · rcases h4 _ hk with g | g
        · omega
        · exact .inl g
      · rcases h4 _ hk with g | g
        · omega
        · exact .inr g
    cases hd.unique (by simp [dashes]) ht

/-- The hypotheses of C11_small_partial are met. -/
example : ∃ evs, NoStall evs ∧ NoErr evs ∧ (Ev.bytes evs).length ≤ entryBuf (dashes ++ Sample.bnd) ∧ Started refDeps evs Sample.bnd (withBody evs Sample.bnd) ∧
    NextIs (dashes ++ Sample.bnd) (withBody evs Sample.bnd).unread .damaged ∧ ((withBody evs Sample.bnd).readEntry refDeps).1 ≠ .ok none :=
  ⟨[.data b!"--b", .data b!"xx\r\n"], by decide +kernel, by intro e; simp, by decide +kernel, .inl rfl, .damaged (p := 0) (by decide +kernel) (by decide +kernel) (by decide +kernel) (by decide +kernel),
    by decide +kernel⟩

/-- C16 for small bodies: behind a field with bad headers `read_entry` goes on with the next delimiter. -/
theorem C16_small_partial (hD : D.Sane) (hn : NoStall evs) (hne : NoErr evs) (hl : (Ev.bytes evs).length ≤ entryBuf (dashes ++ b)) (hr : Started D evs b s) {rest : Bytes}
    (hN : NextIs (dashes ++ b) s.unread (.part rest)) (he : s.readEntry D = (.err .invalidData, t)) :
    (∀ r', NextIs (dashes ++ b) rest (.close r') → (t.readEntry D).1 = .ok none) ∧
    (NextIs (dashes ++ b) rest .damaged → (t.readEntry D).1 = .err .invalidData) ∧
    (NextIs (dashes ++ b) rest .truncated → (t.readEntry D).1 = .err .unexpectedEof) ∧
    (∀ r' fh dat X, NextIs (dashes ++ b) rest (.part r') → WellFormedPart D (dashes ++ b) r' fh dat X → (t.readEntry D).1 = .ok (some fh) ∧ (t.readEntry D).2.unread = X) ∧
    (∀ r', NextIs (dashes ++ b) rest (.part r') → NoFieldHeaders D (dashes ++ b) r' → (t.readEntry D).1 = .err .invalidData) := by
  obtain ⟨evs', h1, h2, h3, h4, h5⟩ := one_piece (D := D) hn hne hl
  obtain ⟨s', hr', hu, hre, -⟩ := h5 s hr
  rw [hre] at he
  rw [hu] at hN
  obtain ⟨hv, h | ⟨h, gone, p, hg, hp, -, hk⟩⟩ := C16_continues_partial hD h1 h2 hr' hN he
  · exact h
  · have ht : NextIs (dashes ++ b) t.unread .truncated := by
      refine cut_at_end (gone := gone) hp ?_
      rw [← hg, h3]
      have hd : 2 ≤ (dashes ++ b).length := by simp [dashes]
      rcases hk with hk | hk
      · rcases h4 _ hk with g | g
        · omega
        · exact .inl g
      · rcases h4 _ hk with g | g
        · omega
        · exact .inr g
    have hd : dashes ++ b ≠ [] := by simp [dashes]
    have no : ∀ {v}, NextIs (dashes ++ b) rest v → v = .truncated := fun g => (hv _ g).unique hd ht
    exact ⟨fun r' g => (by have := no g; cases this), fun g => (by have := no g; cases this), fun _ => h, fun r' fh dat X g _ => (by have := no g; cases this),
      fun r' g _ => (by have := no g; cases this)⟩

/-- The hypotheses of C16_small_partial are met: a part without `Content-Disposition`. -/
example : ∃ evs rest, NoStall evs ∧ NoErr evs ∧ (Ev.bytes evs).length ≤ entryBuf (dashes ++ Sample.bnd) ∧ NextIs (dashes ++ Sample.bnd) (withBody evs Sample.bnd).unread (.part rest) ∧
    ((withBody evs Sample.bnd).readEntry refDeps).1 = .err .invalidData :=
  ⟨[.data b!"--b\r\nX: y\r\n\r\n", .data b!"data\r\n--b--"], b!"X: y\r\n\r\ndata\r\n--b--", by decide +kernel, by intro e; simp, by decide +kernel, .part (p := 0) (by decide +kernel) (by decide +kernel),
    by decide +kernel⟩

end Multipart

import Verif.Lemmas.Progress
import Verif.Lemmas.Utf8
import Verif.Spec.Saving
/-!
# The copy loops of `save.rs`
-/
namespace Multipart

theorem Took.refl (s : BR) : Took s [] s := .start

theorem BR.run_append (s : BR) (os os' : List FieldOp) :
    s.run (os ++ os') = ((s.run os).1 ++ ((s.run os).2.run os').1, ((s.run os).2.run os').2) := by
  induction os generalizing s with
  | nil => simp [BR.run]
  | cons o os ih => simp only [List.cons_append, BR.run, ih, List.append_assoc]

theorem Took.trans {s t u : BR} {a b : Bytes} (h : Took s a t) (h' : Took t b u) : Took s (a ++ b) u := by
  induction h' with
  | start => rw [List.append_nil]; exact h
  | look _ ih => exact ih.look
  | take _ h1 h2 ih => rw [← List.append_assoc]; exact ih.take h1 h2

/-- `read` is such calls, too. -/
theorem Took.read {s t : BR} {a : Bytes} (h : Took s a t) (n : Nat) : Took s (a ++ (t.op (.read n)).1) (t.op (.read n)).2 := by
  rcases hr : t.readToBoundary with ⟨r, u⟩
  have hl := h.look
  rw [hr] at hl
  simp only [BR.op, BR.read, hr]
  cases r with
  | ok b =>
    simp only [List.length_take]
    by_cases hn : n ≤ b.length
    · rw [Nat.min_eq_left hn]; exact h.take hr hn
    · rw [Nat.min_eq_right (by omega), List.take_of_length_le (by omega)]
      have := h.take hr (Nat.le_refl _)
      rw [List.take_length] at this
      exact this
  | _ => simp only [List.append_nil]; exact hl

theorem Took.reads (n k : Nat) : ∀ (s : BR), Took s (s.run (List.replicate k (.read n))).1 (s.run (List.replicate k (.read n))).2 := by
  induction k with
  | zero => exact Took.refl
  | succ k ih =>
    intro s
    have := ((Took.refl s).read n).trans (ih _)
    rw [List.nil_append] at this
    exact this

/-- What was taken can be taken by calls on the field. -/
theorem Took.run {s t : BR} {a : Bytes} (h : Took s a t) (hi : s.Inv) : ∃ os, s.run os = (a, t) := by
  induction h with
  | start => exact ⟨[], rfl⟩
  | look _ ih =>
    obtain ⟨os, ih⟩ := ih
    exact ⟨os ++ [.fillBuf], by rw [BR.run_append, ih]; simp [BR.run, BR.op]⟩
  | @take taken buf t u n _ h1 h2 ih =>
    obtain ⟨os, ih⟩ := ih
    refine ⟨os ++ [.fillBuf, .consume n], ?_⟩
    have hti := BR.run_inv os hi
    rw [ih] at hti
    rcases BR.readToBoundary_eq hti with ⟨e, _, h4⟩ | ⟨_, h4⟩
    · rw [h4] at h1; simp at h1
    · rw [BR.run_append, ih]
      simp only [BR.run, BR.op, h1, List.nil_append, List.append_nil]
      rw [h4] at h1
      simp only [Prod.mk.injEq, Res.ok.injEq] at h1
      obtain ⟨rfl, rfl⟩ := h1
      rw [List.length_take] at h2
      have h2 : n ≤ t.afterRead.idx := Nat.le_trans h2 (Nat.min_le_left _ _)
      rw [List.take_take, Nat.min_eq_left h2]
      congr 3
      exact Nat.min_eq_left h2

theorem Took.inv {s t : BR} {a : Bytes} (h : Took s a t) (hi : s.Inv) : t.Inv := by
  obtain ⟨os, h⟩ := h.run hi
  have := BR.run_inv os hi; rw [h] at this; exact this

theorem Took.unread {s t : BR} {a : Bytes} (h : Took s a t) (hi : s.Inv) : s.unread = a ++ t.unread := by
  obtain ⟨os, h⟩ := h.run hi
  have := BR.run_unread os hi; rw [h] at this; exact this.symm

theorem Took.fill (s : BR) : Took s [] s.readToBoundary.2 := Took.start.look

theorem Took.evs {s t : BR} {a : Bytes} (h : Took s a t) (hi : s.Inv) : t.evs <:+ s.evs := by
  obtain ⟨os, h⟩ := h.run hi
  have := (BR.run_skipped os hi).2.2.2.1; rw [h] at this; exact this

theorem Took.reachable {D : Deps} {evs : List Ev} {b : Bytes} {s t : BR} {a : Bytes} (h : Took s a t) (hr : Reachable D evs b s) : Reachable D evs b t := by
  induction h with
  | start => exact hr
  | look _ ih => exact ih.run [.fillBuf]
  | @take _ _ _ _ n _ h1 _ ih =>
    have := ih.run [.fillBuf, .consume n]
    simp only [BR.run, BR.op, h1] at this
    exact this

/-- One `fill_buf`: an error uses up a read of the stream; otherwise the bytes shown are next, and can be consumed. -/
theorem BR.fill_cases {s : BR} (h : s.Inv) :
    (∃ e, s.readToBoundary.1 = .err e ∧ s.readToBoundary.2.evs.length < s.evs.length ∧ Ev.err e ∈ s.evs) ∨
    (∃ buf, s.readToBoundary.1 = .ok buf ∧ buf <+: s.unread ∧ ∀ c, c ≤ buf.length → Took s (buf.take c) (s.readToBoundary.2.consume c)) := by
  rcases BR.readToBoundary_eq h with ⟨e, h1, h2⟩ | ⟨h1, h2⟩
  · left
    refine ⟨e, by rw [h2], ?_⟩
    rw [h2]
    rcases s.refill_evs_lt_or with hlt | ⟨_, hf⟩
    · exact ⟨hlt, (fill_spec s.min s.evs s.buf).errmem _ h1⟩
    · rw [h1] at hf; simp at hf
  · right
    have hai := s.afterRead_inv h
    have ht : Took s [] s.afterRead := by have := Took.fill s; rw [h2] at this; exact this
    refine ⟨_, by rw [h2], ?_, ?_⟩
    · rw [ht.unread h]
      exact (List.take_prefix _ _).trans (by simp [BR.unread])
    · intro c hc
      rw [h2]
      exact (Took.refl s).take h2 hc

variable {σ : Type}

/-- What is required of the closure given to `try_read_buf`: `P st taken` relates its state to the bytes taken so far while the loop runs, `Q`
after it has stopped early. -/
structure StepOk (P Q : σ → Bytes → Prop) (f : σ → Bytes → SaveRes Nat Nat × σ) : Prop where
  weaken : ∀ st taken, P st taken → Q st taken
  full : ∀ st taken buf c, buf ≠ [] → P st taken → (f st buf).1 = .full c → c ≤ buf.length ∧ P (f st buf).2 (taken ++ buf.take c)
  part : ∀ st taken buf c r, buf ≠ [] → P st taken → (f st buf).1 = .part c r → c ≤ buf.length ∧ Q (f st buf).2 (taken ++ buf.take c)
  error : ∀ st taken buf e, buf ≠ [] → P st taken → (f st buf).1 = .error e → Q (f st buf).2 taken
  safe : ∀ st taken buf, buf ≠ [] → P st taken → (f st buf).1 ≠ .panic ∧ (f st buf).1 ≠ .hang

/-- How `try_read_buf` can stop early. -/
inductive Stop (P : σ → Bytes → Prop) (f : σ → Bytes → SaveRes Nat Nat × σ) (s : BR) (taken0 : Bytes) (st' : σ) (s' : BR) (taken : Bytes) :
    SaveRes Nat Nat → Prop
  /-- the read failed before anything was copied -/
  | error {e : IoErr} : e ≠ .interrupted → Ev.err e ∈ s.evs → taken0 ++ taken = [] → Stop P f s taken0 st' s' taken (.error e)
  /-- the read failed later -/
  | read {e : IoErr} : e ≠ .interrupted → Ev.err e ∈ s.evs → taken0 ++ taken ≠ [] → Stop P f s taken0 st' s' taken (.part (taken0 ++ taken).length (.io e))
  /-- the closure stopped it -/
  | stop {taken1 buf : Bytes} {st1 : σ} {s1 : BR} {c : Nat} {r : Reason} : Took s taken1 s1 → P st1 (taken0 ++ taken1) → s1.readToBoundary.1 = .ok buf →
      buf ≠ [] → f st1 buf = (.part c r, st') → c ≤ buf.length → taken = taken1 ++ buf.take c → s' = s1.readToBoundary.2.consume c →
      Stop P f s taken0 st' s' taken (.part (taken0 ++ taken).length r)
  /-- the closure failed -/
  | fail {buf : Bytes} {st1 : σ} {s1 : BR} {e : IoErr} : Took s taken s1 → P st1 (taken0 ++ taken) → s1.readToBoundary.1 = .ok buf →
      buf ≠ [] → f st1 buf = (.error e, st') → s' = s1.readToBoundary.2 → Stop P f s taken0 st' s' taken (.part (taken0 ++ taken).length (.io e))

/-- Outcome of `try_read_buf`. -/
inductive Copied (P Q : σ → Bytes → Prop) (f : σ → Bytes → SaveRes Nat Nat × σ) (s : BR) (taken0 : Bytes) (st' : σ) (s' : BR) :
    SaveRes Nat Nat → Prop
  | hang : Copied P Q f s taken0 st' s' .hang
  | full {taken : Bytes} {s1 : BR} : Took s taken s1 → s1.AtEof → s' = s1.readToBoundary.2 → P st' (taken0 ++ taken) →
      Copied P Q f s taken0 st' s' (.full (taken0 ++ taken).length)
  | stop {taken : Bytes} {r : SaveRes Nat Nat} : Took s taken s' → Q st' (taken0 ++ taken) → Stop P f s taken0 st' s' taken r →
      Copied P Q f s taken0 st' s' r

theorem Stop.later {P : σ → Bytes → Prop} {f : σ → Bytes → SaveRes Nat Nat × σ} {s s1 s' : BR} {a taken0 taken : Bytes} {st' : σ} {r : SaveRes Nat Nat}
    (hi : s.Inv) (ht : Took s a s1) (h : Stop P f s1 (taken0 ++ a) st' s' taken r) : Stop P f s taken0 st' s' (a ++ taken) r := by
  cases h with
  | error h1 h0 h2 => exact .error h1 ((ht.evs hi).subset h0) (by rw [← List.append_assoc]; exact h2)
  | read h1 h0 h2 => rw [List.append_assoc] at h2 ⊢; exact .read h1 ((ht.evs hi).subset h0) h2
  | stop h1 h2 h3 h4 h5 h6 h7 h8 =>
    rw [List.append_assoc]
    exact .stop (ht.trans h1) (by rw [← List.append_assoc]; exact h2) h3 h4 h5 h6 (by rw [h7, List.append_assoc]) h8
  | fail h1 h2 h3 h4 h5 h6 =>
    rw [List.append_assoc]
    exact .fail (ht.trans h1) (by rw [← List.append_assoc]; exact h2) h3 h4 h5 h6

theorem Copied.later {P Q : σ → Bytes → Prop} {f : σ → Bytes → SaveRes Nat Nat × σ} {s s1 s' : BR} {a taken0 : Bytes} {st' : σ} {r : SaveRes Nat Nat}
    (hi : s.Inv) (ht : Took s a s1) (h : Copied P Q f s1 (taken0 ++ a) st' s' r) : Copied P Q f s taken0 st' s' r := by
  cases h with
  | hang => exact .hang
  | full h1 h2 h3 h4 => rw [List.append_assoc] at h4 ⊢; exact .full (ht.trans h1) h2 h3 h4
  | stop h1 h2 h3 => exact .stop (ht.trans h1) (by rw [← List.append_assoc]; exact h2) (h3.later hi ht)

theorem tryReadBuf_spec {P Q : σ → Bytes → Prop} {f : σ → Bytes → SaveRes Nat Nat × σ} (hf : StepOk P Q f) : ∀ (n : Nat) (taken0 : Bytes) (st : σ) (s : BR),
    s.Inv → P st taken0 →
    Copied P Q f s taken0 (tryReadBuf f n taken0.length st s).2.1 (tryReadBuf f n taken0.length st s).2.2 (tryReadBuf f n taken0.length st s).1 := by
  intro n
  induction n with
  | zero => intro taken0 st s _ _; exact .hang
  | succ n ih =>
    intro taken0 st s hi hP
    have hfill := Took.fill s
    have hfi := hfill.inv hi
    have hcases := BR.fill_cases hi
    rcases hrd : s.readToBoundary with ⟨r, s1⟩
    rw [hrd] at hfill hfi hcases
    simp only at hfill hfi hcases
    rcases hcases with ⟨e, he, _, hmem⟩ | ⟨buf, he, _, hc⟩
    · subst he
      by_cases hint : e = .interrupted
      · subst hint
        unfold tryReadBuf
        rw [hrd]
        simp only
        have := ih taken0 st s1 hfi hP
        have h2 := Copied.later (taken0 := taken0) (a := []) (s := s) hi hfill (by simpa using this)
        exact h2
      · have hstep : tryReadBuf f (n + 1) taken0.length st s = (if taken0.length = 0 then .error e else .part taken0.length (.io e), st, s1) := by
          unfold tryReadBuf
          rw [hrd]
          cases e <;> first | rfl | exact absurd rfl hint
        rw [hstep]
        simp only
        by_cases h0 : taken0 = []
        · subst h0
          exact .stop (taken := []) hfill (by simpa using hf.weaken _ _ hP) (.error hint hmem rfl)
        · rw [if_neg (by simp [h0])]
          have := Copied.stop (P := P) (Q := Q) (f := f) (s := s) (taken0 := taken0) (st' := st) (s' := s1) (taken := []) (r := .part (taken0 ++ []).length (.io e))
            hfill (by simpa using hf.weaken _ _ hP) (.read hint hmem (by simpa using h0))
          rw [List.append_nil] at this; exact this
    · subst he
      unfold tryReadBuf
      rw [hrd]
      simp only
      by_cases hb : buf = []
      · rw [if_pos hb]
        subst hb
        simp only
        have := Copied.full (P := P) (Q := Q) (f := f) (s := s) (taken0 := taken0) (st' := st) (s' := s1) (taken := []) (Took.refl s) (by unfold BR.AtEof; rw [hrd])
          (by rw [hrd]) (by simpa using hP)
        rw [List.append_nil] at this; exact this
      · rw [if_neg hb]
        have f1 := fun c => hf.full st taken0 buf c hb hP
        have f2 := fun c r => hf.part st taken0 buf c r hb hP
        have f3 := fun e => hf.error st taken0 buf e hb hP
        obtain ⟨f4, f5⟩ := hf.safe st taken0 buf hb hP
        rcases hfs : f st buf with ⟨r, st1⟩
        rw [hfs] at f1 f2 f3 f4 f5
        simp only at f1 f2 f3 f4 f5
        cases r with
        | full c =>
          simp only
          obtain ⟨g1, g2⟩ := f1 c rfl
          have hl : (taken0 ++ buf.take c).length = taken0.length + c := by rw [List.length_append, List.length_take, Nat.min_eq_left g1]
          have := ih (taken0 ++ buf.take c) st1 (s1.consume c) (BR.consume_inv hfi c) g2
          rw [hl] at this
          exact Copied.later hi (hc c g1) this
        | part c r =>
          simp only
          obtain ⟨g1, g2⟩ := f2 c r rfl
          have hl : (taken0 ++ buf.take c).length = taken0.length + c := by rw [List.length_append, List.length_take, Nat.min_eq_left g1]
          rw [← hl]
          exact .stop (hc c g1) g2 (.stop (taken1 := []) (Took.refl s) (by simpa using hP) (by rw [hrd]) hb hfs g1 (by simp) (by rw [hrd]))
        | error e =>
          simp only
          have := Copied.stop (P := P) (Q := Q) (f := f) (s := s) (taken0 := taken0) (st' := st1) (s' := s1) (taken := []) (r := .part (taken0 ++ []).length (.io e))
            hfill (by simpa using f3 e rfl) (.fail (Took.refl s) (by simpa using hP) (by rw [hrd]) hb hfs (by rw [hrd]))
          rw [List.append_nil] at this; exact this
        | panic => exact absurd rfl f4
        | hang => exact absurd rfl f5

/-- The loop ends if every call of the closure consumes something or makes progress by a measure of its own. -/
theorem tryReadBuf_ends {f : σ → Bytes → SaveRes Nat Nat × σ} {I : σ → Bytes → Prop} {μ : σ → Nat} {s0 : BR} (hi0 : s0.Inv)
    (hf : ∀ st taken buf s, Took s0 taken s → s.readToBoundary.1 = .ok buf → buf ≠ [] → I st taken → (f st buf).1 ≠ .hang ∧ ∀ c, (f st buf).1 = .full c →
      c ≤ buf.length ∧ I (f st buf).2 (taken ++ buf.take c) ∧ (μ (f st buf).2 < μ st ∨ (0 < c ∧ μ (f st buf).2 ≤ μ st))) :
    ∀ (n total : Nat) (taken : Bytes) (st : σ) (s : BR), Took s0 taken s → I st taken → s.unread.length + s.evs.length + μ st < n →
      (tryReadBuf f n total st s).1 ≠ .hang := by
  intro n
  induction n with
  | zero => intro _ _ _ _ _ _ h; omega
  | succ n ih =>
    intro total taken st s h0 hI hm
    have hi := h0.inv hi0
    have hfill := Took.fill s
    have hcases := BR.fill_cases hi
    have hfu := hfill.unread hi
    have hfe := (hfill.evs hi).length_le
    unfold tryReadBuf
    rcases hrd : s.readToBoundary with ⟨r, s1⟩
    rw [hrd] at hfill hcases hfu hfe
    simp only at hfill hcases hfu hfe
    rw [List.nil_append] at hfu
    rcases hcases with ⟨e, he, hlt, _⟩ | ⟨buf, he, _, hc⟩
    · subst he
      have h1 := h0.trans hfill
      rw [List.append_nil] at h1
      cases e <;> simp only <;> first | (apply ih _ taken <;> first | assumption | (rw [hfu] at hm; omega)) | (split <;> simp)
    · subst he
      simp only
      by_cases hb : buf = []
      · rw [if_pos hb]; simp
      · rw [if_neg hb]
        obtain ⟨f1, f2⟩ := hf st taken buf s h0 (by rw [hrd]) hb hI
        rcases hfs : f st buf with ⟨r, st1⟩
        rw [hfs] at f1 f2
        simp only at f1 f2
        cases r with
        | full c =>
          simp only
          obtain ⟨g1, g2, g3⟩ := f2 c rfl
          have hu := (hc c g1).unread hi
          have hl := congrArg List.length hu
          rw [List.length_append, List.length_take, Nat.min_eq_left g1] at hl
          have hev : (s1.consume c).evs = s1.evs := rfl
          apply ih _ _ _ _ (h0.trans (hc c g1)) g2
          rw [hev]
          omega
        | part c r => simp
        | error e => simp
        | panic => simp
        | hang => exact absurd rfl f1

/-! ## The closures -/

/-- `try_write_all`: a prefix of the bytes has reached the destination, all of them on success; `n` is its length. -/
theorem tryWriteAllAux_spec : ∀ (script : List WEv) (buf : Bytes) (total : Nat) (got : Bytes),
    ∃ k, k ≤ buf.length ∧ (tryWriteAllAux buf total got script).2.got = got ++ buf.take k ∧
      (((tryWriteAllAux buf total got script).1 = .full (total + buf.length) ∧ k = buf.length) ∨
       (∃ e, (tryWriteAllAux buf total got script).1 = .part (total + k) (.io e) ∧ 0 < total + k ∧ k < buf.length ∧ (∃ ev ∈ script, ev.FailsWith e)) ∨
       (∃ e, (tryWriteAllAux buf total got script).1 = .error e ∧ total + k = 0 ∧ 0 < buf.length ∧ (∃ ev ∈ script, ev.FailsWith e))) := by
  intro script
  induction script with
  | nil => intro buf total got; exact ⟨buf.length, Nat.le_refl _, by simp [tryWriteAllAux], .inl ⟨rfl, rfl⟩⟩
  | cons ev script ih =>
    intro buf total got
    unfold tryWriteAllAux
    by_cases hb : buf = []
    · rw [if_pos hb]; subst hb; exact ⟨0, Nat.le_refl _, by simp, .inl ⟨rfl, rfl⟩⟩
    · rw [if_neg hb]
      have hpos := List.length_pos_iff.mpr hb
      have more : ∀ {e : IoErr}, (∃ ev ∈ script, ev.FailsWith e) → ∃ ev' ∈ ev :: script, ev'.FailsWith e := fun ⟨x, h, h'⟩ => ⟨x, List.mem_cons_of_mem _ h, h'⟩
      have fail : ∀ e : IoErr, (∃ ev' ∈ ev :: script, ev'.FailsWith e) → ∃ k, k ≤ buf.length ∧ got = got ++ buf.take k ∧
          (((if total = 0 then SaveRes.error e else .part total (.io e) : SaveRes Nat Nat) = .full (total + buf.length) ∧ k = buf.length) ∨
          (∃ e', (if total = 0 then SaveRes.error e else .part total (.io e) : SaveRes Nat Nat) = .part (total + k) (.io e') ∧ 0 < total + k ∧ k < buf.length ∧
            (∃ ev' ∈ ev :: script, ev'.FailsWith e')) ∨
          (∃ e', (if total = 0 then SaveRes.error e else .part total (.io e) : SaveRes Nat Nat) = .error e' ∧ total + k = 0 ∧ 0 < buf.length ∧
            (∃ ev' ∈ ev :: script, ev'.FailsWith e'))) := by
        intro e he
        refine ⟨0, Nat.zero_le _, by simp, ?_⟩
        by_cases h0 : total = 0
        · rw [if_pos h0]; exact .inr (.inr ⟨e, rfl, by omega, hpos, he⟩)
        · rw [if_neg h0]; exact .inr (.inl ⟨e, rfl, by omega, hpos, he⟩)
      cases ev with
      | err e =>
        by_cases hint : e = .interrupted
        · subst hint
          simp only
          obtain ⟨k, h1, h2, h3⟩ := ih buf total got
          refine ⟨k, h1, h2, ?_⟩
          rcases h3 with h3 | ⟨e, h3, h4, h5, h6⟩ | ⟨e, h3, h4, h5, h6⟩
          · exact .inl h3
          · exact .inr (.inl ⟨e, h3, h4, h5, more h6⟩)
          · exact .inr (.inr ⟨e, h3, h4, h5, more h6⟩)
        · have := fail e ⟨_, List.mem_cons_self, .inl ⟨rfl, hint⟩⟩
          cases e <;> first | exact absurd rfl hint | exact this
      | accept n =>
        simp only
        by_cases h0 : Nat.min n buf.length = 0
        · rw [if_pos h0]; exact fail .writeZero ⟨_, List.mem_cons_self, .inr ⟨by
            have : n = 0 := by simp only [Nat.min_def] at h0; split at h0 <;> omega
            rw [this], rfl⟩⟩
        · rw [if_neg h0]
          have hm : Nat.min n buf.length ≤ buf.length := Nat.min_le_right _ _
          generalize Nat.min n buf.length = m at *
          obtain ⟨k, h1, h2, h3⟩ := ih (buf.drop m) (total + m) (got ++ buf.take m)
          rw [List.length_drop] at h1 h3
          refine ⟨m + k, by omega, ?_, ?_⟩
          · rw [h2, List.append_assoc, List.take_add]
          · rcases h3 with ⟨h3, h4⟩ | ⟨e, h3, h4, h5, h6⟩ | ⟨e, h3, h4, h5, h6⟩
            · exact .inl ⟨by rw [h3]; congr 1; omega, by omega⟩
            · exact .inr (.inl ⟨e, by rw [h3]; congr 1; omega, by omega, by omega, more h6⟩)
            · omega

theorem tryWriteAll_spec (buf : Bytes) (w : Sink) :
    ∃ k, k ≤ buf.length ∧ (tryWriteAll buf w).2.got = w.got ++ buf.take k ∧
      (((tryWriteAll buf w).1 = .full buf.length ∧ k = buf.length) ∨
       (∃ e, (tryWriteAll buf w).1 = .part k (.io e) ∧ 0 < k ∧ k < buf.length ∧ (∃ ev ∈ w.script, ev.FailsWith e)) ∨
       (∃ e, (tryWriteAll buf w).1 = .error e ∧ k = 0 ∧ 0 < buf.length ∧ (∃ ev ∈ w.script, ev.FailsWith e))) := by
  have := tryWriteAllAux_spec w.script buf 0 w.got
  simp only [Nat.zero_add] at this
  exact this

theorem tryWriteAllAux_script : ∀ (script : List WEv) (buf : Bytes) (total : Nat) (got : Bytes),
    (tryWriteAllAux buf total got script).2.script <:+ script := by
  intro script
  induction script with
  | nil => intro buf total got; simp [tryWriteAllAux]
  | cons ev script ih =>
    intro buf total got
    unfold tryWriteAllAux
    split
    · exact List.suffix_refl _
    · split
      · exact (ih _ _ _).trans (List.suffix_cons _ _)
      · exact List.suffix_cons _ _
      · split
        · exact List.suffix_cons _ _
        · exact (ih _ _ _).trans (List.suffix_cons _ _)

theorem tryWriteAll_script (buf : Bytes) (w : Sink) : (tryWriteAll buf w).2.script <:+ w.script := tryWriteAllAux_script _ _ _ _

/-- The destination `w0` has received the bytes `taken` since. -/
def Received (w0 w : Sink) (taken : Bytes) : Prop := w.got = w0.got ++ taken ∧ w.script <:+ w0.script

theorem write_stepOk (w0 : Sink) : StepOk (Received w0) (Received w0) (fun w buf => tryWriteAll buf w) where
  weaken _ _ h := h
  full w taken buf c _ hP h := by
    obtain ⟨k, h1, h2, h3⟩ := tryWriteAll_spec buf w
    rw [h] at h3
    simp only [SaveRes.full.injEq, reduceCtorEq, false_and, exists_false, or_false] at h3
    obtain ⟨rfl, rfl⟩ := h3
    exact ⟨Nat.le_refl _, by rw [h2, hP.1, List.append_assoc], (tryWriteAll_script _ _).trans hP.2⟩
  part w taken buf c r _ hP h := by
    obtain ⟨k, h1, h2, h3⟩ := tryWriteAll_spec buf w
    rw [h] at h3
    simp only [SaveRes.part.injEq, reduceCtorEq, false_and, exists_false, or_false, false_or] at h3
    obtain ⟨e, ⟨rfl, rfl⟩, h3⟩ := h3
    exact ⟨h1, by rw [h2, hP.1, List.append_assoc], (tryWriteAll_script _ _).trans hP.2⟩
  error w taken buf e _ hP h := by
    obtain ⟨k, h1, h2, h3⟩ := tryWriteAll_spec buf w
    rw [h] at h3
    simp only [SaveRes.error.injEq, reduceCtorEq, false_and, exists_false, false_or] at h3
    obtain ⟨e, rfl, rfl, h3⟩ := h3
    exact ⟨by rw [h2, hP.1]; simp, (tryWriteAll_script _ _).trans hP.2⟩
  safe w taken buf _ _ := by
    obtain ⟨k, h1, h2, ⟨h3, _⟩ | ⟨e, h3, _⟩ | ⟨e, h3, _⟩⟩ := tryWriteAll_spec buf w <;> simp only [h3] <;> simp

theorem write_exact (w : Sink) (buf : Bytes) (c : Nat) (h : (tryWriteAll buf w).1 = .full c) : c = buf.length := by
  obtain ⟨k, h1, h2, ⟨h3, _⟩ | ⟨e, h3, _⟩ | ⟨e, h3, _⟩⟩ := tryWriteAll_spec buf w <;> rw [h3] at h <;> simp at h
  exact h.symm

theorem mem_stepOk (acc0 : Bytes) : StepOk (fun acc taken => acc = acc0 ++ taken) (fun acc taken => acc = acc0 ++ taken) memStep where
  weaken _ _ h := h
  full acc taken buf c _ hP h := by
    simp only [memStep, SaveRes.full.injEq] at h ⊢
    subst h
    exact ⟨Nat.le_refl _, by rw [hP]; simp⟩
  part acc taken buf c r _ hP h := by simp [memStep] at h
  error acc taken buf e _ hP h := by simp [memStep] at h
  safe acc taken buf _ _ := by simp [memStep]

theorem text_stepOk : StepOk (fun acc taken => acc = taken ∧ IsUtf8 taken) (fun acc taken => acc = taken ∧ IsUtf8 taken) textStep where
  weaken _ _ h := h
  full acc taken buf c _ hP h := by
    unfold textStep at h ⊢
    by_cases hv : utf8Valid buf = true
    · rw [if_pos hv] at h ⊢
      simp only [SaveRes.full.injEq] at h ⊢
      subst h
      rw [List.take_length]
      exact ⟨Nat.le_refl _, by rw [hP.1], hP.2.append ((utf8Valid_iff _).mp hv)⟩
    · rw [if_neg hv] at h ⊢
      split at h
      · simp at h
      · rename_i h4
        rw [if_neg h4]
        simp only [SaveRes.full.injEq] at h ⊢
        subst h
        exact ⟨(validUpTo_spec buf).1, by rw [hP.1], hP.2.append (validUpTo_spec buf).2.1⟩
  part acc taken buf c r _ hP h := by
    unfold textStep at h ⊢
    split at h
    · simp at h
    · rename_i hv
      rw [if_neg hv]
      split at h
      · rename_i h4
        rw [if_pos h4]
        simp only [SaveRes.part.injEq] at h
        rw [← h.1]
        exact ⟨Nat.zero_le _, by simpa using hP⟩
      · simp at h
  error acc taken buf e _ hP h := by
    unfold textStep at h
    split at h
    · simp at h
    · split at h <;> simp at h
  safe acc taken buf _ _ := by
    unfold textStep
    split
    · simp
    · split <;> simp

theorem limited_stepOk {P Q : σ → Bytes → Prop} {f : σ → Bytes → SaveRes Nat Nat × σ} (hf : StepOk P Q f) (limit : Nat)
    (hx : ∀ st buf c, (f st buf).1 = .full c → c = buf.length) :
    StepOk (fun (st : Nat × σ) taken => P st.2 taken ∧ st.1 = Nat.min taken.length u64Max ∧ st.1 ≤ limit)
      (fun st taken => Q st.2 taken ∧ Nat.min taken.length u64Max ≤ limit) (limited f limit) where
  weaken st taken h := ⟨hf.weaken _ _ h.1, h.2.1 ▸ h.2.2⟩
  full st taken buf c hb hP h := by
    obtain ⟨h1, h2, h3⟩ := hP
    unfold limited at h ⊢
    simp only at h ⊢
    split at h
    · simp at h
    · rename_i hl
      rw [if_neg hl]
      simp only at h ⊢
      have hc := hx _ _ _ h
      obtain ⟨g1, g2⟩ := hf.full _ _ _ _ hb h1 h
      refine ⟨g1, g2, ?_, by omega⟩
      rw [List.length_append, List.length_take, Nat.min_eq_left g1, hc, h2]
      simp only [Nat.min_def]
      repeat' split
      all_goals omega
  part st taken buf c r hb hP h := by
    obtain ⟨h1, h2, h3⟩ := hP
    unfold limited at h ⊢
    simp only at h ⊢
    split at h
    · rename_i hl
      simp only [SaveRes.part.injEq] at h
      rw [if_pos hl, ← h.1]
      simp only [List.take_zero, List.append_nil]
      exact ⟨Nat.zero_le _, hf.weaken _ _ h1, h2 ▸ h3⟩
    · rename_i hl
      rw [if_neg hl]
      simp only at h ⊢
      obtain ⟨g1, g2⟩ := hf.part _ _ _ _ _ hb h1 h
      refine ⟨g1, g2, ?_⟩
      rw [h2] at hl
      rw [List.length_append, List.length_take, Nat.min_eq_left g1]
      simp only [Nat.min_def] at hl ⊢
      repeat' split at hl
      all_goals split
      all_goals omega
  error st taken buf e hb hP h := by
    obtain ⟨h1, h2, h3⟩ := hP
    unfold limited at h ⊢
    simp only at h ⊢
    split at h
    · simp at h
    · rename_i hl
      rw [if_neg hl]
      simp only at h ⊢
      exact ⟨hf.error _ _ _ _ hb h1 h, h2 ▸ h3⟩
  safe st taken buf hb hP := by
    unfold limited
    simp only
    split
    · simp
    · exact hf.safe _ _ _ hb hP.1

/-- The same for a closure that may leave bytes of its buffer: they are counted again. -/
theorem limited_stepOk_text {P Q : σ → Bytes → Prop} {f : σ → Bytes → SaveRes Nat Nat × σ} (hf : StepOk P Q f) (limit : Nat) :
    StepOk (fun (st : Nat × σ) taken => P st.2 taken ∧ Nat.min taken.length u64Max ≤ st.1 ∧ st.1 ≤ limit)
      (fun st taken => Q st.2 taken ∧ Nat.min taken.length u64Max ≤ limit) (limited f limit) where
  weaken st taken h := ⟨hf.weaken _ _ h.1, Nat.le_trans h.2.1 h.2.2⟩
  full st taken buf c hb hP h := by
    obtain ⟨h1, h2, h3⟩ := hP
    unfold limited at h ⊢
    simp only at h ⊢
    split at h
    · simp at h
    · rename_i hl
      rw [if_neg hl]
      simp only at h ⊢
      obtain ⟨g1, g2⟩ := hf.full _ _ _ _ hb h1 h
      refine ⟨g1, g2, ?_, by omega⟩
      rw [List.length_append, List.length_take, Nat.min_eq_left g1]
      simp only [Nat.min_def] at h2 hl ⊢
      repeat' split at hl
      all_goals repeat' split at h2
      all_goals repeat' split
      all_goals omega
  part st taken buf c r hb hP h := by
    obtain ⟨h1, h2, h3⟩ := hP
    unfold limited at h ⊢
    simp only at h ⊢
    split at h
    · rename_i hl
      simp only [SaveRes.part.injEq] at h
      rw [if_pos hl, ← h.1]
      simp only [List.take_zero, List.append_nil]
      exact ⟨Nat.zero_le _, hf.weaken _ _ h1, Nat.le_trans h2 h3⟩
    · rename_i hl
      rw [if_neg hl]
      simp only at h ⊢
      obtain ⟨g1, g2⟩ := hf.part _ _ _ _ _ hb h1 h
      refine ⟨g1, g2, ?_⟩
      rw [List.length_append, List.length_take, Nat.min_eq_left g1]
      simp only [Nat.min_def] at hl h2 ⊢
      repeat' split at hl
      all_goals repeat' split at h2
      all_goals repeat' split
      all_goals omega
  error st taken buf e hb hP h := by
    obtain ⟨h1, h2, h3⟩ := hP
    unfold limited at h ⊢
    simp only at h ⊢
    split at h
    · simp at h
    · rename_i hl
      rw [if_neg hl]
      simp only at h ⊢
      exact ⟨hf.error _ _ _ _ hb h1 h, Nat.le_trans h2 h3⟩
  safe st taken buf hb hP := by
    unfold limited
    simp only
    split
    · simp
    · exact hf.safe _ _ _ hb hP.1

/-- Why `try_copy_limited` stopped early: see `Stop`. `Over x`: the bytes `x` are too many. -/
inductive Why (f : σ → Bytes → SaveRes Nat Nat × σ) (P : σ → Bytes → Prop) (Over : Bytes → Prop) (limit : Nat) (s : BR) (taken : Bytes) (st' : σ) : SaveRes Nat Nat → Prop
  | limit {more : Bytes} {t : BR} : more ≠ [] → Took s (taken ++ more) t → Over (taken ++ more) → Why f P Over limit s taken st' (.part taken.length .sizeLimit)
  | read {e : IoErr} : taken ≠ [] → e ≠ .interrupted → Ev.err e ∈ s.evs → Why f P Over limit s taken st' (.part taken.length (.io e))
  | error {e : IoErr} : taken = [] → e ≠ .interrupted → Ev.err e ∈ s.evs → Why f P Over limit s taken st' (.error e)
  | stop {taken1 buf : Bytes} {st1 : σ} {s1 : BR} {c : Nat} {r : Reason} : buf ≠ [] → Took s taken1 s1 → s1.readToBoundary.1 = .ok buf →
      P st1 taken1 → Nat.min (taken1 ++ buf).length u64Max ≤ limit → f st1 buf = (.part c r, st') → taken = taken1 ++ buf.take c → Why f P Over limit s taken st' (.part taken.length r)
  | fail {buf : Bytes} {st1 : σ} {s1 : BR} {e : IoErr} : buf ≠ [] → Took s taken s1 → s1.readToBoundary.1 = .ok buf →
      P st1 taken → f st1 buf = (.error e, st') → Why f P Over limit s taken st' (.part taken.length (.io e))

/-- Outcome of `try_copy_limited`. -/
inductive LimitedCopy (P Q : σ → Bytes → Prop) (f : σ → Bytes → SaveRes Nat Nat × σ) (Over : Bytes → Prop) (limit : Nat) (s : BR) (st' : σ) (s' : BR) :
    SaveRes Nat Nat → Prop
  | hang : LimitedCopy P Q f Over limit s st' s' .hang
  | full {taken : Bytes} {s1 : BR} : Took s taken s1 → s1.AtEof → s' = s1.readToBoundary.2 → P st' taken → Nat.min taken.length u64Max ≤ limit →
      LimitedCopy P Q f Over limit s st' s' (.full taken.length)
  | stop {taken : Bytes} {r : SaveRes Nat Nat} : Took s taken s' → Q st' taken → Nat.min taken.length u64Max ≤ limit → Why f P Over limit s taken st' r →
      LimitedCopy P Q f Over limit s st' s' r

theorem limited_eq {f : σ → Bytes → SaveRes Nat Nat × σ} {limit : Nat} {st st' : Nat × σ} {buf : Bytes} {r : SaveRes Nat Nat}
    (h : limited f limit st buf = (r, st')) :
    (limit < Nat.min (st.1 + buf.length) u64Max ∧ r = .part 0 .sizeLimit ∧ st' = st) ∨
    (¬ limit < Nat.min (st.1 + buf.length) u64Max ∧ f st.2 buf = (r, st'.2)) := by
  unfold limited at h
  simp only at h
  split at h
  · rename_i hl
    simp only [Prod.mk.injEq] at h
    exact .inl ⟨hl, h.1.symm, h.2.symm⟩
  · rename_i hl
    simp only [Prod.mk.injEq] at h
    obtain ⟨h1, h2⟩ := h
    subst h2
    exact .inr ⟨hl, by simp only; rw [← h1]⟩

theorem tryCopyLimited_of {P Q : σ → Bytes → Prop} {f : σ → Bytes → SaveRes Nat Nat × σ} {limit fuel : Nat} {Over : Bytes → Prop} {C : Nat → Bytes → Prop} {st : σ} {s : BR}
    (hok : StepOk (fun (st : Nat × σ) taken => P st.2 taken ∧ C st.1 taken ∧ st.1 ≤ limit)
      (fun st taken => Q st.2 taken ∧ Nat.min taken.length u64Max ≤ limit) (limited f limit))
    (hC : ∀ n taken buf, C n taken → limit < Nat.min (n + buf.length) u64Max → Over (taken ++ buf)) (hC0 : C 0 [])
    (hPC : ∀ n taken, C n taken → Nat.min taken.length u64Max ≤ n) (hi : s.Inv) (hP : P st []) : LimitedCopy P Q f Over limit s (tryCopyLimited f fuel limit st s).2.1 (tryCopyLimited f fuel limit st s).2.2
      (tryCopyLimited f fuel limit st s).1 := by
  have hPC' : ∀ (n : Nat) (taken buf : Bytes), C n taken → ¬ limit < Nat.min (n + buf.length) u64Max → Nat.min (taken ++ buf).length u64Max ≤ limit := by
    intro n taken buf h h'
    have h := hPC _ _ h
    rw [List.length_append]
    simp only [Nat.min_def] at h h' ⊢
    repeat' split at h'
    all_goals repeat' split at h
    all_goals split
    all_goals omega
  have h := tryReadBuf_spec hok fuel [] (0, st) s hi ⟨hP, hC0, Nat.zero_le _⟩
  unfold tryCopyLimited
  simp only [List.length_nil] at h ⊢
  generalize tryReadBuf (limited f limit) fuel 0 (0, st) s = r at h
  obtain ⟨r, ⟨n, st'⟩, s'⟩ := r
  simp only at h ⊢
  cases h with
  | hang => exact .hang
  | full h1 h2 h3 h4 =>
    rw [List.nil_append] at h4 ⊢
    exact .full h1 h2 h3 h4.1 (Nat.le_trans (hPC _ _ h4.2.1) h4.2.2)
  | @stop taken _ h1 h2 h3 =>
    rw [List.nil_append] at h2
    refine .stop h1 h2.1 h2.2 ?_
    cases h3 with
    | error e1 e2 e3 => exact .error (by simpa using e3) e1 e2
    | read e1 e2 e3 => rw [List.nil_append] at e3 ⊢; exact .read e3 e1 e2
    | @stop taken1 buf st1 s1 c r a1 a2 a3 a4 a5 a6 a7 a8 =>
      rw [List.nil_append] at a2 ⊢
      rcases limited_eq a5 with ⟨g1, g2, g3⟩ | ⟨g1, g2⟩
      · simp only [SaveRes.part.injEq] at g2
        obtain ⟨rfl, rfl⟩ := g2
        rw [List.take_zero, List.append_nil] at a7
        subst a7
        obtain ⟨buf', hb1, _, hb2⟩ := (BR.fill_cases (a1.inv hi)).resolve_left (by rintro ⟨e, he, _⟩; rw [a3] at he; simp at he)
        rw [a3] at hb1
        simp only [Res.ok.injEq] at hb1
        subst hb1
        have := hb2 buf.length (Nat.le_refl _)
        rw [List.take_length] at this
        exact .limit a4 (a1.trans this) (hC _ _ _ a2.2.1 g1)
      · exact .stop a4 a1 a3 a2.1 (hPC' _ _ _ a2.2.1 g1) g2 a7
    | fail a1 a2 a3 a4 a5 a6 =>
      rw [List.nil_append] at a2 ⊢
      rcases limited_eq a5 with ⟨g1, g2, g3⟩ | ⟨g1, g2⟩
      · simp at g2
      · exact .fail a4 a1 a3 a2.1 g2

theorem tryCopyLimited_exact {P Q : σ → Bytes → Prop} {f : σ → Bytes → SaveRes Nat Nat × σ} (hf : StepOk P Q f) (limit fuel : Nat)
    (hx : ∀ st buf c, (f st buf).1 = .full c → c = buf.length) {st : σ} {s : BR} (hi : s.Inv) (hP : P st []) :
    LimitedCopy P Q f (fun x => limit < Nat.min x.length u64Max) limit s (tryCopyLimited f fuel limit st s).2.1 (tryCopyLimited f fuel limit st s).2.2
      (tryCopyLimited f fuel limit st s).1 := by
  refine tryCopyLimited_of (C := fun n taken => n = Nat.min taken.length u64Max) (limited_stepOk hf limit hx) ?_ rfl ?_ hi hP
  · intro n taken buf h1 h2
    subst h1
    rw [List.length_append]
    simp only [Nat.min_def] at h2 ⊢
    repeat' split at h2
    all_goals split
    all_goals omega
  · intro n taken h; omega

theorem tryCopyLimited_text {P Q : σ → Bytes → Prop} {f : σ → Bytes → SaveRes Nat Nat × σ} (hf : StepOk P Q f) (limit fuel : Nat)
    {st : σ} {s : BR} (hi : s.Inv) (hP : P st []) :
    LimitedCopy P Q f (fun _ => True) limit s (tryCopyLimited f fuel limit st s).2.1 (tryCopyLimited f fuel limit st s).2.2
      (tryCopyLimited f fuel limit st s).1 :=
  tryCopyLimited_of (C := fun n taken => Nat.min taken.length u64Max ≤ n) (limited_stepOk_text hf limit) (fun _ _ _ _ _ => trivial) (Nat.zero_le _)
    (fun _ _ h => h) hi hP

end Multipart

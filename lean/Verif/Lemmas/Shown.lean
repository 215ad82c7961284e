import Verif.Lemmas.SaveField
/-!
# What is in the buffer when saving stops at a limit
-/
namespace Multipart

variable {b : Settings} {s t : BR} {fuel : Nat} {w w' : World}

theorem BR.readToBoundary_shown {buf : Bytes} (hi : s.Inv) (h : s.readToBoundary = (.ok buf, t)) : buf.length ≤ t.buf.length := by
  rcases BR.readToBoundary_eq hi with ⟨e, -, he⟩ | ⟨-, he⟩
  · rw [he] at h; simp at h
  · rw [he] at h
    simp only [Prod.mk.injEq, Res.ok.injEq] at h
    rw [← h.1, ← h.2, List.length_take]
    exact Nat.min_le_right _ _

/-- If `save_mem` stops at the limit, what it has taken and what is in the buffer are together more than the limit. -/
theorem memLoop_shown {limit a : Nat} : ∀ (n total : Nat) (st : Nat × Bytes) (s : BR), s.Inv → st.1 + a ≤ st.2.length →
    ∀ c, (tryReadBuf (limited memStep limit) n total st s).1 = .part c .sizeLimit →
    limit + a < (tryReadBuf (limited memStep limit) n total st s).2.1.2.length + (tryReadBuf (limited memStep limit) n total st s).2.2.buf.length := by
  intro n
  induction n with
  | zero => intro total st s hi h c hc; simp [tryReadBuf] at hc
  | succ n ih =>
    intro total st s hi h c
    have hri := s.readToBoundary_inv hi
    have hsh := fun buf t => BR.readToBoundary_shown (s := s) (t := t) (buf := buf) hi
    unfold tryReadBuf
    generalize s.readToBoundary = x at hri hsh ⊢
    rcases x with ⟨x, t⟩
    cases x with
    | err e =>
      cases e <;> simp only <;> first | exact ih _ _ _ hri h c | (intro hc; split at hc <;> simp at hc)
    | panic => intro hc; simp at hc
    | hang => intro hc; simp at hc
    | ok buf =>
      simp only at hri ⊢
      split
      · intro hc; simp at hc
      · have hsh := hsh buf t rfl
        by_cases hl : limit < Nat.min (st.1 + buf.length) u64Max
        · have : limited memStep limit st buf = (.part 0 .sizeLimit, st) := by unfold limited; simp only; rw [if_pos hl]
          rw [this]
          intro _
          have := Nat.lt_of_lt_of_le hl (Nat.min_le_left _ _)
          simp [BR.consume]
          omega
        · have : limited memStep limit st buf = (.full buf.length, Nat.min (st.1 + buf.length) u64Max, st.2 ++ buf) := by unfold limited; simp only; rw [if_neg hl]; rfl
          rw [this]
          refine ih _ _ _ (BR.consume_inv hri _) ?_ c
          have : Nat.min (st.1 + buf.length) u64Max ≤ st.1 + buf.length := Nat.min_le_left _ _
          show Nat.min (st.1 + buf.length) u64Max + a ≤ (st.2 ++ buf).length
          rw [List.length_append]
          omega

theorem saveMem_shown {acc x : Bytes} (hi : s.Inv) (h : saveMem b fuel acc s = (.part x .sizeLimit, t)) : b.memLimit acc.length + acc.length < x.length + t.buf.length := by
  unfold saveMem at h
  have := memLoop_shown (limit := b.memLimit acc.length) (a := acc.length) fuel 0 (0, acc) s hi (by simp)
  unfold tryCopyLimited at h
  simp only at h
  generalize tryReadBuf (limited memStep (b.memLimit acc.length)) fuel 0 (0, acc) s = y at h this
  obtain ⟨r, ⟨k, acc'⟩, t'⟩ := y
  simp only at h this
  cases r with
  | part c r =>
    simp only [Prod.mk.injEq, SaveRes.part.injEq] at h
    obtain ⟨⟨rfl, rfl⟩, rfl⟩ := h
    exact this c rfl
  | error e => simp only [Prod.mk.injEq] at h; split at h <;> simp at h
  | _ => simp at h

theorem withPathMem_shown {p : Path} {acc : Bytes} {r : SaveRes SavedData SavedData} {s0 : BR} (hi : s0.Inv) (h0 : Took s0 acc s) (h : withPathMem b fuel p acc w s = (r, w', t)) :
    (w' = w ∧ (∀ q k, r ≠ .full (.file q k) ∧ ∀ e, r ≠ .part (.file q k) e) ∧ ∀ e, r = .error e → StreamErr s0 e) ∨
    ∃ x s1, Took s0 x s1 ∧ b.memLimit 0 < x.length + s1.buf.length ∧ x.length < b.sizeLimit ∧ saveFile b fuel p x w s1 = (r, w', t) := by
  have hm := saveMem_spec b fuel acc (h0.inv hi)
  have hs := fun x t => saveMem_shown (b := b) (fuel := fuel) (acc := acc) (x := x) (t := t) (h0.inv hi)
  unfold withPathMem at h
  generalize saveMem b fuel acc s = y at h hm hs
  obtain ⟨y, t'⟩ := y
  simp only at hm h
  rw [memLimit_sub] at hm hs
  cases hm with
  | @limit taken more _ h1 =>
    simp only at h
    split at h
    · rename_i hc
      refine .inr ⟨_, _, h0.trans h1, ?_, by simpa [Settings.cmpSizeLimit] using hc.2, h⟩
      have := hs _ _ rfl
      omega
    · simp only [Prod.mk.injEq] at h
      obtain ⟨rfl, rfl, -⟩ := h
      exact .inl ⟨rfl, by simp, by simp⟩
  | io h1 =>
    simp only at h
    rw [if_neg (by simp)] at h
    simp only [Prod.mk.injEq] at h
    obtain ⟨rfl, rfl, -⟩ := h
    exact .inl ⟨rfl, by simp, by simp⟩
  | error _ _ h2 =>
    simp only [Prod.mk.injEq] at h
    obtain ⟨rfl, rfl, -⟩ := h
    exact .inl ⟨rfl, by simp, fun _ g => by cases g; exact h2.after hi h0⟩
  | _ =>
    simp only [Prod.mk.injEq] at h
    obtain ⟨rfl, rfl, -⟩ := h
    exact .inl ⟨rfl, by simp, by simp⟩

/-- What `with_path` writes to a file first, and what is in the buffer then, are together more than may be kept in memory. -/
theorem withPath_shown {p : Path} {r : SaveRes SavedData SavedData} (hi : s.Inv) (h : withPath b fuel p w s = (r, w', t)) :
    (w' = w ∧ (∀ q k, r ≠ .full (.file q k) ∧ ∀ e, r ≠ .part (.file q k) e) ∧ ∀ e, r = .error e → StreamErr s e) ∨
    ∃ x s1, Took s x s1 ∧ b.memLimit 0 < x.length + s1.buf.length ∧ x.length < b.sizeLimit ∧ saveFile b fuel p x w s1 = (r, w', t) := by
  unfold withPath at h
  split at h
  · have ht := saveText_spec b fuel hi
    generalize saveText b fuel s = y at h ht
    obtain ⟨y, t'⟩ := y
    simp only at ht h
    have part : ∀ {x : Bytes} {e : Reason}, Took s x t' →
        (if (e = .sizeLimit ∧ b.cmpSizeLimit x.length = false) ∨ (e = .utf8 ∧ b.textPolicy ≠ .force) then withPathMem b fuel p x w t' else (.part (.text x) e, w, t')) = (r, w', t) →
        (w' = w ∧ (∀ q k, r ≠ .full (.file q k) ∧ ∀ e, r ≠ .part (.file q k) e) ∧ ∀ e, r = .error e → StreamErr s e) ∨
        ∃ x s1, Took s x s1 ∧ b.memLimit 0 < x.length + s1.buf.length ∧ x.length < b.sizeLimit ∧ saveFile b fuel p x w s1 = (r, w', t) := by
      intro x e h1 h
      split at h
      · exact withPathMem_shown hi h1 h
      · simp only [Prod.mk.injEq] at h
        obtain ⟨rfl, rfl, -⟩ := h
        exact .inl ⟨rfl, by simp, by simp⟩
    cases ht with
    | limit h1 => exact part h1 h
    | utf8 h1 => exact part h1 h
    | io h1 => exact part h1 h
    | error _ h2 =>
      simp only [Prod.mk.injEq] at h
      obtain ⟨rfl, rfl, -⟩ := h
      exact .inl ⟨rfl, by simp, fun _ g => by cases g; exact h2⟩
    | _ =>
      simp only [Prod.mk.injEq] at h
      obtain ⟨rfl, rfl, -⟩ := h
      exact .inl ⟨rfl, by simp, by simp⟩
  · exact withPathMem_shown hi (Took.refl s) h

end Multipart

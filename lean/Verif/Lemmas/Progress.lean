import Verif.Lemmas.Parts
namespace Multipart

theorem BR.readEntry_noPanic {D : Deps} (hD : D.Sane) {s : BR} (h : s.Inv) :
    (s.readEntry D).1 ≠ .panic ∧ (s.readEntry D).1 ≠ .hang := by
  have := BR.readEntry_spec hD h
  generalize (s.readEntry D).1 = r at this
  generalize (s.readEntry D).2 = t at this
  cases this <;> simp

/-- One `read` that is not at EOF makes progress: it takes a byte or uses up a failing read of the stream. -/
theorem BR.read_progress {s : BR} (h : s.Inv) {n : Nat} (hn : 0 < n) (he : ¬ s.AtEof) :
    (s.op (.read n)).2.unread.length + (s.op (.read n)).2.evs.length < s.unread.length + s.evs.length := by
  have hu := BR.op_unread h (.read n)
  have hl := congrArg List.length hu
  simp only [List.length_append] at hl
  have hsuf := (BR.op_skipped h (.read n)).2.2.2.1.length_le
  rcases BR.read_eq h n with ⟨e, h1, he'⟩ | ⟨h1, he'⟩
  · have : (s.op (.read n)).2 = s.refill := by simp only [BR.op, he']
    rw [this] at hsuf hl ⊢
    rcases s.refill_evs_lt_or with hlt | ⟨_, hf⟩
    · omega
    · rw [h1] at hf; simp at hf
  · have hai := s.afterRead_inv h
    have hpos : 0 < s.afterRead.idx := by
      apply Nat.pos_of_ne_zero
      intro h0
      apply he
      unfold BR.AtEof
      rcases BR.readToBoundary_eq h with ⟨e, h2, _⟩ | ⟨_, hr⟩
      · rw [h1] at h2; simp at h2
      · rw [hr, h0]; simp
    have h3 : (s.op (.read n)).1.length = Nat.min n s.afterRead.idx := by
      simp only [BR.op, he']
      rw [List.length_take]; exact Nat.min_eq_left (Nat.le_trans (Nat.min_le_right _ _) hai.idx_le)
    have h4 : 0 < Nat.min n s.afterRead.idx := Nat.lt_min.mpr ⟨hn, hpos⟩
    omega

/-- Reading repeatedly reaches the end of the field. -/
theorem BR.reaches_eof {n : Nat} (hn : 0 < n) : ∀ (m : Nat) {s : BR}, s.Inv → s.unread.length + s.evs.length ≤ m →
    ∃ k, k ≤ m ∧ (s.run (List.replicate k (.read n))).2.AtEof := by
  intro m
  induction m with
  | zero =>
    intro s h hm
    by_cases he : s.AtEof
    · exact ⟨0, by omega, he⟩
    · have := BR.read_progress h hn he; omega
  | succ m ih =>
    intro s h hm
    by_cases he : s.AtEof
    · exact ⟨0, by omega, he⟩
    · have := BR.read_progress h hn he
      obtain ⟨k, hk, hk'⟩ := ih (BR.op_inv h (.read n)) (by omega)
      exact ⟨k + 1, by omega, hk'⟩

/-- An entry uses up at least the delimiter line. -/
theorem BR.readEntry_shrinks {D : Deps} (hD : D.Sane) {s t : BR} {fh : FieldHeaders} (h : s.Inv)
    (he : s.readEntry D = (.ok (some fh), t)) : t.unread.length < s.unread.length := by
  have := BR.readEntry_spec hD h
  rw [he] at this
  simp only at this
  cases this with
  | entry _ hN _ _ _ _ _ _ hu =>
    cases hN with
    | @part p rest a b =>
      have h1 := congrArg List.length b
      have h2 := congrArg List.length hu
      simp [crlf] at h1 h2
      omega

/-- Every body can be read to its end, or to the first error. -/
theorem reads_total {D : Deps} (hD : D.Sane) : ∀ (m : Nat) {s : BR}, s.Inv → s.unread.length ≤ m → ∃ got fin, Reads D s got fin := by
  intro m
  induction m with
  | zero =>
    intro s h hm
    rcases hr : s.readEntry D with ⟨r, t⟩
    have hp := BR.readEntry_noPanic hD h
    rw [hr] at hp
    cases r with
    | err e => exact ⟨_, _, .fail hr⟩
    | panic => simp at hp
    | hang => simp at hp
    | ok o =>
      cases o with
      | none => exact ⟨_, _, .close hr⟩
      | some fh => have := BR.readEntry_shrinks hD h hr; omega
  | succ m ih =>
    intro s h hm
    rcases hr : s.readEntry D with ⟨r, t⟩
    have hp := BR.readEntry_noPanic hD h
    rw [hr] at hp
    cases r with
    | err e => exact ⟨_, _, .fail hr⟩
    | panic => simp at hp
    | hang => simp at hp
    | ok o =>
      cases o with
      | none => exact ⟨_, _, .close hr⟩
      | some fh =>
        have hs := BR.readEntry_shrinks hD h hr
        have hti : t.Inv := by have := BR.readEntry_inv hD h; rw [hr] at this; exact this
        obtain ⟨k, _, hk⟩ := BR.reaches_eof (n := 1) (by omega) _ hti (Nat.le_refl _)
        have hsk := BR.run_skipped (List.replicate k (.read 1)) hti
        have hle : (t.run (List.replicate k (.read 1))).2.unread.length ≤ m := by
          rw [hsk.1, List.length_drop]; omega
        obtain ⟨got, fin, hR⟩ := ih (BR.run_inv _ hti) hle
        exact ⟨_, _, .entry hr hk hR⟩

/-! ## After the end -/

theorem BR.readEntry_atEnd {D : Deps} {s : BR} (h : s.st = .atEnd) : s.readEntry D = (.ok none, s.setMin minBufSize) := by
  have h' : (s.setMin minBufSize).st = .atEnd := h
  unfold BR.readEntry BR.consumeBoundary
  rw [if_pos h']

theorem BR.Inv.idx_atEnd {s : BR} (h : s.Inv) (hst : s.st = .atEnd) : s.idx = 0 := by
  have := h.cursor; unfold BR.CursorOk at this; simpa only [hst] using this

theorem BR.op_atEnd {s : BR} (h : s.Inv) (hst : s.st = .atEnd) (o : FieldOp) : (s.op o).1 = [] := by
  cases o with
  | fillBuf => rfl
  | setMin n => rfl
  | consume n => simp [BR.op, h.idx_atEnd hst]
  | read n =>
    rcases BR.read_eq h n with ⟨e, _, he⟩ | ⟨_, he⟩
    · simp [BR.op, he]
    · have := (s.afterRead_inv h).idx_atEnd (by rw [BR.afterRead_other (by rw [hst]; simp)]; exact hst)
      simp [BR.op, he, this]

theorem BR.run_atEnd : ∀ (os : List FieldOp) {s : BR}, s.Inv → s.st = .atEnd → (s.run os).1 = [] := by
  intro os
  induction os with
  | nil => intro s _ _; rfl
  | cons o os ih =>
    intro s hi hst
    simp only [BR.run, BR.op_atEnd hi hst o, List.nil_append]
    exact ih (BR.op_inv hi o) ((BR.op_skipped hi o).2.2.2.2.mpr hst)

end Multipart

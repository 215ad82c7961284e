import Verif.Spec.Stream
namespace Multipart

theorem occursAt_append_left {d xs : Bytes} {p : Nat} (ys : Bytes) (h : OccursAt d xs p) (hd : d ≠ []) :
    OccursAt d (xs ++ ys) p := by
  unfold OccursAt at *
  by_cases hp : p ≤ xs.length
  · rw [List.drop_append_of_le_length hp]
    exact h.trans (List.prefix_append _ _)
  · rw [List.drop_of_length_le (by omega)] at h
    exact absurd (List.prefix_nil.mp h) hd

theorem occursAt_lt {d xs : Bytes} {p : Nat} (h : OccursAt d xs p) (hd : d ≠ []) : p + d.length ≤ xs.length := by
  unfold OccursAt at h
  have := h.length_le
  rw [List.length_drop] at this
  have : 0 < d.length := List.length_pos_iff.mpr hd
  omega

theorem occursAt_of_append {d xs ys : Bytes} {p : Nat} (h : OccursAt d (xs ++ ys) p)
    (hl : p + d.length ≤ xs.length) : OccursAt d xs p := by
  unfold OccursAt at *
  rw [List.drop_append_of_le_length (by omega)] at h
  exact List.prefix_of_prefix_length_le h (List.prefix_append _ _) (by rw [List.length_drop]; omega)

theorem occursAt_drop {d xs : Bytes} {p n : Nat} : OccursAt d (xs.drop n) p ↔ OccursAt d xs (n + p) := by
  unfold OccursAt; rw [List.drop_drop]

theorem findSub_some {d : Bytes} : ∀ {xs : Bytes} {p : Nat}, findSub d xs = some p → FirstAt d xs p := by
  intro xs
  induction xs with
  | nil =>
    intro p h
    unfold findSub at h
    split at h
    · next hp =>
      cases h
      refine ⟨?_, by omega⟩
      exact List.isPrefixOf_iff_prefix.mp hp
    · cases h
  | cons x xs ih =>
    intro p h
    unfold findSub at h
    split at h
    · next hp =>
      cases h
      exact ⟨List.isPrefixOf_iff_prefix.mp hp, by omega⟩
    · next hp =>
      rw [Option.map_eq_some_iff] at h
      obtain ⟨q, hq, rfl⟩ := h
      obtain ⟨h1, h2⟩ := ih hq
      refine ⟨by simpa [OccursAt] using h1, ?_⟩
      intro r hr
      cases r with
      | zero => intro hc; exact hp (List.isPrefixOf_iff_prefix.mpr hc)
      | succ r => simpa [OccursAt] using h2 r (by omega)

theorem findSub_none {d : Bytes} : ∀ {xs : Bytes}, findSub d xs = none → Absent d xs := by
  intro xs
  induction xs with
  | nil =>
    intro h
    unfold findSub at h
    split at h
    · cases h
    · next hp =>
      intro q hq
      simp only [OccursAt, List.drop_nil] at hq
      exact hp (List.isPrefixOf_iff_prefix.mpr hq)
  | cons x xs ih =>
    intro h
    unfold findSub at h
    split at h
    · cases h
    · next hp =>
      have := ih (by simpa using h)
      intro q hq
      cases q with
      | zero => exact hp (List.isPrefixOf_iff_prefix.mpr hq)
      | succ q => exact this q (by simpa [OccursAt] using hq)

theorem FirstAt.unique {d xs : Bytes} {p q : Nat} (h : FirstAt d xs p) (h' : FirstAt d xs q) : p = q := by
  rcases Nat.lt_trichotomy p q with hlt | heq | hlt
  · exact absurd h.1 (h'.2 _ hlt)
  · exact heq
  · exact absurd h'.1 (h.2 _ hlt)

theorem findSub_eq_some_iff {d xs : Bytes} {p : Nat} : findSub d xs = some p ↔ FirstAt d xs p := by
  refine ⟨findSub_some, fun h => ?_⟩
  cases hf : findSub d xs with
  | none => exact absurd h.1 (findSub_none hf p)
  | some q => rw [(findSub_some hf).unique h]

theorem findSub_eq_none_iff {d xs : Bytes} : findSub d xs = none ↔ Absent d xs := by
  refine ⟨findSub_none, fun h => ?_⟩
  cases hf : findSub d xs with
  | none => rfl
  | some q => exact absurd (findSub_some hf).1 (h q)

/-- Every byte string has a first occurrence of `d`, or none at all. -/
theorem firstAt_or_absent (d xs : Bytes) : (∃ p, FirstAt d xs p) ∨ Absent d xs := by
  cases h : findSub d xs with
  | none => exact .inr (findSub_none h)
  | some p => exact .inl ⟨p, findSub_some h⟩

theorem FirstAt.append {d xs : Bytes} {p : Nat} (h : FirstAt d xs p) (hd : d ≠ []) (ys : Bytes) :
    FirstAt d (xs ++ ys) p := by
  refine ⟨occursAt_append_left ys h.1 hd, fun q hq hc => ?_⟩
  have := occursAt_lt h.1 hd
  exact h.2 q hq (occursAt_of_append hc (by omega))

theorem FirstAt.drop {d xs : Bytes} {p n : Nat} (h : FirstAt d xs p) (hn : n ≤ p) :
    FirstAt d (xs.drop n) (p - n) := by
  refine ⟨?_, fun q hq hc => ?_⟩
  · rw [occursAt_drop]; have : n + (p - n) = p := by omega
    rw [this]; exact h.1
  · rw [occursAt_drop] at hc; exact h.2 (n + q) (by omega) hc

theorem FirstAt.of_drop {d xs : Bytes} {p n : Nat} (h : FirstAt d (xs.drop n) p)
    (hb : ∀ q, q < n → ¬ OccursAt d xs q) : FirstAt d xs (n + p) := by
  refine ⟨occursAt_drop.mp h.1, fun q hq hc => ?_⟩
  by_cases hqn : q < n
  · exact hb q hqn hc
  · apply h.2 (q - n) (by omega)
    rw [occursAt_drop]
    have : n + (q - n) = q := by omega
    rw [this]; exact hc

theorem fragLoop_spec {d buf : Bytes} : ∀ (n i : Nat),
    (∀ j, fragLoop d buf n i = some j → i ≤ j ∧ j < i + n ∧ buf.drop j <+: d ∧
      ∀ k, i ≤ k → k < j → ¬ buf.drop k <+: d) ∧
    (fragLoop d buf n i = none → ∀ k, i ≤ k → k < i + n → ¬ buf.drop k <+: d) := by
  intro n
  induction n with
  | zero => intro i; exact ⟨fun j h => by simp [fragLoop] at h, fun _ k h1 h2 => by omega⟩
  | succ n ih =>
    intro i
    obtain ⟨ih1, ih2⟩ := ih (i + 1)
    unfold fragLoop
    split
    · next hp =>
      refine ⟨fun j h => ?_, fun h => by cases h⟩
      cases h
      exact ⟨by omega, by omega, List.isPrefixOf_iff_prefix.mp hp, fun k h1 h2 => by omega⟩
    · next hp =>
      refine ⟨fun j h => ?_, fun h k h1 h2 => ?_⟩
      · obtain ⟨a, b, c, e⟩ := ih1 j h
        refine ⟨by omega, by omega, c, fun k h1 h2 => ?_⟩
        by_cases hk : k = i
        · subst hk; exact fun hc => hp (List.isPrefixOf_iff_prefix.mpr hc)
        · exact e k (by omega) h2
      · by_cases hk : k = i
        · subst hk; exact fun hc => hp (List.isPrefixOf_iff_prefix.mpr hc)
        · exact ih2 h k (by omega) (by omega)

/-- `find_boundary` found the delimiter: it is the first occurrence whatever follows the buffer. -/
theorem findBoundary_ok {buf d : Bytes} {p : Nat} (h : findBoundary buf d = .ok p) : FirstAt d buf p := by
  unfold findBoundary at h
  split at h
  · next hf => cases h; exact findSub_some hf
  · simp only at h
    split at h <;> cases h

/-- `find_boundary` did not find the delimiter: no occurrence starts before the yielded length, whatever follows
the buffer; and the yielded length is the end of the buffer, or the rest of the buffer is a proper non-empty prefix of the delimiter. -/
theorem findBoundary_error {buf d : Bytes} {y : Nat} (hd : d ≠ []) (h : findBoundary buf d = .error y) :
    y ≤ buf.length ∧ (∀ tail q, q < y → ¬ OccursAt d (buf ++ tail) q) ∧
    (y = buf.length ∨ (y < buf.length ∧ buf.drop y <+: d ∧ buf.length < y + d.length)) := by
  have hdl : 0 < d.length := List.length_pos_iff.mpr hd
  unfold findBoundary at h
  split at h
  · cases h
  next hf =>
    have habs := findSub_none hf
    simp only at h
    have key : ∀ k tail, k < buf.length → OccursAt d (buf ++ tail) k →
        buf.length - d.length ≤ k ∧ buf.drop k <+: d := by
      intro k tail hk hocc
      by_cases hl : k + d.length ≤ buf.length
      · exact absurd (occursAt_of_append hocc hl) (habs k)
      · refine ⟨by omega, ?_⟩
        unfold OccursAt at hocc
        rw [List.drop_append_of_le_length (by omega)] at hocc
        exact List.prefix_of_prefix_length_le (List.prefix_append _ _) hocc (by rw [List.length_drop]; omega)
    have hs := fragLoop_spec (d := d) (buf := buf) (buf.length - (buf.length - d.length)) (buf.length - d.length)
    split at h
    · next j hj =>
      cases h
      obtain ⟨h1, h2, h3, h4⟩ := hs.1 _ hj
      have hlt : y < buf.length := by omega
      refine ⟨by omega, ?_, .inr ⟨hlt, h3, ?_⟩⟩
      · intro tail q hq hocc
        obtain ⟨k1, k2⟩ := key q tail (by omega) hocc
        exact h4 q k1 hq k2
      · -- a fragment as long as the delimiter would be an occurrence
        have hne : ¬ d.length ≤ (buf.drop y).length := by
          intro hle
          have := List.IsPrefix.eq_of_length_le h3 hle
          exact habs y (by unfold OccursAt; rw [this]; exact List.prefix_rfl)
        rw [List.length_drop] at hne
        omega
    · next hj =>
      cases h
      refine ⟨by omega, ?_, .inl rfl⟩
      intro tail q hq hocc
      obtain ⟨k1, k2⟩ := key q tail (by omega) hocc
      exact hs.2 hj q k1 (by omega) k2

end Multipart

import Verif.Lemmas.Consume
namespace Multipart

theorem findBoundary_error_intro {buf d : Bytes} {y : Nat} (hd : d ≠ []) (hab : Absent d buf) (hy : y ≤ buf.length)
    (hno : ∀ q, q < y → ¬ buf.drop q <+: d) (hf : y = buf.length ∨ buf.drop y <+: d) : findBoundary buf d = .error y := by
  cases hr : findBoundary buf d with
  | ok p => exact absurd (findBoundary_ok hr).1 (hab p)
  | error y' =>
    obtain ⟨h1, h2, h3⟩ := findBoundary_error hd hr
    congr 1
    rcases Nat.lt_trichotomy y' y with hlt | heq | hlt
    · rcases h3 with h3 | h3
      · omega
      · exact absurd h3.2.1 (hno y' hlt)
    · exact heq
    · rcases hf with hf | hf
      · omega
      · exfalso
        obtain ⟨t, ht⟩ := hf
        apply h2 t y hlt
        unfold OccursAt
        rw [List.drop_append_of_le_length hy, ht]
        exact List.prefix_rfl

theorem prefix_head {d xs : Bytes} {c : Byte} (hd : dashes <+: d) (h : (c :: xs) <+: d) : c = 0x2D := by
  obtain ⟨t, rfl⟩ := hd
  simp [dashes] at h
  exact h.1

theorem crlf_drop_zero {xs : Bytes} (h : crlf <+: xs) : ∃ r, xs = 0x0D :: 0x0A :: r := by
  obtain ⟨t, rfl⟩ := h
  exact ⟨t, rfl⟩

/-- A search that starts at the cursor of the previous one, on the same buffer, gives the same result. -/
theorem BR.search_again {buf : Bytes} {evs : List Ev} {m : Nat} {d : Bytes} {i y : Nat} (hd : dashes <+: d) (hy : y ≤ buf.length)
    (hi : i = y ∨ (i + 2 = y ∧ crlf <+: buf.drop i))
    (hf : y = buf.length ∨ (y < buf.length ∧ buf.drop y <+: d ∧ buf.length < y + d.length)) :
    BR.search ⟨buf, evs, m, d, i, .searching⟩ = ⟨buf, evs, m, d, y, .searching⟩ := by
  have hdne : d ≠ [] := by intro hc; rw [hc] at hd; simp [dashes] at hd
  unfold BR.search
  simp only
  split
  · next hlt =>
    have hfb : findBoundary (buf.drop i) d = .error (y - i) := by
      have hcr : ∀ q, i + q < y → ∃ c r, (buf.drop i).drop q = c :: r ∧ c ≠ 0x2D := by
        intro q hq
        rcases hi with hi | ⟨hi, hc⟩
        · omega
        · obtain ⟨r, hr⟩ := crlf_drop_zero hc
          rw [hr]
          have : q = 0 ∨ q = 1 := by omega
          rcases this with rfl | rfl
          · exact ⟨_, _, rfl, by decide⟩
          · exact ⟨_, _, rfl, by decide⟩
      apply findBoundary_error_intro hdne
      · intro q hocc
        by_cases hq : i + q < y
        · obtain ⟨c, r, hcr1, hcr2⟩ := hcr q hq
          unfold OccursAt at hocc
          rw [hcr1] at hocc
          obtain ⟨t, rfl⟩ := hd
          simp [dashes] at hocc
          exact hcr2 hocc.1.symm
        · have := occursAt_lt hocc hdne
          rw [List.length_drop] at this
          have : 0 < d.length := List.length_pos_iff.mpr hdne
          rcases hf with hf | hf <;> omega
      · rw [List.length_drop]; omega
      · intro q hq hc
        obtain ⟨c, r, hcr1, hcr2⟩ := hcr q (by omega)
        rw [hcr1] at hc
        exact hcr2 (prefix_head hd hc)
      · rw [List.length_drop, List.drop_drop]
        rcases hf with hf | hf
        · left; omega
        · right
          have : i + (y - i) = y := by omega
          rw [this]; exact hf.2.1
    rw [hfb]
    simp only [BR.mk.injEq, true_and, and_true]
    omega
  · next hge =>
    have : i = y := by omega
    rw [this]

theorem BR.afterRead_searching {s : BR} (h : s.st = .searching) : s.afterRead = s.refill.search.backUp := by
  unfold BR.afterRead; rw [if_pos h]
theorem BR.afterRead_other {s : BR} (h : s.st ≠ .searching) : s.afterRead = s.refill := by
  unfold BR.afterRead; rw [if_neg h]

/-- `s` is the state left behind by a successful `read_to_boundary`. -/
def BR.Settled (s : BR) : Prop := ∃ s0 : BR, s0.Inv ∧ s = s0.afterRead

theorem BR.backUp_congr {s t : BR} (h1 : s = t) : s.backUp = t.backUp := by rw [h1]

/-- `read_to_boundary` right after a `read_to_boundary`, when the buffer is not refilled, changes nothing. -/
theorem BR.settled_stable {s : BR} (h : s.Settled) (hre : s.refill = s) : s.afterRead = s := by
  obtain ⟨s0, hinv, rfl⟩ := h
  by_cases hst : s0.st = .searching
  · by_cases hst1 : s0.afterRead.st = .searching
    · have hdef : s0.afterRead = s0.refill.search.backUp := by unfold BR.afterRead; rw [if_pos hst]
      have hdef1 : s0.afterRead.afterRead = s0.afterRead.search.backUp := by
        rw [BR.afterRead_searching hst1, hre]
      obtain ⟨e1, e2, e3, e4, e5, e6, e7⟩ := s0.refill.search_spec (s0.refill_inv hinv) hst
      obtain ⟨b1, b2, b3, b4, b5, b6⟩ := s0.refill.search.backUp_spec
      rw [← hdef] at b1 b2 b3 b4 b5 b6
      have hss : s0.refill.search.st = .searching := by rw [← b5]; exact hst1
      rcases e7 with ⟨e7, _⟩ | ⟨_, noc, e8⟩
      · rw [hss] at e7; simp at e7
      have key : s0.afterRead.search = s0.refill.search := by
        have hrec : s0.afterRead = ⟨s0.refill.search.buf, s0.refill.search.evs, s0.refill.search.min, s0.refill.search.delim, s0.afterRead.idx, .searching⟩ := by
          rw [← b1, ← b2, ← b3, ← b4]
          conv => lhs; rw [show s0.afterRead = ⟨s0.afterRead.buf, s0.afterRead.evs, s0.afterRead.min, s0.afterRead.delim, s0.afterRead.idx, s0.afterRead.st⟩ from rfl]
          rw [hst1]
        rw [hrec]
        have hrec2 : s0.refill.search = ⟨s0.refill.search.buf, s0.refill.search.evs, s0.refill.search.min, s0.refill.search.delim, s0.refill.search.idx, .searching⟩ := by
          conv => lhs; rw [show s0.refill.search = ⟨s0.refill.search.buf, s0.refill.search.evs, s0.refill.search.min, s0.refill.search.delim, s0.refill.search.idx, s0.refill.search.st⟩ from rfl]
          rw [hss]
        conv => rhs; rw [hrec2]
        apply BR.search_again
        · rw [e4]; exact hinv.dash
        · rw [e1]; exact e6
        · rcases b6 with ⟨b6, _⟩ | ⟨b6, b7, b8, _⟩
          · left; exact b6
          · right; exact ⟨by omega, by rw [b7]; exact take_eq_imp_prefix b8⟩
        · rw [e1, e4]; exact e8
      rw [hdef1, key, ← hdef]
    · rw [BR.afterRead_other hst1, hre]
  · have hdef : s0.afterRead = s0.refill := by unfold BR.afterRead; rw [if_neg hst]
    have hst1 : s0.afterRead.st ≠ .searching := by rw [hdef]; exact hst
    rw [BR.afterRead_other hst1, hre]

theorem BR.refill_eq_self {s : BR} (h : s.Full) : s.refill = s ∧ (fill s.min s.buf s.evs).1 = none := by
  have := (fill_spec s.min s.evs s.buf).same h
  exact ⟨by unfold BR.refill; rw [this.2.1, this.2.2], this.1⟩

theorem BR.refill_evs_lt_or {s : BR} : s.refill.evs.length < s.evs.length ∨ (s.refill = s ∧ (fill s.min s.buf s.evs).1 = none) := by
  rcases (fill_spec s.min s.evs s.buf).progress with h | h
  · left; exact h
  · right; exact ⟨by unfold BR.refill; rw [h.2.1, h.2.2], h.1⟩

end Multipart

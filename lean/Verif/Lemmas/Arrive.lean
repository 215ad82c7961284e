import Verif.Spec.ReadSizes
import Verif.Lemmas.Session
/-!
# Ways for a body to arrive
-/
namespace Multipart

/-- These bytes, one by one. -/
def Ev.single (u : Bytes) : List Ev := u.map fun c => .data [c]

theorem Ev.bytes_single (u : Bytes) : Ev.bytes (Ev.single u) = u := by
  induction u with
  | nil => rfl
  | cons c u ih => rw [Ev.single, List.map_cons, Ev.bytes]; show [c] ++ Ev.bytes (Ev.single u) = _; rw [ih]; rfl

theorem Ev.mem_single {u : Bytes} {e : Ev} (h : e ∈ Ev.single u) : ∃ c, e = .data [c] := by
  obtain ⟨c, -, rfl⟩ := List.mem_map.mp h
  exact ⟨c, rfl⟩

/-- Some reads between bytes that arrive one by one. -/
theorem Ev.around {u v : Bytes} {Ps : List Ev} {n m : Nat} (h1 : ReadsFrom m Ps) (h2 : ReadsUpTo n Ps) (hm : 0 < m) (hn : 0 < n) :
    NoStall (Ev.single u ++ Ps ++ Ev.single v) ∧ NoErr (Ev.single u ++ Ps ++ Ev.single v) ∧ ReadsUpTo n (Ev.single u ++ Ps ++ Ev.single v) := by
  have key : ∀ e, e ∈ Ev.single u ++ Ps ++ Ev.single v → (∃ c, e = .data [c]) ∨ e ∈ Ps := by
    intro e h
    rw [List.mem_append, List.mem_append] at h
    rcases h with (h | h) | h
    · exact .inl (Ev.mem_single h)
    · exact .inr h
    · exact .inl (Ev.mem_single h)
  refine ⟨fun h => ?_, fun e h => ?_, fun bs h => ?_⟩
  · rcases key _ h with ⟨c, hc⟩ | h
    · cases hc
    · obtain ⟨bs, hb, hl⟩ := h1 _ h
      cases hb
      simp at hl
      omega
  · rcases key _ h with ⟨c, hc⟩ | h
    · cases hc
    · obtain ⟨bs, hb, _⟩ := h1 _ h
      cases hb
  · rcases key _ h with ⟨c, hc⟩ | h
    · cases hc; simp; omega
    · exact h2 _ h

/-- At least `m` bytes can be divided into reads of `m` bytes and more, but not twice as many. -/
theorem Ev.pieces {m : Nat} (hm : 0 < m) : ∀ (n : Nat) (u : Bytes), u.length ≤ n → m ≤ u.length → ∃ Ps, Ev.bytes Ps = u ∧ ReadsFrom m Ps ∧ ReadsUpTo (2 * m) Ps := by
  intro n
  induction n with
  | zero => intro u h1 h2; omega
  | succ n ih =>
    intro u h1 h2
    by_cases h : u.length < 2 * m
    · refine ⟨[.data u], by simp [Ev.bytes], fun e he => ⟨u, by simpa using he, h2⟩, fun bs hb => ?_⟩
      simp only [List.mem_singleton, Ev.data.injEq] at hb
      subst hb; omega
    · obtain ⟨Ps, g1, g2, g3⟩ := ih (u.drop m) (by rw [List.length_drop]; omega) (by rw [List.length_drop]; omega)
      refine ⟨.data (u.take m) :: Ps, by simp [Ev.bytes, g1], fun e he => ?_, fun bs hb => ?_⟩
      · rcases List.mem_cons.mp he with rfl | he
        · exact ⟨_, rfl, by rw [List.length_take]; omega⟩
        · exact g2 _ he
      · rcases List.mem_cons.mp hb with hb | hb
        · cases hb; rw [List.length_take]; omega
        · exact g3 _ hb

end Multipart

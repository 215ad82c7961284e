import Verif.Lemmas.Parts
import Verif.Lemmas.Keeps
/-!
# Short fields

Until the first byte of a field is taken, the buffer may end between the CR and the LF in front of the next delimiter: the search only stops too late if the LF is missing when the
caller is shown the CR. A field that fits into the minimum buffer is complete when the caller is shown its first byte.
-/
namespace Multipart
variable {D : Deps} {s t : BR} {p : Nat}

theorem BR.Whole.afterRead (hi : s.Inv) (h : s.Whole p) : s.afterRead.Whole p := by
  by_cases hst : s.st = .searching
  · obtain ⟨e1, e2, e3, e4, e5, e6, e7⟩ := s.refill.search_spec (s.refill_inv hi) hst
    rcases e7 with ⟨-, fa, hl⟩ | ⟨e7, -⟩
    · refine (h.exact hi fun hc => ?_).whole
      have := le_of_mem_cutsFrom hc
      have := fa.unique h.refill.first
      have := h.two
      omega
    · obtain ⟨b1, b2, b3, b4, b5, -⟩ := s.refill.search.backUp_spec
      have hd := (s.afterRead_frame).2.2.2
      refine ⟨by rw [s.afterRead_unread, hd]; exact h.first, h.two, by rw [s.afterRead_unread]; exact h.crlf, fun hne => absurd ?_ hne⟩
      rw [BR.afterRead_searching hst, b5, e7]
  · rw [BR.afterRead_other hst]; exact h.refill

theorem BR.Whole.consume (hi : s.Inv) (h : s.Whole p) (n : Nat) (hn : Nat.min n s.idx + 2 ≤ p) : (s.consume n).Whole (p - Nat.min n s.idx) := by
  have hu := BR.consume_unread_drop hi n
  have e2 : (s.consume n).idx = s.idx - Nat.min n s.idx := rfl
  have e3 : (s.consume n).st = s.st := rfl
  have hx := h.idx
  generalize Nat.min n s.idx = k at *
  refine ⟨by rw [hu]; exact h.first.drop (by omega), by omega, ?_, fun hne => by have := hx (e3 ▸ hne); omega⟩
  rw [hu, occursAt_drop]
  have : k + (p - k - 2) = p - 2 := by omega
  rw [this]; exact h.crlf

theorem BR.Whole.withHeadersLoop : ∀ (n last : Nat) {s : BR} {p : Nat}, s.Inv → s.Whole p → (withHeadersLoop D n last s).2.Whole p ∧ (withHeadersLoop D n last s).2.Inv := by
  intro n
  induction n with
  | zero => intro last s p hi h; exact ⟨h, hi⟩
  | succ n ih =>
    intro last s p hi h
    unfold Multipart.withHeadersLoop
    rcases BR.readToBoundary_eq hi with ⟨e, _, he⟩ | ⟨_, he⟩
    · rw [he]; exact ⟨h.refill, s.refill_inv hi⟩
    · rw [he]
      have ha := h.afterRead hi
      have hai := s.afterRead_inv hi
      simp only
      split
      · exact ⟨ha, hai⟩
      · split
        · exact ⟨ha, hai⟩
        · exact ih _ hai ha
        · split <;> exact ⟨ha, hai⟩

/-- At the start of every field whose delimiter is preceded by CRLF. -/
theorem BR.readEntry_whole (hD : D.Sane) {s0 : BR} {fh : FieldHeaders} {n : Nat} (hi : s0.Inv) (he : s0.readEntry D = (.ok (some fh), s))
    (hf : FirstAt s.delim s.unread (n + 2)) (hc : OccursAt crlf s.unread n) : s.Whole (n + 2) := by
  have hsi := BR.setMin_inv hi minBufSize
  unfold BR.readEntry at he
  rcases hcb : (s0.setMin minBufSize).consumeBoundary with ⟨r, t⟩
  rw [hcb] at he
  cases r with
  | err e => simp at he
  | panic => simp at he
  | hang => simp at he
  | ok b =>
    cases b with
    | false => simp at he
    | true =>
      simp only at he
      obtain ⟨t1, t2, t3, t4, t5, t6⟩ := BR.consumeBoundary_true hsi hcb
      have hh := BR.readHeaders_spec hD t1
      have hw : ∀ q, t.Whole q → (t.readHeaders D).1 = .ok fh → ∃ (k : Nat) (x : BR), (t.readHeaders D).2 = x.consume k ∧ x.Inv ∧ x.Whole q := by
        intro q hq hok
        unfold BR.readHeaders FieldHeaders.readFrom withHeaders at hok ⊢
        obtain ⟨ha, hai⟩ := BR.Whole.withHeadersLoop (D := D) (t.evs.length + 2) 0 t1 hq
        generalize Multipart.withHeadersLoop D (t.evs.length + 2) 0 t = r at ha hai hok ⊢
        rcases r with ⟨r1, x⟩
        simp only at ha hai
        cases r1 with
        | ok y =>
          obtain ⟨k, hs⟩ := y
          simp only at hok ⊢
          cases hp : FieldHeaders.parse D hs with
          | ok fh' => exact ⟨k, x, rfl, hai, ha⟩
          | error e => exact ⟨k, x, rfl, hai, ha⟩
        | _ => simp at hok
      rcases hrh : t.readHeaders D with ⟨r, w⟩
      rw [hrh] at he hh hw
      cases r with
      | err e => simp at he
      | panic => simp at he
      | hang => simp at he
      | ok fh' =>
        simp only [Prod.mk.injEq, Res.ok.injEq, Option.some.injEq] at he
        obtain ⟨rfl, rfl⟩ := he
        simp only at hh
        cases hh with
        | @ok _ k hs' _ k1 k2 k3 k4 k5 k6 =>
          have hwd : w.unread = t.unread.drop k := k1.unread
          have hdw : w.delim = t.delim := k1.delim
          have hft : FirstAt t.delim t.unread (k + (n + 2)) := by
            rw [hdw, hwd] at hf
            exact hf.of_drop k1.none
          have hct : OccursAt crlf t.unread (k + (n + 2) - 2) := by
            rw [hwd, occursAt_drop] at hc
            have : k + (n + 2) - 2 = k + n := by omega
            rw [this]; exact hc
          obtain ⟨j, x, hx, hxi, hxw⟩ := hw (k + (n + 2)) ⟨hft, by omega, hct, fun h => absurd t2 h⟩ rfl
          simp only at hx
          subst hx
          have hju := BR.consume_unread_drop hxi j
          have hlen : Nat.min j x.idx + (n + 2) = k + (n + 2) := by
            have h1 : FirstAt x.delim (x.unread.drop (Nat.min j x.idx)) (n + 2) := by rw [← hju]; exact hf
            have hq : Nat.min j x.idx ≤ k + (n + 2) := by
              refine Nat.not_lt.mp fun hlt => ?_
              have h2 := (BR.skipped_consume hxi j).none
              exact h2 _ hlt hxw.first.1
            have h3 := hxw.first.drop hq
            have := h1.unique h3
            omega
          have := hxw.consume hxi j (by omega)
          have e : k + (n + 2) - Nat.min j x.idx = n + 2 := by omega
          rw [e] at this; exact this

/-- The field fits into the minimum buffer, or the search for its end is known to stop in time. -/
structure BR.Fits (u : Bytes) (s : BR) : Prop where
  inv : s.Inv
  flow : NoStall s.evs
  fits : (∃ p, s.Whole p ∧ p ≤ s.min ∧ s.unread = u) ∨ ∃ q, s.Exact q

variable {u : Bytes}

theorem BR.Fits.refill (h : s.Fits u) : s.refill.Fits u := by
  refine ⟨s.refill_inv h.inv, h.flow.suffix s.refill_evs_suf, ?_⟩
  rcases h.fits with ⟨p, h1, h2, h3⟩ | ⟨q, h1⟩
  · exact .inl ⟨p, h1.refill, h2, by rw [s.refill_unread]; exact h3⟩
  · exact .inr ⟨q, h1.refill⟩

/-- A `fill_buf` that succeeds. -/
theorem BR.Fits.afterRead (h : s.Fits u) (hf : (fill s.min s.buf s.evs).1 = none) : ∃ q, s.afterRead.Exact q := by
  rcases h.fits with ⟨p, h1, h2, h3⟩ | ⟨q, h1⟩
  · refine ⟨p, h1.exact h.inv fun hc => ?_⟩
    have := le_of_mem_cutsFrom hc
    have h4 := h1.two
    rcases BR.refill_full h.flow hf with g | g
    · have : s.refill.min = s.min := rfl
      omega
    · have h5 := h1.refill.first.1
      have hu : s.refill.unread = s.refill.buf := by unfold BR.unread; rw [g]; simp [Ev.bytes]
      rw [hu] at h5
      have h6 := List.IsPrefix.length_le h5
      rw [List.length_drop] at h6
      have := List.length_pos_iff.mpr (s.refill_inv h.inv).delim_ne
      omega
  · exact ⟨q, h1.afterRead h.inv⟩

theorem BR.Fits.kept (u : Bytes) : KeptByFields (BR.Fits u) := by
  refine ⟨fun s h => ?_, fun s t buf n h hr => ?_⟩
  · rcases BR.readToBoundary_eq h.inv with ⟨e, _, he⟩ | ⟨hf, he⟩
    · rw [he]; exact h.refill
    · rw [he]; exact ⟨s.afterRead_inv h.inv, by rw [s.afterRead_frame.2.1]; exact h.refill.flow, .inr (h.afterRead hf)⟩
  · rcases BR.readToBoundary_eq h.inv with ⟨e, _, he⟩ | ⟨hf, he⟩
    · rw [he] at hr; simp at hr
    · rw [he] at hr
      simp only [Prod.mk.injEq] at hr
      obtain ⟨q, hq⟩ := h.afterRead hf
      have hi := s.afterRead_inv h.inv
      rw [← hr.2]
      exact ⟨BR.consume_inv hi n, by show NoStall s.afterRead.evs; rw [s.afterRead_frame.2.1]; exact h.refill.flow, .inr ⟨_, hq.consume hi n⟩⟩

/-- All calls, if the first is `read` or `fill_buf` and succeeds. -/
theorem BR.Fits.run (h : s.Fits u) (hf : (fill s.min s.buf s.evs).1 = none) {o : FieldOp} (ho : o = .fillBuf ∨ ∃ n, o = .read n) (hp : FirstAt s.delim s.unread p) (os : List FieldOp) :
    (s.run (o :: os)).1.length + 2 ≤ p := by
  obtain ⟨q, hq⟩ := h.afterRead hf
  have hai := s.afterRead_inv h.inv
  have hd := (s.afterRead_frame).2.2.2
  have hqp : q = p := by
    have := hq.first
    rw [s.afterRead_unread, hd] at this
    exact this.unique hp
  subst hqp
  rcases ho with rfl | ⟨n, rfl⟩
  · rcases BR.readToBoundary_eq h.inv with ⟨e, hne, he⟩ | ⟨_, he⟩
    · rw [hf] at hne; simp at hne
    · have := (hq.run os hai).1
      simp only [BR.run, BR.op, he, List.nil_append]
      exact this
  · rcases BR.read_eq h.inv n with ⟨e, hne, he⟩ | ⟨_, he⟩
    · rw [hf] at hne; simp at hne
    · have := (hq.run (.consume n :: os) hai).1
      simp only [BR.run, BR.op, he] at this ⊢
      exact this

end Multipart

import Verif.Lemmas.SaveField
/-!
# The loop of `save_text` on text
-/
namespace Multipart

variable {s s0 t : BR}

/-- Once the delimiter was found and everything before it is consumed, the field has no more bytes. -/
theorem BR.op_found (h : s.Inv) (hst : s.st = .boundaryRead) (hx : s.idx = 0) (o : FieldOp) :
    (s.op o).1 = [] ∧ (s.op o).2.st = .boundaryRead ∧ (s.op o).2.idx = 0 := by
  have hs : s.afterRead = s.refill := by unfold BR.afterRead; rw [if_neg (by rw [hst]; simp)]
  have h1 : s.refill.st = .boundaryRead := hst
  have h2 : s.refill.idx = 0 := hx
  cases o with
  | fillBuf =>
    rcases BR.readToBoundary_eq h with ⟨e, _, he⟩ | ⟨_, he⟩
    · simp only [BR.op, he]; exact ⟨trivial, h1, h2⟩
    · simp only [BR.op, he, hs]; exact ⟨trivial, h1, h2⟩
  | setMin n => exact ⟨rfl, hst, hx⟩
  | consume n => simp [BR.op, BR.consume, hx, hst]
  | read n =>
    rcases BR.read_eq h n with ⟨e, _, he⟩ | ⟨_, he⟩
    · simp only [BR.op, he]; exact ⟨trivial, h1, h2⟩
    · simp [BR.op, he, hs, BR.consume, h1, h2]

theorem BR.run_found : ∀ (os : List FieldOp) {s : BR}, s.Inv → s.st = .boundaryRead → s.idx = 0 → (s.run os).1 = [] := by
  intro os
  induction os with
  | nil => intro s _ _ _; rfl
  | cons o os ih =>
    intro s hi hst hx
    obtain ⟨h1, h2, h3⟩ := BR.op_found hi hst hx o
    simp only [BR.run, h1, List.nil_append]
    exact ih (BR.op_inv hi o) h2 h3

/-- While the delimiter has not been found, `fill_buf` shows many bytes. -/
theorem BR.shown_long (h : s.Inv) (hst : s.st ≠ .atEnd) (hm : Nat.max (2 * s.delim.length) 1024 ≤ s.min) (hn : NoStall s.evs)
    {p : Nat} (hp : FirstAt s.delim s.unread p) {y : Bytes} (hy : s.readToBoundary.1 = .ok y) :
    s.readToBoundary.2.idx = y.length ∧ (510 ≤ y.length ∨ s.readToBoundary.2.st = .boundaryRead) := by
  rcases BR.readToBoundary_eq h with ⟨e, _, he⟩ | ⟨hf, he⟩
  · rw [he] at hy; simp at hy
  rw [he] at hy ⊢
  simp only [Res.ok.injEq] at hy ⊢
  have hlen : y.length = s.afterRead.idx := by
    rw [← hy, List.length_take]; exact Nat.min_eq_left (s.afterRead_inv h).idx_le
  refine ⟨hlen.symm, ?_⟩
  by_cases hs : s.st = .searching
  · have hri := s.refill_inv h
    have hfull := BR.refill_full hn hf
    obtain ⟨e1, e2, e3, e4, e5, e6, e7⟩ := s.refill.search_spec hri hs
    obtain ⟨b1, b2, b3, b4, b5, b6⟩ := s.refill.search.backUp_spec
    have har : s.afterRead = s.refill.search.backUp := by unfold BR.afterRead; rw [if_pos hs]
    rw [har] at hlen ⊢
    rcases e7 with ⟨e7, _⟩ | ⟨_, noc, e8⟩
    · right; rw [b5, e7]
    · left
      have hd' : s.refill.delim = s.delim := rfl
      have hm' : s.refill.min = s.min := rfl
      rw [hd'] at noc e8
      have hdl := h.delim_len
      have hshort : s.refill.buf.length < s.refill.search.idx + s.delim.length := by rcases e8 with e8 | e8 <;> omega
      have hge : s.min ≤ s.refill.buf.length := by
        rcases hfull with hfull | hfull
        · exact hfull
        · exfalso
          have hun : s.unread = s.refill.buf := by
            rw [← s.refill_unread]; unfold BR.unread; rw [hfull]; simp [Ev.bytes]
          have h1 := occursAt_lt hp.1 h.delim_ne
          rw [hun] at h1
          by_cases hq : p < s.refill.search.idx
          · exact noc p hq (by rw [s.refill_unread]; exact hp.1)
          · omega
      have h2 : 2 * s.delim.length ≤ s.min := Nat.le_trans (Nat.le_max_left _ _) hm
      have h3 : 1024 ≤ s.min := Nat.le_trans (Nat.le_max_right _ _) hm
      rcases b6 with b6 | b6 <;> omega
  · right
    unfold BR.afterRead
    rw [if_neg hs]
    show s.st = _
    cases hc : s.st with
    | searching => exact absurd hc hs
    | atEnd => exact absurd hc hst
    | boundaryRead => rfl

/-- The start of a text is text up to an incomplete last character. -/
theorem IsUtf8.prefix_valid {y z : Bytes} (h : IsUtf8 (y ++ z)) : y.length ≤ validUpTo y + 3 := by
  obtain ⟨cs, hcs⟩ := h
  suffices hs : ∃ k, k ≤ y.length ∧ IsUtf8 (y.take k) ∧ y.length ≤ k + 3 by
    obtain ⟨k, h1, h2, h3⟩ := hs
    have := (validUpTo_spec y).2.2 k h1 h2
    omega
  induction cs generalizing y with
  | nil =>
    have : (y ++ z).length = 0 := by rw [hcs]; rfl
    rw [List.length_append] at this
    exact ⟨0, Nat.zero_le _, by simp; exact .nil, by omega⟩
  | cons c cs ih =>
    have e : encodeChars (c :: cs) = String.utf8EncodeChar c ++ encodeChars cs := by simp [encodeChars]
    rw [e] at hcs
    have hc4 := encode_length_le c
    by_cases hl : y.length < (String.utf8EncodeChar c).length
    · exact ⟨0, Nat.zero_le _, by simp; exact .nil, by omega⟩
    · have hp : String.utf8EncodeChar c <+: y := by
        have h1 : String.utf8EncodeChar c <+: y ++ z := by rw [hcs]; exact List.prefix_append _ _
        exact List.prefix_of_prefix_length_le h1 (List.prefix_append _ _) (by omega)
      obtain ⟨y', rfl⟩ := hp
      rw [List.append_assoc] at hcs
      obtain ⟨k, h1, h2, h3⟩ := ih (List.append_cancel_left hcs)
      refine ⟨(String.utf8EncodeChar c).length + k, by rw [List.length_append]; omega, ?_, by rw [List.length_append]; omega⟩
      rw [List.take_length_add_append]
      exact .append ⟨[c], by simp [encodeChars]⟩ h2

/-- On a field that is text and short enough for the limit, although incomplete characters are counted twice, the loop of `save_text` copies everything. -/
theorem textLoop {L : Nat} (hi0 : s0.Inv) (he : OnlyInterrupted s0.evs) (hn : NoStall s0.evs) {p : Nat} (hp : FirstAt s0.delim s0.unread p)
    (hU : ∀ x u, Took s0 x u → u.AtEof → IsUtf8 x) (hL : ∀ x u, Took s0 x u → 170 * x.length < 169 * (L + 1)) :
    ∀ (n total copied : Nat) (taken : Bytes) (s : BR), Took s0 taken s → s.st ≠ .atEnd → Nat.max (2 * s.delim.length) 1024 ≤ s.min → IsUtf8 taken →
      169 * copied ≤ 170 * taken.length → s.unread.length + s.evs.length < n →
      ∃ k c t all, tryReadBuf (limited textStep L) n total (copied, taken) s = (.full k, (c, all), t) ∧ TookAll s0 all t ∧ IsUtf8 all := by
  intro n
  induction n with
  | zero => intro _ _ _ _ _ _ _ _ _ h; omega
  | succ n ih =>
    intro total copied taken s h0 hst hm hu hc hlt
    have hi := h0.inv hi0
    have hfill := Took.fill s
    have hcases := BR.fill_cases hi
    have hfu := hfill.unread hi
    have hfe := (hfill.evs hi).length_le
    have hpos : FirstAt s.delim s.unread (p - taken.length) := by
      obtain ⟨os, hos⟩ := h0.run hi0
      have hsk := BR.run_skipped os hi0
      rw [hos] at hsk
      obtain ⟨k1, k2, k3, -⟩ := hsk
      simp only at k1 k2 k3
      rw [k1, k3]
      exact hp.drop (Nat.le_of_not_lt fun hh => k2 p hh hp.1)
    have hop := BR.op_skipped hi .fillBuf
    simp only [BR.op] at hop
    have hlong := fun y hy => BR.shown_long hi hst hm (hn.suffix (h0.evs hi0)) hpos (y := y) hy
    have hmin : s.readToBoundary.2.min = s.min ∧ s.readToBoundary.2.delim = s.delim := by
      rcases BR.readToBoundary_eq hi with ⟨e, _, h2⟩ | ⟨_, h2⟩ <;> rw [h2]
      · exact ⟨rfl, rfl⟩
      · exact ⟨s.afterRead_frame.2.2.1, s.afterRead_frame.2.2.2⟩
    have hst1 : s.readToBoundary.2.st ≠ .atEnd := fun hh => hst (hop.2.2.2.2.mp hh)
    unfold tryReadBuf
    rcases hrd : s.readToBoundary with ⟨r, s1⟩
    rw [hrd] at hfill hcases hfu hfe hlong hmin hst1
    simp only at hfill hcases hfu hfe hlong hmin hst1
    rw [List.nil_append] at hfu
    rcases hcases with ⟨e, rfl, hlt', hmem⟩ | ⟨buf, rfl, _, hcons⟩
    · have := he e ((h0.evs hi0).subset hmem)
      subst this
      simp only
      have h1 := h0.trans hfill
      rw [List.append_nil] at h1
      exact ih total copied taken s1 h1 hst1 (by rw [hmin.1, hmin.2]; exact hm) hu hc (by rw [← hfu]; omega)
    · simp only
      by_cases hb : buf = []
      · subst hb
        rw [if_pos rfl]
        have h1 := h0.trans hfill
        rw [List.append_nil] at h1
        exact ⟨total, copied, s1, taken, rfl, ⟨h1, s, h0, by unfold BR.AtEof; rw [hrd], by rw [hrd]⟩, hu⟩
      · rw [if_neg hb]
        obtain ⟨hidx, hlg⟩ := hlong buf rfl
        have hall := h0.trans (hcons buf.length (Nat.le_refl _))
        rw [List.take_length] at hall
        have hlim := hL _ _ hall
        rw [List.length_append] at hlim
        have hnl : ¬ L < Nat.min (copied + buf.length) u64Max := by
          have : Nat.min (copied + buf.length) u64Max ≤ copied + buf.length := Nat.min_le_left _ _
          omega
        have hle : Nat.min (copied + buf.length) u64Max ≤ copied + buf.length := Nat.min_le_left _ _
        -- the rest of the field, read to its end
        have hinv := hall.inv hi0
        obtain ⟨k, _, hk⟩ := BR.reaches_eof (n := 1) (by omega) _ hinv (Nat.le_refl _)
        have hend := hU _ _ (hall.trans (Took.reads _ _ _)) hk
        have step : ∃ c, c ≤ buf.length ∧ 0 < c ∧ IsUtf8 (buf.take c) ∧ 170 * (buf.length - c) ≤ buf.length ∧
            textStep taken buf = (.full c, taken ++ buf.take c) := by
          by_cases hv : utf8Valid buf = true
          · exact ⟨buf.length, Nat.le_refl _, List.length_pos_iff.mpr hb, by rw [List.take_length]; exact (utf8Valid_iff _).mp hv, by omega,
              by unfold textStep; rw [if_pos hv, List.take_length]⟩
          · rcases hlg with hlg | hfound
            · have hbz := hend
              rw [List.append_assoc] at hbz
              have h3 := (hbz.of_append_left hu).prefix_valid
              obtain ⟨v1, v2, -⟩ := validUpTo_spec buf
              exact ⟨validUpTo buf, v1, by omega, v2, by omega, by unfold textStep; rw [if_neg hv, if_neg (by omega)]⟩
            · exfalso
              have hz := BR.run_found (List.replicate k (.read 1)) hinv hfound (by show s1.idx - Nat.min buf.length s1.idx = 0; rw [hidx]; simp)
              rw [hz, List.append_nil] at hend
              exact hv ((utf8Valid_iff _).mpr (hend.of_append_left hu))
        obtain ⟨c, hcl, hc0, hcu, hcr, hts⟩ := step
        have hlm : limited textStep L (copied, taken) buf = (.full c, Nat.min (copied + buf.length) u64Max, taken ++ buf.take c) := by
          unfold limited; simp only; rw [if_neg hnl, hts]
        rw [hlm]
        simp only
        have hto := hcons c hcl
        have hul := congrArg List.length (hto.unread hi)
        rw [List.length_append, List.length_take, Nat.min_eq_left hcl] at hul
        refine ih (total + c) _ _ (s1.consume c) (h0.trans hto) hst1 (by show _ ≤ s1.min; rw [hmin.1]; show Nat.max (2 * s1.delim.length) _ ≤ _; rw [hmin.2]; exact hm)
          (hu.append hcu) ?_ (by show _ + s1.evs.length < n; omega)
        rw [List.length_append, List.length_take, Nat.min_eq_left hcl]
        omega

end Multipart

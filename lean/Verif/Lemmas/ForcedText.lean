import Verif.Lemmas.TextLoop
import Verif.Spec.ForcedText
/-!
# The loop of `save_text` on data that is not text
-/
namespace Multipart

variable {s s0 t : BR}

/-- All bytes divide in this way, in one way only. -/
theorem textThen_validUpTo (dat : Bytes) : TextThen dat (dat.take (validUpTo dat)) (dat.drop (validUpTo dat)) := by
  obtain ⟨h1, h2, h3⟩ := validUpTo_spec dat
  refine ⟨(List.take_append_drop _ _).symm, h2, fun z hz hp hu => ?_⟩
  obtain ⟨r, hr⟩ := hp
  have h4 : dat = (dat.take (validUpTo dat) ++ z) ++ r := by rw [List.append_assoc, hr, List.take_append_drop]
  have h5 : (dat.take (validUpTo dat) ++ z).length = validUpTo dat + z.length := by rw [List.length_append, List.length_take, Nat.min_eq_left h1]
  have h6 := congrArg List.length h4
  rw [List.length_append, h5] at h6
  have h7 := h3 (validUpTo dat + z.length) (by omega) (by
    have : dat.take (validUpTo dat + z.length) = dat.take (validUpTo dat) ++ z :=
      (congrArg (List.take _) h4).trans (by rw [← h5, List.take_left])
    rw [this]
    exact h2.append hu)
  have := List.length_pos_iff.mpr hz
  omega

theorem TextThen.eq {dat v y : Bytes} (h : TextThen dat v y) : v = dat.take (validUpTo dat) ∧ y = dat.drop (validUpTo dat) := by
  obtain ⟨h1, h2, h3⟩ := validUpTo_spec dat
  have h4 : v.length ≤ validUpTo dat := h3 _ (by rw [h.split, List.length_append]; omega) (by rw [h.split, List.take_left]; exact h.text)
  have h5 : v.length = validUpTo dat := by
    refine Nat.le_antisymm h4 (Nat.le_of_not_lt fun hlt => ?_)
    have h6 : dat.take (validUpTo dat) = v ++ y.take (validUpTo dat - v.length) :=
      (congrArg (List.take _) h.split).trans (by rw [List.take_append, List.take_of_length_le h4])
    rw [h6] at h2
    refine h.rest _ (fun h0 => ?_) (List.take_prefix _ _) (h2.of_append_left h.text)
    have h7 := congrArg List.length h6
    rw [h0, List.append_nil, List.length_take, Nat.min_eq_left h1] at h7
    omega
  constructor
  · rw [← h5]; conv => rhs; rw [h.split]
    rw [List.take_left]
  · rw [← h5]; conv => rhs; rw [h.split]
    rw [List.drop_left]

theorem TextThen.of_utf8 {dat v y : Bytes} (h : TextThen dat v y) (hu : IsUtf8 dat) : y = [] := by
  refine Decidable.byContradiction fun h0 => h.rest y h0 (List.prefix_refl _) ?_
  have := h.split
  subst this
  exact hu.of_append_left h.text

/-- Text in front of the data does not matter. -/
theorem TextThen.drop {a x v y : Bytes} (h : TextThen (a ++ x) v y) (ha : IsUtf8 a) : ∃ v', v = a ++ v' ∧ TextThen x v' y := by
  obtain ⟨g1, g2, g3⟩ := textThen_validUpTo x
  have : TextThen (a ++ x) (a ++ x.take (validUpTo x)) (x.drop (validUpTo x)) := ⟨by rw [List.append_assoc, ← g1], ha.append g2, g3⟩
  refine ⟨x.take (validUpTo x), by rw [h.eq.1, ← this.eq.1], ?_⟩
  rw [h.eq.2, ← this.eq.2]
  exact ⟨g1, g2, g3⟩

/-- One round of the loop of `save_text` at a place where the buffer shows `buf`, and `z` is the rest of the field. -/
structure TextRound (s0 : BR) (taken buf z : Bytes) (s : BR) : Prop where
  all : ∃ u, Took s0 (taken ++ buf ++ z) u ∧ u.AtEof
  long : 510 ≤ buf.length ∨ z = []

theorem textRound (hi0 : s0.Inv) (hn : NoStall s0.evs) {p : Nat} (hp : FirstAt s0.delim s0.unread p) {taken : Bytes} (h0 : Took s0 taken s) (hst : s.st ≠ .atEnd)
    (hm : Nat.max (2 * s.delim.length) 1024 ≤ s.min) {buf : Bytes} {s1 : BR} (hrd : s.readToBoundary = (.ok buf, s1)) :
    ∃ z, TextRound s0 taken buf z s := by
  have hi := h0.inv hi0
  have hpos : FirstAt s.delim s.unread (p - taken.length) := by
    obtain ⟨os, hos⟩ := h0.run hi0
    have hsk := BR.run_skipped os hi0
    rw [hos] at hsk
    obtain ⟨k1, k2, k3, -⟩ := hsk
    simp only at k1 k2 k3
    rw [k1, k3]
    exact hp.drop (Nat.le_of_not_lt fun hh => k2 p hh hp.1)
  have hlong := BR.shown_long hi hst hm (hn.suffix (h0.evs hi0)) hpos (y := buf) (by rw [hrd])
  rw [hrd] at hlong
  obtain ⟨hidx, hlg⟩ := hlong
  obtain ⟨buf', hb1, _, hcons⟩ := (BR.fill_cases hi).resolve_left (by rintro ⟨e, he, _⟩; rw [hrd] at he; simp at he)
  rw [hrd] at hb1 hcons
  simp only [Res.ok.injEq] at hb1 hcons
  subst hb1
  have hall := h0.trans (hcons buf.length (Nat.le_refl _))
  rw [List.take_length] at hall
  have hinv := hall.inv hi0
  obtain ⟨k, _, hk⟩ := BR.reaches_eof (n := 1) (by omega) _ hinv (Nat.le_refl _)
  refine ⟨_, ⟨_, hall.trans (Took.reads _ _ _), hk⟩, ?_⟩
  rcases hlg with hlg | hfound
  · exact .inl hlg
  · exact .inr (BR.run_found (List.replicate k (.read 1)) hinv hfound (by show s1.idx - Nat.min buf.length s1.idx = 0; rw [hidx]; simp))

/-- What stays as it is from one round to the next. -/
theorem textFrame (hi : s.Inv) (hst : s.st ≠ .atEnd) (hm : Nat.max (2 * s.delim.length) 1024 ≤ s.min) :
    s.readToBoundary.2.st ≠ .atEnd ∧ Nat.max (2 * s.readToBoundary.2.delim.length) 1024 ≤ s.readToBoundary.2.min := by
  have hop := BR.op_skipped hi .fillBuf
  simp only [BR.op] at hop
  have hmin : s.readToBoundary.2.min = s.min ∧ s.readToBoundary.2.delim = s.delim := by
    rcases BR.readToBoundary_eq hi with ⟨e, _, h2⟩ | ⟨_, h2⟩ <;> rw [h2]
    · exact ⟨rfl, rfl⟩
    · exact ⟨s.afterRead_frame.2.2.1, s.afterRead_frame.2.2.2⟩
  exact ⟨fun hh => hst (hop.2.2.2.2.mp hh), by rw [hmin.1, hmin.2]; exact hm⟩

/-- If what is not text at the end of the field is nothing or at least four bytes, the loop of `save_text` does not stop for invalid UTF-8. -/
theorem textLoop_goes_on {L : Nat} (hi0 : s0.Inv) (hn : NoStall s0.evs) {p : Nat} (hp : FirstAt s0.delim s0.unread p)
    (hU : ∀ x u, Took s0 x u → u.AtEof → ∀ v y, TextThen x v y → y = [] ∨ 4 ≤ y.length) :
    ∀ (n total copied : Nat) (taken : Bytes) (s : BR), Took s0 taken s → s.st ≠ .atEnd → Nat.max (2 * s.delim.length) 1024 ≤ s.min → IsUtf8 taken →
      ∀ k, (tryReadBuf (limited textStep L) n total (copied, taken) s).1 ≠ .part k .utf8 := by
  intro n
  induction n with
  | zero => intro total copied taken s _ _ _ _ k; simp [tryReadBuf]
  | succ n ih =>
    intro total copied taken s h0 hst hm hu k
    have hi := h0.inv hi0
    have hfill := Took.fill s
    obtain ⟨hst1, hm1⟩ := textFrame hi hst hm
    have hround := fun buf s1 hrd => textRound hi0 hn hp h0 hst hm (buf := buf) (s1 := s1) hrd
    have hcases := BR.fill_cases hi
    unfold tryReadBuf
    rcases hrd : s.readToBoundary with ⟨r, s1⟩
    rw [hrd] at hfill hst1 hm1 hcases
    simp only at hfill hst1 hm1 hcases
    rcases hcases with ⟨e, rfl, -, -⟩ | ⟨buf, rfl, _, hcons⟩
    · by_cases hint : e = .interrupted
      · subst hint
        simp only
        have h1 := h0.trans hfill
        rw [List.append_nil] at h1
        exact ih total copied taken s1 h1 hst1 hm1 hu k
      · cases e <;> simp at hint ⊢ <;> split <;> simp
    · simp only
      by_cases hb : buf = []
      · rw [if_pos hb]; simp
      rw [if_neg hb]
      unfold limited
      simp only
      by_cases hlim : L < Nat.min (copied + buf.length) u64Max
      · rw [if_pos hlim]; simp
      rw [if_neg hlim]
      obtain ⟨z, ⟨⟨u, hall, heof⟩, hlg⟩⟩ := hround buf s1 hrd
      have next : ∀ c, c ≤ buf.length → IsUtf8 (buf.take c) → ∀ k total copied,
          (tryReadBuf (limited textStep L) n total (copied, taken ++ buf.take c) (s1.consume c)).1 ≠ .part k .utf8 := by
        intro c hcl hcu k total copied
        exact ih _ _ _ (s1.consume c) (h0.trans (hcons c hcl)) hst1 hm1 (hu.append hcu) k
      unfold textStep
      by_cases hv : utf8Valid buf = true
      · rw [if_pos hv]
        have := next buf.length (Nat.le_refl _) (by rw [List.take_length]; exact (utf8Valid_iff _).mp hv) k
        rw [List.take_length] at this
        exact this _ _
      · rw [if_neg hv]
        by_cases hl4 : buf.length < 4
        · exfalso
          rcases hlg with hlg | rfl
          · omega
          rw [List.append_nil] at hall
          obtain ⟨g1, g2, g3⟩ := textThen_validUpTo buf
          have ht : TextThen (taken ++ buf) (taken ++ buf.take (validUpTo buf)) (buf.drop (validUpTo buf)) := ⟨by rw [List.append_assoc, ← g1], hu.append g2, g3⟩
          rcases hU _ _ hall heof _ _ ht with h | h
          · rw [h, List.append_nil] at g1
            rw [← g1] at g2
            exact hv ((utf8Valid_iff _).mpr g2)
          · rw [List.length_drop] at h; omega
        · rw [if_neg hl4]
          obtain ⟨v1, v2, -⟩ := validUpTo_spec buf
          exact next _ v1 v2 k _ _

/-- The start of data that is text but for less than four bytes at its end is text but for less than four bytes. -/
theorem TextThen.prefix_valid {buf z v y : Bytes} (h : TextThen (buf ++ z) v y) (hy : y.length < 4) : buf.length ≤ validUpTo buf + 3 := by
  by_cases hl : buf.length ≤ v.length
  · have : buf <+: v := List.prefix_of_prefix_length_le (List.prefix_append buf z) (by rw [h.split]; exact List.prefix_append _ _) hl
    obtain ⟨r, hr⟩ := this
    have ht := h.text
    rw [← hr] at ht
    exact ht.prefix_valid
  · have : v <+: buf := List.prefix_of_prefix_length_le (by rw [h.split]; exact List.prefix_append _ _) (List.prefix_append buf z) (by omega)
    obtain ⟨r, hr⟩ := this
    have h1 := (validUpTo_spec buf).2.2 v.length (by omega) (by rw [← hr, List.take_left]; exact h.text)
    have h2 := congrArg List.length h.split
    rw [List.length_append, List.length_append] at h2
    omega

/-- If the last one to three bytes of the field are not text, and the limit is large enough, although some bytes are counted twice, the loop of `save_text` stops for invalid UTF-8. -/
theorem textLoop_stops {L : Nat} {dat v y : Bytes} (hi0 : s0.Inv) (he : OnlyInterrupted s0.evs) (hn : NoStall s0.evs) {p : Nat} (hp : FirstAt s0.delim s0.unread p)
    (hU : ∀ x u, Took s0 x u → u.AtEof → x = dat) (ht : TextThen dat v y) (hy0 : y ≠ []) (hy : y.length < 4) (hL : 170 * dat.length + 507 < 169 * (L + 1)) :
    ∀ (n total copied : Nat) (taken : Bytes) (s : BR), Took s0 taken s → s.st ≠ .atEnd → Nat.max (2 * s.delim.length) 1024 ≤ s.min → IsUtf8 taken →
      (169 * copied ≤ 170 * taken.length ∨ (169 * copied ≤ 170 * taken.length + 507 ∧ taken = v)) → s.unread.length + s.evs.length < n →
      ∃ k c t x, tryReadBuf (limited textStep L) n total (copied, taken) s = (.part k .utf8, (c, x), t) ∧ x <+: v ∧ v.length < x.length + 4 := by
  intro n
  induction n with
  | zero => intro _ _ _ _ _ _ _ _ _ h; omega
  | succ n ih =>
    intro total copied taken s h0 hst hm hu hc hlt
    have hi := h0.inv hi0
    have hfill := Took.fill s
    have hfu := hfill.unread hi
    have hfe := (hfill.evs hi).length_le
    obtain ⟨hst1, hm1⟩ := textFrame hi hst hm
    have hround := fun buf s1 hrd => textRound hi0 hn hp h0 hst hm (buf := buf) (s1 := s1) hrd
    have hcases := BR.fill_cases hi
    unfold tryReadBuf
    rcases hrd : s.readToBoundary with ⟨r, s1⟩
    rw [hrd] at hfill hst1 hm1 hcases hfu hfe
    simp only at hfill hst1 hm1 hcases hfu hfe
    rw [List.nil_append] at hfu
    rcases hcases with ⟨e, rfl, hlt', hmem⟩ | ⟨buf, rfl, _, hcons⟩
    · have := he e ((h0.evs hi0).subset hmem)
      subst this
      simp only
      have h1 := h0.trans hfill
      rw [List.append_nil] at h1
      exact ih total copied taken s1 h1 hst1 hm1 hu hc (by rw [← hfu]; omega)
    · simp only
      obtain ⟨z, ⟨⟨u, hall, heof⟩, hlg⟩⟩ := hround buf s1 hrd
      have hdat := hU _ _ hall heof
      have hb : buf ≠ [] := by
        rintro rfl
        have h1 : s.AtEof := by unfold BR.AtEof; rw [hrd]
        have h2 := hU _ _ h0 h1
        rw [h2] at hu
        exact hy0 (ht.of_utf8 hu)
      rw [if_neg hb]
      have hdl := congrArg List.length hdat
      rw [List.length_append, List.length_append] at hdl
      rw [List.append_assoc] at hdat
      have ht' := ht
      rw [← hdat] at ht'
      obtain ⟨v', hv', htr⟩ := ht'.drop hu
      have hvl := congrArg List.length hv'
      rw [List.length_append] at hvl
      have hrl := congrArg List.length htr.split
      rw [List.length_append, List.length_append] at hrl
      have hle : Nat.min (copied + buf.length) u64Max ≤ copied + buf.length := Nat.min_le_left _ _
      have hnl : ¬ L < Nat.min (copied + buf.length) u64Max := by
        rcases hc with hc | ⟨hc, -⟩ <;> omega
      have hlm : limited textStep L (copied, taken) buf = ((textStep taken buf).1, Nat.min (copied + buf.length) u64Max, (textStep taken buf).2) := by
        unfold limited; simp only; rw [if_neg hnl]
      rw [hlm]
      have next : ∀ c, 0 < c → c ≤ buf.length → IsUtf8 (buf.take c) → (169 * (copied + buf.length) ≤ 170 * (taken.length + c) ∨ (169 * (copied + buf.length) ≤ 170 * (taken.length + c) + 507 ∧ taken ++ buf.take c = v)) →
          ∃ k d t x, tryReadBuf (limited textStep L) n (total + c) (Nat.min (copied + buf.length) u64Max, taken ++ buf.take c) (s1.consume c) = (.part k .utf8, (d, x), t) ∧ x <+: v ∧ v.length < x.length + 4 := by
        intro c hc0 hcl hcu hcc
        have hto := hcons c hcl
        have hul := congrArg List.length (hto.unread hi)
        rw [List.length_append, List.length_take, Nat.min_eq_left hcl] at hul
        refine ih _ _ _ (s1.consume c) (h0.trans hto) hst1 hm1 (hu.append hcu) ?_ (by show _ + s1.evs.length < n; omega)
        rw [List.length_append, List.length_take, Nat.min_eq_left hcl]
        rcases hcc with h | ⟨h, h'⟩
        · left; omega
        · right; exact ⟨by omega, h'⟩
      by_cases hv : utf8Valid buf = true
      · -- not in the last state, where nothing of the rest is text
        have hts : textStep taken buf = (.full buf.length, taken ++ buf) := by unfold textStep; rw [if_pos hv]
        rw [hts]
        simp only
        have hbu := (utf8Valid_iff _).mp hv
        have hcA : 169 * copied ≤ 170 * taken.length := by
          rcases hc with hc | ⟨-, hc⟩
          · exact hc
          · exfalso
            have hv0 : v' = [] := List.length_eq_zero_iff.mp (by rw [hc] at hvl; omega)
            subst hv0
            have := htr.split
            rw [List.nil_append] at this
            exact htr.rest buf hb (by rw [← this]; exact List.prefix_append _ _) hbu
        have := next buf.length (List.length_pos_iff.mpr hb) (Nat.le_refl _) (by rw [List.take_length]; exact hbu) (.inl (by omega))
        rw [List.take_length] at this
        exact this
      · by_cases hl4 : buf.length < 4
        · have hts : textStep taken buf = (.part 0 .utf8, taken) := by unfold textStep; rw [if_neg hv, if_pos hl4]
          rw [hts]
          simp only
          have hz : z = [] := hlg.resolve_left (by omega)
          subst hz
          exact ⟨_, _, _, _, rfl, ⟨v', hv'.symm⟩, by simp at hrl; omega⟩
        · have hts : textStep taken buf = (.full (validUpTo buf), taken ++ buf.take (validUpTo buf)) := by unfold textStep; rw [if_neg hv, if_neg hl4]
          rw [hts]
          simp only
          obtain ⟨v1, v2, -⟩ := validUpTo_spec buf
          have hpv := htr.prefix_valid hy
          have hcA : 169 * copied ≤ 170 * taken.length := by
            rcases hc with hc | ⟨-, hc⟩
            · exact hc
            · exfalso; rw [hc] at hvl; omega
          refine next _ (by omega) v1 v2 ?_
          rcases hlg with hlg | rfl
          · left; omega
          · right
            rw [List.append_nil] at htr
            have := htr.eq.1
            refine ⟨by omega, by rw [← this, ← hv']⟩

end Multipart

import Verif.Lemmas.Reader
namespace Multipart

/-! ## `consume_boundary` -/

/-- `t` is `s` after discarding `k` bytes that contain no start of a delimiter. -/
structure BR.Skipped (s t : BR) (k : Nat) : Prop where
  unread : t.unread = s.unread.drop k
  le : k ≤ s.unread.length
  none : ∀ q, q < k → ¬ OccursAt s.delim s.unread q
  min : t.min = s.min
  delim : t.delim = s.delim
  evs : t.evs <:+ s.evs

theorem BR.Skipped.refl (s : BR) : BR.Skipped s s 0 :=
  ⟨by simp, by simp, by omega, rfl, rfl, List.suffix_rfl⟩

theorem BR.Skipped.trans {s t w : BR} {k m : Nat} (h : BR.Skipped s t k) (h' : BR.Skipped t w m) : BR.Skipped s w (k + m) := by
  have hle := h'.le
  rw [h.unread, List.length_drop] at hle
  refine ⟨by rw [h'.unread, h.unread, List.drop_drop], by have := h.le; omega, ?_, by rw [h'.min, h.min],
    by rw [h'.delim, h.delim], h'.evs.trans h.evs⟩
  intro q hq hocc
  by_cases hqk : q < k
  · exact h.none q hqk hocc
  · apply h'.none (q - k) (by omega)
    rw [h.unread, h.delim, occursAt_drop]
    have : k + (q - k) = q := by omega
    rw [this]; exact hocc

theorem BR.skipped_refill (s : BR) : BR.Skipped s s.refill 0 :=
  ⟨by simp [s.refill_unread], by simp, by omega, rfl, rfl, (fill_spec s.min s.evs s.buf).suf⟩

theorem BR.skipped_afterRead (s : BR) : BR.Skipped s s.afterRead 0 := by
  obtain ⟨a, b, c, d⟩ := s.afterRead_frame
  exact ⟨by simp [s.afterRead_unread], by simp, by omega, c, d, by rw [b]; exact (fill_spec s.min s.evs s.buf).suf⟩

theorem BR.Inv.no_occ {s : BR} (h : s.Inv) : ∀ q, q < s.idx → ¬ OccursAt s.delim s.unread q := by
  have hc := h.cursor
  unfold BR.CursorOk at hc
  cases hst : s.st with
  | searching => simpa only [hst] using hc
  | atEnd => simp only [hst] at hc; omega
  | boundaryRead =>
    simp only [hst] at hc
    obtain ⟨p, hp1, _, hp3⟩ := hc
    intro q hq; exact hp1.2 q (by omega)

theorem BR.buf_le_unread (s : BR) : s.buf.length ≤ s.unread.length := by unfold BR.unread; simp

theorem BR.skipped_consume {s : BR} (h : s.Inv) (n : Nat) : BR.Skipped s (s.consume n) (Nat.min n s.idx) := by
  have hm : Nat.min n s.idx ≤ s.idx := Nat.min_le_right _ _
  refine ⟨BR.consume_unread_drop h n, ?_, fun q hq => h.no_occ q (by omega), rfl, rfl, List.suffix_rfl⟩
  have := h.idx_le; have := s.buf_le_unread; omega

theorem BR.pending_eq (s : BR) : s.pending = s.unread.length := by simp [BR.pending, BR.unread]

/-- The state right after a fill. -/
def BR.Full (s : BR) : Prop := s.min ≤ s.buf.length ∨ s.evs = []

theorem BR.refill_full {s : BR} (hn : NoStall s.evs) (h : (fill s.min s.buf s.evs).1 = none) : s.refill.Full :=
  (fill_spec s.min s.evs s.buf).enough h hn

/-- If `read_to_boundary` yields nothing while still searching, there is no delimiter in the whole rest of the stream. -/
theorem BR.eof_absent {s : BR} (h : s.Inv) (hst : s.st = .searching) (hmin : 2 * s.delim.length ≤ s.min)
    (hn : NoStall s.evs) (hf : (fill s.min s.buf s.evs).1 = none)
    (hi : s.afterRead.idx = 0) (hs : s.afterRead.st = .searching) :
    Absent s.delim s.unread ∧ s.afterRead.evs = [] ∧ s.unread.length < s.delim.length + 2 := by
  have hfull := BR.refill_full hn hf
  have hri := s.refill_inv h
  obtain ⟨e1, e2, e3, e4, e5, e6, e7⟩ := s.refill.search_spec hri hst
  obtain ⟨b1, b2, b3, b4, b5, b6⟩ := s.refill.search.backUp_spec
  have har : s.afterRead = s.refill.search.backUp := by unfold BR.afterRead; rw [if_pos hst]
  rw [har] at hi hs
  rw [b5] at hs
  rcases e7 with ⟨e7, _⟩ | ⟨_, noc, e8⟩
  · rw [hs] at e7; simp at e7
  have hdl := h.delim_len
  have hd' : s.refill.delim = s.delim := rfl
  have hm' : s.refill.min = s.min := rfl
  rw [hd'] at noc e8
  have hlen : s.refill.buf.length < s.refill.search.idx + s.delim.length := by rcases e8 with e8 | e8 <;> omega
  have hidx2 : s.refill.search.idx ≤ 2 := by rcases b6 with b6 | b6 <;> omega
  have hevs : s.refill.evs = [] := by
    rcases hfull with hfull | hfull
    · rw [hm'] at hfull
      rcases e8 with e8 | e8 <;> omega
    · exact hfull
  have hun : s.unread = s.refill.buf := by
    rw [← s.refill_unread]; unfold BR.unread; rw [hevs]; simp [Ev.bytes]
  refine ⟨?_, by rw [har, b2, e2, hevs], by rw [hun]; omega⟩
  intro q hocc
  by_cases hq : q < s.refill.search.idx
  · rw [← s.refill_unread] at hocc; exact noc q hq hocc
  · have := occursAt_lt hocc h.delim_ne
    rw [hun] at this; omega

theorem BR.refill_err_lt {s : BR} {e : IoErr} (h : (fill s.min s.buf s.evs).1 = some e) : s.refill.evs.length < s.evs.length := by
  rcases (fill_spec s.min s.evs s.buf).progress with hp | hp
  · exact hp
  · rw [h] at hp; simp at hp

/-- Outcomes of the search loop of `consume_boundary`. -/
inductive SearchOut (s : BR) : Res Unit → BR → Prop
  | found {t : BR} {k : Nat} : BR.Skipped s t k → t.Inv → t.st ≠ .searching →
      (s.st = .searching → t.st = .boundaryRead ∧ t.idx = 0) → (s.st ≠ .searching → t = s) → SearchOut s (.ok ()) t
  | io {t : BR} {k : Nat} {e : IoErr} : BR.Skipped s t k → t.Inv → t.st = .searching → Ev.err e ∈ s.evs →
      t.evs.length < s.evs.length → SearchOut s (.err e) t
  | eof {t : BR} {k : Nat} : BR.Skipped s t k → t.Inv → t.st = .searching → t.idx = 0 →
      (NoStall s.evs → 2 * s.delim.length ≤ s.min → Absent s.delim s.unread ∧ t.evs = []) → SearchOut s (.err .unexpectedEof) t

theorem BR.afterRead_st (s : BR) (h : s.Inv) (hst : s.st = .searching) :
    s.afterRead.st = .searching ∨ s.afterRead.st = .boundaryRead := by
  unfold BR.afterRead
  rw [if_pos hst]
  obtain ⟨b1, b2, b3, b4, b5, b6⟩ := s.refill.search.backUp_spec
  rw [b5]
  obtain ⟨e1, e2, e3, e4, e5, e6, e7⟩ := s.refill.search_spec (s.refill_inv h) hst
  rcases e7 with e7 | e7
  · right; exact e7.1
  · left; exact e7.1

theorem BR.refill_evs_suf (s : BR) : s.refill.evs <:+ s.evs := (fill_spec s.min s.evs s.buf).suf

theorem NoStall.suffix {a b : List Ev} (h : NoStall b) (hs : a <:+ b) : NoStall a := fun hm => h (hs.subset hm)
theorem NoErr.suffix {a b : List Ev} (h : NoErr b) (hs : a <:+ b) : NoErr a := fun e hm => h e (hs.subset hm)

theorem Absent.of_drop {d xs : Bytes} {k : Nat} (h : Absent d (xs.drop k)) (hn : ∀ q, q < k → ¬ OccursAt d xs q) : Absent d xs := by
  intro q hocc
  by_cases hq : q < k
  · exact hn q hq hocc
  · apply h (q - k)
    rw [occursAt_drop]
    have : k + (q - k) = q := by omega
    rw [this]; exact hocc

theorem BR.searchLoop_spec : ∀ (n : Nat) (s : BR), s.Inv → s.pending + 2 ≤ n →
    SearchOut s (BR.searchLoop n s).1 (BR.searchLoop n s).2 := by
  intro n
  induction n with
  | zero => intro s _ h; omega
  | succ n ih =>
    intro s h hn
    unfold BR.searchLoop
    by_cases hst : s.st = .searching
    · rw [if_pos hst]
      rcases BR.readToBoundary_eq h with ⟨e, h1, he⟩ | ⟨h1, he⟩
      · rw [he]
        exact .io s.skipped_refill (s.refill_inv h) hst ((fill_spec s.min s.evs s.buf).errmem e h1) (BR.refill_err_lt h1)
      · rw [he]
        have hai := s.afterRead_inv h
        have hlen : (s.afterRead.buf.take s.afterRead.idx).length = s.afterRead.idx := by
          rw [List.length_take]; exact Nat.min_eq_left hai.idx_le
        simp only [hlen]
        by_cases hz : s.afterRead.idx = 0 ∧ s.afterRead.st = .searching
        · rw [if_pos hz]
          refine .eof s.skipped_afterRead hai hz.2 hz.1 ?_
          intro hns hmin
          have := BR.eof_absent h hst hmin hns h1 hz.1 hz.2
          exact ⟨this.1, this.2.1⟩
        · rw [if_neg hz]
          have hsk := s.skipped_afterRead.trans (BR.skipped_consume hai s.afterRead.idx)
          have hci := BR.consume_inv hai s.afterRead.idx
          have hmin : Nat.min s.afterRead.idx s.afterRead.idx = s.afterRead.idx := Nat.min_self _
          rw [hmin] at hsk
          have hcidx : (s.afterRead.consume s.afterRead.idx).idx = 0 := by
            show s.afterRead.idx - Nat.min s.afterRead.idx s.afterRead.idx = 0
            rw [hmin]; omega
          have hcst : (s.afterRead.consume s.afterRead.idx).st = s.afterRead.st := rfl
          rcases BR.afterRead_st s h hst with hs' | hs'
          · -- still searching, something was discarded
            have hpos : 0 < s.afterRead.idx := by
              rcases Nat.eq_zero_or_pos s.afterRead.idx with h0 | h0
              · exact absurd ⟨h0, hs'⟩ hz
              · exact h0
            have hpend : (s.afterRead.consume s.afterRead.idx).pending + 2 ≤ n := by
              rw [BR.pending_eq, hsk.unread, List.length_drop, ]
              rw [BR.pending_eq] at hn
              have := hsk.le
              omega
            have := ih _ hci hpend
            generalize hr : BR.searchLoop n (s.afterRead.consume s.afterRead.idx) = r at this ⊢
            rcases r with ⟨r1, r2⟩
            simp only at this ⊢
            cases this with
            | found k1 k2 k3 k4 k5 =>
              exact .found (hsk.trans k1) k2 k3 (fun _ => k4 (by rw [hcst, hs'])) (fun hh => absurd hst hh)
            | io k1 k2 k3 k4 k5 => exact .io (hsk.trans k1) k2 k3 (hsk.evs.subset k4) (Nat.lt_of_lt_of_le k5 hsk.evs.length_le)
            | eof k1 k2 k3 k4 k5 =>
              refine .eof (hsk.trans k1) k2 k3 k4 ?_
              intro hns hm
              have hk := k5 (hns.suffix hsk.evs) (by rw [hsk.delim, hsk.min]; exact hm)
              refine ⟨?_, hk.2⟩
              have h1 := hk.1
              rw [hsk.unread, hsk.delim] at h1
              exact h1.of_drop hsk.none
          · -- found: one more iteration, which exits
            have hn1 : 1 ≤ n := by omega
            obtain ⟨m, rfl⟩ : ∃ m, n = m + 1 := ⟨n - 1, by omega⟩
            unfold BR.searchLoop
            rw [if_neg (by rw [hcst, hs']; simp)]
            exact .found hsk hci (by rw [hcst, hs']; simp) (fun _ => ⟨by rw [hcst, hs'], hcidx⟩) (fun hh => absurd hst hh)
    · rw [if_neg hst]
      exact .found (BR.Skipped.refl s) h hst (fun hh => absurd hh hst) (fun _ => rfl)

/-- Outcomes of `consume_boundary`, in terms of the unread stream. -/
inductive ConsumeOut (s : BR) : Res Bool → BR → Prop
  /-- the closing delimiter was seen earlier -/
  | done : s.st = .atEnd → ConsumeOut s (.ok false) s
  /-- first delimiter of the unread stream, followed by CRLF; exactly the bytes up to and including it are gone -/
  | next {t : BR} {p : Nat} : s.st ≠ .atEnd → FirstAt s.delim s.unread p → crlf <+: s.unread.drop (p + s.delim.length) →
      t.unread = s.unread.drop (p + s.delim.length + 2) → t.Inv → t.min = s.min → t.delim = s.delim → t.evs <:+ s.evs →
      t.st = .searching → t.idx = 0 → ConsumeOut s (.ok true) t
  | close {t : BR} {p : Nat} : s.st ≠ .atEnd → FirstAt s.delim s.unread p → dashes <+: s.unread.drop (p + s.delim.length) →
      t.unread = s.unread.drop (p + s.delim.length + 2) → t.Inv → t.min = s.min → t.delim = s.delim → t.evs <:+ s.evs →
      t.st = .atEnd → t.idx = 0 → ConsumeOut s (.ok false) t
  | damaged {t : BR} {k p : Nat} : s.st ≠ .atEnd → BR.Skipped s t k → t.Inv → t.st = .searching → FirstAt s.delim s.unread p →
      p + s.delim.length + 2 ≤ s.unread.length →
      ¬ crlf <+: s.unread.drop (p + s.delim.length) → ¬ dashes <+: s.unread.drop (p + s.delim.length) →
      ConsumeOut s (.err .invalidData) t
  | io {t : BR} {k : Nat} {e : IoErr} : s.st ≠ .atEnd → BR.Skipped s t k → t.Inv → t.st ≠ .atEnd → Ev.err e ∈ s.evs →
      ((s.st = .boundaryRead → s.idx = 0) → t.st = .boundaryRead → t.idx = 0) → t.evs.length < s.evs.length → ConsumeOut s (.err e) t
  /-- no delimiter (if the stream did not stall) -/
  | eof {t : BR} {k : Nat} : s.st ≠ .atEnd → BR.Skipped s t k → t.Inv → t.st = .searching → t.idx = 0 →
      (NoStall s.evs → 2 * s.delim.length ≤ s.min → Absent s.delim s.unread ∧ t.evs = []) → ConsumeOut s (.err .unexpectedEof) t
  /-- delimiter found, but fewer than two bytes are buffered behind it -/
  | short {t : BR} {k p : Nat} : s.st ≠ .atEnd → BR.Skipped s t k → t.Inv → t.st = .boundaryRead → FirstAt s.delim s.unread p →
      k ≤ p → t.buf.length < (p - k) + s.delim.length + 2 → (NoStall s.evs → t.Full) →
      (s.st = .searching → p ≤ k + 2) → (s.st = .boundaryRead → k = 0 ∧ p ≤ s.idx + 2) →
      ConsumeOut s (.err .unexpectedEof) t

theorem take_two_drop_append (a b : Bytes) (n : Nat) (h : n + 2 ≤ a.length) : ((a ++ b).drop n).take 2 = (a.drop n).take 2 := by
  rw [List.drop_append_of_le_length (by omega), List.take_append_of_le_length (by rw [List.length_drop]; omega)]

theorem prefix_two_iff {c xs : Bytes} (hc : c.length = 2) : c <+: xs ↔ xs.take 2 = c := by
  constructor
  · intro h; have := prefix_take_eq h; rwa [hc] at this
  · exact take_eq_imp_prefix

/-- `amt` bytes dropped from the front of the buffer, cursor reset. -/
def BR.past (s : BR) (amt : Nat) (st : BState) : BR := ⟨s.buf.drop amt, s.evs, s.min, s.delim, 0, st⟩
def BR.toSearching (s : BR) : BR := ⟨s.buf, s.evs, s.min, s.delim, s.idx, .searching⟩

theorem BR.verify_spec {s : BR} (h : s.Inv) (hst : s.st = .boundaryRead) : ∃ p, FirstAt s.delim s.unread p ∧
    (p = s.idx ∨ p = s.idx + 2) ∧
    ((∃ e, Ev.err e ∈ s.evs ∧ s.refill.evs.length < s.evs.length ∧ s.verifyBoundary = (.err e, s.refill)) ∨
     (s.refill.buf.length < p + s.delim.length + 2 ∧ (NoStall s.evs → s.refill.Full) ∧
        s.verifyBoundary = (.err .unexpectedEof, s.refill)) ∨
     (p + s.delim.length + 2 ≤ s.refill.buf.length ∧ crlf <+: s.unread.drop (p + s.delim.length) ∧
        s.verifyBoundary = (.ok true, s.refill.past (p + s.delim.length + 2) .searching)) ∨
     (p + s.delim.length + 2 ≤ s.refill.buf.length ∧ dashes <+: s.unread.drop (p + s.delim.length) ∧
        s.verifyBoundary = (.ok false, s.refill.past (p + s.delim.length + 2) .atEnd)) ∨
     (p + s.delim.length + 2 ≤ s.refill.buf.length ∧ ¬ crlf <+: s.unread.drop (p + s.delim.length) ∧
        ¬ dashes <+: s.unread.drop (p + s.delim.length) ∧
        s.verifyBoundary = (.err .invalidData, s.refill.toSearching))) := by
  have hri := s.refill_inv h
  have hc := hri.cursor
  have hst' : s.refill.st = .boundaryRead := hst
  unfold BR.CursorOk at hc
  simp only [hst'] at hc
  obtain ⟨p, hp1, hp2, hp3⟩ := hc
  have hfa : FirstAt s.delim s.unread p := by rw [← s.refill_unread]; exact hp1
  have e1 : s.refill.idx = s.idx := rfl
  have e2 : s.refill.delim = s.delim := rfl
  rw [e1] at hp3
  rw [e2] at hp2
  refine ⟨p, hfa, hp3.imp id And.left, ?_⟩
  rcases hfe : (fill s.min s.buf s.evs) with ⟨r, buf, evs⟩
  have hrs : s.refill = { s with buf := buf, evs := evs } := by unfold BR.refill; rw [hfe]
  have hbuf : s.refill.buf = buf := by rw [hrs]
  have hfs := fill_spec s.min s.evs s.buf
  cases r with
  | some e =>
    left; refine ⟨e, hfs.errmem e (by rw [hfe]), BR.refill_err_lt (by rw [hfe]), ?_⟩; unfold BR.verifyBoundary; rw [hfe, hrs]
  | none =>
    right
    have hidx := hri.idx_le
    rw [e1] at hidx
    -- the segment at the cursor and the optional CRLF
    have hseg : (crlf.isPrefixOf (s.refill.buf.drop s.idx) = true ∧ p = s.idx + 2) ∨
        (crlf.isPrefixOf (s.refill.buf.drop s.idx) = false ∧ p = s.idx) := by
      rcases hp3 with hp3 | ⟨hp3, hp4⟩
      · right
        refine ⟨?_, hp3⟩
        rw [Bool.eq_false_iff]
        intro hcr
        have hcr := List.isPrefixOf_iff_prefix.mp hcr
        have hocc : OccursAt s.delim s.refill.buf p := occursAt_of_append hp1.1 (by omega)
        unfold OccursAt at hocc
        rw [hp3] at hocc
        obtain ⟨t, ht⟩ := hocc
        rw [← ht] at hcr
        exact dash_ne_crlf h.dash t hcr
      · left; exact ⟨List.isPrefixOf_iff_prefix.mpr hp4, hp3⟩
    have hpre : s.idx + (if crlf.isPrefixOf (s.refill.buf.drop s.idx) = true then 2 else 0) = p := by
      rcases hseg with ⟨h1, h2⟩ | ⟨h1, h2⟩ <;> rw [h1] <;> simp <;> omega
    have hdel : (s.refill.buf.drop p).take s.delim.length = s.delim := by
      have hocc : OccursAt s.delim s.refill.buf p := occursAt_of_append hp1.1 (by omega)
      exact prefix_take_eq hocc
    have hver : s.verifyBoundary =
        (if s.refill.buf.length < p + s.delim.length + 2 then (.err .unexpectedEof, s.refill)
        else if (s.refill.buf.drop (p + s.delim.length)).take 2 = crlf then
          (.ok true, s.refill.past (p + s.delim.length + 2) .searching)
        else if (s.refill.buf.drop (p + s.delim.length)).take 2 = dashes then
          (.ok false, s.refill.past (p + s.delim.length + 2) .atEnd)
        else (.err .invalidData, s.refill.toSearching)) := by
      rw [hbuf] at hpre hdel hidx
      unfold BR.verifyBoundary
      rw [hfe]
      simp only
      have ha : s.idx + s.delim.length + (if crlf.isPrefixOf (buf.drop s.idx) = true then 2 else 0) + 2
          = p + s.delim.length + 2 := by omega
      rw [if_neg (by omega)]
      rw [List.drop_drop, hpre, if_neg (by rw [hdel]; simp), ha, hrs]
      simp [BR.past, BR.toSearching]
    rw [hver]
    by_cases hl : s.refill.buf.length < p + s.delim.length + 2
    · left
      rw [if_pos hl]
      refine ⟨hl, fun hn => BR.refill_full hn (by rw [hfe]), rfl⟩
    · right
      rw [if_neg hl]
      have htwo : (s.unread.drop (p + s.delim.length)).take 2 = (s.refill.buf.drop (p + s.delim.length)).take 2 := by
        rw [← s.refill_unread]
        exact take_two_drop_append _ _ _ (by omega)
      rw [prefix_two_iff (c := crlf) rfl, prefix_two_iff (c := dashes) rfl, htwo]
      by_cases hcr : (s.refill.buf.drop (p + s.delim.length)).take 2 = crlf
      · left; rw [if_pos hcr]; exact ⟨by omega, hcr, rfl⟩
      · right
        rw [if_neg hcr]
        by_cases hda : (s.refill.buf.drop (p + s.delim.length)).take 2 = dashes
        · left; rw [if_pos hda]; exact ⟨by omega, hda, rfl⟩
        · right; rw [if_neg hda]; exact ⟨by omega, hcr, hda, rfl⟩

theorem FirstAt.of_skipped {s t : BR} {k p : Nat} (hs : BR.Skipped s t k) (h : FirstAt t.delim t.unread p) :
    FirstAt s.delim s.unread (k + p) := by
  rw [hs.unread, hs.delim] at h
  exact h.of_drop hs.none

theorem BR.consumeBoundary_spec {s : BR} (h : s.Inv) : ConsumeOut s s.consumeBoundary.1 s.consumeBoundary.2 := by
  unfold BR.consumeBoundary
  by_cases hst : s.st = .atEnd
  · rw [if_pos hst]; exact .done hst
  · rw [if_neg hst]
    have := BR.searchLoop_spec (s.pending + 2) s h (Nat.le_refl _)
    generalize hr : BR.searchLoop (s.pending + 2) s = r at this ⊢
    rcases r with ⟨r1, w⟩
    simp only at this ⊢
    cases this with
    | io k1 k2 k3 k4 k5 => exact .io hst k1 k2 (by rw [k3]; simp) k4 (fun _ h => by rw [k3] at h; simp at h) k5
    | eof k1 k2 k3 k4 k5 => exact .eof hst k1 k2 k3 k4 k5
    | @found t k k1 k2 k3 k4 k5 =>
      simp only
      have hwst : w.st = .boundaryRead := by
        cases hws : w.st with
        | boundaryRead => rfl
        | searching => exact absurd hws k3
        | atEnd =>
          by_cases hss : s.st = .searching
          · rw [(k4 hss).1] at hws; simp at hws
          · rw [k5 hss] at hws; exact absurd hws hst
      obtain ⟨p, hfa, hpi, hcases⟩ := BR.verify_spec k2 hwst
      have hfa' := FirstAt.of_skipped k1 hfa
      have hskr := k1.trans w.skipped_refill
      have hdrop : ∀ n, w.unread.drop n = s.unread.drop (k + n) := by
        intro n; rw [k1.unread, List.drop_drop]
      rw [hdrop, k1.delim] at hcases
      have hbl := w.refill.buf_le_unread
      rw [w.refill_unread, k1.unread, List.length_drop] at hbl
      rw [show k + (p + s.delim.length) = k + p + s.delim.length by omega] at hcases
      have hunr : ∀ (st : BState), p + s.delim.length + 2 ≤ w.refill.buf.length →
          (w.refill.past (p + s.delim.length + 2) st).unread =
          s.unread.drop (k + p + s.delim.length + 2) := by
        intro st hl
        rw [show k + p + s.delim.length + 2 = k + (p + s.delim.length + 2) by omega, ← hdrop, ← w.refill_unread]
        unfold BR.unread BR.past
        simp only
        rw [List.drop_append_of_le_length hl]
      rcases hcases with ⟨e, he, hlt, hv⟩ | ⟨hl, hfull, hv⟩ | ⟨hl, hcr, hv⟩ | ⟨hl, hda, hv⟩ | ⟨hl, hcr, hda, hv⟩
      · rw [hv]
        refine .io hst hskr (w.refill_inv k2) (by show w.st ≠ _; rw [hwst]; simp) (k1.evs.subset he)
          (fun hd _ => ?_) (Nat.lt_of_lt_of_le hlt k1.evs.length_le)
        show w.idx = 0
        by_cases hss : s.st = .searching
        · exact (k4 hss).2
        · have hws := k5 hss
          subst hws; exact hd hwst
      · rw [hv]
        refine .short hst hskr (w.refill_inv k2) hwst hfa' (by omega) (by show w.refill.buf.length < _; omega)
          (fun hn => hfull (hn.suffix k1.evs)) (fun hss => ?_) (fun hss => ?_)
        · have := (k4 hss).2; omega
        · have hws := k5 (by rw [hss]; simp)
          subst hws
          have hk0 : k = 0 := by
            have hle := k1.le
            have := congrArg List.length k1.unread
            rw [List.length_drop] at this
            omega
          subst hk0; omega
      · rw [hv]
        refine .next hst hfa' hcr (hunr _ hl) ⟨by show dashes <+: w.delim; exact k2.dash, by simp [BR.past], ?_⟩ k1.min k1.delim
          (w.refill_evs_suf.trans k1.evs) rfl rfl
        unfold BR.CursorOk; simp [BR.past]
      · rw [hv]
        refine .close hst hfa' hda (hunr _ hl) ⟨by show dashes <+: w.delim; exact k2.dash, by simp [BR.past], ?_⟩ k1.min k1.delim
          (w.refill_evs_suf.trans k1.evs) rfl rfl
        unfold BR.CursorOk; simp [BR.past]
      · rw [hv]
        have hri := w.refill_inv k2
        refine .damaged (k := k + 0) hst ⟨hskr.unread, hskr.le, hskr.none, hskr.min, hskr.delim, hskr.evs⟩ ⟨hri.dash, hri.idx_le, ?_⟩ rfl hfa'
          (by omega) hcr hda
        unfold BR.CursorOk
        exact hri.no_occ

theorem BR.consumeBoundary_inv {s : BR} (h : s.Inv) : s.consumeBoundary.2.Inv := by
  have := BR.consumeBoundary_spec h
  generalize s.consumeBoundary.1 = r at this
  generalize s.consumeBoundary.2 = t at this
  cases this <;> assumption

end Multipart

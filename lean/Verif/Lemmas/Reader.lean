import Verif.Lemmas.Find
namespace Multipart

/-- Offsets in the unread stream at which a chunk ends: the end of the buffer and the ends of the chunks to come. -/
def cutsFrom (len : Nat) : List Ev → List Nat
  | [] => [len]
  | .data bs :: r => len :: cutsFrom (len + bs.length) r
  | .err _ :: r => len :: cutsFrom len r

def BR.cuts (s : BR) : List Nat := cutsFrom s.buf.length s.evs

/-! ## `fill` -/

structure FillSpec (min : Nat) (buf : Bytes) (evs : List Ev) (r : Option IoErr) (buf' : Bytes) (evs' : List Ev) : Prop where
  bytes : buf' ++ Ev.bytes evs' = buf ++ Ev.bytes evs
  pre : buf <+: buf'
  suf : evs' <:+ evs
  progress : evs'.length < evs.length ∨ (r = none ∧ buf' = buf ∧ evs' = evs)
  enough : r = none → NoStall evs → min ≤ buf'.length ∨ evs' = []
  same : min ≤ buf.length ∨ evs = [] → r = none ∧ buf' = buf ∧ evs' = evs
  errmem : ∀ e, r = some e → Ev.err e ∈ evs
  cuts : ∀ k, k ∈ cutsFrom buf'.length evs' → k ∈ cutsFrom buf.length evs

theorem mem_cutsFrom_self (len : Nat) (evs : List Ev) : len ∈ cutsFrom len evs := by
  cases evs with
  | nil => simp [cutsFrom]
  | cons e r => cases e <;> simp [cutsFrom]

theorem fill_spec (min : Nat) : ∀ (evs : List Ev) (buf : Bytes),
    FillSpec min buf evs (fill min buf evs).1 (fill min buf evs).2.1 (fill min buf evs).2.2 := by
  intro evs
  induction evs with
  | nil =>
    intro buf
    simp only [fill]
    exact ⟨rfl, List.prefix_rfl, List.suffix_rfl, .inr ⟨rfl, rfl, rfl⟩, fun _ _ => .inr rfl, fun _ => ⟨rfl, rfl, rfl⟩,
      by simp, fun k h => h⟩
  | cons ev r ih =>
    intro buf
    cases ev with
    | err e =>
      simp only [fill]
      split
      · next h => exact ⟨rfl, List.prefix_rfl, List.suffix_rfl, .inr ⟨rfl, rfl, rfl⟩, fun _ _ => .inl h, fun _ => ⟨rfl, rfl, rfl⟩,
          by simp, fun k h => h⟩
      · next h => exact ⟨by simp [Ev.bytes], List.prefix_rfl, List.suffix_cons _ _, .inl (by simp), by simp,
          fun hh => absurd (hh.resolve_right (by simp)) h, by simp, fun k h => by simp [cutsFrom, h]⟩
    | data bs =>
      cases bs with
      | nil =>
        simp only [fill]
        split
        · next h => exact ⟨rfl, List.prefix_rfl, List.suffix_rfl, .inr ⟨rfl, rfl, rfl⟩, fun _ _ => .inl h, fun _ => ⟨rfl, rfl, rfl⟩,
            by simp, fun k h => h⟩
        · next h => exact ⟨by simp [Ev.bytes], List.prefix_rfl, List.suffix_cons _ _, .inl (by simp), fun _ hn => by simp [NoStall] at hn,
            fun hh => absurd (hh.resolve_right (by simp)) h, by simp, fun k h => by simp [cutsFrom, h]⟩
      | cons b bs =>
        simp only [fill]
        split
        · next h => exact ⟨rfl, List.prefix_rfl, List.suffix_rfl, .inr ⟨rfl, rfl, rfl⟩, fun _ _ => .inl h, fun _ => ⟨rfl, rfl, rfl⟩,
            by simp, fun k h => h⟩
        · next h =>
          have := ih (buf ++ b :: bs)
          refine ⟨?_, ?_, ?_, ?_, ?_, fun hh => absurd (hh.resolve_right (by simp)) h, ?_, ?_⟩
          · rw [this.bytes]; simp [Ev.bytes]
          · exact (List.prefix_append _ _).trans this.pre
          · exact this.suf.trans (List.suffix_cons _ _)
          · left; have := this.suf.length_le; simp; omega
          · intro h1 h2
            exact this.enough h1 (fun hm => h2 (List.mem_cons_of_mem _ hm))
          · intro e he; exact List.mem_cons_of_mem _ (this.errmem e he)
          · intro k hk
            have := this.cuts k hk
            simp only [cutsFrom, List.mem_cons]
            right
            simpa using this

/-! ## Invariant of the reader -/

/-- What the cursor means, per state. -/
def BR.CursorOk (s : BR) : Prop :=
  match s.st with
  | .searching => ∀ q, q < s.idx → ¬ OccursAt s.delim s.unread q
  | .boundaryRead => ∃ p, FirstAt s.delim s.unread p ∧ p + s.delim.length ≤ s.buf.length ∧
      (p = s.idx ∨ (p = s.idx + 2 ∧ crlf <+: s.buf.drop s.idx))
  | .atEnd => s.idx = 0

structure BR.Inv (s : BR) : Prop where
  dash : dashes <+: s.delim
  idx_le : s.idx ≤ s.buf.length
  cursor : s.CursorOk

theorem BR.Inv.delim_ne {s : BR} (h : s.Inv) : s.delim ≠ [] := by
  intro hc
  have := h.dash
  rw [hc] at this
  simp [dashes] at this

theorem BR.Inv.delim_len {s : BR} (h : s.Inv) : 2 ≤ s.delim.length := by
  have := h.dash.length_le
  simpa [dashes] using this

/-- The reader after a (re)fill of its buffer. -/
def BR.refill (s : BR) : BR :=
  { s with buf := (fill s.min s.buf s.evs).2.1, evs := (fill s.min s.buf s.evs).2.2 }

theorem BR.refill_unread (s : BR) : s.refill.unread = s.unread := (fill_spec s.min s.evs s.buf).bytes

theorem BR.refill_inv {s : BR} (h : s.Inv) : s.refill.Inv := by
  have hf := fill_spec s.min s.evs s.buf
  have hu := s.refill_unread
  refine ⟨h.dash, Nat.le_trans h.idx_le hf.pre.length_le, ?_⟩
  have hc := h.cursor
  have h1 : s.refill.st = s.st := rfl
  have h2 : s.refill.idx = s.idx := rfl
  have h3 : s.refill.delim = s.delim := rfl
  unfold BR.CursorOk at *
  rw [h1, h2, h3, hu]
  cases hst : s.st with
  | searching => simp only [hst] at hc ⊢; exact hc
  | atEnd => simp only [hst] at hc ⊢; exact hc
  | boundaryRead =>
    simp only [hst] at hc ⊢
    obtain ⟨p, hp1, hp2, hp3⟩ := hc
    refine ⟨p, hp1, Nat.le_trans hp2 hf.pre.length_le, hp3.imp id fun ⟨a, b⟩ => ⟨a, ?_⟩⟩
    obtain ⟨t, ht⟩ := hf.pre
    have : s.refill.buf = s.buf ++ t := ht.symm
    rw [this, List.drop_append_of_le_length h.idx_le]
    exact b.trans (List.prefix_append _ _)

theorem dash_ne_crlf {d : Bytes} (h : dashes <+: d) (xs : Bytes) : ¬ crlf <+: d ++ xs := by
  intro hc
  obtain ⟨t, rfl⟩ := h
  simp [crlf, dashes] at hc

/-- What one `search` step does, in a state that is `searching`. -/
theorem BR.search_spec {s : BR} (h : s.Inv) (hst : s.st = .searching) :
    s.search.buf = s.buf ∧ s.search.evs = s.evs ∧ s.search.min = s.min ∧ s.search.delim = s.delim ∧
    s.idx ≤ s.search.idx ∧ s.search.idx ≤ s.buf.length ∧
    ((s.search.st = .boundaryRead ∧ FirstAt s.delim s.unread s.search.idx ∧
        s.search.idx + s.delim.length ≤ s.buf.length) ∨
     (s.search.st = .searching ∧ (∀ q, q < s.search.idx → ¬ OccursAt s.delim s.unread q) ∧
        (s.search.idx = s.buf.length ∨
          (s.search.idx < s.buf.length ∧ s.buf.drop s.search.idx <+: s.delim ∧ s.buf.length < s.search.idx + s.delim.length)))) := by
  have hc := h.cursor
  unfold BR.CursorOk at hc
  simp only [hst] at hc
  have hd := h.delim_ne
  have hidx := h.idx_le
  unfold BR.search
  split
  · next hlt =>
    have hun : s.unread.drop s.idx = s.buf.drop s.idx ++ Ev.bytes s.evs := by
      unfold BR.unread; rw [List.drop_append_of_le_length hidx]
    split
    · next found hf =>
      have hfa := findBoundary_ok hf
      have hl := occursAt_lt hfa.1 hd
      rw [List.length_drop] at hl
      refine ⟨rfl, rfl, rfl, rfl, by simp, by simp; omega, .inl ⟨rfl, ?_, by simp; omega⟩⟩
      have := hfa.append hd (Ev.bytes s.evs)
      rw [← hun] at this
      exact this.of_drop hc
    · next y hf =>
      obtain ⟨h1, h2, h3⟩ := findBoundary_error hd hf
      rw [List.length_drop] at h1 h3
      refine ⟨rfl, rfl, rfl, rfl, by simp, by simp; omega, .inr ⟨by simpa using hst, ?_, ?_⟩⟩
      · intro q hq hocc
        simp only at hq
        by_cases hqi : q < s.idx
        · exact hc q hqi hocc
        · apply h2 (Ev.bytes s.evs) (q - s.idx) (by omega)
          rw [← hun, occursAt_drop]
          have : s.idx + (q - s.idx) = q := by omega
          rw [this]; exact hocc
      · simp only
        rcases h3 with h3 | ⟨h3, h4, h5⟩
        · left; omega
        · right; rw [List.drop_drop] at h4; exact ⟨by omega, h4, by omega⟩
  · next hlt => exact ⟨rfl, rfl, rfl, rfl, by simp, hidx, .inr ⟨hst, hc, .inl (by omega)⟩⟩

/-- Shape of the cursor after `backUp`. -/
theorem BR.backUp_spec (s : BR) :
    s.backUp.buf = s.buf ∧ s.backUp.evs = s.evs ∧ s.backUp.min = s.min ∧ s.backUp.delim = s.delim ∧ s.backUp.st = s.st ∧
    ((s.backUp.idx = s.idx ∧ (2 ≤ s.idx → ¬ crlf <+: s.buf.drop s.idx → (s.buf.drop (s.idx - 2)).take 2 ≠ crlf)) ∨
     (2 ≤ s.idx ∧ s.backUp.idx = s.idx - 2 ∧ (s.buf.drop (s.idx - 2)).take 2 = crlf ∧ ¬ crlf <+: s.buf.drop s.idx)) := by
  unfold BR.backUp
  split
  · next h =>
    split
    · next h2 => exact ⟨rfl, rfl, rfl, rfl, rfl, .inr ⟨h.1, rfl, h2, fun hc => h.2 (List.isPrefixOf_iff_prefix.mpr hc)⟩⟩
    · next h2 => exact ⟨rfl, rfl, rfl, rfl, rfl, .inl ⟨rfl, fun _ _ => h2⟩⟩
  · next h =>
    refine ⟨rfl, rfl, rfl, rfl, rfl, .inl ⟨rfl, fun h1 h2 => ?_⟩⟩
    exact absurd ⟨h1, fun hc => h2 (List.isPrefixOf_iff_prefix.mp hc)⟩ h

theorem take_eq_imp_prefix {d xs : Bytes} {n : Nat} (h : xs.take n = d) : d <+: xs := by
  rw [← h]; exact List.take_prefix _ _

theorem prefix_take_eq {d xs : Bytes} (h : d <+: xs) : xs.take d.length = d := by
  obtain ⟨t, rfl⟩ := h; simp

theorem BR.unread_congr {s t : BR} (h1 : s.buf = t.buf) (h2 : s.evs = t.evs) : s.unread = t.unread := by
  unfold BR.unread; rw [h1, h2]

theorem BR.searchBackUp_inv {s : BR} (h : s.Inv) (hst : s.st = .searching) : s.search.backUp.Inv := by
  obtain ⟨e1, e2, e3, e4, e5, e6, e7⟩ := s.search_spec h hst
  obtain ⟨b1, b2, b3, b4, b5, b6⟩ := s.search.backUp_spec
  have hu : s.search.backUp.unread = s.unread := by
    unfold BR.unread; rw [b1, b2, e1, e2]
  have hdl := h.delim_len
  refine ⟨by rw [b4, e4]; exact h.dash, ?_, ?_⟩
  · rw [b1, e1]; rcases b6 with b6 | b6 <;> omega
  · unfold BR.CursorOk
    rw [b5, hu, b4, e4, b1, e1]
    rcases e7 with ⟨st, fa, hl⟩ | ⟨st, noc, _⟩
    · simp only [st]
      refine ⟨s.search.idx, fa, hl, ?_⟩
      rcases b6 with ⟨b6, _⟩ | ⟨b6, b7, b8, _⟩
      · left; exact b6.symm
      · right
        refine ⟨by omega, ?_⟩
        rw [b7, ← e1]; exact take_eq_imp_prefix b8
    · simp only [st]
      intro q hq
      exact noc q (by rcases b6 with b6 | b6 <;> omega)

/-- `read_to_boundary`, decomposed: refill; then, unless the delimiter was found before, search and back up. -/
def BR.afterRead (s : BR) : BR := if s.st = .searching then s.refill.search.backUp else s.refill

theorem BR.readToBoundary_eq {s : BR} (h : s.Inv) :
    (∃ e, (fill s.min s.buf s.evs).1 = some e ∧ s.readToBoundary = (.err e, s.refill)) ∨
    ((fill s.min s.buf s.evs).1 = none ∧
      s.readToBoundary = (.ok (s.afterRead.buf.take s.afterRead.idx), s.afterRead)) := by
  have hri := s.refill_inv h
  rcases hfe : (fill s.min s.buf s.evs) with ⟨r, buf, evs⟩
  have hrs : s.refill = { s with buf := buf, evs := evs } := by unfold BR.refill; rw [hfe]
  cases r with
  | some e => left; refine ⟨e, rfl, ?_⟩; unfold BR.readToBoundary; rw [hfe, hrs]
  | none =>
    right
    refine ⟨rfl, ?_⟩
    unfold BR.readToBoundary
    rw [hfe]
    simp only
    rw [← hrs]
    have hst' : s.refill.st = s.st := rfl
    unfold BR.afterRead
    by_cases hs : s.st = .searching
    · rw [if_neg (by rw [hs]; simp), if_pos hs]
      obtain ⟨e1, e2, e3, e4, e5, e6, e7⟩ := s.refill.search_spec hri (by rw [hst', hs])
      rw [if_neg (by rw [e1]; omega)]
      have hb := (s.refill.searchBackUp_inv hri (by rw [hst', hs])).idx_le
      unfold BR.yielded; rw [if_pos hb]
    · have hcase : s.st = .boundaryRead ∨ s.st = .atEnd := by
        cases hh : s.st with
        | searching => exact absurd hh hs
        | boundaryRead => exact .inl rfl
        | atEnd => exact .inr rfl
      rw [if_pos hcase, if_neg hs]
      unfold BR.yielded; rw [if_pos hri.idx_le]

theorem BR.afterRead_inv {s : BR} (h : s.Inv) : s.afterRead.Inv := by
  unfold BR.afterRead
  split
  · next hs => exact BR.searchBackUp_inv (s.refill_inv h) hs
  · exact s.refill_inv h

theorem BR.search_frame (s : BR) : s.search.buf = s.buf ∧ s.search.evs = s.evs ∧ s.search.min = s.min ∧ s.search.delim = s.delim := by
  unfold BR.search
  split
  · split <;> exact ⟨rfl, rfl, rfl, rfl⟩
  · exact ⟨rfl, rfl, rfl, rfl⟩

theorem BR.afterRead_frame (s : BR) :
    s.afterRead.buf = s.refill.buf ∧ s.afterRead.evs = s.refill.evs ∧ s.afterRead.min = s.min ∧ s.afterRead.delim = s.delim := by
  unfold BR.afterRead
  split
  · obtain ⟨a, b, c, d⟩ := s.refill.search_frame
    obtain ⟨b1, b2, b3, b4, _⟩ := s.refill.search.backUp_spec
    exact ⟨by rw [b1, a], by rw [b2, b], by rw [b3, c]; rfl, by rw [b4, d]; rfl⟩
  · exact ⟨rfl, rfl, rfl, rfl⟩

theorem BR.afterRead_unread (s : BR) : s.afterRead.unread = s.unread := by
  rw [← s.refill_unread]
  exact BR.unread_congr s.afterRead_frame.1 s.afterRead_frame.2.1

theorem BR.readToBoundary_inv {s : BR} (h : s.Inv) : s.readToBoundary.2.Inv := by
  rcases BR.readToBoundary_eq h with ⟨e, _, he⟩ | ⟨_, he⟩
  · rw [he]; exact s.refill_inv h
  · rw [he]; exact s.afterRead_inv h

theorem BR.readToBoundary_unread {s : BR} (h : s.Inv) : s.readToBoundary.2.unread = s.unread := by
  rcases BR.readToBoundary_eq h with ⟨e, _, he⟩ | ⟨_, he⟩
  · rw [he]; exact s.refill_unread
  · rw [he]; exact s.afterRead_unread

/-! ## `consume` -/

theorem BR.consume_unread {s : BR} (_h : s.Inv) (n : Nat) :
    s.buf.take (Nat.min n s.idx) ++ (s.consume n).unread = s.unread := by
  unfold BR.consume BR.unread
  simp only
  rw [← List.append_assoc, List.take_append_drop]

theorem BR.consume_unread_drop {s : BR} (h : s.Inv) (n : Nat) :
    (s.consume n).unread = s.unread.drop (Nat.min n s.idx) := by
  unfold BR.consume BR.unread
  simp only
  rw [List.drop_append_of_le_length]
  exact Nat.le_trans (Nat.min_le_right _ _) h.idx_le

theorem BR.consume_inv {s : BR} (h : s.Inv) (n : Nat) : (s.consume n).Inv := by
  have hm : Nat.min n s.idx ≤ s.idx := Nat.min_le_right _ _
  have hidx := h.idx_le
  have hu := BR.consume_unread_drop h n
  have hc := h.cursor
  refine ⟨h.dash, by unfold BR.consume; simp only [List.length_drop]; omega, ?_⟩
  unfold BR.CursorOk at *
  rw [hu]
  have e1 : (s.consume n).st = s.st := rfl
  have e2 : (s.consume n).idx = s.idx - Nat.min n s.idx := rfl
  have e3 : (s.consume n).delim = s.delim := rfl
  have e4 : (s.consume n).buf = s.buf.drop (Nat.min n s.idx) := rfl
  rw [e1, e2, e3, e4]
  generalize Nat.min n s.idx = t at *
  cases hst : s.st with
  | searching =>
    simp only [hst] at hc ⊢
    intro q hq hocc
    rw [occursAt_drop] at hocc
    exact hc (t + q) (by omega) hocc
  | atEnd => simp only [hst] at hc ⊢; omega
  | boundaryRead =>
    simp only [hst] at hc ⊢
    obtain ⟨p, hp1, hp2, hp3⟩ := hc
    refine ⟨p - t, hp1.drop (by omega), by rw [List.length_drop]; omega, ?_⟩
    rcases hp3 with hp3 | ⟨hp3, hp4⟩
    · left; omega
    · right
      refine ⟨by omega, ?_⟩
      rw [List.drop_drop]
      have : t + (s.idx - t) = s.idx := by omega
      rw [this]; exact hp4

theorem BR.setMin_inv {s : BR} (h : s.Inv) (n : Nat) : (s.setMin n).Inv := ⟨h.dash, h.idx_le, h.cursor⟩

theorem BR.fromReader_inv (evs : List Ev) (b : Bytes) : (BR.fromReader evs b).Inv :=
  ⟨List.prefix_append _ _, by simp [BR.fromReader], by simp [BR.CursorOk, BR.fromReader]⟩

/-! ## `read` -/

theorem BR.read_eq {s : BR} (h : s.Inv) (n : Nat) :
    (∃ e, (fill s.min s.buf s.evs).1 = some e ∧ s.read n = (.err e, s.refill)) ∨
    ((fill s.min s.buf s.evs).1 = none ∧
      s.read n = (.ok (s.afterRead.buf.take (Nat.min n s.afterRead.idx)), s.afterRead.consume n)) := by
  rcases BR.readToBoundary_eq h with ⟨e, h1, he⟩ | ⟨h1, he⟩
  · left; exact ⟨e, h1, by unfold BR.read; rw [he]⟩
  · right
    refine ⟨h1, ?_⟩
    unfold BR.read; rw [he]
    have hi := (s.afterRead_inv h).idx_le
    have hlen : Nat.min ((s.afterRead.buf.take (Nat.min n s.afterRead.idx)).length) s.afterRead.idx = Nat.min n s.afterRead.idx := by
      rw [List.length_take]
      have h1 : Nat.min n s.afterRead.idx ≤ s.afterRead.idx := Nat.min_le_right _ _
      have h2 : Min.min (Nat.min n s.afterRead.idx) s.afterRead.buf.length = Nat.min n s.afterRead.idx :=
        Nat.min_eq_left (Nat.le_trans h1 hi)
      rw [h2]; exact Nat.min_eq_left h1
    have ht : (s.afterRead.buf.take s.afterRead.idx).take n = s.afterRead.buf.take (Nat.min n s.afterRead.idx) :=
      List.take_take ..
    simp only [ht]
    unfold BR.consume
    rw [hlen]

theorem BR.op_inv {s : BR} (h : s.Inv) (o : FieldOp) : (s.op o).2.Inv := by
  cases o with
  | fillBuf => exact BR.readToBoundary_inv h
  | read n =>
    rcases BR.read_eq h n with ⟨e, _, he⟩ | ⟨_, he⟩
    · simp only [BR.op, he]; exact s.refill_inv h
    · simp only [BR.op, he]; exact BR.consume_inv (s.afterRead_inv h) n
  | consume n => exact BR.consume_inv h n
  | setMin n => exact BR.setMin_inv h n

theorem BR.op_unread {s : BR} (h : s.Inv) (o : FieldOp) : (s.op o).1 ++ (s.op o).2.unread = s.unread := by
  cases o with
  | fillBuf => simpa [BR.op] using BR.readToBoundary_unread h
  | read n =>
    rcases BR.read_eq h n with ⟨e, _, he⟩ | ⟨_, he⟩
    · simp only [BR.op, he]; exact s.refill_unread
    · simp only [BR.op, he]
      rw [BR.consume_unread (s.afterRead_inv h)]; exact s.afterRead_unread
  | consume n => exact BR.consume_unread h n
  | setMin n => rfl

theorem BR.run_inv : ∀ (os : List FieldOp) {s : BR}, s.Inv → (s.run os).2.Inv := by
  intro os
  induction os with
  | nil => intro s h; exact h
  | cons o os ih => intro s h; exact ih (BR.op_inv h o)

theorem BR.run_unread : ∀ (os : List FieldOp) {s : BR}, s.Inv → (s.run os).1 ++ (s.run os).2.unread = s.unread := by
  intro os
  induction os with
  | nil => intro s h; rfl
  | cons o os ih =>
    intro s h
    simp only [BR.run, List.append_assoc]
    rw [ih (BR.op_inv h o)]; exact BR.op_unread h o

end Multipart

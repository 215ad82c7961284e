import Verif.Props.Reading
/-!
# C107: what `fill_buf` returns after `set_min_buf_size`
-/
namespace Multipart

variable {D : Deps} {evs : List Ev} {b : Bytes} {s t : BR} {shown : Bytes} {n : Nat}

/-- `shown` is all that is left of the field: the bytes before the next delimiter, without the line break that belongs to it. -/
def RestOfField (d rest shown : Bytes) : Prop := ∃ p, FirstAt d rest p ∧ (shown = rest.take p ∨ shown ++ crlf = rest.take p)

/-- The full claim C107, as documented for `set_min_buf_size`: `fill_buf` returns at least so many bytes, unless it returns all that is left of the field, or the end of the stream was reached. -/
def MinBufferKept (D : Deps) : Prop := ∀ (evs : List Ev) (b : Bytes) (s t : BR) (n : Nat) (shown : Bytes), NoStall evs → Reachable D evs b s → s.st ≠ .atEnd →
  (s.setMin n).readToBoundary = (.ok shown, t) → n ≤ shown.length ∨ RestOfField (dashes ++ b) s.unread shown ∨ t.evs = []

theorem BR.afterRead_yields (h : s.Inv) (hn : NoStall s.evs) (hst : s.st ≠ .atEnd) (hf : (fill s.min s.buf s.evs).1 = none) :
    s.min ≤ s.afterRead.idx + s.delim.length + 1 ∨ RestOfField s.delim s.unread (s.afterRead.buf.take s.afterRead.idx) ∨ s.afterRead.evs = [] := by
  have hi := s.afterRead_inv h
  have hu : s.afterRead.unread = s.unread := s.afterRead_unread
  have hd : s.afterRead.delim = s.delim := s.afterRead_frame.2.2.2
  have hfs := fill_spec s.min s.evs s.buf
  rcases hfs.enough hf hn with hm | hm
  · cases ha : s.afterRead.st with
    | boundaryRead =>
      have hc := hi.cursor
      unfold BR.CursorOk at hc
      simp only [ha] at hc
      obtain ⟨p, h1, h2, h3⟩ := hc
      rw [hu, hd] at h1
      refine .inr (.inl ⟨p, h1, ?_⟩)
      have htake : ∀ k, k ≤ s.afterRead.buf.length → s.unread.take k = s.afterRead.buf.take k := by
        intro k hk
        rw [← hu]
        unfold BR.unread
        rw [List.take_append_of_le_length hk]
      rcases h3 with rfl | ⟨rfl, h3⟩
      · exact .inl (htake _ hi.idx_le).symm
      · refine .inr ?_
        rw [htake _ (by omega), List.take_add, ← prefix_take_eq h3]
        rfl
    | atEnd =>
      unfold BR.afterRead at ha
      split at ha
      · next hs =>
        obtain ⟨-, -, -, -, -, -, h1⟩ := s.refill.search_spec (s.refill_inv h) hs
        rw [s.refill.search.backUp_spec.2.2.2.2.1] at ha
        rcases h1 with ⟨h1, -⟩ | ⟨h1, -⟩ <;> rw [h1] at ha <;> cases ha
      · exact absurd ha hst
    | searching =>
      left
      have hs : s.st = .searching := by
        unfold BR.afterRead at ha
        split at ha
        · next hs => exact hs
        · exact ha
      have he : s.afterRead = s.refill.search.backUp := by unfold BR.afterRead; rw [if_pos hs]
      obtain ⟨-, -, -, -, -, -, h1⟩ := s.refill.search_spec (s.refill_inv h) hs
      obtain ⟨-, -, -, -, h2, h3⟩ := s.refill.search.backUp_spec
      rw [he] at ha ⊢
      rw [h2] at ha
      have hl : s.refill.buf.length = (fill s.min s.buf s.evs).2.1.length := rfl
      have hdl := h.delim_len
      have hde : s.refill.delim = s.delim := rfl
      rw [hde] at h1
      rcases h1 with ⟨h1, -⟩ | ⟨-, -, h1⟩
      · rw [h1] at ha; cases ha
      · rcases h3 with ⟨h3, -⟩ | ⟨-, h3, -⟩ <;> rw [h3] <;> omega
  · right; right
    rw [s.afterRead_frame.2.1]
    exact hm

/-- C107, as far as it holds: `fill_buf` returns at least so many bytes (or twice the length of the delimiter, if that is more), less the length of the delimiter and one, unless it returns all that is left of the field, or the end of the stream was
reached. -/
theorem C107_min_buffer_partial (hD : D.Sane) (hn : NoStall evs) (hr : Reachable D evs b s) (hst : s.st ≠ .atEnd) (h : (s.setMin n).readToBoundary = (.ok shown, t)) :
    Nat.max n (2 * (b.length + 2)) ≤ shown.length + b.length + 3 ∨ RestOfField (dashes ++ b) s.unread shown ∨ t.evs = [] := by
  obtain ⟨hi, hu, hdl, hev⟩ := hr.spec hD
  have hi' := BR.setMin_inv hi n
  rcases BR.readToBoundary_eq hi' with ⟨e, -, he⟩ | ⟨hf, he⟩
  · rw [he] at h; cases h
  · rw [he] at h
    cases h
    have hn' : NoStall (s.setMin n).evs := fun hm => hn (hev.subset hm)
    have h1 : (s.setMin n).delim = dashes ++ b := hdl
    have h2 : (s.setMin n).unread = s.unread := rfl
    have h3 : (s.setMin n).min = Nat.max (s.delim.length * 2) n := rfl
    have h4 := BR.afterRead_inv hi'
    have h5 := BR.afterRead_yields hi' hn' hst hf
    rw [h1, h2] at h5
    refine h5.imp (fun h5 => ?_) id
    rw [List.length_take, Nat.min_eq_left h4.idx_le]
    rw [h3, hdl] at h5
    simp only [List.length_append] at h5
    have : dashes.length = 2 := rfl
    have h6 := Nat.le_trans (Nat.le_max_left ((dashes.length + b.length) * 2) n) h5
    have h7 := Nat.le_trans (Nat.le_max_right ((dashes.length + b.length) * 2) n) h5
    exact Nat.max_le.mpr ⟨by omega, by omega⟩

namespace Sample
/-- A field whose data has a line that looks like the beginning of a delimiter, where a read ends. -/
def evsLine : List Ev := [.data (b!"--b\r\n" ++ hdr ++ List.replicate 1024 0x78 ++ b!"\r\n--"), .data b!"more\r\n--b--"]
def sLine : BR := ((withBody evsLine bnd).readEntry refDeps).2
def tLine : BR := (sLine.setMin 1028).readToBoundary.2
theorem line_read : (sLine.setMin 1028).readToBoundary = (.ok (List.replicate 1024 0x78), tLine) := pair_eq (by decide +kernel) tLine.eq_def.symm
theorem line_reachable : Reachable refDeps evsLine bnd sLine := ⟨[.readEntry], rfl⟩
theorem line_open : sLine.st ≠ .atEnd := by decide +kernel
theorem line_unread : sLine.unread = List.replicate 1024 0x78 ++ b!"\r\n--more\r\n--b--" := by decide +kernel
theorem line_evs : tLine.evs ≠ [] := by decide +kernel
theorem line_find : findSub (dashes ++ bnd) sLine.unread = some 1034 := by decide +kernel
theorem line_not_all : ¬ RestOfField (dashes ++ bnd) sLine.unread (List.replicate 1024 0x78) := by
  rintro ⟨p, h1, h2⟩
  rw [(findSub_some line_find).unique h1 |>.symm, line_unread] at h2
  rcases h2 with h2 | h2
  · exact absurd (congrArg List.length h2) (by decide +kernel)
  · exact absurd (congrArg List.length h2) (by decide +kernel)
end Sample

/-- The hypotheses of C107_min_buffer_partial are met. -/
example : refDeps.Sane ∧ NoStall Sample.evsLine ∧ Reachable refDeps Sample.evsLine Sample.bnd Sample.sLine ∧ Sample.sLine.st ≠ .atEnd ∧
    (Sample.sLine.setMin 1028).readToBoundary = (.ok (List.replicate 1024 0x78), Sample.tLine) :=
  ⟨refDeps_sane, by decide +kernel, Sample.line_reachable, Sample.line_open, Sample.line_read⟩

/-- C107: the bound is sharp. -/
theorem C107_sharp : ∃ evs b s t n shown, NoStall evs ∧ Reachable refDeps evs b s ∧ s.st ≠ .atEnd ∧ (s.setMin n).readToBoundary = (.ok shown, t) ∧
    n = shown.length + b.length + 3 ∧ ¬ RestOfField (dashes ++ b) s.unread shown ∧ t.evs ≠ [] :=
  ⟨Sample.evsLine, Sample.bnd, Sample.sLine, Sample.tLine, 1028, _, by decide +kernel, Sample.line_reachable, Sample.line_open, Sample.line_read, by decide +kernel, Sample.line_not_all, Sample.line_evs⟩

/-- C107 is false of the code. -/
theorem C107_false : ¬ MinBufferKept refDeps := by
  intro h
  obtain ⟨evs, b, s, t, n, shown, h1, h2, h3, h4, h5, h6, h7⟩ := C107_sharp
  rcases h evs b s t n shown h1 h2 h3 h4 with h | h | h
  · omega
  · exact h6 h
  · exact h7 h

/-- C107: the underlying stream is not read while the buffer is large enough: `fill_buf` after `fill_buf` and `consume`, when as much as the minimum is left. -/
theorem C107_no_read (hD : D.Sane) (hr : Reachable D evs b s) (h : s.readToBoundary = (.ok shown, t)) {k : Nat} (hk : s.min + k ≤ shown.length) : (t.consume k).readToBoundary.2.evs = t.evs := by
  obtain ⟨hi, hu, hdl, hev⟩ := hr.spec hD
  have ht : t.Inv ∧ t.min = s.min ∧ shown.length ≤ t.buf.length ∧ t.idx = shown.length := by
    rcases BR.readToBoundary_eq hi with ⟨e, -, he⟩ | ⟨-, he⟩
    · rw [he] at h; cases h
    · rw [he] at h
      cases h
      have := s.afterRead_inv hi
      exact ⟨this, s.afterRead_frame.2.2.1, by rw [List.length_take]; exact Nat.min_le_right .., by rw [List.length_take, Nat.min_eq_left this.idx_le]⟩
  obtain ⟨h1, h2, h3, h4⟩ := ht
  have hi' := BR.consume_inv h1 k
  have hsame := (fill_spec (t.consume k).min (t.consume k).evs (t.consume k).buf).same (.inl (by
    show t.min ≤ (t.buf.drop (Nat.min k t.idx)).length
    rw [List.length_drop]
    have : Nat.min k t.idx ≤ k := Nat.min_le_left ..
    omega))
  have hev' : (t.consume k).refill.evs = t.evs := hsame.2.2
  rcases BR.readToBoundary_eq hi' with ⟨e, -, he⟩ | ⟨-, he⟩
  · rw [he]; exact hev'
  · rw [he]; exact ((t.consume k).afterRead_frame.2.1).trans hev'

example : Reachable refDeps Sample.evsLine Sample.bnd Sample.sLine ∧ NoStall Sample.evsLine ∧ Sample.sLine.readToBoundary.1 = .ok (List.replicate 1024 0x78) ∧ Sample.sLine.min + 0 ≤ 1024 :=
  ⟨Sample.line_reachable, by decide +kernel, by decide +kernel, by decide +kernel⟩

end Multipart

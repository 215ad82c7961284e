import Verif.Props.Retry
import Verif.Lemmas.Skip
/-!
# C85: an interrupted read may cost the first part
-/
namespace Multipart

variable {D : Deps} {b : Bytes} {s t : BR}

/-- The cursor after the delimiter at `p` was found in the buffer. -/
theorem BR.found_idx {p : Nat} (hi : s.Inv) (hst : s.st = .searching) (hf : FirstAt s.delim s.unread p) (hl : p + s.delim.length ≤ s.buf.length) :
    s.search.backUp.st = .boundaryRead ∧ s.search.backUp.idx = (if 2 ≤ p ∧ (s.buf.drop (p - 2)).take 2 = crlf then p - 2 else p) := by
  obtain ⟨e1, e2, e3, e4, e5, e6, e7⟩ := s.search_spec hi hst
  obtain ⟨b1, b2, b3, b4, b5, b6⟩ := s.search.backUp_spec
  have hdl := hi.delim_len
  have hfound : s.search.st = .boundaryRead ∧ s.search.idx = p := by
    rcases e7 with ⟨h1, h2, -⟩ | ⟨-, h2, h3⟩
    · exact ⟨h1, h2.unique hf⟩
    · exfalso
      have h4 : ¬ p < s.search.idx := fun h => h2 _ h hf.1
      rcases h3 with h3 | ⟨-, -, h3⟩ <;> omega
  refine ⟨by rw [b5, hfound.1], ?_⟩
  have hno : ¬ crlf <+: s.search.buf.drop s.search.idx := by
    rw [e1, hfound.2]
    intro hc
    have h1 : s.delim <+: s.buf.drop p := by
      have := occursAt_of_append (ys := Ev.bytes s.evs) hf.1 hl
      exact this
    obtain ⟨x, hx⟩ := hi.dash
    obtain ⟨y, hy⟩ := h1
    rw [← hy, ← hx] at hc
    simp [crlf, dashes] at hc
  rw [e1, hfound.2] at b6
  rw [e1, hfound.2] at hno
  split
  · next h =>
    rcases b6 with ⟨-, h'⟩ | ⟨-, h', -⟩
    · exact absurd h.2 (h' h.1 hno)
    · exact h'
  · next h =>
    rcases b6 with ⟨h', -⟩ | ⟨h1, -, h2, -⟩
    · exact h'
    · exact absurd ⟨h1, h2⟩ h

/-- C85 fails for every body with at least one part, of more than the minimum buffer from the delimiter of this part on: there is a way for it to arrive, with a single interrupted read, such that `read_entry` reports
invalid data, whatever the headers of this part are; they are still unread, and taken for data by the next call, which looks for the next delimiter: the part is lost. -/
theorem C85_loses {body rest : Bytes} (hN : NextIs (dashes ++ b) body (.part rest)) (hl : entryBuf (dashes ++ b) ≤ (dashes ++ b).length + 2 + rest.length) :
    ∃ evs t, Ev.bytes evs = body ∧ NoStall evs ∧ (∃ before after, evs = before ++ .err .interrupted :: after ∧ NoErr before ∧ NoErr after) ∧
      (withBody evs b).readEntry D = (.err .invalidData, t) ∧ t.unread = rest ∧ t.st = .searching := by
  obtain ⟨p, hp, hdrop⟩ : ∃ p, FirstAt (dashes ++ b) body p ∧ body.drop (p + (dashes ++ b).length) = crlf ++ rest := by
    cases hN with | @part p _ h1 h2 => exact ⟨p, h1, h2⟩
  have hne : (dashes ++ b) ≠ [] := by simp [dashes]
  have hblen : body.length = p + (dashes ++ b).length + 2 + rest.length := by
    have h1 := congrArg List.length hdrop
    have h2 := occursAt_lt hp.1 hne
    rw [List.length_drop] at h1
    simp only [List.length_append, show crlf.length = 2 from rfl] at h1 ⊢
    simp only [List.length_append] at h2
    omega
  -- where the delimiter line begins, with its line break
  let i := if 2 ≤ p ∧ (body.drop (p - 2)).take 2 = crlf then p - 2 else p
  have hip : i ≤ p ∧ p ≤ i + 2 := by simp only [i]; split <;> omega
  let k := i + entryBuf (dashes ++ b)
  have hbig1 : 1024 ≤ entryBuf (dashes ++ b) := Nat.le_max_left _ _
  have hbig2 : 2 * (dashes ++ b).length ≤ entryBuf (dashes ++ b) := Nat.le_max_right _ _
  have hk : k ≤ body.length := by simp only [k]; omega
  have hLlen : (body.take k).length = k := by rw [List.length_take]; omega
  let A : List Ev := .err .interrupted :: Ev.single (body.drop k)
  have hA : Ev.bytes A = body.drop k := by show Ev.bytes (Ev.single (body.drop k)) = _; exact Ev.bytes_single _
  let evs : List Ev := .data (body.take k) :: A
  obtain ⟨s0, hs0⟩ : ∃ s0, s0 = (withBody evs b).setMin minBufSize := ⟨_, rfl⟩
  have hi0 : s0.Inv := hs0 ▸ BR.setMin_inv (BR.fromReader_inv evs b) _
  have hst0 : s0.st = .searching := by rw [hs0]; rfl
  have hd0 : s0.delim = dashes ++ b := by rw [hs0]; rfl
  have hev0 : s0.evs = evs := by rw [hs0]; rfl
  have hbuf0 : s0.buf = [] := by rw [hs0]; rfl
  have hmin0 : s0.min = entryBuf (dashes ++ b) := by
    rw [hs0]
    show Nat.max ((dashes ++ b).length * 2) 1024 = Nat.max 1024 (2 * (dashes ++ b).length)
    rw [Nat.mul_comm]; exact Nat.max_comm _ _
  -- the first read
  have hfill : fill s0.min s0.buf s0.evs = (none, body.take k, A) := by
    rw [hmin0, hbuf0, hev0]
    show fill _ [] (.data (body.take k) :: A) = _
    cases hc : body.take k with
    | nil => rw [hc] at hLlen; simp only [k, List.length_nil] at hLlen; omega
    | cons c cs =>
      rw [fill, if_neg (by simp; omega)]
      show fill _ ([] ++ (c :: cs)) (.err .interrupted :: _) = _
      rw [List.nil_append, fill, if_pos (by rw [← hc, hLlen]; simp only [k]; omega)]
  obtain ⟨s1, hs1⟩ : ∃ s1, s1 = s0.refill := ⟨_, rfl⟩
  have h1 : s1 = { s0 with buf := body.take k, evs := A } := by rw [hs1]; unfold BR.refill; rw [hfill]
  have hi1 : s1.Inv := hs1 ▸ s0.refill_inv hi0
  have hu1 : s1.unread = body := by
    rw [hs1, BR.refill_unread]
    unfold BR.unread
    rw [hbuf0, hev0]
    show [] ++ Ev.bytes (.data (body.take k) :: A) = _
    rw [List.nil_append, Ev.bytes, hA, List.take_append_drop]
  have hb1 : s1.buf = body.take k := by rw [h1]
  have hd1 : s1.delim = dashes ++ b := by rw [h1]; exact hd0
  have hst1 : s1.st = .searching := by rw [h1]; exact hst0
  obtain ⟨f1, f2⟩ := BR.found_idx (p := p) hi1 hst1 (by rw [hu1, hd1]; exact hp) (by rw [hb1, hLlen, hd1]; simp only [k]; omega)
  have hi' : (if 2 ≤ p ∧ (s1.buf.drop (p - 2)).take 2 = crlf then p - 2 else p) = i := by
    have : 2 ≤ p → (s1.buf.drop (p - 2)).take 2 = (body.drop (p - 2)).take 2 := by
      intro h2
      rw [hb1, List.drop_take, List.take_take, Nat.min_eq_left (by simp only [k]; omega)]
    simp only [i]
    by_cases h2 : 2 ≤ p
    · rw [this h2]
    · rw [if_neg (fun h => h2 h.1), if_neg (fun h => h2 h.1)]
  rw [hi'] at f2
  obtain ⟨b1, b2, b3, b4, -⟩ := s1.search.backUp_spec
  obtain ⟨e1, e2, e3, e4, -⟩ := s1.search_spec hi1 hst1
  obtain ⟨s2, hs2⟩ : ∃ s2, s2 = s1.search.backUp := ⟨_, rfl⟩
  rw [← hs2] at f1 f2 b1 b2 b3 b4
  have ha2 : s0.afterRead = s2 := by rw [hs2, hs1]; exact BR.afterRead_searching hst0
  have hi2 : s2.Inv := by rw [← ha2]; exact s0.afterRead_inv hi0
  have hbuf2 : s2.buf = body.take k := by rw [b1, e1, hb1]
  have hread : s0.readToBoundary = (.ok (s2.buf.take i), s2) := by
    rcases BR.readToBoundary_eq hi0 with ⟨e, h, -⟩ | ⟨-, h⟩
    · rw [hfill] at h; simp at h
    · rw [h, ha2, f2]
  have hlen2 : (s2.buf.take i).length = i := by rw [List.length_take, hbuf2, hLlen]; simp only [k]; omega
  obtain ⟨s3, hs3⟩ : ∃ s3, s3 = s2.consume i := ⟨_, rfl⟩
  have hi3 : s3.Inv := hs3 ▸ BR.consume_inv hi2 i
  have hst3 : s3.st = .boundaryRead := by rw [hs3]; exact f1
  have hd3 : s3.delim = dashes ++ b := by rw [hs3]; show s2.delim = _; rw [b4, e4, hd1]
  have hbuf3 : s3.buf = (body.take k).drop i := by
    rw [hs3]
    show s2.buf.drop (Nat.min i s2.idx) = _
    rw [f2, hbuf2]
    exact congrArg (List.drop · _) (Nat.min_self _)
  have hev3 : s3.evs = A := by rw [hs3]; show s2.evs = _; rw [b2, e2, h1]
  have hmin3 : s3.min = entryBuf (dashes ++ b) := by rw [hs3]; show s2.min = _; rw [b3, e3, h1]; exact hmin0
  have hlen3 : s3.buf.length = entryBuf (dashes ++ b) := by rw [hbuf3, List.length_drop, hLlen]; simp only [k]; omega
  have hu3 : s3.unread = body.drop i := by
    unfold BR.unread
    rw [hbuf3, hev3, hA, ← List.drop_append_of_le_length (by rw [hLlen]; simp only [k]; omega), List.take_append_drop]
  have hsl : BR.searchLoop (s0.pending + 2) s0 = (.ok (), s3) := by
    rw [BR.searchLoop, if_pos hst0, hread]
    simp only [hlen2]
    rw [if_neg (by rintro ⟨-, h⟩; rw [f1] at h; simp at h)]
    rw [← hs3, BR.searchLoop, if_neg (by rw [hst3]; simp)]
  -- the delimiter line
  have hre3 := BR.refill_eq_self (s := s3) (.inl (by rw [hmin3, hlen3]; exact Nat.le_refl _))
  obtain ⟨q, g1, -, g2⟩ := BR.verify_spec hi3 hst3
  have hq : q = p - i := by
    rw [hd3, hu3] at g1
    exact g1.unique (hp.drop hip.1)
  have hline : s3.unread.drop (q + (dashes ++ b).length) = crlf ++ rest := by
    rw [hu3, List.drop_drop, show i + (q + (dashes ++ b).length) = p + (dashes ++ b).length by omega, hdrop]
  rw [hd3, hre3.1, hline] at g2
  let s4 := s3.past (q + (dashes ++ b).length + 2) .searching
  have hver : s3.verifyBoundary = (.ok true, s4) := by
    rcases g2 with ⟨e, -, h, -⟩ | ⟨h, -⟩ | ⟨-, -, h⟩ | ⟨-, h, -⟩ | ⟨-, h, -⟩
    · omega
    · omega
    · exact h
    · exfalso; simp [crlf, dashes] at h
    · exact absurd (List.prefix_append _ _) h
  have hcb : s0.consumeBoundary = (.ok true, s4) := by
    unfold BR.consumeBoundary
    rw [if_neg (by rw [hst0]; simp), hsl]
    exact hver
  have hlen4 : s4.buf.length = entryBuf (dashes ++ b) - (q + (dashes ++ b).length + 2) := by
    show (s3.buf.drop _).length = _
    rw [List.length_drop, hlen3]
  have hu4 : s4.unread = rest := by
    show s3.buf.drop (q + (dashes ++ b).length + 2) ++ Ev.bytes s3.evs = rest
    rw [← List.drop_append_of_le_length (by omega)]
    show s3.unread.drop _ = rest
    rw [← List.drop_drop, hline]
    rfl
  have hfill4 : fill s4.min s4.buf s4.evs = (some .interrupted, s4.buf, Ev.single (body.drop k)) := by
    show fill s3.min s4.buf s3.evs = _
    rw [hmin3, hev3]
    show fill _ s4.buf (.err .interrupted :: _) = _
    rw [fill, if_neg (by omega)]
  refine ⟨evs, s4.refill, ?_, ?_, ⟨[.data (body.take k)], Ev.single (body.drop k), rfl, ?_, ?_⟩, ?_, ?_, rfl⟩
  · show body.take k ++ Ev.bytes A = _
    rw [hA, List.take_append_drop]
  · intro h
    rcases List.mem_cons.mp h with h | h
    · injection h with h
      rw [← h] at hLlen
      simp only [k, List.length_nil] at hLlen
      omega
    · rcases List.mem_cons.mp h with h | h
      · simp at h
      · obtain ⟨c, h⟩ := Ev.mem_single h
        simp at h
  · intro e h; simp at h
  · intro e h; obtain ⟨c, h⟩ := Ev.mem_single h; simp at h
  · unfold BR.readEntry
    rw [← hs0, hcb]
    have hrb : s4.readToBoundary = (.err .interrupted, s4.refill) := by
      unfold BR.readToBoundary BR.refill
      rw [hfill4]
    have hloop : withHeadersLoop D (s4.evs.length + 2) 0 s4 = (.err (.io .interrupted), s4.refill) := by rw [withHeadersLoop, hrb]
    simp only
    unfold BR.readHeaders FieldHeaders.readFrom withHeaders
    rw [hloop]
  · rw [BR.refill_unread, hu4]

/-- The body of `evsLost`, however it arrived. -/
example : ∃ evs t, Ev.bytes evs = Sample.bigBody ∧ NoStall evs ∧ (∃ before after, evs = before ++ .err .interrupted :: after ∧ NoErr before ∧ NoErr after) ∧
    (withBody evs Sample.bnd).readEntry refDeps = (.err .invalidData, t) ∧ t.unread = Sample.bigBody.drop 5 ∧ t.st = .searching :=
  C85_loses (.part (p := 0) (findSub_some (by decide +kernel)) (by decide +kernel)) (by decide +kernel)

end Multipart

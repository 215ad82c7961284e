import Verif.Lemmas.Session
import Verif.Lemmas.Utf8
import Verif.Spec.Parts
namespace Multipart

theorem NoErr.fill_none {min : Nat} {buf : Bytes} {evs : List Ev} (h : NoErr evs) : (fill min buf evs).1 = none := by
  cases hf : (fill min buf evs).1 with
  | none => rfl
  | some e => exact absurd ((fill_spec min evs buf).errmem e hf) (h e)

theorem FieldData.firstAt {d X D : Bytes} (h : FieldData d X D) : ∃ p, FirstAt d X p ∧ D.length ≤ p ∧ D <+: X := by
  cases h with
  | crlf a b => exact ⟨_, a, by omega, (List.prefix_append _ _).trans b⟩
  | bare a b c => exact ⟨_, a, by omega, b⟩

/-- Where the data of a field ends, seen from in front of its header block. -/
theorem BR.header_reach {t : BR} (hi : t.Inv) (hst : t.st = .searching) (hn : NoStall t.evs) (hf : (fill t.min t.buf t.evs).1 = none)
    {H X dat : Bytes} (hu : t.unread = H ++ X) (hnd : ∀ q, q < H.length → ¬ OccursAt t.delim t.unread q)
    (hfd : FieldData t.delim X dat) (hsep : FirstAt t.delim X dat.length → ¬ crlf <:+ H ++ dat)
    (hb : H.length + t.delim.length + 1 ≤ t.min) : H.length ≤ t.afterRead.idx := by
  have hri := t.refill_inv hi
  have hfull := BR.refill_full hn hf
  rw [BR.afterRead_searching hst]
  obtain ⟨e1, e2, e3, e4, e5, e6, e7⟩ := t.refill.search_spec hri hst
  obtain ⟨b1, b2, b3, b4, b5, b6⟩ := t.refill.search.backUp_spec
  have hdd : t.refill.delim = t.delim := rfl
  have hun := t.refill_unread
  rw [hun, hdd] at e7
  -- the first delimiter, counted from the start of H
  have hdrop : t.unread.drop H.length = X := by rw [hu]; simp
  obtain ⟨p, hp, hpl, _⟩ := hfd.firstAt
  have hfa : FirstAt t.delim t.unread (H.length + p) := by
    rw [← hdrop] at hp; exact hp.of_drop hnd
  rcases e7 with ⟨_, fa, hl⟩ | ⟨_, noc, e8⟩
  · have hidx := fa.unique hfa
    rcases b6 with ⟨b6, _⟩ | ⟨b6, b7, b8, _⟩
    · omega
    · rw [b7, hidx]
      cases hfd with
      | crlf a _ => have := a.unique hp; omega
      | bare a hda _ =>
        have hpd := a.unique hp
        exfalso
        apply hsep a
        -- CRLF directly before the delimiter
        have htake : H ++ dat = t.unread.take (H.length + dat.length) := by
          rw [hu]
          obtain ⟨r, hr⟩ := hda
          rw [← hr, ← List.append_assoc, List.take_left' (by simp)]
        rw [htake]
        rw [hidx, ← hpd, e1] at b8
        have hlen : H.length + dat.length ≤ t.refill.buf.length := by rw [hidx] at e6; omega
        rw [hpd] at hlen
        have h2 : 2 ≤ H.length + dat.length := by omega
        have hbuf : t.unread.take (H.length + dat.length) = t.refill.buf.take (H.length + dat.length) := by
          rw [← hun]; unfold BR.unread
          rw [List.take_append_of_le_length (by omega)]
        rw [hbuf]
        have : t.refill.buf.take (H.length + dat.length) =
            t.refill.buf.take (H.length + dat.length - 2) ++ (t.refill.buf.drop (H.length + dat.length - 2)).take 2 := by
          conv => lhs; rw [show H.length + dat.length = (H.length + dat.length - 2) + 2 by omega, List.take_add]
        rw [this, b8]
        exact List.suffix_append _ _
  · have hmm : t.refill.min = t.min := rfl
    have hde := hi.delim_len
    have hpd := occursAt_lt hfa.1 hi.delim_ne
    have hyp : t.refill.search.idx ≤ H.length + p := by
      by_cases hh : t.refill.search.idx ≤ H.length + p
      · exact hh
      · exact absurd hfa.1 (noc _ (by omega))
    rcases hfull with hfull | hfull
    · rw [hmm] at hfull
      rcases e8 with e8 | e8 <;> rcases b6 with b6 | b6 <;> omega
    · exfalso
      have : t.unread = t.refill.buf := by
        rw [← hun]; unfold BR.unread; rw [hfull]; simp [Ev.bytes]
      rw [this] at hpd
      rcases e8 with e8 | e8 <;> omega

/-- The loop of `with_headers` on a header block that the tokenizer accepts. -/
theorem BR.headersLoop_block {D : Deps} (hD : D.Sane) {t : BR} (hi : t.Inv) (hst : t.st = .searching)
    (hn : NoStall t.evs) (hf : (fill t.min t.buf t.evs).1 = none) {H X dat : Bytes} {hs : List Header}
    (hH : HeaderBlock D t.delim t.unread H hs X) (hfd : FieldData t.delim X dat)
    (hsep : FirstAt t.delim X dat.length → ¬ crlf <:+ H ++ dat)
    (hb : H.length + t.delim.length + 1 ≤ t.min) :
    H.length ≤ t.afterRead.idx ∧ withHeadersLoop D (t.evs.length + 2) 0 t = (.ok (H.length, hs), t.afterRead) := by
  have hreach := BR.header_reach hi hst hn hf hH.split hH.noDelim hfd hsep hb
  have hai := t.afterRead_inv hi
  have hpos : 0 < H.length := List.length_pos_iff.mpr hH.nonempty
  have hyield : ∃ more, t.afterRead.buf.take t.afterRead.idx = H ++ more := by
    have h1 : t.afterRead.buf.take t.afterRead.idx <+: t.unread := by
      rw [← t.afterRead_unread]
      exact (List.take_prefix _ _).trans (List.prefix_append _ _)
    have h2 : H <+: t.unread := by rw [hH.split]; exact List.prefix_append _ _
    have hl : (t.afterRead.buf.take t.afterRead.idx).length = t.afterRead.idx := by
      rw [List.length_take]; exact Nat.min_eq_left hai.idx_le
    obtain ⟨more, hm⟩ := List.prefix_of_prefix_length_le h2 h1 (by omega)
    exact ⟨more, hm.symm⟩
  obtain ⟨more, hmore⟩ := hyield
  rcases BR.readToBoundary_eq hi with ⟨e, h1, _⟩ | ⟨_, hr⟩
  · rw [hf] at h1; simp at h1
  have hlen : (t.afterRead.buf.take t.afterRead.idx).length = t.afterRead.idx := by
    rw [List.length_take]; exact Nat.min_eq_left hai.idx_le
  refine ⟨hreach, ?_⟩
  unfold withHeadersLoop
  rw [hr]
  simp only [hlen]
  rw [if_neg (by omega), hmore, hH.parses]
  simp only
  unfold copyHeaders
  rw [if_pos (by simpa [utf8Valid_iff] using hH.utf8), if_pos (hD.four _ _ _ (hH.parses []))]

/-- A header block of bounded size is parsed, and exactly its bytes are consumed, however the stream is split. -/
theorem BR.readHeaders_block {D : Deps} (hD : D.Sane) {t : BR} (hi : t.Inv) (hst : t.st = .searching)
    (hn : NoStall t.evs) (hf : (fill t.min t.buf t.evs).1 = none) {H X dat : Bytes} {hs : List Header}
    (hH : HeaderBlock D t.delim t.unread H hs X) (hfd : FieldData t.delim X dat)
    (hsep : FirstAt t.delim X dat.length → ¬ crlf <:+ H ++ dat)
    (hb : H.length + t.delim.length + 1 ≤ t.min) :
    (∀ fh, FieldHeaders.parse D hs = .ok fh → (t.readHeaders D).1 = .ok fh) ∧ (∀ e, FieldHeaders.parse D hs = .error e → (t.readHeaders D).1 = .err .invalidData) ∧
    (t.readHeaders D).2.unread = X := by
  obtain ⟨hreach, hloop⟩ := BR.headersLoop_block hD hi hst hn hf hH hfd hsep hb
  have hai := t.afterRead_inv hi
  have hx : (t.afterRead.consume H.length).unread = X := by
    rw [BR.consume_unread_drop hai, t.afterRead_unread, hH.split]
    have : Nat.min H.length t.afterRead.idx = H.length := Nat.min_eq_left hreach
    rw [this]; simp
  cases hp : FieldHeaders.parse D hs with
  | ok fh =>
    have hread : t.readHeaders D = (.ok fh, t.afterRead.consume H.length) := by
      unfold BR.readHeaders FieldHeaders.readFrom withHeaders
      rw [hloop]
      simp only [hp]
    rw [hread]
    exact ⟨fun _ h => by cases h; rfl, (by intro e h; simp at h), hx⟩
  | error e =>
    have hread : t.readHeaders D = (.err .invalidData, t.afterRead.consume H.length) := by
      unfold BR.readHeaders FieldHeaders.readFrom withHeaders
      rw [hloop]
      simp only [hp]
    rw [hread]
    exact ⟨(by intro e h; simp at h), fun _ _ => rfl, hx⟩

theorem BR.consumeBoundary_true {s t : BR} (h : s.Inv) (hr : s.consumeBoundary = (.ok true, t)) :
    t.Inv ∧ t.st = .searching ∧ t.idx = 0 ∧ t.min = s.min ∧ t.delim = s.delim ∧ t.evs <:+ s.evs := by
  have hc := BR.consumeBoundary_spec h
  rw [hr] at hc
  simp only at hc
  cases hc with
  | next _ _ _ _ a b c d e f => exact ⟨a, e, f, b, c, d⟩

/-- `read_entry` on a part whose header block the tokenizer accepts, once the delimiter line is consumed and if filling the buffer
for the headers then succeeds. -/
theorem BR.readEntry_block_fill {D : Deps} (hD : D.Sane) {s : BR} (hi : s.Inv)
    (hn : NoStall s.evs) {rest H X dat : Bytes} {hs : List Header}
    (hx1 : (s.setMin minBufSize).consumeBoundary.1 = .ok true) (hx2 : (s.setMin minBufSize).consumeBoundary.2.unread = rest)
    (hf : ∀ t, (s.setMin minBufSize).consumeBoundary.2 = t → (fill t.min t.buf t.evs).1 = none)
    (hH : HeaderBlock D s.delim rest H hs X) (hfd : FieldData s.delim X dat)
    (hsep : FirstAt s.delim X dat.length → ¬ crlf <:+ H ++ dat)
    (hb : H.length + s.delim.length + 1 ≤ Nat.max minBufSize (2 * s.delim.length)) :
    (∀ fh, FieldHeaders.parse D hs = .ok fh → (s.readEntry D).1 = .ok (some fh)) ∧ (∀ e, FieldHeaders.parse D hs = .error e → (s.readEntry D).1 = .err .invalidData) ∧
    (s.readEntry D).2.unread = X := by
  have hsi := BR.setMin_inv hi minBufSize
  rcases hcb : (s.setMin minBufSize).consumeBoundary with ⟨r, t⟩
  rw [hcb] at hx1 hx2 hf
  simp only at hx1 hx2
  subst hx1
  have hu := hx2
  obtain ⟨t1, t2, t3, t4, t5, t6⟩ := BR.consumeBoundary_true hsi hcb
  have t5' : t.delim = s.delim := t5
  have hmin : t.min = Nat.max minBufSize (2 * s.delim.length) := by
    rw [t4]; show Nat.max (s.delim.length * 2) minBufSize = _
    rw [Nat.mul_comm]; exact Nat.max_comm _ _
  have := BR.readHeaders_block hD t1 t2 (hn.suffix t6) (hf t rfl) (H := H) (X := X) (dat := dat) (hs := hs)
    (by rw [t5', hu]; exact hH) (by rw [t5']; exact hfd) (by rw [t5']; exact hsep) (by rw [t5', hmin]; exact hb)
  unfold BR.readEntry
  rw [hcb]
  simp only
  generalize t.readHeaders D = r at this ⊢
  rcases r with ⟨r1, r2⟩
  simp only at this ⊢
  cases hp : FieldHeaders.parse D hs with
  | ok fh =>
    have := this.1 fh hp
    subst this
    exact ⟨fun _ h => by cases h; rfl, (by intro e h; simp at h), by simp only [*]⟩
  | error e =>
    have := this.2.1 e hp
    subst this
    exact ⟨(by intro e h; simp at h), fun _ _ => rfl, by simp only [*]⟩

/-- `read_entry` on a part whose header block the tokenizer accepts, once the delimiter line is consumed. -/
theorem BR.readEntry_block_of {D : Deps} (hD : D.Sane) {s : BR} (hi : s.Inv)
    (hn : NoStall s.evs) (he : NoErr s.evs) {rest H X dat : Bytes} {hs : List Header}
    (hx1 : (s.setMin minBufSize).consumeBoundary.1 = .ok true) (hx2 : (s.setMin minBufSize).consumeBoundary.2.unread = rest)
    (hH : HeaderBlock D s.delim rest H hs X) (hfd : FieldData s.delim X dat)
    (hsep : FirstAt s.delim X dat.length → ¬ crlf <:+ H ++ dat)
    (hb : H.length + s.delim.length + 1 ≤ Nat.max minBufSize (2 * s.delim.length)) :
    (∀ fh, FieldHeaders.parse D hs = .ok fh → (s.readEntry D).1 = .ok (some fh)) ∧ (∀ e, FieldHeaders.parse D hs = .error e → (s.readEntry D).1 = .err .invalidData) ∧
    (s.readEntry D).2.unread = X := by
  refine BR.readEntry_block_fill hD hi hn hx1 hx2 (fun t ht => ?_) hH hfd hsep hb
  have h := (BR.consumeBoundary_true (BR.setMin_inv hi minBufSize) (Prod.ext hx1 ht)).2.2.2.2.2
  exact (he.suffix h).fill_none

/-- `read_entry` on a well-formed part, once the delimiter line is consumed. -/
theorem BR.readEntry_exact_of {D : Deps} (hD : D.Sane) {s : BR} (hi : s.Inv)
    (hn : NoStall s.evs) (he : NoErr s.evs) {rest H X dat : Bytes} {hs : List Header} {fh : FieldHeaders}
    (hx1 : (s.setMin minBufSize).consumeBoundary.1 = .ok true) (hx2 : (s.setMin minBufSize).consumeBoundary.2.unread = rest)
    (hH : HeaderBlock D s.delim rest H hs X) (hfd : FieldData s.delim X dat)
    (hsep : FirstAt s.delim X dat.length → ¬ crlf <:+ H ++ dat)
    (hb : H.length + s.delim.length + 1 ≤ Nat.max minBufSize (2 * s.delim.length)) (hp : FieldHeaders.parse D hs = .ok fh) :
    (s.readEntry D).1 = .ok (some fh) ∧ (s.readEntry D).2.unread = X :=
  have h := BR.readEntry_block_of hD hi hn he hx1 hx2 hH hfd hsep hb
  ⟨h.1 fh hp, h.2.2⟩

/-- `read_entry` on a well-formed part. -/
theorem BR.readEntry_exact {D : Deps} (hD : D.Sane) {s : BR} (hi : s.Inv) (hst : s.st ≠ .atEnd) (hd : s.Drained)
    (hn : NoStall s.evs) (he : NoErr s.evs) {rest H X dat : Bytes} {hs : List Header} {fh : FieldHeaders}
    (hN : NextIs s.delim s.unread (.part rest))
    (hH : HeaderBlock D s.delim rest H hs X) (hfd : FieldData s.delim X dat)
    (hsep : FirstAt s.delim X dat.length → ¬ crlf <:+ H ++ dat)
    (hb : H.length + s.delim.length + 1 ≤ Nat.max minBufSize (2 * s.delim.length)) (hp : FieldHeaders.parse D hs = .ok fh) :
    (s.readEntry D).1 = .ok (some fh) ∧ (s.readEntry D).2.unread = X := by
  have hx := BR.consumeBoundary_exact (BR.setMin_inv hi minBufSize) s.setMin_entryMin hst hd he hn hN
  exact BR.readEntry_exact_of hD hi hn he hx.1 (hx.2 rest (.inl rfl)) hH hfd hsep hb hp

/-- `read_entry` on what is not a part: end, damaged, truncated. -/
theorem BR.readEntry_other {D : Deps} {s : BR} (hi : s.Inv) (hst : s.st ≠ .atEnd) (hd : s.Drained)
    (hn : NoStall s.evs) (he : NoErr s.evs) :
    (∀ rest, NextIs s.delim s.unread (.close rest) → (s.readEntry D).1 = .ok none ∧ (s.readEntry D).2.st = .atEnd) ∧
    (NextIs s.delim s.unread .damaged → (s.readEntry D).1 = .err .invalidData) ∧
    (NextIs s.delim s.unread .truncated → (s.readEntry D).1 = .err .unexpectedEof) := by
  have hsi := BR.setMin_inv hi minBufSize
  have hsp := BR.consumeBoundary_spec hsi
  refine ⟨fun rest hN => ?_, fun hN => ?_, fun hN => ?_⟩
  all_goals
    have hx := BR.consumeBoundary_exact hsi s.setMin_entryMin hst hd he hn hN
    unfold BR.readEntry
    rcases hcb : (s.setMin minBufSize).consumeBoundary with ⟨r, t⟩
    rw [hcb] at hx hsp
    simp only [Verdict.result] at hx hsp ⊢
    obtain ⟨rfl, hx2⟩ := hx
  · refine ⟨rfl, ?_⟩
    simp only
    cases hsp with
    | done a => exact a
    | close _ _ _ _ _ _ _ _ a _ => exact a
  · rfl
  · rfl

/-! ## Skipping: `consume_boundary` in any state -/

/-- `consume_boundary` on a stream that neither fails nor stalls: the verdict on the unread stream, or "unexpected EOF", the latter
only if a read of the body ended directly behind the delimiter or one byte later, the delimiter had been found before, and the buffer was filled up to there. -/
theorem BR.consumeBoundary_any {s : BR} (h : s.Inv) (hm : s.EntryMin) (hst : s.st ≠ .atEnd)
    (he : NoErr s.evs) (hn : NoStall s.evs) {evs : List Ev} {gone : Bytes} (hevs : s.evs <:+ evs) (hg : Ev.bytes evs = gone ++ s.unread)
    {v : Verdict} (hv : NextIs s.delim s.unread v) :
    (s.consumeBoundary.1 = v.result ∧ (∀ rest, v = .part rest ∨ v = .close rest → s.consumeBoundary.2.unread = rest)) ∨
    (s.consumeBoundary.1 = .err .unexpectedEof ∧ ∃ p, FirstAt s.delim s.unread p ∧ s.st = .boundaryRead ∧ entryBuf s.delim < p + s.delim.length + 2 ∧
      (SplitAt evs (gone.length + p + s.delim.length) ∨ SplitAt evs (gone.length + p + s.delim.length + 1))) := by
  have hc := BR.consumeBoundary_spec h
  have hne := h.delim_ne
  generalize s.consumeBoundary.1 = r at hc ⊢
  generalize s.consumeBoundary.2 = t at hc ⊢
  have verdict : ∀ w, NextIs s.delim s.unread w → v = w := fun w hw => hv.unique hne hw
  cases hc with
  | done hc => exact absurd hc hst
  | next _ a b c _ _ _ _ _ _ =>
    left
    have := verdict _ (.part a (crlf_split b)); subst this
    refine ⟨rfl, ?_⟩
    rintro rest (hr | hr)
    · cases hr; rw [c, List.drop_drop]
    · cases hr
  | close _ a b c _ _ _ _ _ _ =>
    left
    have := verdict _ (.close a (dashes_split b)); subst this
    refine ⟨rfl, ?_⟩
    rintro rest (hr | hr)
    · cases hr
    · cases hr; rw [c, List.drop_drop]
  | damaged _ _ _ _ a b c d =>
    left
    have := verdict _ (.damaged a b c d); subst this
    exact ⟨rfl, by rintro rest (hr | hr) <;> cases hr⟩
  | io _ _ _ _ hmem => exact absurd hmem (he _)
  | eof _ _ _ _ _ a =>
    left
    have := verdict _ (.none (a hn hm.2).1); subst this
    exact ⟨rfl, by rintro rest (hr | hr) <;> cases hr⟩
  | @short _ k p _ hsk hti htst a hkp b c d e =>
    by_cases hfull : t.evs = []
    · left
      have : NextIs s.delim s.unread .truncated := by
        refine .cut a ?_
        have h1 : t.unread = t.buf := by unfold BR.unread; rw [hfull]; simp [Ev.bytes]
        rw [hsk.unread] at h1
        have h2 := congrArg List.length h1
        rw [List.length_drop] at h2
        omega
      have := verdict _ this; subst this
      exact ⟨rfl, by rintro rest (hr | hr) <;> cases hr⟩
    right
    have hmin : entryBuf s.delim ≤ t.buf.length := by
      rcases c hn with h1 | h1
      · rw [hsk.min] at h1
        exact Nat.le_trans (Nat.max_le.mpr ⟨hm.1, hm.2⟩) h1
      · exact absurd h1 hfull
    refine ⟨rfl, p, a, ?_, by omega, ?_⟩
    · cases hs : s.st with
      | boundaryRead => rfl
      | atEnd => exact absurd hs hst
      | searching =>
        exfalso
        have h1 := d hs
        have h2 := h.delim_len
        have h3 : 1024 ≤ entryBuf s.delim := Nat.le_max_left _ _
        have h4 : 2 * s.delim.length ≤ entryBuf s.delim := Nat.le_max_right _ _
        omega
    have hcur := hti.cursor
    unfold BR.CursorOk at hcur
    simp only [htst] at hcur
    obtain ⟨p', hp1, hp2, _⟩ := hcur
    rw [hsk.delim, hsk.unread] at hp1
    rw [hsk.delim] at hp2
    have hpp := (hp1.of_drop hsk.none).unique a
    have hgt : Ev.bytes evs = (gone ++ s.unread.take k) ++ t.unread := by
      rw [hg, hsk.unread, List.append_assoc, List.take_append_drop]
    have hspl := BR.cuts_splitAt (hsk.evs.trans hevs) hgt (mem_cutsFrom_self t.buf.length t.evs)
    have hkl : (s.unread.take k).length = k := by rw [List.length_take]; exact Nat.min_eq_left hsk.le
    rw [List.length_append, hkl] at hspl
    have : t.buf.length = p - k + s.delim.length ∨ t.buf.length = p - k + s.delim.length + 1 := by omega
    rcases this with h1 | h1
    · left; rw [h1] at hspl
      have e : gone.length + p + s.delim.length = gone.length + k + (p - k + s.delim.length) := by omega
      rw [e]; exact hspl
    · right; rw [h1] at hspl
      have e : gone.length + p + s.delim.length + 1 = gone.length + k + (p - k + s.delim.length + 1) := by omega
      rw [e]; exact hspl

/-- The same for `read_entry`. -/
theorem BR.readEntry_any {D : Deps} (hD : D.Sane) {s : BR} (hi : s.Inv) (hst : s.st ≠ .atEnd)
    (he : NoErr s.evs) (hn : NoStall s.evs) {evs : List Ev} {gone : Bytes} (hevs : s.evs <:+ evs) (hg : Ev.bytes evs = gone ++ s.unread) :
    ((∀ rest, NextIs s.delim s.unread (.close rest) → (s.readEntry D).1 = .ok none ∧ (s.readEntry D).2.unread = rest) ∧
     (NextIs s.delim s.unread .damaged → (s.readEntry D).1 = .err .invalidData) ∧
     (NextIs s.delim s.unread .truncated → (s.readEntry D).1 = .err .unexpectedEof) ∧
     (∀ rest H X dat hs fh, NextIs s.delim s.unread (.part rest) → HeaderBlock D s.delim rest H hs X → FieldData s.delim X dat →
       (FirstAt s.delim X dat.length → ¬ crlf <:+ H ++ dat) →
       H.length + s.delim.length + 1 ≤ Nat.max minBufSize (2 * s.delim.length) → FieldHeaders.parse D hs = .ok fh →
       (s.readEntry D).1 = .ok (some fh) ∧ (s.readEntry D).2.unread = X) ∧
     (∀ rest, NextIs s.delim s.unread (.part rest) → (s.readEntry D).1 ≠ .err .unexpectedEof)) ∨
    ((s.readEntry D).1 = .err .unexpectedEof ∧ ∃ p, FirstAt s.delim s.unread p ∧ s.st = .boundaryRead ∧ entryBuf s.delim < p + s.delim.length + 2 ∧
      (SplitAt evs (gone.length + p + s.delim.length) ∨ SplitAt evs (gone.length + p + s.delim.length + 1))) := by
  have hsi := BR.setMin_inv hi minBufSize
  obtain ⟨v, hv⟩ := NextIs.total s.delim s.unread
  rcases BR.consumeBoundary_any hsi s.setMin_entryMin hst he hn hevs hg hv with h | ⟨h, h'⟩
  · left
    have uniq : ∀ w, NextIs s.delim s.unread w → v = w := fun w hw => hv.unique hi.delim_ne hw
    rcases hcb : (s.setMin minBufSize).consumeBoundary with ⟨r, t⟩
    refine ⟨fun rest hw => ?_, fun hw => ?_, fun hw => ?_, fun rest H X dat hs fh hw h1 h2 h3 h4 h5 => ?_, fun rest hw => ?_⟩
    · have := uniq _ hw; subst this
      have hr := h.2 rest (.inr rfl)
      rw [hcb] at h hr
      simp only [Verdict.result] at h
      unfold BR.readEntry; rw [hcb, h.1]; exact ⟨rfl, hr⟩
    · have := uniq _ hw; subst this
      rw [hcb] at h
      simp only [Verdict.result] at h
      unfold BR.readEntry; rw [hcb, h.1]
    · have := uniq _ hw; subst this
      rw [hcb] at h
      simp only [Verdict.result] at h
      unfold BR.readEntry; rw [hcb, h.1]
    · have := uniq _ hw; subst this
      exact BR.readEntry_exact_of hD hi hn he h.1 (h.2 rest (.inl rfl)) h1 h2 h3 h4 h5
    · have := uniq _ hw; subst this
      rw [hcb] at h
      simp only [Verdict.result] at h
      obtain ⟨rfl, -⟩ := h
      have hh := BR.readHeaders_spec hD (BR.consumeBoundary_true hsi hcb).1
      unfold BR.readEntry
      rw [hcb]
      simp only
      generalize BR.readHeaders D t = x at hh ⊢
      obtain ⟨x1, x2⟩ := x
      simp only at hh ⊢
      cases hh <;> simp
  · right
    refine ⟨?_, h'⟩
    unfold BR.readEntry
    rcases hcb : (s.setMin minBufSize).consumeBoundary with ⟨r, t⟩
    rw [hcb] at h
    simp only at h
    rw [h]

/-! ## Minimum buffer size during a field -/

theorem BR.op_min {s : BR} (h : s.Inv) (o : FieldOp) (hm : 2 * s.delim.length ≤ s.min) : 2 * (s.op o).2.delim.length ≤ (s.op o).2.min := by
  cases o with
  | fillBuf =>
    simp only [BR.op]
    rcases BR.readToBoundary_eq h with ⟨e, _, he⟩ | ⟨_, he⟩
    · rw [he]; exact hm
    · rw [he, s.afterRead_frame.2.2.1, s.afterRead_frame.2.2.2]; exact hm
  | read n =>
    rcases BR.read_eq h n with ⟨e, _, he⟩ | ⟨_, he⟩
    · simp only [BR.op, he]; exact hm
    · simp only [BR.op, he]
      show 2 * s.afterRead.delim.length ≤ s.afterRead.min
      rw [s.afterRead_frame.2.2.1, s.afterRead_frame.2.2.2]; exact hm
  | consume n => exact hm
  | setMin n =>
    show 2 * s.delim.length ≤ Nat.max (s.delim.length * 2) n
    rw [Nat.mul_comm]; exact Nat.le_max_left _ _

theorem BR.run_min : ∀ (os : List FieldOp) {s : BR}, s.Inv → 2 * s.delim.length ≤ s.min →
    2 * (s.run os).2.delim.length ≤ (s.run os).2.min := by
  intro os
  induction os with
  | nil => intro s _ hm; exact hm
  | cons o os ih => intro s h hm; exact ih (BR.op_inv h o) (BR.op_min h o hm)

end Multipart

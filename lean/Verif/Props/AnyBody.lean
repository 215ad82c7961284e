import Verif.Spec.AnyBody
import Verif.Props.NoBody
/-!
# C127: what is read from any body is decided by its bytes
-/
namespace Multipart

variable {D : Deps} {evs : List Ev} {b d : Bytes} {s t : BR} {es got : List (FieldHeaders × Bytes)} {fin : Ending} {u w rest H X : Bytes} {hs : List Header} {fh : FieldHeaders}

/-! ## The reference tokenizer -/

theorem refParseAux_take : ∀ (n : Nat) {pos : Nat} {acc : List Header} {bs : Bytes} {c : Nat} {hs : List Header}, refParseAux n pos acc bs = .complete c hs →
    pos + 2 ≤ c ∧ ∀ m, c - pos < m → refParseAux m pos acc (bs.take (c - pos)) = .complete c hs := by
  intro n
  induction n with
  | zero => intro pos acc bs c hs h; simp [refParseAux] at h
  | succ n ih =>
    intro pos acc bs c hs h
    unfold refParseAux at h
    cases hf : findSub crlf bs with
    | none => rw [hf] at h; simp at h
    | some i =>
      have hfa := findSub_some hf
      rw [hf] at h
      have hl := occursAt_lt hfa.1 (by decide)
      have hle : i + 2 ≤ bs.length := by
        have := List.IsPrefix.length_le hfa.1
        rw [List.length_drop] at this
        simp [crlf] at this
        omega
      -- the line is found in what is kept
      have hkeep : ∀ k, i + 2 ≤ k → findSub crlf (bs.take k) = some i := by
        intro k hk
        refine findSub_eq_some_iff.mpr ⟨?_, fun q hq hc => hfa.2 q hq ?_⟩
        · have h1 : bs.drop i = crlf ++ bs.drop (i + 2) := by
            have := crlf_split hfa.1
            rwa [List.drop_drop] at this
          unfold OccursAt
          rw [List.drop_take, h1, List.take_append]
          rw [List.take_of_length_le (by simp [crlf]; omega)]
          exact List.prefix_append _ _
        · unfold OccursAt at hc ⊢
          rw [List.drop_take] at hc
          exact hc.trans (List.take_prefix _ _)
      cases i with
      | zero =>
        simp only [HParse.complete.injEq] at h
        obtain ⟨rfl, rfl⟩ := h
        refine ⟨Nat.le_refl _, fun m hm => ?_⟩
        obtain ⟨m, rfl⟩ : ∃ k, m = k + 1 := ⟨m - 1, by omega⟩
        unfold refParseAux
        rw [hkeep _ (by omega)]
      | succ i =>
        simp only at h
        cases hp : parseHeaderLine (List.take (i + 1) bs) with
        | none => rw [hp] at h; simp at h
        | some x =>
          rw [hp] at h
          simp only at h
          split at h
          · next hlt =>
            obtain ⟨i1, i2⟩ := ih h
            refine ⟨by omega, fun m hm => ?_⟩
            obtain ⟨m, rfl⟩ : ∃ k, m = k + 1 := ⟨m - 1, by omega⟩
            unfold refParseAux
            rw [hkeep _ (by omega)]
            simp only
            rw [List.take_take, Nat.min_eq_left (by omega), hp]
            simp only
            rw [if_pos hlt, List.drop_take, show c - pos - (i + 3) = c - (pos + i + 3) by omega]
            exact i2 m (by omega)
          · cases h

/-- The reference tokenizer meets the assumption. -/
theorem refDeps_blocks : refDeps.Blocks := by
  intro P n hs h
  have h' : refParseAux (P.length + 1) 0 [] P = .complete n hs := h
  obtain ⟨h1, h2⟩ := refParseAux_take _ h'
  have hn := refDeps_sane.len _ _ _ h
  refine ⟨by omega, h2 ((P.take n).length + 1) ?_⟩
  rw [List.length_take, Nat.min_eq_left hn]
  omega

/-! ## Every body -/

/-- What follows a delimiter line: no headers of a field, or a header block. -/
theorem part_cases (hD : D.Sane) (hI : D.Incremental) (hB : D.Blocks) (d rest : Bytes) :
    NoFieldHeaders D d rest ∨ ∃ P H hs X fh, Shown d rest P ∧ H.length ≤ P.length ∧ HeaderBlock D d rest H hs X ∧ FieldHeaders.parse D hs = .ok fh := by
  by_cases h : NoFieldHeaders D d rest
  · exact .inl h
  right
  unfold NoFieldHeaders at h
  simp only [Classical.not_forall] at h
  obtain ⟨P, n, hs, hS, hP, hu, fh, hf⟩ := h
  obtain ⟨hn0, ht⟩ := hB _ _ _ hP
  have hl := hD.len _ _ _ hP
  obtain ⟨z, hz⟩ := hS.start
  have hlen : (P.take n).length = n := by rw [List.length_take]; exact Nat.min_eq_left hl
  refine ⟨P, P.take n, hs, P.drop n ++ z, fh, hS, by omega, ⟨?_, ?_, ?_, hu, ?_⟩, Classical.not_not.mp hf⟩
  · rw [← List.append_assoc, List.take_append_drop, hz]
  · intro h; rw [h] at hlen; simp at hlen; omega
  · intro more; rw [hlen]; exact hI _ _ _ ht more
  · rw [hlen]; exact fun q hq => hS.none q (by omega)

/-- The data of a part that has an end, and is not too large in its headers. -/
theorem part_wellFormed {P : Bytes} (hd : d ≠ []) (hS : Shown d rest P) (hPH : H.length ≤ P.length) (hH : HeaderBlock D d rest H hs X) (hp : FieldHeaders.parse D hs = .ok fh)
    (hb : H.length + d.length + 1 ≤ entryBuf d) {p : Nat} (hX : FirstAt d X p) : ∃ dat, WellFormedPart D d rest fh dat X := by
  have hle : p ≤ X.length := by have := occursAt_lt hX.1 hd; omega
  have hfr : FirstAt d rest (H.length + p) := by
    have h1 : X = rest.drop H.length := by rw [hH.split, List.drop_left]
    rw [h1] at hX
    exact hX.of_drop hH.noDelim
  by_cases hc : crlf <:+ X.take p
  · obtain ⟨y, hy⟩ := hc
    have hl : p = y.length + 2 := by
      have := congrArg List.length hy
      simp [crlf] at this; omega
    refine ⟨y, ⟨H, hs, hH, hp, hb, fun h => ?_⟩, .crlf (hl ▸ hX) (by rw [hy]; exact List.take_prefix _ _)⟩
    have := h.unique hX; omega
  · have hl : (X.take p).length = p := by rw [List.length_take]; exact Nat.min_eq_left hle
    refine ⟨X.take p, ⟨H, hs, hH, hp, hb, fun _ hcr => ?_⟩, .bare (by rw [hl]; exact hX) (List.take_prefix _ _) hc⟩
    obtain ⟨y, hy⟩ := hcr
    have hyl : H.length + p = y.length + 2 := by
      have := congrArg List.length hy
      simp [crlf] at this; omega
    have hocc : OccursAt crlf rest y.length := by
      unfold OccursAt
      rw [hH.split, ← List.take_append_drop p X, ← List.append_assoc, ← hy, List.append_assoc, List.drop_left]
      exact List.prefix_append _ _
    rw [hyl] at hfr
    by_cases h2 : 2 ≤ p
    · apply hc
      have h4 : (H ++ X.take p).drop y.length = crlf := by rw [← hy, List.drop_left]
      rw [List.drop_append, List.drop_eq_nil_of_le (by omega), List.nil_append] at h4
      rw [← h4]; exact List.drop_suffix _ _
    · have hdl := List.length_pos_iff.mpr hd
      have := hS.near _ hfr hocc (by omega)
      omega

/-- C127: whatever the bytes of a body are, it consists of parts up to its end or up to an error; or its last part has no end; or the headers of a part are too large. -/
theorem C127_any_body (hD : D.Sane) (hI : D.Incremental) (hB : D.Blocks) (hd : d ≠ []) (u : Bytes) :
    (∃ es fin, Parts D d u es fin) ∨ (∃ es fh X, EndsInPart D d u es fh X) ∨
    ∃ es w rest H hs X, PartsTo D d u es w ∧ NextIs d w (.part rest) ∧ HeaderBlock D d rest H hs X ∧ entryBuf d < H.length + d.length + 1 := by
  generalize hlen : u.length = n
  induction n using Nat.strongRecOn generalizing u with
  | ind n ih =>
    obtain ⟨v, hv⟩ := NextIs.total d u
    cases v with
    | close rest => exact .inl ⟨_, _, .close hv⟩
    | damaged => exact .inl ⟨_, _, .damaged hv⟩
    | truncated => exact .inl ⟨_, _, .truncated hv⟩
    | part rest =>
      rcases part_cases hD hI hB d rest with h | ⟨P, H, hs, X, fh, hS, hPH, hH, hp⟩
      · exact .inl ⟨_, _, .refused hv h⟩
      by_cases hb : H.length + d.length + 1 ≤ entryBuf d
      · rcases firstAt_or_absent d X with ⟨p, hX⟩ | hX
        · obtain ⟨dat, hW⟩ := part_wellFormed hd hS hPH hH hp hb hX
          have hl : X.length < n := by
            have h1 := hv.suffix.length_le
            have h2 := congrArg List.length hH.split
            have h3 := List.length_pos_iff.mpr hH.nonempty
            rw [List.length_append] at h2
            omega
          rcases ih _ hl X rfl with ⟨es, fin, h⟩ | ⟨es, fh', X', ⟨w, rest', H', hs', h1, h2, h3, h4⟩, h5⟩ | ⟨es, w, rest', H', hs', X', h1, h2, h3, h4⟩
          · exact .inl ⟨_, _, .part hv hW h⟩
          · exact .inr (.inl ⟨_, fh', X', ⟨w, rest', H', hs', .part hv hW h1, h2, h3, h4⟩, h5⟩)
          · exact .inr (.inr ⟨_, w, rest', H', hs', X', .part hv hW h1, h2, h3, h4⟩)
        · exact .inr (.inl ⟨[], fh, X, ⟨u, rest, H, hs, .nil, hv, hH, hp⟩, hX⟩)
      · exact .inr (.inr ⟨[], u, rest, H, hs, X, .nil, hv, hH, by omega⟩)

namespace Sample

/-- A part, and the beginning of another one. -/
def evsBegun : List Ev := [.data (b!"--b\r\n" ++ hdr ++ b!"one\r\n--b\r\n"), .data (hdr ++ b!"tw")]

theorem begun : EndsInPart refDeps (dashes ++ bnd) (Ev.bytes evsBegun) [(Sample.fh, b!"one")] Sample.fh b!"tw" :=
  ⟨⟨b!"one\r\n--b\r\n" ++ hdr ++ b!"tw", hdr ++ b!"tw", hdr, _,
    .part (rest := hdr ++ (b!"one\r\n--b\r\n" ++ hdr ++ b!"tw")) (.part (p := 0) (findSub_some (by decide +kernel)) (by decide +kernel))
      ⟨⟨hdr, _, headerBlock (by decide +kernel), by decide +kernel, by decide, fun h => absurd h (by decide)⟩, .crlf (findSub_some (by decide +kernel)) (List.isPrefixOf_iff_prefix.mp (by decide +kernel))⟩ .nil,
    .part (p := 5) (findSub_some (by decide +kernel)) (by decide +kernel), headerBlock (by decide +kernel), by decide +kernel⟩, findSub_eq_none_iff.mp (by decide +kernel)⟩

end Sample

/-- The hypotheses of C127_any_body are met, and the second case is possible. -/
example : refDeps.Sane ∧ refDeps.Incremental ∧ refDeps.Blocks ∧ dashes ++ Sample.bnd ≠ [] ∧ ∃ es fh X, EndsInPart refDeps (dashes ++ Sample.bnd) (Ev.bytes Sample.evsBegun) es fh X :=
  ⟨refDeps_sane, refDeps_incremental, refDeps_blocks, by decide, _, _, _, Sample.begun⟩

theorem SmallHeaders.behind (hs' : SmallHeaders D d u) (hu : w <:+ u) (hw : NextIs d w (.part rest)) (hH : HeaderBlock D d rest H hs X) : H.length + d.length + 1 ≤ entryBuf d := by
  obtain ⟨g, hg⟩ := hu
  cases hw with
  | @part p _ g1 g2 =>
    refine hs' (g ++ w.take p) rest H hs X ?_ hH
    obtain ⟨y, hy⟩ := g1.1
    have : w.drop p = d ++ (crlf ++ rest) := by rw [← hy, ← g2, ← List.drop_drop, ← hy, List.drop_left]
    rw [← hg]
    conv => lhs; rw [← List.take_append_drop p w, this]
    simp

theorem SmallHeaders.no (hs' : SmallHeaders D d u) (hP : PartsTo D d u es w) (hw : NextIs d w (.part rest)) (hH : HeaderBlock D d rest H hs X) : H.length + d.length + 1 ≤ entryBuf d :=
  hs'.behind hP.suffix hw hH

theorem SmallHeaders.of_small (h : u.length ≤ entryBuf d + 1) : SmallHeaders D d u := by
  rintro gone rest H hs X rfl hH
  rw [hH.split] at h
  simp only [List.length_append, crlf, List.length_cons, List.length_nil] at h
  omega

/-- The entries of a body that ends in a part without end. -/
theorem reads_endsInPart (hD : D.Sane) (hI : D.Incremental) (hn : NoStall evs) (hne : NoErr evs) (h : EndsInPart D (dashes ++ b) (Ev.bytes evs) es fh X) (hr : Reads D (withBody evs b) got fin) :
    ∃ got1 got2, got = got1 ++ got2 ∧ All2 (fun a p => a.1 = p.1 ∧ DataOk (dashes ++ b) evs p.2 a.2) got1 es ∧
      ((got2 = [] ∧ fin = .failed .invalidData) ∨ ∃ x, got2 = [(fh, x)] ∧ x <+: X ∧ fin = .failed .unexpectedEof) := by
  obtain ⟨⟨w, rest, H, hs, h1, h2, h3, h4⟩, h5⟩ := h
  have ha : Absent (dashes ++ b) rest := Absent.of_drop (k := H.length) (by rw [h3.split, List.drop_left]; exact h5) h3.noDelim
  have hun : (withBody evs b).unread = Ev.bytes evs := by simp [withBody, BR.fromReader, BR.unread]
  obtain ⟨got1, got2, g1, g2, g3⟩ := reads_unfinished hD hn hne hr ha (BR.fromReader_inv evs b) rfl List.suffix_rfl (by rw [hun]; exact List.suffix_rfl) (by simp [withBody, BR.fromReader])
    (by intro h; simp [withBody, BR.fromReader] at h) (by rw [hun]; exact h1) h2
  refine ⟨got1, got2, g1, g2, g3.imp_right ?_⟩
  rintro ⟨fh', x, P, n, hs', k1, k2, ⟨z, hz⟩, k4, k5, k6, k7⟩
  have e := hI _ _ _ k4 z
  rw [hz, h3.split, h3.parses X] at e
  simp only [HParse.complete.injEq] at e
  obtain ⟨rfl, rfl⟩ := e
  rw [h4] at k5
  cases k5
  rw [h3.split, List.drop_left] at k7
  exact ⟨x, k1, k7, k2⟩

/-- How much is shown of the part `rest` that has no end, if it is smaller than the buffer. -/
def cutShown (d rest : Bytes) : Nat := (BR.mk rest [] (entryBuf d) d 0 .searching).afterRead.idx

/-- What `read_entry` reports about a part that has no end. -/
def cutResult (d rest H : Bytes) (fh : FieldHeaders) : Res (Option FieldHeaders) := if entryBuf d ≤ rest.length ∨ H.length ≤ cutShown d rest then .ok (some fh) else .err .invalidData

theorem BR.readHeaders_cut (hD : D.Sane) (hI : D.Incremental) {t : BR} (hi : t.Inv) (hst : t.st = .searching) (hidx : t.idx = 0) (hmin : t.min = entryBuf t.delim) (hn : NoStall t.evs) (hne : NoErr t.evs)
    (hH : HeaderBlock D t.delim t.unread H hs X) (hp : FieldHeaders.parse D hs = .ok fh) (hX : Absent t.delim X) (hb : H.length + t.delim.length + 1 ≤ entryBuf t.delim) :
    (t.readHeaders D).1 = if entryBuf t.delim ≤ t.unread.length ∨ H.length ≤ cutShown t.delim t.unread then .ok fh else .err .invalidData := by
  have hf : (fill t.min t.buf t.evs).1 = none := hne.fill_none
  have ha : Absent t.delim t.unread := Absent.of_drop (k := H.length) (by rw [hH.split, List.drop_left]; exact hX) hH.noDelim
  have hai := t.afterRead_inv hi
  have hlen : (t.afterRead.buf.take t.afterRead.idx).length = t.afterRead.idx := by
    rw [List.length_take]; exact Nat.min_eq_left hai.idx_le
  have hpre : t.afterRead.buf.take t.afterRead.idx <+: t.unread := by
    rw [← t.afterRead_unread]
    exact (List.take_prefix _ _).trans (List.prefix_append _ _)
  rcases BR.readToBoundary_eq hi with ⟨e, h1, _⟩ | ⟨_, hr⟩
  · rw [hf] at h1; simp at h1
  -- enough is shown
  have hyes : H.length ≤ t.afterRead.idx → (t.readHeaders D).1 = .ok fh := by
    intro hreach
    have hpos : 0 < H.length := List.length_pos_iff.mpr hH.nonempty
    obtain ⟨more, hm⟩ := List.prefix_of_prefix_length_le (by rw [hH.split]; exact List.prefix_append _ _) hpre (by omega)
    unfold BR.readHeaders FieldHeaders.readFrom withHeaders withHeadersLoop
    rw [hr]
    simp only [hlen]
    rw [if_neg (by omega), ← hm, hH.parses]
    simp only
    unfold copyHeaders
    rw [if_pos (by simpa [utf8Valid_iff] using hH.utf8), if_pos (hD.four _ _ _ (hH.parses []))]
    simp only [hp]
  have hbuf : t.refill.buf.length ≤ t.unread.length := by
    rw [← t.refill_unread]; unfold BR.unread; simp
  by_cases hlong : entryBuf t.delim ≤ t.unread.length
  · rw [if_pos (.inl hlong)]
    apply hyes
    have hfull : t.min ≤ t.refill.buf.length := by
      rcases BR.refill_full hn hf with h | h
      · exact h
      · have : t.unread = t.refill.buf := by rw [← t.refill_unread]; unfold BR.unread; rw [h]; simp [Ev.bytes]
        rw [hmin, ← this]; exact hlong
    rw [BR.afterRead_searching hst]
    obtain ⟨e1, e2, e3, e4, e5, e6, e7⟩ := t.refill.search_spec (t.refill_inv hi) hst
    obtain ⟨b1, b2, b3, b4, b5, b6⟩ := t.refill.search.backUp_spec
    have hdd : t.refill.delim = t.delim := rfl
    rw [t.refill_unread, hdd] at e7
    rcases e7 with ⟨_, fa, hl⟩ | ⟨_, noc, e8⟩
    · exact absurd fa.1 (ha _)
    · have := hi.delim_len
      rcases e8 with e8 | e8 <;> rcases b6 with b6 | b6 <;> omega
  · have hev : t.refill.evs = [] := by
      rcases BR.refill_full hn hf with h | h
      · have : t.refill.min = t.min := rfl
        omega
      · exact h
    have hrb : t.refill.buf = t.unread := by rw [← t.refill_unread]; unfold BR.unread; rw [hev]; simp [Ev.bytes]
    have hcan : t.afterRead = (BR.mk t.unread [] (entryBuf t.delim) t.delim 0 .searching).afterRead := by
      have h1 : (BR.mk t.unread [] (entryBuf t.delim) t.delim 0 .searching).refill = t.refill := by
        rw [← hrb, ← hev, ← hmin, ← hidx]
        have : fill t.min t.refill.buf t.refill.evs = (none, t.refill.buf, t.refill.evs) := by rw [hev]; rfl
        simp only [BR.refill] at this ⊢
        rw [this]
        rw [hst]
      rw [BR.afterRead_searching hst, BR.afterRead_searching rfl, h1]
    have hsh : cutShown t.delim t.unread = t.afterRead.idx := by unfold cutShown; rw [← hcan]
    rw [hsh]
    by_cases hreach : H.length ≤ t.afterRead.idx
    · rw [if_pos (.inr hreach)]; exact hyes hreach
    · rw [if_neg (by rintro (h | h) <;> omega)]
      have hev' : t.afterRead.evs = [] := by rw [t.afterRead_frame.2.1, hev]
      have hre : t.afterRead.refill = t.afterRead := by unfold BR.refill; rw [hev']; simp only [fill]; rw [← hev']
      have hstab : t.afterRead.afterRead = t.afterRead := BR.settled_stable ⟨t, hi, rfl⟩ hre
      have hno : ∀ n hs', D.parseHeaders (t.afterRead.buf.take t.afterRead.idx) ≠ .complete n hs' := by
        intro n hs' h
        obtain ⟨z, hz⟩ := hpre
        have e := hI _ _ _ h z
        have h2 := hD.len _ _ _ h
        rw [hz, hH.split, hH.parses X] at e
        simp only [HParse.complete.injEq] at e
        omega
      have hloop : ∃ e, (withHeadersLoop D (t.evs.length + 2) 0 t).1 = .err e := by
        unfold withHeadersLoop
        rw [hr]
        simp only [hlen]
        split
        · exact ⟨_, rfl⟩
        · split
          · exact ⟨_, rfl⟩
          · unfold withHeadersLoop
            rcases BR.readToBoundary_eq hai with ⟨e, _, he⟩ | ⟨_, he⟩
            · rw [he]; exact ⟨_, rfl⟩
            · rw [he, hstab]
              simp only [hlen, if_true]
              exact ⟨_, rfl⟩
          · next h => exact absurd h (hno _ _)
      obtain ⟨e, he⟩ := hloop
      unfold BR.readHeaders FieldHeaders.readFrom withHeaders
      generalize withHeadersLoop D (t.evs.length + 2) 0 t = r at he ⊢
      obtain ⟨r1, r2⟩ := r
      simp only at he
      subst he
      rfl

/-- What is reported about a part that has no end is decided by its bytes. -/
theorem BR.readEntry_cut (hD : D.Sane) (hI : D.Incremental) (hi : s.Inv) (hst : s.st ≠ .atEnd) (hdr : s.Drained ∨ (s.readEntry D).1 ≠ .err .unexpectedEof) (hn : NoStall evs) (hne : NoErr evs)
    (hevs : s.evs <:+ evs) (hu : s.unread <:+ Ev.bytes evs)
    (hN : NextIs s.delim s.unread (.part rest)) (hH : HeaderBlock D s.delim rest H hs X) (hp : FieldHeaders.parse D hs = .ok fh) (hX : Absent s.delim X) (hb : H.length + s.delim.length + 1 ≤ entryBuf s.delim) :
    (s.readEntry D).1 = cutResult s.delim rest H fh := by
  have hn' := hn.suffix hevs; have hne' := hne.suffix hevs
  have hsi := BR.setMin_inv hi minBufSize
  have hx : (s.setMin minBufSize).consumeBoundary.1 = .ok true ∧ (s.setMin minBufSize).consumeBoundary.2.unread = rest := by
    rcases hdr with hdr | hdr
    · have hx := BR.consumeBoundary_exact hsi s.setMin_entryMin hst hdr hne' hn' hN
      exact ⟨hx.1, hx.2 rest (.inl rfl)⟩
    · obtain ⟨gone, hg⟩ := hu
      rcases BR.consumeBoundary_any hsi s.setMin_entryMin hst hne' hn' hevs hg.symm hN with hx | ⟨hx, -⟩
      · exact ⟨hx.1, hx.2 rest (.inl rfl)⟩
      · exfalso
        apply hdr
        unfold BR.readEntry
        generalize (s.setMin minBufSize).consumeBoundary = x at hx ⊢
        obtain ⟨x1, x2⟩ := x
        simp only at hx
        subst hx
        rfl
  unfold BR.readEntry
  rcases hcb : (s.setMin minBufSize).consumeBoundary with ⟨r, t⟩
  rw [hcb] at hx
  simp only at hx
  obtain ⟨rfl, hu⟩ := hx
  obtain ⟨t1, t2, t3, t4, t5, t6⟩ := BR.consumeBoundary_true hsi hcb
  have hd : t.delim = s.delim := t5
  have hmin : t.min = entryBuf t.delim := by
    rw [t4, t5]; unfold BR.setMin entryBuf; simp only [minBufSize]
    rw [Nat.mul_comm]; exact Nat.max_comm _ _
  have h := BR.readHeaders_cut hD hI t1 t2 t3 hmin (hn'.suffix t6) (hne'.suffix t6) (by rw [hu, hd]; exact hH) hp (by rw [hd]; exact hX) (by rw [hd]; exact hb)
  rw [hu, hd] at h
  simp only
  unfold cutResult
  generalize BR.readHeaders D t = x at h ⊢
  obtain ⟨x1, x2⟩ := x
  simp only at h
  subst h
  by_cases hc : entryBuf s.delim ≤ rest.length ∨ H.length ≤ cutShown s.delim rest
  · rw [if_pos hc, if_pos hc]
  · rw [if_neg hc, if_neg hc]

/-- Where the data of an entry begins is decided by the bytes. -/
theorem BR.readEntry_begins (hD : D.Sane) (hI : D.Incremental) (hi : s.Inv) (hst : s.st ≠ .atEnd) (hn : NoStall s.evs) (hN : NextIs s.delim s.unread (.part rest)) (hH : HeaderBlock D s.delim rest H hs X)
    {o : Option FieldHeaders} (ho : (s.readEntry D).1 = .ok o) : (s.readEntry D).2.unread = X := by
  have hsp := BR.readEntry_spec hD hi
  have hsh := fun fh t => BR.readEntry_shown (fh := fh) (t := t) hD hi hn
  generalize s.readEntry D = x at hsp ho hsh ⊢
  obtain ⟨r, t⟩ := x
  simp only at hsp ho ⊢
  subst ho
  cases hsp with
  | done h => exact absurd h hst
  | close _ h => exact absurd (h.unique hi.delim_ne hN) (by simp)
  | entry =>
    obtain ⟨rest', P, n, hs', a, c, e, f, g, k⟩ := hsh _ _ rfl
    cases a.unique hi.delim_ne hN
    obtain ⟨z, hz⟩ := c.start
    have e1 := hI _ _ _ e z
    rw [hz, hH.split, hH.parses X] at e1
    simp only [HParse.complete.injEq] at e1
    rw [k, ← e1.1, hH.split, List.drop_left]

/-- The first entry behind complete parts decides. -/
theorem reads_behind (hD : D.Sane) (hn : NoStall evs) (hne : NoErr evs) {r0 : Res (Option FieldHeaders)}
    (hkey : ∀ s : BR, s.Inv → s.delim = d → s.evs <:+ evs → s.unread <:+ Ev.bytes evs → s.st ≠ .atEnd → s.Drained → NextIs d s.unread (.part rest) → (s.readEntry D).1 = r0) (hr : Reads D s got fin) :
    ∀ {es w}, s.Inv → s.delim = d → s.evs <:+ evs → s.unread <:+ Ev.bytes evs → s.st ≠ .atEnd → s.Drained → PartsTo D d s.unread es w → NextIs d w (.part rest) →
      (got.length = es.length ∧ ∃ e, fin = .failed e ∧ r0 = .err e) ∨ (got.length = es.length ∧ fin = .closed ∧ r0 = .ok none) ∨ (es.length < got.length ∧ ∃ fh, r0 = .ok (some fh)) := by
  induction hr with
  | @close s t hc =>
    intro es w hi hd hevs hu hst hdr hp hw
    have hn' := hn.suffix hevs; have hne' := hne.suffix hevs
    cases hp with
    | nil =>
      have := hkey s hi hd hevs hu hst hdr hw
      rw [hc] at this
      exact .inr (.inl ⟨rfl, rfl, this.symm⟩)
    | part a b _ =>
      subst hd
      obtain ⟨H, hs, h1, h2, h3, h4⟩ := b.headers
      have := BR.readEntry_exact hD hi hst hdr hn' hne' a h1 b.data h4 h3 h2
      rw [hc] at this; simp at this
  | @fail s t e hc =>
    intro es w hi hd hevs hu hst hdr hp hw
    have hn' := hn.suffix hevs; have hne' := hne.suffix hevs
    cases hp with
    | nil =>
      have := hkey s hi hd hevs hu hst hdr hw
      rw [hc] at this
      exact .inl ⟨rfl, e, rfl, this.symm⟩
    | part a b _ =>
      subst hd
      obtain ⟨H, hs, h1, h2, h3, h4⟩ := b.headers
      have := BR.readEntry_exact hD hi hst hdr hn' hne' a h1 b.data h4 h3 h2
      rw [hc] at this; simp at this
  | @entry s t fh os got fin hc heof hrest ih =>
    intro es w hi hd hevs hu hst hdr hp hw
    have hn' := hn.suffix hevs; have hne' := hne.suffix hevs
    have hti : t.Inv := by have := BR.readEntry_inv hD hi; rw [hc] at this; exact this
    have htd : t.delim = s.delim := by have := BR.readEntry_delim hD hi; rw [hc] at this; exact this
    have hte : t.evs <:+ s.evs := by have := BR.readEntry_evs hD hi; rw [hc] at this; exact this
    have htu : t.unread <:+ s.unread := by have := BR.readEntry_suffix hD hi; rw [hc] at this; exact this
    have htst : t.st ≠ .atEnd := by
      have hsp := BR.readEntry_spec hD hi
      rw [hc] at hsp
      simp only at hsp
      cases hsp with | entry => assumption
    obtain ⟨r1, r2, r3, r4, r5⟩ := BR.run_skipped os hti
    have hri := BR.run_inv os hti
    have hst' : (t.run os).2.st ≠ .atEnd := fun h => htst (r5.mp h)
    have hev' := r4.trans (hte.trans hevs)
    have hu' : (t.run os).2.unread <:+ Ev.bytes evs := by rw [r1]; exact (List.drop_suffix _ _).trans (htu.trans hu)
    cases hp with
    | nil =>
      have := hkey s hi hd hevs hu hst hdr hw
      rw [hc] at this
      exact .inr (.inr ⟨by simp, fh, this.symm⟩)
    | @part _ rest' X _ dat fh' es' a b hpt =>
      subst hd
      obtain ⟨H, hs, h1, h2, h3, h4⟩ := b.headers
      have hex := BR.readEntry_exact hD hi hst hdr hn' hne' a h1 b.data h4 h3 h2
      rw [hc] at hex
      simp only [Res.ok.injEq, Option.some.injEq] at hex
      obtain ⟨rfl, rfl⟩ := hex
      obtain ⟨w', h6, h7⟩ := hpt.drop (by rw [htd] at r2; exact r2) hw
      rw [← r1] at h6
      simpa using ih hri (r3.trans htd) hev' hu' hst' (BR.AtEof.drained hri heof) h6 h7

/-- C127, the full claim: what entries a caller gets who reads all of them, and what end, depends on the bytes of the body only. -/
def DecidedByBytes (D : Deps) : Prop :=
  ∀ (evs evs' : List Ev) (b : Bytes) (got got' : List (FieldHeaders × Bytes)) (fin fin' : Ending), NoStall evs → NoErr evs → NoStall evs' → NoErr evs' → Ev.bytes evs = Ev.bytes evs' →
    Reads D (withBody evs b) got fin → Reads D (withBody evs' b) got' fin' → got.map (·.1) = got'.map (·.1) ∧ fin = fin'

theorem all2_heads (h : All2 (fun a p : FieldHeaders × Bytes => a.1 = p.1 ∧ DataOk d evs p.2 a.2) got es) : got.map (·.1) = es.map (·.1) := by
  induction h with
  | nil => rfl
  | cons a _ ih => simp [a.1, ih]

/-- C127, as far as it holds: for every body without too large header blocks, whatever else is in it, the entries are decided by its bytes: for each body there are parts `es`, a last part `l` without an end or none, and
an end `fin`, such that all callers get `es`, with their headers and data (up to the CRLF of C01), a piece of the data of `l`, and this end, however the body is split into reads. Missing: bodies with larger header blocks. -/
theorem C127_decided_partial (hD : D.Sane) (hI : D.Incremental) (hB : D.Blocks) (b u : Bytes) (hsm : SmallHeaders D (dashes ++ b) u) :
    ∃ (es : List (FieldHeaders × Bytes)) (l : Option (FieldHeaders × Bytes)) (fin : Ending), ∀ evs got fin', NoStall evs → NoErr evs → Ev.bytes evs = u → Reads D (withBody evs b) got fin' →
      fin' = fin ∧ ∃ got1 got2, got = got1 ++ got2 ∧ All2 (fun a p => a.1 = p.1 ∧ DataOk (dashes ++ b) evs p.2 a.2) got1 es ∧
        ((l = none ∧ got2 = []) ∨ ∃ fh X x, l = some (fh, X) ∧ got2 = [(fh, x)] ∧ x <+: X ∧ Absent (dashes ++ b) X ∧ X <:+ u ∧ fin = .failed .unexpectedEof) := by
  rcases C127_any_body hD hI hB (d := dashes ++ b) (by simp [dashes]) u with ⟨es, fin, h⟩ | ⟨es, fh, X, h⟩ | ⟨es, w, rest, H, hs, X, h1, h2, h3, h4⟩
  · refine ⟨es, none, fin, fun evs got fin' hn hne hu hr => ?_⟩
    obtain ⟨h1, h2⟩ := C10_entries_are_parts hD hn hne (by rw [hu]; exact h) hr
    exact ⟨h1, got, [], by simp, h2, .inl ⟨rfl, rfl⟩⟩
  · obtain ⟨w, rest, H, hs, h1, h2, h3, h4⟩ := h.parts
    have hsuf : X <:+ u := ((List.suffix_append H X).trans (h3.split ▸ List.suffix_rfl)).trans (h2.suffix.trans h1.suffix)
    have hb := hsm.no h1 h2 h3
    have key : ∀ evs got fin', NoStall evs → NoErr evs → Ev.bytes evs = u → Reads D (withBody evs b) got fin' → _ := fun evs got fin' hn hne hu hr =>
      And.intro (reads_endsInPart hD hI hn hne (by rw [hu]; exact h) hr)
        (reads_behind (rest := rest) (r0 := cutResult (dashes ++ b) rest H fh) hD hn hne
          (fun s hi hd hevs hsu hst hdr hN => by
            have hd' : s.delim = dashes ++ b := hd
            have := BR.readEntry_cut (rest := rest) hD hI hi hst (.inl hdr) hn hne hevs hsu (by rw [hd']; exact hN) (by rw [hd']; exact h3) h4 (by rw [hd']; exact h.absent) (by rw [hd']; exact hb)
            rwa [hd'] at this) hr
          (BR.fromReader_inv evs b) rfl List.suffix_rfl (by simp [withBody, BR.fromReader, BR.unread]) (by simp [withBody, BR.fromReader]) (by intro h; simp [withBody, BR.fromReader] at h)
          (by simp only [withBody, BR.fromReader, BR.unread, List.nil_append]; rw [hu]; exact h1) h2)
    by_cases hc : entryBuf (dashes ++ b) ≤ rest.length ∨ H.length ≤ cutShown (dashes ++ b) rest
    · have hr0 : cutResult (dashes ++ b) rest H fh = .ok (some fh) := if_pos hc
      refine ⟨es, some (fh, X), .failed .unexpectedEof, fun evs got fin' hn hne hu hr => ?_⟩
      obtain ⟨⟨got1, got2, rfl, g2, g3⟩, g4⟩ := key evs got fin' hn hne hu hr
      rw [hr0] at g4
      have hl := g2.length
      rcases g3 with ⟨rfl, rfl⟩ | ⟨x, rfl, hx, rfl⟩
      · rcases g4 with ⟨-, e, -, g4⟩ | ⟨-, g4, -⟩ | ⟨g4, -⟩
        · cases g4
        · cases g4
        · simp at g4; omega
      · exact ⟨rfl, got1, _, rfl, g2, .inr ⟨fh, X, x, rfl, rfl, hx, h.absent, hsuf, rfl⟩⟩
    · have hr0 : cutResult (dashes ++ b) rest H fh = .err .invalidData := if_neg hc
      refine ⟨es, none, .failed .invalidData, fun evs got fin' hn hne hu hr => ?_⟩
      obtain ⟨⟨got1, got2, rfl, g2, g3⟩, g4⟩ := key evs got fin' hn hne hu hr
      rw [hr0] at g4
      have hl := g2.length
      rcases g3 with ⟨rfl, rfl⟩ | ⟨x, rfl, hx, rfl⟩
      · exact ⟨rfl, got1, _, rfl, g2, .inl ⟨rfl, rfl⟩⟩
      · rcases g4 with ⟨g4, -⟩ | ⟨-, g4, -⟩ | ⟨-, fh', g4⟩
        · simp at g4; omega
        · cases g4
        · cases g4
  · have := hsm.no h1 h2 h3
    omega

/-- The hypotheses of C127_decided_partial are met: the last part has no end. -/
example : SmallHeaders refDeps (dashes ++ Sample.bnd) (Ev.bytes Sample.evsBegun) ∧ NoStall Sample.evsBegun ∧ NoErr Sample.evsBegun ∧ ∃ got fin, Reads refDeps (withBody Sample.evsBegun Sample.bnd) got fin :=
  ⟨.of_small (by decide +kernel), by decide +kernel, by intro e; simp [Sample.evsBegun], C10_reads_total refDeps_sane ⟨[], rfl⟩⟩

/-- C127 for two callers: they get entries with the same headers and the same end. -/
theorem C127_same_partial {evs' : List Ev} {got' : List (FieldHeaders × Bytes)} {fin' : Ending} (hD : D.Sane) (hI : D.Incremental) (hB : D.Blocks) (hn : NoStall evs) (hne : NoErr evs) (hn' : NoStall evs') (hne' : NoErr evs')
    (hu : Ev.bytes evs = Ev.bytes evs') (hsm : SmallHeaders D (dashes ++ b) (Ev.bytes evs)) (hr : Reads D (withBody evs b) got fin) (hr' : Reads D (withBody evs' b) got' fin') :
    got.map (·.1) = got'.map (·.1) ∧ fin = fin' := by
  obtain ⟨es, l, f, h⟩ := C127_decided_partial hD hI hB b (Ev.bytes evs) hsm
  obtain ⟨rfl, g1, g2, rfl, k1, k2⟩ := h evs got fin hn hne rfl hr
  obtain ⟨rfl, g1', g2', rfl, k1', k2'⟩ := h evs' got' fin' hn' hne' hu.symm hr'
  refine ⟨?_, rfl⟩
  rw [List.map_append, List.map_append, all2_heads k1, all2_heads k1']
  rcases k2 with ⟨rfl, rfl⟩ | ⟨fh, X, x, rfl, rfl, -⟩ <;> rcases k2' with ⟨k, rfl⟩ | ⟨fh', X', x', k, rfl, -⟩
  · rfl
  · cases k
  · cases k
  · cases k; rfl

/-- The hypotheses of C127_same_partial are met. -/
example : ∀ got got' fin fin', Reads refDeps (withBody Sample.evsBegun Sample.bnd) got fin → Reads refDeps (withBody [.data (Ev.bytes Sample.evsBegun)] Sample.bnd) got' fin' →
    got.map (·.1) = got'.map (·.1) ∧ fin = fin' := fun got got' fin fin' h h' =>
  C127_same_partial refDeps_sane refDeps_incremental refDeps_blocks (by decide +kernel) (by intro e; simp [Sample.evsBegun]) (by decide +kernel) (by intro e; simp) (by decide +kernel)
    (.of_small (by decide +kernel)) h h'

namespace Sample

/-- Headers of more than 1024 bytes, in one read and in two. -/
def evsWide : List Ev := [.data (b!"--b\r\nContent-Disposition: form-data; name=\"a\"\r\nX: " ++ List.replicate 1100 0x78 ++ b!"\r\n\r\none\r\n--b--\r\n")]

def evsWide2 : List Ev := [.data ((Ev.bytes evsWide).take 1040), .data ((Ev.bytes evsWide).drop 1040)]

end Sample

/-- C127 is false of the code as stated: whether large headers are accepted depends on the split into reads. -/
theorem C127_false : ¬ DecidedByBytes refDeps := by
  intro h
  obtain ⟨got, fin, hr⟩ : ∃ got fin, Reads refDeps (withBody Sample.evsWide Sample.bnd) got fin := C10_reads_total refDeps_sane ⟨[], rfl⟩
  obtain ⟨got', fin', hr'⟩ : ∃ got fin, Reads refDeps (withBody Sample.evsWide2 Sample.bnd) got fin := C10_reads_total refDeps_sane ⟨[], rfl⟩
  have n1 : ∀ u, NoErr [.data u] := by intro u e; simp
  have n2 : ∀ u v, NoErr [.data u, .data v] := by intro u v e; simp
  have h1 := (h _ _ _ _ _ _ _ (by decide +kernel) (n1 _) (by decide +kernel) (n2 _ _) (by decide +kernel) hr hr').1
  have e1 : (match ((withBody Sample.evsWide Sample.bnd).readEntry refDeps).1 with | .ok (some _) => true | _ => false) = true := by decide +kernel
  have e2 : (match ((withBody Sample.evsWide2 Sample.bnd).readEntry refDeps).1 with | .ok (some _) => true | _ => false) = false := by decide +kernel
  cases hr with
  | close hc => rw [hc] at e1; simp at e1
  | fail hc => rw [hc] at e1; simp at e1
  | entry hc _ _ =>
    cases hr' with
    | close hc => simp at h1
    | fail hc => simp at h1
    | entry hc' _ _ => rw [hc'] at e2; simp at e2

/-- C127 for saving: `Full` is reported only for a body that is a sequence of well-formed parts with the closing delimiter behind them, and then all of them are saved; whatever the body, if it has no too large header blocks. -/
theorem C127_full_partial {cfg : Settings} {fuel : Nat} {v w' : World} {e : Entries} (hD : D.Sane) (hI : D.Incremental) (hB : D.Blocks) (hn : NoStall evs) (hne : NoErr evs) (hc : cfg.Typed) (ho : cfg.openOpts.createNew = true)
    (hsm : SmallHeaders D (dashes ++ b) (Ev.bytes evs)) (dir : SaveDir) (h : withEntries D cfg fuel (Entries.new dir) v (withBody evs b) = (.full e, w', t)) :
    ∃ es, Parts D (dashes ++ b) (Ev.bytes evs) es .closed ∧ e.fieldsCount = es.length ∧ ∃ fs, GroupedByName e.fields fs ∧ All2 (SavedAs b evs w') fs es := by
  rcases C127_any_body hD hI hB (d := dashes ++ b) (by simp [dashes]) (Ev.bytes evs) with ⟨es, fin, hP⟩ | ⟨es, fh, X, hP⟩ | ⟨es, w, rest, H, hs, X, h1, h2, h3, h4⟩
  · obtain ⟨rfl, fs, h1, h2, h3⟩ := C53_full_has_every_field hD hn hne hc ho hP dir h
    exact ⟨es, hP, h2, fs, h1, h3⟩
  · exfalso
    obtain ⟨fs, s1, h1, h2, -, -, -⟩ := C53_all_read hc dir h
    obtain ⟨got, -, g2⟩ := h1.reads hD hn ho ⟨[], rfl⟩
    obtain ⟨got1, got2, -, -, ⟨-, h3⟩ | ⟨x, -, -, h3⟩⟩ := reads_endsInPart hD hI hn hne hP (g2 [] .closed (.close h2)) <;> cases h3
  · have := hsm.no h1 h2 h3
    omega

/-- The hypotheses of C127_full_partial are met: a request of two fields. -/
example : ∃ es, Parts refDeps (dashes ++ Sample.bnd) (Ev.bytes Sample.evsTwo) es .closed ∧ 2 = es.length := by
  have h : withEntries refDeps { Settings.default with countLimit := 3 } 10 (Entries.new (.temp [b!"tmp"])) Sample.disk (withBody Sample.evsTwo Sample.bnd) =
      (.full { fields := [(b!"a", [⟨Sample.fh, .text b!"one"⟩, ⟨Sample.fh, .text b!"two"⟩])], saveDir := .temp [b!"tmp"], fieldsCount := 2 }, _, _) := Sample.entries_eq (by decide +kernel)
  obtain ⟨es, h1, h2, -⟩ := C127_full_partial refDeps_sane refDeps_incremental refDeps_blocks (by decide +kernel) Sample.noErrTwo ⟨by decide, by decide, by decide, rfl⟩ rfl (.of_small (by decide +kernel)) _ h
  exact ⟨es, h1, h2⟩

/-- C07 for any body, whatever follows the field: if no header block is too large, skipping a field is the same as reading it, or it fails as in `C07_skip_partial`. -/
theorem C07_any_partial (hD : D.Sane) (hI : D.Incremental) (hB : D.Blocks) (hn : NoStall evs) (hne : NoErr evs) (hsm : SmallHeaders D (dashes ++ b) (Ev.bytes evs)) (hr : Reachable D evs b s) (os : List FieldOp)
    (heof : (s.run os).2.AtEof) :
    ((s.readEntry D).1 = ((s.run os).2.readEntry D).1 ∧
      (∀ o, (s.readEntry D).1 = .ok o → (s.readEntry D).2.unread = ((s.run os).2.readEntry D).2.unread)) ∨
    ((s.readEntry D).1 = .err .unexpectedEof ∧ ∃ gone p, Ev.bytes evs = gone ++ s.unread ∧ FirstAt (dashes ++ b) s.unread p ∧ entryBuf (dashes ++ b) < p + (dashes ++ b).length + 2 ∧
      (SplitAt evs (gone.length + p + (dashes ++ b).length) ∨ SplitAt evs (gone.length + p + (dashes ++ b).length + 1))) := by
  have hdne : dashes ++ b ≠ [] := by simp [dashes]
  by_cases hcut : ∃ rest H hs X fh, NextIs (dashes ++ b) s.unread (.part rest) ∧ HeaderBlock D (dashes ++ b) rest H hs X ∧ FieldHeaders.parse D hs = .ok fh ∧ Absent (dashes ++ b) X
  · obtain ⟨rest, H, hs, X, fh, hN, hH, hp, hX⟩ := hcut
    obtain ⟨hi, hu, hdl, hev⟩ := hr.spec hD
    obtain ⟨gone, hg⟩ := hu
    have hb := hsm.behind ⟨gone, hg⟩ hN hH
    obtain ⟨r1, r2, r3, r4, r5⟩ := BR.run_skipped os hi
    have hri := BR.run_inv os hi
    by_cases hst : s.st = .atEnd
    · left
      have h2 := r5.mpr hst
      rw [BR.readEntry_atEnd hst, BR.readEntry_atEnd h2]
      refine ⟨rfl, fun _ _ => ?_⟩
      show s.unread = (s.run os).2.unread
      rw [r1, BR.run_atEnd os hi hst]; simp
    have hst2 : (s.run os).2.st ≠ .atEnd := fun h => hst (r5.mp h)
    have hev2 := r4.trans hev
    have hd2 := BR.AtEof.drained hri heof
    rw [← hdl] at hN hH hX hb
    have hN2 : NextIs (s.run os).2.delim (s.run os).2.unread (.part rest) := by rw [r1, r3]; exact hN.drop r2
    have hu2 : (s.run os).2.unread <:+ Ev.bytes evs := by rw [r1]; exact (List.drop_suffix _ _).trans ⟨gone, hg⟩
    rcases BR.readEntry_any hD hi hst (hne.suffix hev) (hn.suffix hev) hev hg.symm with ⟨-, -, -, -, h5⟩ | ⟨h1, p, h2, -, hl, h3⟩
    · left
      have ha := BR.readEntry_cut hD hI hi hst (.inr (h5 rest hN)) hn hne hev ⟨gone, hg⟩ hN hH hp hX hb
      have hc := BR.readEntry_cut hD hI hri hst2 (.inl hd2) hn hne hev2 hu2 hN2 (by rw [r3]; exact hH) hp (by rw [r3]; exact hX) (by rw [r3]; exact hb)
      rw [r3, ← ha] at hc
      refine ⟨hc.symm, fun o ho => ?_⟩
      rw [BR.readEntry_begins hD hI hi hst (hn.suffix hev) hN hH ho, BR.readEntry_begins hD hI hri hst2 (hn.suffix hev2) hN2 (by rw [r3]; exact hH) (hc.trans ho)]
    · right
      rw [hdl] at h2 hl h3
      exact ⟨h1, gone, p, hg.symm, h2, hl, h3⟩
  · refine C07_skip_partial hD hn hne hr os (fun rest hN => ?_) heof
    rcases part_cases hD hI hB (dashes ++ b) rest with h | ⟨P, H, hs, X, fh, hS, hPH, hH, hp⟩
    · exact .inr h
    rcases firstAt_or_absent (dashes ++ b) X with ⟨p, hX⟩ | hX
    · obtain ⟨dat, hW⟩ := part_wellFormed hdne hS hPH hH hp (hsm.behind (by obtain ⟨-, ⟨g, hg⟩, -, -⟩ := hr.spec hD; exact ⟨g, hg⟩) hN hH) hX
      exact .inl ⟨_, _, _, hW⟩
    · exact absurd ⟨rest, H, hs, X, fh, hN, hH, hp, hX⟩ hcut

/-- The hypotheses of C07_any_partial are met: the field is followed by one without end. -/
example : SmallHeaders refDeps (dashes ++ Sample.bnd) (Ev.bytes Sample.evsBegun) ∧ NoStall Sample.evsBegun ∧ NoErr Sample.evsBegun ∧
    (((withBody Sample.evsBegun Sample.bnd).session refDeps [.readEntry]).run [.read 2, .read 9]).2.AtEof ∧
    (((withBody Sample.evsBegun Sample.bnd).session refDeps [.readEntry]).readEntry refDeps).1 = .ok (some Sample.fh) :=
  ⟨.of_small (by decide +kernel), by decide +kernel, by intro e; simp [Sample.evsBegun], by decide +kernel, by decide +kernel⟩

end Multipart

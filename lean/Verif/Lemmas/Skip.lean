import Verif.Lemmas.Leak
import Verif.Spec.Skip
/-!
# Skipping a field fails when the buffer is full and ends with the next delimiter
-/
namespace Multipart

variable {D : Deps} {s t : BR}

/-- After a `read_to_boundary` the delimiter is found if it is in the buffer. -/
theorem BR.Settled.absent (h : s.Settled) (hst : s.st = .searching) : Absent s.delim s.buf := by
  obtain ⟨s0, hi, rfl⟩ := h
  have hs0 : s0.st = .searching := by
    cases hs : s0.st with
    | searching => rfl
    | _ =>
      have : s0.afterRead.st = s0.st := by rw [BR.afterRead_other (by rw [hs]; simp)]; rfl
      rw [hst, hs] at this
      simp at this
  have hri := s0.refill_inv hi
  obtain ⟨e1, e2, e3, e4, e5, e6, e7⟩ := s0.refill.search_spec hri hs0
  obtain ⟨b1, b2, b3, b4, b5, -⟩ := s0.refill.search.backUp_spec
  rw [BR.afterRead_searching hs0] at hst ⊢
  rw [b5] at hst
  rw [b1, b4, e1, e4]
  rcases e7 with ⟨h, -⟩ | ⟨-, h2, h3⟩
  · rw [hst] at h; simp at h
  · intro q hq
    have hl := occursAt_lt hq hri.delim_ne
    by_cases hlt : q < s0.refill.search.idx
    · refine h2 q hlt ?_
      unfold OccursAt at hq ⊢
      unfold BR.unread
      rw [List.drop_append_of_le_length (by omega)]
      exact hq.trans (List.prefix_append _ _)
    · have := List.length_pos_iff.mpr hri.delim_ne
      rcases h3 with h3 | ⟨-, -, h3⟩ <;> omega

/-- When `read_entry` returns, the delimiter behind the field has been found if it is in the buffer. -/
theorem BR.readEntry_searched (hD : D.Sane) (hi : s.Inv) {fh : FieldHeaders} (he : s.readEntry D = (.ok (some fh), t)) (hst : t.st = .searching) : Absent t.delim t.buf := by
  have hsi := BR.setMin_inv hi minBufSize
  have hc := BR.consumeBoundary_spec hsi
  unfold BR.readEntry at he
  rcases hcb : (s.setMin minBufSize).consumeBoundary with ⟨r, v⟩
  rw [hcb] at he hc
  cases r with
  | err e => simp at he
  | panic => simp at he
  | hang => simp at he
  | ok x =>
    cases x with
    | false => simp at he
    | true =>
      simp only at he hc
      have hvi : v.Inv := by cases hc with | next _ _ _ _ d => exact d
      have hh := withHeadersLoop_spec hD (v.evs.length + 2) 0 v hvi (.inl (Nat.le_refl _))
      unfold BR.readHeaders FieldHeaders.readFrom withHeaders at he
      generalize withHeadersLoop D (v.evs.length + 2) 0 v = r at hh he
      rcases r with ⟨r, u⟩
      cases hh with
      | err => simp at he
      | @ok _ n hs k1 k2 k3 k4 k5 k6 =>
        simp only at he
        cases hp : FieldHeaders.parse D hs with
        | error e => rw [hp] at he; simp at he
        | ok fh' =>
          rw [hp] at he
          simp only [Prod.mk.injEq] at he
          obtain ⟨-, rfl⟩ := he
          have := k3.absent hst
          intro q hq
          refine this (Nat.min n u.idx + q) ?_
          rw [← occursAt_drop]
          exact hq

/-- The delimiter was found; the buffer is full, and ends behind the delimiter or one byte later: the next `read_entry` fails. -/
theorem BR.skip_fails {p : Nat} (hi : s.Inv) (hst : s.st = .boundaryRead) (hp : FirstAt s.delim s.unread p) (hfull : entryBuf s.delim ≤ s.buf.length)
    (hl : s.buf.length < p + s.delim.length + 2) : (s.readEntry D).1 = .err .unexpectedEof := by
  have hm : (s.setMin minBufSize).min ≤ (s.setMin minBufSize).buf.length :=
    Nat.le_trans (Nat.max_le.mpr ⟨by rw [Nat.mul_comm]; exact Nat.le_max_right _ _, Nat.le_max_left _ _⟩) hfull
  have hre := BR.refill_eq_self (s := s.setMin minBufSize) (.inl hm)
  have h1 : (s.setMin minBufSize).st = .boundaryRead := hst
  have hv : ((s.setMin minBufSize).verifyBoundary).1 = .err .unexpectedEof := by
    obtain ⟨p', hp', -, h⟩ := BR.verify_spec (BR.setMin_inv hi minBufSize) h1
    obtain rfl : p' = p := hp'.unique hp
    rw [hre.1] at h
    have hl' : (s.setMin minBufSize).buf.length < p' + (s.setMin minBufSize).delim.length + 2 := hl
    rcases h with ⟨e, -, h, -⟩ | ⟨-, -, h⟩ | ⟨h, -⟩ | ⟨h, -⟩ | ⟨h, -⟩
    · omega
    · rw [h]
    all_goals omega
  have hb : ((s.setMin minBufSize).consumeBoundary).1 = .err .unexpectedEof := by
    unfold BR.consumeBoundary
    rw [if_neg (by rw [h1]; simp)]
    unfold BR.searchLoop
    rw [if_neg (by rw [h1]; simp)]
    exact hv
  unfold BR.readEntry
  rcases hcb : (s.setMin minBufSize).consumeBoundary with ⟨r, t⟩
  rw [hcb] at hb
  simp only at hb
  rw [hb]

/-- If what is left of the read `L` fills the buffer, and some byte of this read is gone, then it is the buffer. -/
theorem BR.Late.buf_eq {m : Nat} {L Z : Bytes} {G B : List Ev} (htl : t.Late m B) (hevs : t.evs <:+ G ++ .data L :: B) (hX : t.unread = Z ++ Ev.bytes B) (hZ : Z.length < L.length)
    (hlong : m ≤ Z.length) : t.buf = Z ∧ t.evs = B := by
  have hlast : t.evs = B := by
    have hex : ∃ es, t.evs = es ++ B := by
      rcases htl.late with h | h
      · exact h
      · exfalso
        rw [hX, List.length_append] at h
        omega
    obtain ⟨es, hes⟩ := hex
    obtain ⟨l, hl⟩ := hevs
    rw [hes, ← List.append_assoc, show G ++ Ev.data L :: B = (G ++ [.data L]) ++ B by simp] at hl
    have hl := List.append_cancel_right hl
    rcases List.eq_nil_or_concat es with rfl | ⟨es', e, rfl⟩
    · simpa using hes
    · exfalso
      have h1 := congrArg List.getLast? hl
      simp at h1
      subst h1
      have h2 := congrArg List.length hX
      unfold BR.unread at h2
      rw [hes] at h2
      simp [Ev.bytes_append, Ev.bytes] at h2
      omega
  refine ⟨?_, hlast⟩
  have h := hX
  unfold BR.unread at h
  rw [hlast] at h
  exact List.append_cancel_right h

/-- If what is left of the read `L` fills the buffer when the headers of a field were read, and the last byte of the headers came with this read, then it is the buffer. -/
theorem BR.entry_buf (hD : D.Sane) {L Z : Bytes} {G B : List Ev} {fh : FieldHeaders} (hB : B ≠ []) (hL : s.Late (entryBuf s.delim) B) (hevs : s.evs <:+ G ++ .data L :: B)
    (he : s.readEntry D = (.ok (some fh), t)) (hX : t.unread = Z ++ Ev.bytes B) (hZ : Z.length < L.length) (hlong : entryBuf s.delim ≤ Z.length) : t.buf = Z ∧ t.evs = B := by
  have htl := hL.readEntry (D := D) hB (Nat.le_refl _)
  rw [he] at htl
  have hte : t.evs <:+ s.evs := by have := BR.readEntry_evs hD hL.inv; rw [he] at this; exact this
  exact htl.buf_eq (hte.trans hevs) hX hZ hlong

/-- If one read brought the last byte of the headers, the data and the delimiter, or one byte more, then this is the buffer after the headers, and the delimiter has been found. -/
theorem BR.entry_found (hD : D.Sane) {d L dat x : Bytes} {G B : List Ev} {fh : FieldHeaders} (hB : B ≠ []) (hd : s.delim = d) (hL : s.Late (entryBuf d) B)
    (hevs : s.evs <:+ G ++ .data L :: B) (he : s.readEntry D = (.ok (some fh), t)) (hX : t.unread = dat ++ crlf ++ d ++ x ++ Ev.bytes B)
    (hlen : dat.length + 2 + d.length + x.length < L.length) (hlong : entryBuf d ≤ dat.length + 2 + d.length + x.length) :
    t.buf = dat ++ crlf ++ d ++ x ∧ t.st = .boundaryRead ∧ t.Inv ∧ t.delim = d := by
  subst hd
  have hlen' : (dat ++ crlf ++ s.delim ++ x).length = dat.length + 2 + s.delim.length + x.length := by simp [crlf]; omega
  obtain ⟨hb, -⟩ := BR.entry_buf hD hB hL hevs he hX (by omega) (by omega)
  have hti : t.Inv := by have := BR.readEntry_inv hD hL.inv; rw [he] at this; exact this
  have htd : t.delim = s.delim := by have := BR.readEntry_delim hD hL.inv; rw [he] at this; exact this
  have htst : t.st ≠ .atEnd := by
    have hsp := BR.readEntry_spec hD hL.inv
    rw [he] at hsp
    simp only at hsp
    cases hsp with | entry => assumption
  refine ⟨hb, ?_, hti, htd⟩
  cases hs : t.st with
  | boundaryRead => rfl
  | atEnd => exact absurd hs htst
  | searching =>
    exfalso
    refine BR.readEntry_searched hD hL.inv he hs (dat ++ crlf).length ?_
    unfold OccursAt
    rw [hb, htd, List.append_assoc, List.append_assoc, ← List.append_assoc dat, List.drop_left]
    exact List.prefix_append _ _

/-- Such a field cannot be skipped. -/
theorem BR.entry_skip_fails (hD : D.Sane) {d L dat x : Bytes} {G B : List Ev} {fh : FieldHeaders} (hB : B ≠ []) (hd : s.delim = d) (hL : s.Late (entryBuf d) B)
    (hevs : s.evs <:+ G ++ .data L :: B) (he : s.readEntry D = (.ok (some fh), t)) (hX : t.unread = dat ++ crlf ++ d ++ x ++ Ev.bytes B) (hf : FirstAt d t.unread (dat.length + 2))
    (hx : x.length ≤ 1) (hlen : dat.length + 2 + d.length + x.length < L.length) (hlong : entryBuf d ≤ dat.length + 2 + d.length + x.length) : (t.readEntry D).1 = .err .unexpectedEof := by
  obtain ⟨hb, hst, hti, htd⟩ := BR.entry_found hD hB hd hL hevs he hX hlen hlong
  have hlen' : (dat ++ crlf ++ d ++ x).length = dat.length + 2 + d.length + x.length := by simp [crlf]; omega
  exact BR.skip_fails (D := D) hti hst (by rw [htd]; exact hf) (by rw [htd, hb]; omega) (by rw [hb, htd]; omega)

/-- The field was read to its end, or not much of it and of the delimiter line is left. -/
def BR.Near (d : Bytes) (s : BR) : Prop := s.Drained ∨ ∀ p, FirstAt d s.unread p → p + d.length + 2 ≤ entryBuf d

theorem FieldData.longField {d u dat : Bytes} (h : FieldData d u dat) {p : Nat} (hp : FirstAt d u p) (hl : entryBuf d < p + d.length + 2) : LongField d dat := by
  unfold LongField
  cases h with
  | crlf a _ => have := hp.unique a; omega
  | bare a _ _ => have := hp.unique a; omega

/-- If the rest of the previous field can be skipped, `read_entry` returns the headers of the next part. -/
theorem BR.entry_of_near (hD : D.Sane) {d rest' dat' X' : Bytes} {B : List Ev} {fh' : FieldHeaders} {evs : List Ev} (hn : NoStall evs) (hne : NoErr evs) (hB : B ≠ []) (hL : s.Late (entryBuf d) B)
    (hd : s.delim = d) (hevs : s.evs <:+ evs) (hu : s.unread <:+ Ev.bytes evs) (hst : s.st ≠ .atEnd) (hnear : s.Near d) (hN : NextIs d s.unread (.part rest')) (hW' : WellFormedPart D d rest' fh' dat' X') :
    ∃ t, s.readEntry D = (.ok (some fh'), t) ∧ t.unread = X' ∧ t.Late (entryBuf d) B ∧ t.delim = d ∧ t.evs <:+ evs ∧ t.unread <:+ Ev.bytes evs ∧ t.st ≠ .atEnd := by
  have hi := hL.inv
  have hex : (s.readEntry D).1 = .ok (some fh') ∧ (s.readEntry D).2.unread = X' := by
    obtain ⟨H, hs, h1, h2, h3, h4⟩ := hW'.headers
    rcases hnear with hdr | hnear
    · have h := (BR.readEntry_verdict hD hi hst (.inl hdr) hn hne hevs hu).2
      rw [hd] at h
      exact h _ _ _ _ _ _ hN h1 hW'.data h4 h3 h2
    · obtain ⟨gone, hg⟩ := hu
      rcases BR.readEntry_any hD hi hst (hne.suffix hevs) (hn.suffix hevs) hevs hg.symm with ⟨-, -, -, h, -⟩ | ⟨-, p, g1, -, g2, -⟩
      · rw [hd] at h
        exact h _ _ _ _ _ _ hN h1 hW'.data h4 h3 h2
      · rw [hd] at g1 g2
        have := hnear p g1
        omega
  have htl := hL.readEntry (D := D) hB (by rw [hd]; exact Nat.le_refl _)
  have htd := BR.readEntry_delim hD hi
  have hte := BR.readEntry_evs hD hi
  have htu := BR.readEntry_suffix hD hi
  have hsp := BR.readEntry_spec hD hi
  rcases hc : s.readEntry D with ⟨r, t⟩
  rw [hc] at hex htl htd hte htu hsp
  obtain ⟨rfl, hX⟩ := hex
  simp only at hX htl htd hte htu hsp
  exact ⟨t, rfl, hX, htl, htd.trans hd, hte.trans hevs, htu.trans hu, by cases hsp with | entry => assumption⟩

/-- Fields that are not long can be skipped. -/
theorem skips_to (hD : D.Sane) {d u w : Bytes} {B : List Ev} {es : List (FieldHeaders × Bytes)} {evs : List Ev} (hn : NoStall evs) (hne : NoErr evs) (hB : B ≠ []) (hP : PartsTo D d u es w) :
    ∀ {s : BR}, s.Late (entryBuf d) B → s.delim = d → s.evs <:+ evs → s.unread <:+ Ev.bytes evs → s.st ≠ .atEnd → s.Near d → (∀ e ∈ es, ¬ LongField d e.2) →
      (∀ v, NextIs d u v → NextIs d s.unread v) → ∃ t, Skips D s (es.map (·.1)) t ∧ t.Late (entryBuf d) B ∧ t.delim = d ∧ t.evs <:+ evs ∧ t.unread <:+ Ev.bytes evs ∧ t.st ≠ .atEnd ∧ t.Near d ∧
        (∀ v, NextIs d w v → NextIs d t.unread v) := by
  induction hP with
  | nil =>
    intro s hL hd hevs hu hst hnear _ hun
    exact ⟨s, .nil, hL, hd, hevs, hu, hst, hnear, hun⟩
  | @part u rest' X w dat' fh' es hN' hW' hP' ih =>
    intro s hL hd hevs hu hst hnear hs hun
    obtain ⟨t, h1, h2, h3, h4, h5, h6, h7⟩ := BR.entry_of_near hD hn hne hB hL hd hevs hu hst hnear (hun _ hN') hW'
    have hnear' : t.Near d := by
      refine .inr fun p hp => ?_
      rw [h2] at hp
      by_cases hl : entryBuf d < p + d.length + 2
      · exact absurd (hW'.data.longField hp hl) (hs _ List.mem_cons_self)
      · omega
    obtain ⟨v, h8, h9⟩ := ih h3 h4 h5 h6 h7 hnear' (fun e he => hs e (List.mem_cons_of_mem _ he)) (fun v hv => by rw [h2]; exact hv)
    exact ⟨v, .cons h1 h8, h9⟩

theorem Skips.snoc {fhs : List FieldHeaders} {fh : FieldHeaders} {u : BR} (h : Skips D s fhs t) (h1 : t.readEntry D = (.ok (some fh), u)) : Skips D s (fhs ++ [fh]) u := by
  induction h with
  | nil => exact .cons h1 .nil
  | cons h2 _ ih => exact .cons h2 (ih h1)

/-- Skipping all fields works up to the field in question, if none before it is long, but this one cannot be skipped. -/
theorem skips_fail (hD : D.Sane) {d L dat x u w rest : Bytes} {G B : List Ev} {fh : FieldHeaders} {es : List (FieldHeaders × Bytes)} {evs : List Ev} (hn : NoStall evs) (hne : NoErr evs)
    (hB : B ≠ []) (hE : evs = G ++ .data L :: B) (hW : WellFormedPart D d rest fh dat (dat ++ crlf ++ d ++ x ++ Ev.bytes B)) (hf : FirstAt d (dat ++ crlf ++ d ++ x ++ Ev.bytes B) (dat.length + 2))
    (hx : x.length ≤ 1) (hlen : dat.length + 2 + d.length + x.length < L.length) (hlong : entryBuf d ≤ dat.length + 2 + d.length + x.length) (hP : PartsTo D d u es w)
    (hL : s.Late (entryBuf d) B) (hd : s.delim = d) (hevs : s.evs <:+ evs) (hu : s.unread <:+ Ev.bytes evs) (hst : s.st ≠ .atEnd) (hnear : s.Near d) (hs : ∀ e ∈ es, ¬ LongField d e.2)
    (hun : ∀ v, NextIs d u v → NextIs d s.unread v) (hN : NextIs d w (.part rest)) :
    ∃ t, Skips D s (es.map (·.1) ++ [fh]) t ∧ (t.readEntry D).1 = .err .unexpectedEof ∧ t.unread = dat ++ crlf ++ d ++ x ++ Ev.bytes B := by
  obtain ⟨v, h1, h2, h3, h4, h5, h6, h7, h8⟩ := skips_to hD hn hne hB hP hL hd hevs hu hst hnear hs hun
  obtain ⟨t, k1, k2, -⟩ := BR.entry_of_near hD hn hne hB h2 h3 h4 h5 h6 h7 (h8 _ hN) hW
  exact ⟨t, h1.snoc k1, BR.entry_skip_fails hD hB h3 h2 (hE ▸ h4) k1 k2 (by rw [k2]; exact hf) hx hlen hlong, k2⟩

/-- If the rest of the previous field can be skipped, the delimiter line of the next part is consumed. -/
theorem BR.boundary_of_near {d rest : Bytes} {B : List Ev} {evs : List Ev} (hn : NoStall evs) (hne : NoErr evs) (hB : B ≠ []) (hL : s.Late (entryBuf d) B)
    (hd : s.delim = d) (hevs : s.evs <:+ evs) (hu : s.unread <:+ Ev.bytes evs) (hst : s.st ≠ .atEnd) (hnear : s.Near d) (hN : NextIs d s.unread (.part rest)) :
    ∃ v, (s.setMin minBufSize).consumeBoundary = (.ok true, v) ∧ v.unread = rest ∧ v.Late (entryBuf d) B ∧ v.delim = d ∧ v.evs <:+ evs ∧ v.st = .searching := by
  subst hd
  have hi := BR.setMin_inv hL.inv minBufSize
  have hex : (s.setMin minBufSize).consumeBoundary.1 = .ok true ∧ (s.setMin minBufSize).consumeBoundary.2.unread = rest := by
    rcases hnear with hdr | hnear
    · have h := BR.consumeBoundary_exact hi s.setMin_entryMin hst hdr (hne.suffix hevs) (hn.suffix hevs) hN
      exact ⟨h.1, h.2 _ (.inl rfl)⟩
    · obtain ⟨gone, hg⟩ := hu
      rcases BR.consumeBoundary_any hi s.setMin_entryMin hst (hne.suffix hevs) (hn.suffix hevs) hevs hg.symm hN with h | ⟨-, p, g1, -, g2, -⟩
      · exact ⟨h.1, h.2 _ (.inl rfl)⟩
      · have := hnear p g1
        have h3 : entryBuf s.delim < p + s.delim.length + 2 := g2
        omega
  have hl := (hL.setMin (n := minBufSize) (Nat.le_max_right _ _) (Nat.le_max_left _ _)).consumeBoundary hB
  rcases hc : (s.setMin minBufSize).consumeBoundary with ⟨r, v⟩
  rw [hc] at hex hl
  obtain ⟨rfl, h1⟩ := hex
  obtain ⟨-, h2, -, -, h3, h4⟩ := BR.consumeBoundary_true hi hc
  exact ⟨v, rfl, h1, hl, h3, h4.trans hevs, h2⟩

/-- The way the body arrives: one read brings the last byte of the headers of the field, its data, and the delimiter behind them, or one byte more. -/
structure Trap (D : Deps) (b : Bytes) (evs : List Ev) (fh : FieldHeaders) (dat x L rest : Bytes) (G B : List Ev) : Prop where
  stall : NoStall evs
  err : NoErr evs
  more : B ≠ []
  script : evs = G ++ .data L :: B
  part : WellFormedPart D (dashes ++ b) rest fh dat (dat ++ crlf ++ (dashes ++ b) ++ x ++ Ev.bytes B)
  first : FirstAt (dashes ++ b) (dat ++ crlf ++ (dashes ++ b) ++ x ++ Ev.bytes B) (dat.length + 2)
  short : x.length ≤ 1
  read : dat.length + 2 + (dashes ++ b).length + x.length < L.length
  long : entryBuf (dashes ++ b) ≤ dat.length + 2 + (dashes ++ b).length + x.length

/-- Every body with a long field can arrive in this way. -/
theorem Trap.exists {fh : FieldHeaders} {b body w rest dat X tail : Bytes} {es : List (FieldHeaders × Bytes)} (hP : PartsTo D (dashes ++ b) body es w)
    (hN : NextIs (dashes ++ b) w (.part rest)) (hW : WellFormedPart D (dashes ++ b) rest fh dat X) (ht : tail.length = 2) (hX : dat ++ crlf ++ (dashes ++ b) ++ tail <+: X)
    (hlong : LongField (dashes ++ b) dat) :
    ∃ evs x L G B, Ev.bytes evs = body ∧ ReadsUpTo (dat.length + (dashes ++ b).length + 4) evs ∧ X = dat ++ crlf ++ (dashes ++ b) ++ x ++ Ev.bytes B ∧ Trap D b evs fh dat x L rest G B := by
  obtain ⟨post, rfl⟩ := hX
  obtain ⟨c1, c2, rfl⟩ : ∃ c1 c2, tail = [c1, c2] := by
    match tail, ht with
    | [c1, c2], _ => exact ⟨_, _, rfl⟩
  have hXe : dat ++ crlf ++ (dashes ++ b) ++ [c1, c2] ++ post = dat ++ crlf ++ (dashes ++ b) ++ [c1] ++ Ev.bytes (Ev.single (c2 :: post)) := by simp [Ev.bytes_single]
  rw [hXe] at hW
  have hf : FirstAt (dashes ++ b) (dat ++ crlf ++ (dashes ++ b) ++ [c1] ++ Ev.bytes (Ev.single (c2 :: post))) (dat.length + 2) := by
    cases hW.data with
    | crlf a _ => exact a
    | bare a _ _ =>
      exfalso
      have := a.1
      unfold OccursAt at this
      rw [List.append_assoc, List.append_assoc, List.append_assoc, List.drop_left] at this
      simp [dashes, crlf] at this
  obtain ⟨gone, z, hbody⟩ : ∃ gone z, body = gone ++ [z] ++ (dat ++ crlf ++ (dashes ++ b) ++ [c1]) ++ Ev.bytes (Ev.single (c2 :: post)) := by
    obtain ⟨H, _, h1, -⟩ := hW.headers
    obtain ⟨gone, hg⟩ := hN.suffix.trans hP.suffix
    rcases List.eq_nil_or_concat H with rfl | ⟨H, z, rfl⟩
    · exact absurd rfl h1.nonempty
    · exact ⟨gone ++ H, z, by rw [← hg, h1.split]; simp⟩
  let L := z :: (dat ++ crlf ++ (dashes ++ b) ++ [c1])
  have hlen : L.length = dat.length + (dashes ++ b).length + 4 := by simp [L, crlf]; omega
  have hbytes : Ev.bytes (Ev.single gone ++ [.data L] ++ Ev.single (c2 :: post)) = body := by
    rw [Ev.bytes_append, Ev.bytes_append, Ev.bytes_single, hbody]
    simp [Ev.bytes, L]
  have hB : Ev.single (c2 :: post) ≠ [] := by simp [Ev.single]
  obtain ⟨hn, hne, hup⟩ := Ev.around (u := gone) (Ps := [.data L]) (v := c2 :: post) (m := 1) (n := dat.length + (dashes ++ b).length + 4)
    (fun e he => ⟨L, List.mem_singleton.mp he, by omega⟩) (fun bs hb => by cases List.mem_singleton.mp hb; omega) Nat.one_pos (by omega)
  unfold LongField at hlong
  exact ⟨_, [c1], L, Ev.single gone, Ev.single (c2 :: post), hbytes, hup, hXe, hn, hne, hB, List.append_assoc _ _ _, hW, hf, by simp, by simp only [List.length_singleton]; omega,
    by simp only [List.length_singleton]; omega⟩

end Multipart

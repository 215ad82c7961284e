import Verif.Props.Headers
import Verif.Spec.HeaderErrors
/-!
# The messages for headers that cannot be read (C111)
-/
namespace Multipart

variable {D : Deps} {evs : List Ev} {b : Bytes} {s t : BR} {tok : Bytes} {io : IoErr → Bytes}

/-- C111: the text of the error for headers that are not those of a field, for every list of headers. -/
theorem C111_complaints (hs : List Header) (m : Bytes) : (∃ e, FieldHeaders.parse D hs = .error e ∧ e.text tok io = m) ↔ Complaint D hs m := by
  cases hcd : findHeader hs b!"Content-Disposition" with
  | none =>
    have h0 := (findHeader_none_iff _ _).mp hcd
    have hno : ∀ cd, ¬ FirstHeader hs b!"Content-Disposition" cd := fun cd h => by rw [(findHeader_some_iff _ _ _).mpr h] at hcd; simp at hcd
    rw [C17_required h0]
    constructor
    · rintro ⟨e, h1, rfl⟩
      cases h1
      exact .missing h0
    · intro h
      cases h with
      | missing => exact ⟨_, rfl, rfl⟩
      | typeOnly h => exact absurd h (hno _)
      | otherType h => exact absurd h (hno _)
      | noName h => exact absurd h (hno _)
      | contentType h => exact absurd h (hno _)
  | some cd =>
    have hf := (findHeader_some_iff _ _ _).mp hcd
    have huniq : ∀ {c}, FirstHeader hs b!"Content-Disposition" c → c = cd := fun {c} h => by
      rw [(findHeader_some_iff _ _ _).mpr h] at hcd; simpa using hcd
    have hmiss : ¬ ∀ x ∈ hs, ¬ SameName x.name b!"Content-Disposition" := fun h => by rw [(findHeader_none_iff _ _).mpr h] at hcd; simp at hcd
    have hgood := ContentDisp.parseRequired_spec hf
    unfold FieldHeaders.parse
    unfold ContentDisp.parseRequired at hgood ⊢
    rw [hcd] at hgood ⊢
    simp only at hgood ⊢
    unfold splitOnce at hgood ⊢
    cases hs1 : findByte 0x3B cd.val with
    | none =>
      have hab := findByte_absent.mp hs1
      rw [hs1] at hgood
      simp only [Option.map_none]
      constructor
      · rintro ⟨e, h1, rfl⟩
        cases h1
        exact .typeOnly hf hab
      · intro h
        cases h with
        | missing h => exact absurd h hmiss
        | typeOnly h => rw [huniq h]; exact ⟨_, rfl, rfl⟩
        | otherType h e => rw [huniq h] at e; rw [e] at hab; simp at hab
        | noName h e => rw [huniq h] at e; rw [e] at hab; simp at hab
        | contentType h g =>
          rw [huniq h] at g
          obtain ⟨c, hc⟩ := hgood.1 g
          simp at hc
    | some i =>
      obtain ⟨h1, h2⟩ := findByte_cut hs1
      have hv : cd.val = cd.val.take i ++ 0x3B :: cd.val.drop (i + 1) := by rw [← h2, List.take_append_drop]
      have hpart : ∀ {c : Header} {ty more : Bytes}, FirstHeader hs b!"Content-Disposition" c → c.val = ty ++ 0x3B :: more → (0x3B : Byte) ∉ ty → cd.val.take i = ty ∧ cd.val.drop (i + 1) = more := by
        intro c ty more g1 g2 g3
        rw [huniq g1] at g2
        exact splitAt_unique h1 g3 (hv.symm.trans g2)
      have hsemi : ∀ {c : Header}, FirstHeader hs b!"Content-Disposition" c → (0x3B : Byte) ∈ c.val := by
        intro c g
        rw [huniq g, hv]; simp
      rw [hs1] at hgood
      simp only [Option.map_some] at hgood ⊢
      by_cases ht : trimWs (cd.val.take i) = b!"form-data"
      · have hfd : FormData (cd.val.take i) := trimWs_formData_iff.mp ht
        rw [if_neg (by simp [ht])] at hgood ⊢
        cases hn : getStrAfter b!"name=" 0x3B (cd.val.drop i) with
        | none =>
          have hab := getStrAfter_none.mp hn
          rw [h2, absent_cons_semi] at hab
          rw [hn] at hgood
          simp only
          constructor
          · rintro ⟨e, k1, rfl⟩
            cases k1
            rw [h2]
            exact .noName hf hv h1 hfd hab
          · intro h
            cases h with
            | missing h => exact absurd h hmiss
            | typeOnly h g => exact absurd (hsemi h) g
            | otherType h e g k => exact absurd hfd (by rw [(hpart h e g).1]; exact k)
            | noName h e g k l => rw [h2, (hpart h e g).2]; exact ⟨_, rfl, rfl⟩
            | contentType h g =>
              rw [huniq h] at g
              obtain ⟨c, hc⟩ := hgood.1 g
              simp at hc
        | some p =>
          have hab : ¬ Absent b!"name=" (cd.val.drop i) := fun h => by rw [getStrAfter_none.mpr h] at hn; simp at hn
          have hgd : GoodDisposition cd.val := by
            rcases Classical.em (GoodDisposition cd.val) with g | g
            · exact g
            · rw [hn] at hgood
              obtain ⟨_, _, hc⟩ := hgood.2 g
              simp at hc
          rw [h2, absent_cons_semi] at hab
          simp only
          unfold parseContentType
          cases hx : findHeader hs b!"Content-Type" with
          | none =>
            simp only
            constructor
            · rintro ⟨e, k1, -⟩; simp at k1
            · intro h
              cases h with
              | missing h => exact absurd h hmiss
              | typeOnly h g => exact absurd (hsemi h) g
              | otherType h e g k => exact absurd hfd (by rw [(hpart h e g).1]; exact k)
              | noName h e g k l => exact absurd l (by rw [← (hpart h e g).2]; exact hab)
              | contentType h g k l => rw [(findHeader_some_iff _ _ _).mpr k] at hx; simp at hx
          | some ct =>
            have hxf := (findHeader_some_iff _ _ _).mp hx
            simp only
            cases hm : D.parseMime ct.val with
            | some mm =>
              simp only
              constructor
              · rintro ⟨e, k1, -⟩; simp at k1
              · intro h
                cases h with
                | missing h => exact absurd h hmiss
                | typeOnly h g => exact absurd (hsemi h) g
                | otherType h e g k => exact absurd hfd (by rw [(hpart h e g).1]; exact k)
                | noName h e g k l => exact absurd l (by rw [← (hpart h e g).2]; exact hab)
                | contentType h g k l =>
                  rw [(findHeader_some_iff _ _ _).mpr k] at hx
                  cases hx
                  rw [hm] at l; simp at l
            | none =>
              simp only
              constructor
              · rintro ⟨e, k1, rfl⟩
                cases k1
                exact .contentType hf hgd hxf hm
              · intro h
                cases h with
                | missing h => exact absurd h hmiss
                | typeOnly h g => exact absurd (hsemi h) g
                | otherType h e g k => exact absurd hfd (by rw [(hpart h e g).1]; exact k)
                | noName h e g k l => exact absurd l (by rw [← (hpart h e g).2]; exact hab)
                | contentType h g k l =>
                  rw [(findHeader_some_iff _ _ _).mpr k] at hx
                  cases hx
                  exact ⟨_, rfl, rfl⟩
      · have hfd : ¬ FormData (cd.val.take i) := fun h => ht (trimWs_formData_iff.mpr h)
        rw [if_pos ht] at hgood ⊢
        simp only
        constructor
        · rintro ⟨e, k1, rfl⟩
          cases k1
          exact .otherType hf hv h1 hfd
        · intro h
          cases h with
          | missing h => exact absurd h hmiss
          | typeOnly h g => exact absurd (hsemi h) g
          | otherType h e g k => rw [(hpart h e g).1]; exact ⟨_, rfl, rfl⟩
          | noName h e g k l => exact absurd k (by rw [← (hpart h e g).1]; exact hfd)
          | contentType h g =>
            rw [huniq h] at g
            obtain ⟨c, hc⟩ := hgood.1 g
            simp at hc

theorem before_same {d rest P Q : Bytes} (hP : Before d rest P) (hQ : Before d rest Q) (h : P.length = Q.length) : P = Q :=
  (List.prefix_of_prefix_length_le hP.1 hQ.1 (by omega)).eq_of_length h

/-- What `read_to_boundary` yields is all up to the next delimiter or the end, or it fills the buffer. -/
theorem BR.wholeBlock (hi : s.Inv) (hst : s.st ≠ .atEnd) (hn : NoStall s.evs) (hf : (fill s.min s.buf s.evs).1 = none) :
    FirstAt s.delim s.unread s.afterRead.idx ∨ FirstAt s.delim s.unread (s.afterRead.idx + 2) ∨ s.unread.length ≤ s.afterRead.idx + s.delim.length + 1 ∨
      s.min ≤ s.afterRead.idx + s.delim.length + 1 := by
  have hai := s.afterRead_inv hi
  have hd : s.afterRead.delim = s.delim := s.skipped_afterRead.delim
  have hu := s.afterRead_unread
  have hcur := hai.cursor
  unfold BR.CursorOk at hcur
  cases h1 : s.afterRead.st with
  | atEnd => exact absurd (BR.afterRead_atEnd hi h1) hst
  | boundaryRead =>
    rw [h1] at hcur
    obtain ⟨p, k1, -, k2⟩ := hcur
    rw [hd, hu] at k1
    rcases k2 with rfl | ⟨rfl, -⟩
    · exact .inl k1
    · exact .inr (.inl k1)
  | searching =>
    have hs : s.st = .searching := by
      cases h2 : s.st with
      | searching => rfl
      | boundaryRead => rw [BR.afterRead_other (by rw [h2]; simp)] at h1; exact absurd (h2.symm.trans h1) (by simp)
      | atEnd => exact absurd h2 hst
    have hri := s.refill_inv hi
    have hfull := BR.refill_full hn hf
    rw [BR.afterRead_searching hs] at h1 ⊢
    obtain ⟨e1, e2, e3, e4, e5, e6, e7⟩ := s.refill.search_spec hri hs
    obtain ⟨b1, b2, b3, b4, b5, b6⟩ := s.refill.search.backUp_spec
    have hdd : s.refill.delim = s.delim := rfl
    have hmm : s.refill.min = s.min := rfl
    have hun := s.refill_unread
    have hde := hi.delim_len
    rw [hdd] at e7
    rcases e7 with ⟨k, -, -⟩ | ⟨-, -, e8⟩
    · rw [b5, k] at h1; simp at h1
    · have hlen : s.refill.buf.length ≤ s.refill.search.backUp.idx + s.delim.length + 1 := by
        rcases e8 with e8 | e8 <;> rcases b6 with b6 | b6 <;> omega
      rcases hfull with g | g
      · exact .inr (.inr (.inr (by omega)))
      · have : s.unread = s.refill.buf := by rw [← hun]; unfold BR.unread; rw [g]; simp [Ev.bytes]
        exact .inr (.inr (.inl (by rw [this]; exact hlen)))

/-- Why the loop of `with_headers` fails. -/
theorem withHeadersLoop_err (hD : D.Sane) : ∀ (n last : Nat) (s : BR), s.Inv → s.st ≠ .atEnd → s.min = Nat.max 1024 (2 * s.delim.length) →
    (last = 0 ∨ ∃ P, Before s.delim s.unread P ∧ P.length = last ∧ D.parseHeaders P = .partialHdrs) → ∀ {e : HdrErr} {t : BR},
    withHeadersLoop D n last s = (.err e, t) →
    (e = .tokenize ∧ ∃ P, Before s.delim s.unread P ∧ D.parseHeaders P = .error) ∨
    (e = .tooLarge ∧ ∃ P, Before s.delim s.unread P ∧ (P = [] ∨ D.parseHeaders P = .partialHdrs) ∧ (NoStall s.evs → WholeBlock s.delim s.unread P)) ∨
    (∃ x, e = .io x ∧ Ev.err x ∈ s.evs) ∨
    (e = .io .invalidData ∧ ∃ P c hs h, Before s.delim s.unread P ∧ D.parseHeaders P = .complete c hs ∧ h ∈ hs ∧ utf8Valid h.val = false) := by
  intro n
  induction n with
  | zero => intro last s _ _ _ _ e t h; simp [withHeadersLoop] at h
  | succ n ih =>
    intro last s hi hst hm hlast e t h
    unfold withHeadersLoop at h
    rcases BR.readToBoundary_eq hi with ⟨x, h1, he⟩ | ⟨h1, he⟩
    · rw [he] at h
      cases h
      exact .inr (.inr (.inl ⟨x, rfl, (fill_spec _ _ _).errmem x h1⟩))
    · rw [he] at h
      have hai := s.afterRead_inv hi
      have hlen : (s.afterRead.buf.take s.afterRead.idx).length = s.afterRead.idx := by
        rw [List.length_take]; exact Nat.min_eq_left hai.idx_le
      have hb : Before s.delim s.unread (s.afterRead.buf.take s.afterRead.idx) := by
        have hd : s.afterRead.delim = s.delim := s.skipped_afterRead.delim
        rw [← s.afterRead_unread, ← hd]
        refine ⟨(List.take_prefix _ _).trans (List.prefix_append _ _), ?_⟩
        rw [hlen]
        exact fun q hq ho => hai.no_occ q hq ho
      have hnb : NoStall s.evs → WholeBlock s.delim s.unread (s.afterRead.buf.take s.afterRead.idx) := by
        intro k
        unfold WholeBlock
        rw [hlen, ← hm]
        exact BR.wholeBlock hi hst k h1
      generalize s.afterRead.buf.take s.afterRead.idx = P at h hb hnb
      simp only at h
      split at h
      · rename_i hl
        cases h
        refine .inr (.inl ⟨rfl, P, hb, ?_, hnb⟩)
        rcases hlast with g | ⟨Q, g1, g2, g3⟩
        · left; rw [g] at hl; exact List.length_eq_zero_iff.mp hl
        · right; rw [before_same hb g1 (by omega)]; exact g3
      · rename_i hl
        split at h
        · rename_i hp
          cases h
          exact .inl ⟨rfl, P, hb, hp⟩
        · rename_i hp
          have hd : s.afterRead.delim = s.delim := s.skipped_afterRead.delim
          have hu := s.afterRead_unread
          have hev : s.afterRead.evs <:+ s.evs := s.skipped_afterRead.evs
          have := ih P.length s.afterRead hai (fun k => hst (BR.afterRead_atEnd hi k)) (by rw [hd, s.afterRead_frame.2.2.1]; exact hm) (.inr ⟨P, by rw [hd, hu]; exact hb, rfl, hp⟩) h
          rw [hd, hu] at this
          rcases this with g | ⟨g1, Q, g2, g3, g4⟩ | ⟨x, g1, g2⟩ | g
          · exact .inl g
          · exact .inr (.inl ⟨g1, Q, g2, g3, fun k => g4 (k.suffix hev)⟩)
          · exact .inr (.inr (.inl ⟨x, g1, hev.subset g2⟩))
          · exact .inr (.inr (.inr g))
        · rename_i c raw hp
          unfold copyHeaders at h
          by_cases hu : raw.all (fun h => utf8Valid h.val) = true
          · rw [if_pos hu, if_pos (hD.four _ _ _ hp)] at h
            simp at h
          · rw [if_neg hu] at h
            cases h
            have hu : ¬ ∀ x ∈ raw, utf8Valid x.val = true := by simpa using hu
            have : ∃ x ∈ raw, utf8Valid x.val = false := by
              apply Classical.byContradiction
              intro hno
              exact hu (fun x hx => by
                cases hv : utf8Valid x.val with
                | true => rfl
                | false => exact absurd ⟨x, hx, hv⟩ hno)
            obtain ⟨x, k1, k2⟩ := this
            exact .inr (.inr (.inr ⟨rfl, P, c, raw, x, hb, hp, k1, k2⟩))

theorem BR.entryError_part (hi : s.Inv) {t : BR} (h : (s.setMin minBufSize).consumeBoundary = (.ok true, t)) :
    t.Inv ∧ t.st = .searching ∧ t.min = (s.setMin minBufSize).min ∧ t.delim = s.delim ∧ t.evs <:+ s.evs ∧ NextIs s.delim s.unread (.part t.unread) := by
  have hc := BR.consumeBoundary_spec (BR.setMin_inv hi minBufSize)
  rw [h] at hc
  simp only at hc
  cases hc with
  | next _ a b c d e f g i j =>
    obtain ⟨-, w2, -, w4, -⟩ := BR.consumeBoundary_true (BR.setMin_inv hi minBufSize) h
    refine ⟨d, w2, w4, f, g, .part a ?_⟩
    have := crlf_split b
    rw [List.drop_drop, ← c] at this; exact this

/-- C111: when `read_entry` fails because of the headers of a part, in whatever state and for whatever stream, it is with `InvalidData`, and the message is true: it names what is wrong with the headers
of this part, or that the stream failed. -/
theorem C111_message (hD : D.Sane) (hr : Reachable D evs b s) {e : HdrErr} (h : s.entryError D = some e) (tok : Bytes) (io : IoErr → Bytes) :
    (s.readEntry D).1 = .err .invalidData ∧ ∃ rest, NextIs (dashes ++ b) s.unread (.part rest) ∧ HeaderMessage D (dashes ++ b) rest evs tok io (e.text tok io) := by
  obtain ⟨hi, -, hdl, hev⟩ := hr.spec hD
  rw [← hdl]
  unfold BR.entryError at h
  unfold BR.readEntry BR.readHeaders
  rcases hcb : (s.setMin minBufSize).consumeBoundary with ⟨r, t⟩
  rw [hcb] at h
  cases r with
  | ok v =>
    cases v with
    | false => simp at h
    | true =>
      obtain ⟨t1, ts, tm, t2, t3, t4⟩ := BR.entryError_part hi hcb
      simp only at h ⊢
      rcases hrf : FieldHeaders.readFrom D t with ⟨r, u⟩
      rw [hrf] at h
      cases r with
      | err x =>
        simp only [Option.some.injEq] at h
        subst h
        refine ⟨rfl, t.unread, t4, ?_⟩
        have hmin : t.min = Nat.max 1024 (2 * t.delim.length) := by
          rw [tm, t2]
          show Nat.max (s.delim.length * 2) 1024 = _
          rw [Nat.mul_comm]; exact Nat.max_comm _ _
        have hsp := withHeadersLoop_spec hD (t.evs.length + 2) 0 t t1 (.inl (Nat.le_refl _))
        have her := @withHeadersLoop_err D hD (t.evs.length + 2) 0 t t1 (by rw [ts]; simp) hmin (.inl rfl)
        unfold FieldHeaders.readFrom withHeaders at hrf
        generalize withHeadersLoop D (t.evs.length + 2) 0 t = y at hsp her hrf
        rcases y with ⟨r, v⟩
        cases r with
        | ok z =>
          obtain ⟨k, hs⟩ := z
          cases hsp with
          | ok k1 k2 k3 k4 k5 k6 =>
            simp only at hrf
            cases hp : FieldHeaders.parse D hs with
            | ok fh => rw [hp] at hrf; simp at hrf
            | error x' =>
              rw [hp] at hrf
              simp only [Prod.mk.injEq, HRes.err.injEq] at hrf
              obtain ⟨rfl, -⟩ := hrf
              refine .rejected (P := v.buf.take v.idx) ⟨?_, ?_⟩ k5 (by simpa only [← utf8Valid_iff] using k6) ((C111_complaints hs _).mp ⟨_, hp, rfl⟩)
              · have : t.unread = v.unread := by have := k1.unread; simpa using this.symm
                rw [this]
                exact (List.take_prefix _ _).trans (List.prefix_append _ _)
              · have hlen : (v.buf.take v.idx).length = v.idx := by
                  rw [List.length_take]; exact Nat.min_eq_left k2.idx_le
                rw [hlen]
                intro q hq hocc
                have hu : t.unread = v.unread := by have := k1.unread; simpa using this.symm
                rw [hu, ← t2, ← k1.delim] at hocc
                exact k2.no_occ q hq hocc
        | err x' =>
          simp only [Prod.mk.injEq, HRes.err.injEq] at hrf
          obtain ⟨rfl, -⟩ := hrf
          have her := her rfl
          rw [t2] at her
          rcases her with ⟨rfl, P, g1, g2⟩ | ⟨rfl, P, g1, g2, g3⟩ | ⟨y, rfl, g⟩ | ⟨rfl, P, c, hs, h, g1, g2, g3, g4⟩
          · exact .noHeaders g1 g2
          · exact .unfinished g1 g2 fun k => g3 ((k.suffix hev).suffix t3)
          · exact .stream (hev.subset (t3.subset g))
          · exact .notText g1 g2 g3 (by rw [← utf8Valid_iff, g4]; simp)
        | panic => simp at hrf
        | hang => simp at hrf
      | ok _ => simp at h
      | panic => simp at h
      | hang => simp at h
  | err _ => simp at h
  | panic => simp at h
  | hang => simp at h

/-- C111: and it is exactly the complaint about the headers when the tokenizer finds a block of them, for every split of the body. -/
theorem C111_exact (hD : D.Sane) (hn : NoStall evs) (hne : NoErr evs) (hr : Reachable D evs b s) (hf : s.FreshOrEof evs b)
    (hend : (s.readEntry D).1 ≠ .ok none) {rest H X dat : Bytes} {hs : List Header}
    (hN : NextIs (dashes ++ b) s.unread (.part rest)) (hH : HeaderBlock D (dashes ++ b) rest H hs X)
    (hfd : FieldData (dashes ++ b) X dat) (hsep : FirstAt (dashes ++ b) X dat.length → ¬ crlf <:+ H ++ dat)
    (hb : H.length + (dashes ++ b).length + 1 ≤ Nat.max 1024 (2 * (dashes ++ b).length)) (m : Bytes) :
    (∃ e, s.entryError D = some e ∧ e.text tok io = m) ↔ Complaint D hs m := by
  obtain ⟨hi, hu, hdl, hev⟩ := hr.spec hD
  rw [← hdl] at hN hH hfd hsep hb
  have hst : s.st ≠ .atEnd := fun h => hend (by rw [BR.readEntry_atEnd h])
  have hdr : s.Drained := hf.drained hi
  have hx := BR.consumeBoundary_exact (BR.setMin_inv hi minBufSize) s.setMin_entryMin hst hdr (hne.suffix hev) (hn.suffix hev) hN
  have hx2 := hx.2 rest (.inl rfl)
  unfold BR.entryError
  rcases hcb : (s.setMin minBufSize).consumeBoundary with ⟨r, t⟩
  rw [hcb] at hx hx2
  have hx1 : r = .ok true := hx.1
  subst hx1
  obtain ⟨t1, t2, t3, t4, t5, t6⟩ := BR.consumeBoundary_true (BR.setMin_inv hi minBufSize) hcb
  have t5' : t.delim = s.delim := t5
  have t6' : t.evs <:+ s.evs := t6
  have hu : t.unread = rest := hx2
  have hmin : t.min = Nat.max 1024 (2 * s.delim.length) := by
    rw [t4]; show Nat.max (s.delim.length * 2) 1024 = _
    rw [Nat.mul_comm]; exact Nat.max_comm _ _
  have hl := (BR.headersLoop_block hD t1 t2 ((hn.suffix hev).suffix t6') ((hne.suffix hev).suffix t6').fill_none (H := H) (X := X) (dat := dat) (hs := hs)
    (by rw [t5', hu]; exact hH) (by rw [t5']; exact hfd) (by rw [t5']; exact hsep) (by rw [t5', hmin]; exact hb)).2
  unfold FieldHeaders.readFrom withHeaders
  simp only [hl]
  rw [← C111_complaints (tok := tok) (io := io)]
  cases hp : FieldHeaders.parse D hs with
  | ok fh => simp
  | error e => simp

/-- C111: when the headers of a part are not complete at the next delimiter or the end of the body, that is what the message says, for every split of the body. -/
theorem C111_unfinished (hD : D.Sane) (hn : NoStall evs) (hne : NoErr evs) (hr : Reachable D evs b s) (hf : s.FreshOrEof evs b)
    (hend : (s.readEntry D).1 ≠ .ok none) {rest : Bytes} (hN : NextIs (dashes ++ b) s.unread (.part rest))
    (hP : ∀ P, Before (dashes ++ b) rest P → D.parseHeaders P = .partialHdrs) :
    (s.readEntry D).1 = .err .invalidData ∧ ∃ e, s.entryError D = some e ∧ e.text tok io = b!"field headers section ridiculously long or missing trailing CRLF-CRLF" := by
  obtain ⟨hi, hu, hdl, hev⟩ := hr.spec hD
  have hst : s.st ≠ .atEnd := fun h => hend (by rw [BR.readEntry_atEnd h])
  have hdr : s.Drained := hf.drained hi
  have hN' := hN
  rw [← hdl] at hN'
  have hx := BR.consumeBoundary_exact (BR.setMin_inv hi minBufSize) s.setMin_entryMin hst hdr (hne.suffix hev) (hn.suffix hev) hN'
  have hx2 := hx.2 rest (.inl rfl)
  have key : ∃ e, s.entryError D = some e := by
    unfold BR.entryError
    rcases hcb : (s.setMin minBufSize).consumeBoundary with ⟨r, t⟩
    rw [hcb] at hx hx2
    have hx1 : r = .ok true := hx.1
    have hu : t.unread = rest := hx2
    subst hx1
    obtain ⟨t1, ts, tm, t2, t3, t4⟩ := BR.entryError_part hi hcb
    have hsp := withHeadersLoop_spec hD (t.evs.length + 2) 0 t t1 (.inl (Nat.le_refl _))
    unfold FieldHeaders.readFrom withHeaders
    simp only
    generalize withHeadersLoop D (t.evs.length + 2) 0 t = y at hsp ⊢
    rcases y with ⟨r, v⟩
    simp only at hsp ⊢
    cases hsp with
    | err => exact ⟨_, rfl⟩
    | ok k1 k2 k3 k4 k5 k6 =>
      exfalso
      have hv : t.unread = v.unread := by have := k1.unread; simpa using this.symm
      have := hP (v.buf.take v.idx) ⟨by rw [← hu, hv]; exact (List.take_prefix _ _).trans (List.prefix_append _ _), by
        rw [List.length_take, Nat.min_eq_left k2.idx_le, ← hu, hv, ← hdl, ← t2, ← k1.delim]
        exact fun q hq => k2.no_occ q hq⟩
      rw [k5] at this; simp at this
  obtain ⟨e, he⟩ := key
  obtain ⟨h1, rest', h2, h3⟩ := C111_message hD hr he tok io
  have : rest' = rest := by
    have := h2.unique (by simp [dashes]) hN
    simpa using this
  subst this
  refine ⟨h1, e, he, ?_⟩
  generalize e.text tok io = m at h3
  cases h3 with
  | rejected g1 g2 => rw [hP _ g1] at g2; simp at g2
  | notText g1 g2 => rw [hP _ g1] at g2; simp at g2
  | noHeaders g1 g2 => rw [hP _ g1] at g2; simp at g2
  | unfinished => rfl
  | stream g => exact absurd g (hne _)

/-- C111: every `InvalidData` of `read_entry` at a part has such a message, as long as the stream does not fail. -/
theorem C111_always (hD : D.Sane) (hn : NoStall evs) (hne : NoErr evs) (hr : Reachable D evs b s) (hf : s.FreshOrEof evs b)
    {rest : Bytes} (hN : NextIs (dashes ++ b) s.unread (.part rest)) : (s.entryError D).isSome = true ↔ (s.readEntry D).1 = .err .invalidData := by
  constructor
  · intro h
    obtain ⟨e, he⟩ := Option.isSome_iff_exists.mp h
    exact (C111_message hD hr he [] (fun _ => [])).1
  · intro h
    obtain ⟨hi, hu, hdl, hev⟩ := hr.spec hD
    have hst : s.st ≠ .atEnd := fun k => by rw [BR.readEntry_atEnd k] at h; simp at h
    have hdr : s.Drained := hf.drained hi
    rw [← hdl] at hN
    have hx := (BR.consumeBoundary_exact (BR.setMin_inv hi minBufSize) s.setMin_entryMin hst hdr (hne.suffix hev) (hn.suffix hev) hN).1
    unfold BR.readEntry BR.readHeaders at h
    unfold BR.entryError
    rcases hcb : (s.setMin minBufSize).consumeBoundary with ⟨r, t⟩
    rw [hcb] at hx h
    have hx1 : r = .ok true := hx
    subst hx1
    simp only at h ⊢
    generalize FieldHeaders.readFrom D t = y at h ⊢
    rcases y with ⟨r, v⟩
    cases r <;> simp_all

/-- The messages of C111 for some bad headers. -/
example : Complaint refDeps [{ name := b!"X", val := b!"y" }, { name := b!"A", val := b!"b" }] (b!"\"Content-Disposition\" header not found in field headers:\n" ++ b!"X: y\nA: b\n") ∧
    Complaint refDeps [{ name := b!"content-disposition", val := b!"form-data" }]
      (b!"invalid \"Content-Disposition\" header: expected additional data after Content-Disposition type: " ++ b!"form-data") ∧
    Complaint refDeps [{ name := b!"Content-Disposition", val := b!"attachment; name=\"a\"" }]
      (b!"invalid \"Content-Disposition\" header: unexpected Content-Disposition value: " ++ b!"attachment") ∧
    Complaint refDeps [{ name := b!"Content-Disposition", val := b!" form-data ; filename=\"a\"" }]
      (b!"invalid \"Content-Disposition\" header: expected field name and maybe filename, got: ;" ++ b!" filename=\"a\"") = False ∧
    Complaint refDeps [{ name := b!"Content-Disposition", val := b!" form-data ; size=1" }]
      (b!"invalid \"Content-Disposition\" header: expected field name and maybe filename, got: ;" ++ b!" size=1") := by
  refine ⟨?_, ?_, ?_, ?_, ?_⟩
  · exact (C111_complaints (tok := []) (io := fun _ => []) _ _).mp ⟨_, rfl, by decide +kernel⟩
  · exact (C111_complaints (tok := []) (io := fun _ => []) _ _).mp ⟨_, rfl, by decide +kernel⟩
  · exact (C111_complaints (tok := []) (io := fun _ => []) _ _).mp ⟨_, rfl, by decide +kernel⟩
  · rw [← C111_complaints (tok := []) (io := fun _ => [])]
    simp only [eq_iff_iff, iff_false]
    rintro ⟨e, h, -⟩
    cases h
  · exact (C111_complaints (tok := []) (io := fun _ => []) _ _).mp ⟨_, rfl, by decide +kernel⟩

namespace Sample
def hdrCut : Bytes := b!"A: b\r\n--b--\r\n"
def evsHdrCut : List Ev := [.data b!"--b\r", .data b!"\nA: b\r\n-", .data b!"-b--\r\n"]
end Sample

/-- C111_message, C111_exact, C111_always. -/
example : ∃ e, (withBody Sample.evsHdrBad Sample.bnd).entryError refDeps = some e ∧
    e.text [] (fun _ => []) = b!"invalid \"Content-Disposition\" header: unexpected Content-Disposition value: attachment" :=
  ⟨.invalidContDisp b!"unexpected Content-Disposition value" b!"attachment", by decide +kernel, by decide +kernel⟩

/-- C111_unfinished. -/
example : NextIs (dashes ++ Sample.bnd) (withBody Sample.evsHdrCut Sample.bnd).unread (.part Sample.hdrCut) ∧ NoStall Sample.evsHdrCut ∧ NoErr Sample.evsHdrCut ∧
    (∀ P, Before (dashes ++ Sample.bnd) Sample.hdrCut P → refDeps.parseHeaders P = .partialHdrs) ∧
    (withBody Sample.evsHdrCut Sample.bnd).entryError refDeps = some .tooLarge := by
  refine ⟨.part (p := 0) (by decide +kernel) (by decide +kernel), by decide +kernel, (by intro e; simp [Sample.evsHdrCut]), fun P hP => ?_, by decide +kernel⟩
  have hl : P.length ≤ 6 := by
    apply Nat.le_of_not_lt
    intro h
    exact hP.2 6 h (by decide +kernel)
  rw [List.prefix_iff_eq_take.mp hP.1]
  have : ∀ k, k ≤ 6 → refDeps.parseHeaders (Sample.hdrCut.take k) = .partialHdrs := by decide +kernel
  exact this _ hl

end Multipart

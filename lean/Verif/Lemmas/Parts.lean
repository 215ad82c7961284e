import Verif.Lemmas.Headers
import Verif.Spec.Parts
namespace Multipart

/-- No read ends inside the CRLF of a delimiter. -/
theorem CleanSplit.of_none {d : Bytes} {evs : List Ev} (h : ∀ k, SplitAt evs (k + 1) → ¬ OccursAt (crlf ++ d) (Ev.bytes evs) k) : CleanSplit d evs :=
  fun k hs ho _ => h k hs ho

/-- Small bodies may be split anywhere. -/
theorem CleanSplit.of_small {d : Bytes} {evs : List Ev} (h : (Ev.bytes evs).length ≤ entryBuf d + d.length) : CleanSplit d evs := by
  intro k _ ho hf
  have h1 := List.IsPrefix.length_le ho
  have h2 := hf.1
  rw [List.length_drop] at h1
  simp [crlf] at h1
  omega

/-! ## Exactness through the header loop -/

theorem BR.Exact.withHeadersLoop {D : Deps} : ∀ (n last : Nat) {s : BR} {p : Nat}, s.Inv → s.Exact p →
    (withHeadersLoop D n last s).2.Exact p ∧ (withHeadersLoop D n last s).2.Inv := by
  intro n
  induction n with
  | zero => intro last s p hi h; exact ⟨h, hi⟩
  | succ n ih =>
    intro last s p hi h
    unfold Multipart.withHeadersLoop
    rcases BR.readToBoundary_eq hi with ⟨e, _, he⟩ | ⟨_, he⟩
    · rw [he]; exact ⟨h.refill, s.refill_inv hi⟩
    · rw [he]
      have ha := h.afterRead hi
      have hai := s.afterRead_inv hi
      simp only
      split
      · exact ⟨ha, hai⟩
      · split
        · exact ⟨ha, hai⟩
        · exact ih _ hai ha
        · split <;> exact ⟨ha, hai⟩

theorem le_of_mem_cutsFrom : ∀ {evs : List Ev} {len k : Nat}, k ∈ cutsFrom len evs → len ≤ k := by
  intro evs
  induction evs with
  | nil => intro len k h; simp [cutsFrom] at h; omega
  | cons e r ih =>
    intro len k h
    cases e <;> simp only [cutsFrom, List.mem_cons] at h <;> rcases h with h | h
    · omega
    · have := ih h; omega
    · omega
    · exact ih h

/-- The delimiter begins inside the minimum buffer: then the buffer does not end before it. -/
theorem BR.Exact.of_near {s : BR} {p : Nat} (hn : NoStall s.evs) (hf : (fill s.min s.buf s.evs).1 = none) (hx : s.idx = 0)
    (h1 : FirstAt s.delim s.unread p) (h2 : 2 ≤ p) (h3 : OccursAt Multipart.crlf s.unread (p - 2)) (hp : p ≤ s.min) : s.refill.Exact p := by
  refine ⟨by rw [s.refill_unread]; exact h1, h2, by rw [s.refill_unread]; exact h3, ?_, by rw [show s.refill.idx = s.idx from rfl, hx]; exact Nat.zero_le _⟩
  have hlen : p ≤ s.refill.buf.length := by
    rcases BR.refill_full hn hf with h | h
    · exact Nat.le_trans hp h
    · have hu : s.unread = s.refill.buf := by rw [← s.refill_unread]; unfold BR.unread; rw [h]; simp [Ev.bytes]
      rcases Nat.lt_or_ge s.refill.buf.length p with hlt | hge
      · have h4 : OccursAt Multipart.crlf s.refill.buf (p - 2) := by rw [← hu]; exact h3
        have h5 := List.IsPrefix.length_le h4
        rw [List.length_drop] at h5
        simp [Multipart.crlf] at h5
        omega
      · exact hge
  intro hc
  have := le_of_mem_cutsFrom hc
  omega

theorem BR.Exact.withHeadersLoop_near {D : Deps} {n last : Nat} {s : BR} {p : Nat} (hi : s.Inv) (h : (fill s.min s.buf s.evs).1 = none → s.refill.Exact p) {r} {t : BR}
    (hr : Multipart.withHeadersLoop D (n + 1) last s = (.ok r, t)) : t.Exact p ∧ t.Inv := by
  unfold Multipart.withHeadersLoop at hr
  rcases BR.readToBoundary_eq hi with ⟨e, _, he⟩ | ⟨hf, he⟩
  · rw [he] at hr; simp at hr
  · rw [he] at hr
    have ha := BR.Exact.afterRead_of_refill hi (h hf)
    have hai := s.afterRead_inv hi
    simp only at hr
    split at hr
    · simp at hr
    · split at hr
      · simp at hr
      · have := ha.withHeadersLoop (D := D) n (s.afterRead.buf.take s.afterRead.idx).length hai
        rw [hr] at this
        exact this
      · split at hr
        · simp only [Prod.mk.injEq] at hr; rw [← hr.2]; exact ⟨ha, hai⟩
        all_goals simp at hr

theorem BR.Exact.readHeaders_near {D : Deps} {s t : BR} {p : Nat} {fh : FieldHeaders} (hi : s.Inv) (h : (fill s.min s.buf s.evs).1 = none → s.refill.Exact p)
    (hr : s.readHeaders D = (.ok fh, t)) : ∃ q, t.Exact q := by
  unfold BR.readHeaders FieldHeaders.readFrom withHeaders at hr
  have hl := fun r t => BR.Exact.withHeadersLoop_near (D := D) (n := s.evs.length + 1) (last := 0) hi h (r := r) (t := t)
  generalize Multipart.withHeadersLoop D (s.evs.length + 2) 0 s = r at hr hl
  rcases r with ⟨r1, t'⟩
  cases r1 with
  | ok x =>
    obtain ⟨n, hs⟩ := x
    simp only at hr
    obtain ⟨ha, hai⟩ := hl _ _ rfl
    have := ha.consume hai n
    cases hp : FieldHeaders.parse D hs with
    | ok fh' => rw [hp] at hr; simp only [Prod.mk.injEq] at hr; exact ⟨_, hr.2 ▸ this⟩
    | error e => rw [hp] at hr; simp at hr
  | err e => simp at hr
  | panic => simp at hr
  | hang => simp at hr

theorem BR.Exact.readHeaders {D : Deps} {s : BR} {p : Nat} (hi : s.Inv) (h : s.Exact p) :
    ∃ q, (s.readHeaders D).2.Exact q := by
  unfold BR.readHeaders FieldHeaders.readFrom withHeaders
  obtain ⟨ha, hai⟩ := h.withHeadersLoop (D := D) (s.evs.length + 2) 0 hi
  generalize Multipart.withHeadersLoop D (s.evs.length + 2) 0 s = r at ha hai ⊢
  rcases r with ⟨r1, t⟩
  simp only at ha hai
  cases r1 with
  | ok x =>
    obtain ⟨n, hs⟩ := x
    simp only
    cases FieldHeaders.parse D hs <;> exact ⟨_, ha.consume hai n⟩
  | err e => exact ⟨p, ha⟩
  | panic => exact ⟨p, ha⟩
  | hang => exact ⟨p, ha⟩

/-- At the start of a field whose delimiter is preceded by CRLF, with no split inside that CRLF or with a delimiter not far before it, the cursor is not yet
behind the data. -/
theorem BR.readEntry_start {D : Deps} (hD : D.Sane) {s0 s : BR} {fh : FieldHeaders} {evs : List Ev} {gone : Bytes} {n : Nat} (hi : s0.Inv)
    (hevs : s0.evs <:+ evs) (hg0 : s0.unread <:+ Ev.bytes evs) (he : s0.readEntry D = (.ok (some fh), s))
    (hg : Ev.bytes evs = gone ++ s.unread)
    (hn : NoStall evs) (hf : FirstAt s.delim s.unread (n + 2)) (hc : OccursAt crlf s.unread n)
    (hs : ¬ (SplitAt evs (gone.length + n + 1) ∧ FarBehind s.delim (Ev.bytes evs) (gone.length + n + 2) ∧
      ∃ rest p, NextIs s.delim s0.unread (.part rest) ∧ FirstAt s.delim rest p ∧ entryBuf s.delim < p)) :
    s.Exact (n + 2) := by
  have hsi := BR.setMin_inv hi minBufSize
  have hun : (s0.setMin minBufSize).unread = s0.unread := rfl
  unfold BR.readEntry at he
  rcases hcb : (s0.setMin minBufSize).consumeBoundary with ⟨r, t⟩
  rw [hcb] at he
  cases r with
  | err e => simp at he
  | panic => simp at he
  | hang => simp at he
  | ok b =>
    cases b with
    | false => simp at he
    | true =>
      simp only at he
      obtain ⟨t1, t2, t3, t4, t5, t6⟩ := BR.consumeBoundary_true hsi hcb
      have htn : NextIs s0.delim s0.unread (.part t.unread) := by
        have hc := BR.consumeBoundary_spec hsi
        rw [hcb] at hc
        simp only at hc
        cases hc with
        | next _ a b c =>
          refine .part a ?_
          obtain ⟨y, hy⟩ := b
          have h2 : t.unread = y := by rw [c, ← List.drop_drop, ← hy]; rfl
          rw [h2]; exact hy.symm
      have htu : t.unread <:+ s0.unread := by
        cases htn with
        | part a c => exact (List.suffix_append crlf _).trans (c ▸ List.drop_suffix _ _)
      have hh := BR.readHeaders_spec hD t1
      rcases hrh : t.readHeaders D with ⟨r, w⟩
      rw [hrh] at he hh
      cases r with
      | err e => simp at he
      | panic => simp at he
      | hang => simp at he
      | ok fh' =>
        simp only [Prod.mk.injEq, Res.ok.injEq, Option.some.injEq] at he
        obtain ⟨rfl, rfl⟩ := he
        simp only at hh
        cases hh with
        | @ok _ k hs' _ k1 k2 k3 k4 k5 k6 =>
          -- where t is in the body
          obtain ⟨g0, hg0⟩ := htu.trans hg0
          have hwd : w.unread = t.unread.drop k := k1.unread
          have hle := k1.le
          have hlen : g0.length + k = gone.length := by
            have h1 := congrArg List.length hg
            have h2 := congrArg List.length hg0
            have h3 := congrArg List.length hwd
            simp only [List.length_append, List.length_drop] at h1 h2 h3
            omega
          have hdw : w.delim = t.delim := k1.delim
          have hft : FirstAt t.delim t.unread (k + (n + 2)) := by
            rw [hdw, hwd] at hf
            exact hf.of_drop k1.none
          have hct : OccursAt crlf t.unread (k + (n + 2) - 2) := by
            rw [hwd, occursAt_drop] at hc
            have : k + (n + 2) - 2 = k + n := by omega
            rw [this]; exact hc
          have hex : ∃ q, w.Exact q := by
            by_cases hsp : SplitAt evs (gone.length + n + 1)
            · have hmin : t.min = entryBuf t.delim := by
                rw [t4, t5]; unfold BR.setMin entryBuf; simp only [minBufSize]
                rw [Nat.mul_comm]; exact Nat.max_comm _ _
              have hnear : k + (n + 2) ≤ entryBuf t.delim := by
                refine Nat.not_lt.mp (fun hlt => hs ⟨hsp, ?_, t.unread, _, by rw [hdw, t5]; exact htn, by rw [hdw]; exact hft, by rw [hdw]; exact hlt⟩)
                rw [hdw]
                refine ⟨by omega, fun q hq hq' ho => ?_⟩
                refine hft.2 (q - g0.length) (by omega) ?_
                unfold OccursAt at ho ⊢
                rw [← hg0, List.drop_append, List.drop_eq_nil_of_le (by omega), List.nil_append] at ho
                exact ho
              exact BR.Exact.readHeaders_near t1
                (fun hfill => .of_near (hn.suffix (t6.trans hevs)) hfill t3 hft (by omega) hct (by rw [hmin]; exact hnear)) hrh
            · have hex : t.Exact (k + (n + 2)) := by
                refine ⟨hft, by omega, hct, ?_, by omega⟩
                intro hcut
                apply hsp
                have := BR.cuts_splitAt (t6.trans hevs) hg0.symm hcut
                have e : gone.length + n + 1 = g0.length + (k + (n + 2) - 1) := by omega
                rw [e]; exact this
              obtain ⟨q, hq⟩ := hex.readHeaders (D := D) t1
              rw [hrh] at hq
              exact ⟨q, hq⟩
          obtain ⟨q, hq⟩ := hex
          have : q = n + 2 := hq.first.unique hf
          rw [← this]; exact hq

/-- Data of a field read to its end, with any calls. -/
theorem BR.field_data {D : Deps} (hD : D.Sane) {s0 s : BR} {fh : FieldHeaders} {evs : List Ev} {gone : Bytes} (hi : s0.Inv)
    (hevs : s0.evs <:+ evs) (hg0 : s0.unread <:+ Ev.bytes evs) (he : s0.readEntry D = (.ok (some fh), s))
    (hg : Ev.bytes evs = gone ++ s.unread) (hn : NoStall evs) {dat : Bytes} (hfd : FieldData s.delim s.unread dat)
    (os : List FieldOp) (heof : (s.run os).2.AtEof) :
    (s.run os).1 = dat ∨ ((s.run os).1 = dat ++ crlf ∧ FirstAt s.delim s.unread (dat.length + 2) ∧
      SplitAt evs (gone.length + dat.length + 1) ∧ FarBehind s.delim (Ev.bytes evs) (gone.length + dat.length + 2) ∧
      ∃ rest p, NextIs s.delim s0.unread (.part rest) ∧ FirstAt s.delim rest p ∧ entryBuf s.delim < p) := by
  have hsp := BR.readEntry_spec hD hi
  rw [he] at hsp
  simp only at hsp
  have hsi : s.Inv := by have := BR.readEntry_inv hD hi; rw [he] at this; exact this
  have hse : s.evs <:+ s0.evs := by have := BR.readEntry_evs hD hi; rw [he] at this; exact this
  have hsm : s.EntryMin := by have := BR.readEntry_entryMin hD hi; rw [he] at this; exact this
  have hst : s.st ≠ .atEnd := by cases hsp with | entry => assumption
  obtain ⟨r1, r2, r3, r4, r5⟩ := BR.run_skipped os hsi
  have hri := BR.run_inv os hsi
  have hru := BR.run_unread os hsi
  have hmin := BR.run_min os hsi hsm.2
  have hcases := BR.atEof_cases hri hmin (hn.suffix (r4.trans (hse.trans hevs))) heof (fun h => hst (r5.mp h))
  rw [r3, r1] at hcases
  have back : ∀ p, FirstAt s.delim (s.unread.drop (s.run os).1.length) p → FirstAt s.delim s.unread ((s.run os).1.length + p) :=
    fun p hp => hp.of_drop r2
  have htake : (s.run os).1 = s.unread.take (s.run os).1.length := by rw [← hru]; simp
  cases hfd with
  | bare a b c =>
    left
    have hdt : dat = s.unread.take dat.length := (prefix_take_eq b).symm
    rcases hcases with h | ⟨h, h'⟩ | h
    · have := (back _ h).unique a
      rw [htake, hdt, show (s.run os).1.length = dat.length by omega]
    · exfalso
      have hl := (back _ h).unique a
      apply c
      have h2 : (s.unread.drop (s.run os).1.length).take 2 = crlf := prefix_take_eq (d := crlf) (by unfold OccursAt at h'; simpa using h')
      rw [hdt, ← hl, List.take_add, h2]
      exact List.suffix_append _ _
    · have h2 : Absent s.delim s.unread := h.of_drop r2
      exact absurd a.1 (h2 _)
  | crlf a b =>
    have hdt : dat = s.unread.take dat.length := (prefix_take_eq ((List.prefix_append _ _).trans b)).symm
    have hocc : OccursAt crlf s.unread dat.length := by
      obtain ⟨r, hr⟩ := b
      unfold OccursAt
      rw [← hr, List.append_assoc, List.drop_left]
      exact List.prefix_append _ _
    rcases hcases with h | ⟨h, h'⟩ | h
    · right
      have hl := (back _ h).unique a
      refine ⟨?_, a, ?_⟩
      · rw [htake, show (s.run os).1.length = (dat ++ crlf).length by simp [crlf]; omega]
        exact prefix_take_eq b
      · by_cases hs : SplitAt evs (gone.length + dat.length + 1) ∧ FarBehind s.delim (Ev.bytes evs) (gone.length + dat.length + 2) ∧
          ∃ rest p, NextIs s.delim s0.unread (.part rest) ∧ FirstAt s.delim rest p ∧ entryBuf s.delim < p
        · exact hs
        · exfalso
          have hex := BR.readEntry_start hD hi hevs hg0 he hg hn a hocc hs
          have := (hex.run os hsi).1
          omega
    · left
      have := (back _ h).unique a
      rw [htake, hdt, show (s.run os).1.length = dat.length by omega]
    · have h2 : Absent s.delim s.unread := h.of_drop r2
      exact absurd a.1 (h2 _)

/-- At EOF, nothing is left unread in front of a delimiter already found. -/
theorem BR.AtEof.drained {s : BR} (hi : s.Inv) (h : s.AtEof) : s.Drained := by
  intro hst
  unfold BR.AtEof at h
  rcases BR.readToBoundary_eq hi with ⟨e, _, he⟩ | ⟨hf, he⟩
  · rw [he] at h; simp at h
  rw [he] at h
  have hai := s.afterRead_inv hi
  simp only [Res.ok.injEq] at h
  have := congrArg List.length h
  rw [List.length_take, Nat.min_eq_left hai.idx_le] at this
  rw [BR.afterRead_other (by rw [hst]; simp)] at this
  exact this

/-- `read_entry` follows the verdict on the unread stream, if the last field was drained, or if it does not report an unexpected EOF. -/
theorem BR.readEntry_verdict {D : Deps} (hD : D.Sane) {s : BR} {evs : List Ev} (hi : s.Inv) (hst : s.st ≠ .atEnd)
    (hdr : s.Drained ∨ (s.readEntry D).1 ≠ .err .unexpectedEof) (hn : NoStall evs) (hne : NoErr evs) (hevs : s.evs <:+ evs) (hu : s.unread <:+ Ev.bytes evs) :
    ((∀ rest, NextIs s.delim s.unread (.close rest) → (s.readEntry D).1 = .ok none) ∧
     (NextIs s.delim s.unread .damaged → (s.readEntry D).1 = .err .invalidData) ∧
     (NextIs s.delim s.unread .truncated → (s.readEntry D).1 = .err .unexpectedEof)) ∧
    (∀ rest H X dat hs fh, NextIs s.delim s.unread (.part rest) → HeaderBlock D s.delim rest H hs X → FieldData s.delim X dat →
       (FirstAt s.delim X dat.length → ¬ crlf <:+ H ++ dat) →
       H.length + s.delim.length + 1 ≤ Nat.max minBufSize (2 * s.delim.length) → FieldHeaders.parse D hs = .ok fh →
       (s.readEntry D).1 = .ok (some fh) ∧ (s.readEntry D).2.unread = X) := by
  have hn' := hn.suffix hevs; have hne' := hne.suffix hevs
  rcases hdr with hdr | hdr
  · have ho := BR.readEntry_other (D := D) hi hst hdr hn' hne'
    exact ⟨⟨fun rest h => (ho.1 rest h).1, ho.2⟩, fun rest H X dat hs fh a h1 b h4 h3 h2 => BR.readEntry_exact hD hi hst hdr hn' hne' a h1 b h4 h3 h2⟩
  · obtain ⟨gone, hg⟩ := hu
    rcases BR.readEntry_any hD hi hst hne' hn' hevs hg.symm with ⟨h1, h2, h3, h4, -⟩ | ⟨h, -⟩
    · exact ⟨⟨fun rest h => (h1 rest h).1, h2, h3⟩, h4⟩
    · exact absurd h hdr

/-- The header block that `read_headers` accepts was shown in front of the next delimiter, and in front of its CRLF if it is not far away. -/
theorem BR.readHeaders_shown {D : Deps} (hD : D.Sane) {t w : BR} {fh : FieldHeaders} (hi : t.Inv) (hx : t.idx = 0) (hn : NoStall t.evs) (hr : t.readHeaders D = (.ok fh, w)) :
    ∃ P n hs, P <+: t.unread ∧ (∀ q, q < P.length → ¬ OccursAt t.delim t.unread q) ∧
      (∀ p, FirstAt t.delim t.unread (p + 2) → OccursAt crlf t.unread p → p + 2 ≤ t.min → P.length ≤ p) ∧
      D.parseHeaders P = .complete n hs ∧ (∀ h ∈ hs, IsUtf8 h.val) ∧ FieldHeaders.parse D hs = .ok fh ∧ w.unread = t.unread.drop n := by
  unfold BR.readHeaders FieldHeaders.readFrom withHeaders at hr
  have hl := withHeadersLoop_spec hD (t.evs.length + 2) 0 t hi (.inl (Nat.le_refl _))
  have hnear := fun p h r v => BR.Exact.withHeadersLoop_near (D := D) (n := t.evs.length + 1) (last := 0) (p := p) hi h (r := r) (t := v)
  generalize Multipart.withHeadersLoop D (t.evs.length + 2) 0 t = r at hr hl hnear
  obtain ⟨r1, v⟩ := r
  simp only at hr hl
  cases hl with
  | err => simp at hr
  | @ok _ n hs k1 k2 k3 k4 k5 k6 =>
    have hu : t.unread = v.unread := by have := k1.unread; simpa using this.symm
    have hlen : (v.buf.take v.idx).length = v.idx := by
      rw [List.length_take]; exact Nat.min_eq_left k2.idx_le
    simp only at hr
    cases hp : FieldHeaders.parse D hs with
    | error e => rw [hp] at hr; simp at hr
    | ok fh' =>
      rw [hp] at hr
      simp only [Prod.mk.injEq, Res.ok.injEq] at hr
      obtain ⟨rfl, rfl⟩ := hr
      refine ⟨v.buf.take v.idx, n, hs, ?_, ?_, ?_, k5, fun h hh => (utf8Valid_iff _).mp (k6 h hh), hp, ?_⟩
      · rw [hu]; exact (List.take_prefix _ _).trans (List.prefix_append _ _)
      · rw [hlen, hu, ← k1.delim]; exact k2.no_occ
      · intro p h1 h2 h3
        have := (hnear (p + 2) (fun hf => BR.Exact.of_near hn hf hx h1 (by omega) h2 h3) _ _ rfl).1.idx
        rw [hlen]; omega
      · have hni : n ≤ v.idx := by have := hD.len _ _ _ k5; omega
        have := (BR.skipped_consume k2 n).unread
        rw [this, ← hu, show Nat.min n v.idx = n from Nat.min_eq_left hni]

/-- An entry is reported only for a header block that was shown. -/
theorem BR.readEntry_shown {D : Deps} (hD : D.Sane) {s t : BR} {fh : FieldHeaders} (hi : s.Inv) (hn : NoStall s.evs) (he : s.readEntry D = (.ok (some fh), t)) :
    ∃ rest P n hs, NextIs s.delim s.unread (.part rest) ∧ Shown s.delim rest P ∧ D.parseHeaders P = .complete n hs ∧ (∀ h ∈ hs, IsUtf8 h.val) ∧ FieldHeaders.parse D hs = .ok fh ∧ t.unread = rest.drop n := by
  have hsi := BR.setMin_inv hi minBufSize
  unfold BR.readEntry at he
  rcases hcb : (s.setMin minBufSize).consumeBoundary with ⟨r, v⟩
  rw [hcb] at he
  cases r with
  | err e => simp at he
  | panic => simp at he
  | hang => simp at he
  | ok b =>
    cases b with
    | false => simp at he
    | true =>
      simp only at he
      obtain ⟨t1, t2, t3, t4, t5, t6⟩ := BR.consumeBoundary_true hsi hcb
      have htn : NextIs s.delim s.unread (.part v.unread) := by
        have hc := BR.consumeBoundary_spec hsi
        rw [hcb] at hc
        simp only at hc
        cases hc with
        | next _ a b c =>
          refine .part a ?_
          have := crlf_split b
          rw [List.drop_drop, ← c] at this; exact this
      have hmin : v.min = entryBuf s.delim := by
        rw [t4]; unfold BR.setMin entryBuf; simp only [minBufSize]
        rw [Nat.mul_comm]; exact Nat.max_comm _ _
      have hd : v.delim = s.delim := t5
      rcases hrh : v.readHeaders D with ⟨r, w⟩
      rw [hrh] at he
      cases r with
      | err e => simp at he
      | panic => simp at he
      | hang => simp at he
      | ok fh' =>
        simp only [Prod.mk.injEq, Res.ok.injEq, Option.some.injEq] at he
        obtain ⟨rfl, rfl⟩ := he
        obtain ⟨P, n, hs, p1, p2, p3, p4, p5, p6, p7⟩ := BR.readHeaders_shown hD t1 t3 (hn.suffix t6) hrh
        rw [hd] at p2 p3
        exact ⟨_, P, n, hs, htn, ⟨p1, p2, fun p a b c => p3 p a b (by rw [hmin]; exact c)⟩, p4, p5, p6, p7⟩

/-- `read_entry` refuses a part without headers of a field, if the last field was drained, or if it does not report an unexpected EOF. -/
theorem BR.readEntry_refused {D : Deps} (hD : D.Sane) {s : BR} {evs : List Ev} (hi : s.Inv) (hst : s.st ≠ .atEnd)
    (hdr : s.Drained ∨ (s.readEntry D).1 ≠ .err .unexpectedEof) (hn : NoStall evs) (hne : NoErr evs) (hevs : s.evs <:+ evs) {rest : Bytes}
    (hN : NextIs s.delim s.unread (.part rest)) (hb : NoFieldHeaders D s.delim rest) : (s.readEntry D).1 = .err .invalidData := by
  have hn' := hn.suffix hevs; have hne' := hne.suffix hevs
  have hdr : (s.readEntry D).1 ≠ .err .unexpectedEof := by
    rcases hdr with hdr | hdr
    · have hsi := BR.setMin_inv hi minBufSize
      have hx := BR.consumeBoundary_exact hsi s.setMin_entryMin hst hdr hne' hn' hN
      unfold BR.readEntry
      rcases hcb : (s.setMin minBufSize).consumeBoundary with ⟨r, t⟩
      rw [hcb] at hx
      simp only [Verdict.result] at hx
      obtain ⟨rfl, -⟩ := hx
      have hh := BR.readHeaders_spec hD (BR.consumeBoundary_true hsi hcb).1
      simp only
      generalize BR.readHeaders D t = x at hh ⊢
      obtain ⟨x1, x2⟩ := x
      simp only at hh ⊢
      cases hh <;> simp
    · exact hdr
  have hsp := BR.readEntry_spec hD hi
  have hsh := fun fh t => BR.readEntry_shown (fh := fh) (t := t) hD hi hn'
  generalize s.readEntry D = x at hsp hdr hsh ⊢
  obtain ⟨r, t⟩ := x
  simp only at hsp hdr ⊢
  cases hsp with
  | done h => exact absurd h hst
  | close _ h => exact absurd (h.unique hi.delim_ne hN) (by simp)
  | entry =>
    obtain ⟨rest', P, n, hs, a, c, e, f, g, -⟩ := hsh _ _ rfl
    cases a.unique hi.delim_ne hN
    exact absurd g (hb _ _ _ c e f _)
  | badHeaders => rfl
  | noBoundary _ _ _ _ _ h =>
    rcases h with h | rfl | ⟨rfl, -⟩
    · exact absurd h (hne' _)
    · exact absurd rfl hdr
    · rfl

/-- The data of a field that was read to its end, by any calls. -/
theorem BR.field_dataOk {D : Deps} (hD : D.Sane) {s t : BR} {fh : FieldHeaders} {evs : List Ev} (hi : s.Inv) (hevs : s.evs <:+ evs) (hu : s.unread <:+ Ev.bytes evs)
    (hc : s.readEntry D = (.ok (some fh), t)) (hn : NoStall evs) {dat : Bytes} (hfd : FieldData s.delim t.unread dat) (os : List FieldOp) (heof : (t.run os).2.AtEof) :
    DataOk s.delim evs dat (t.run os).1 := by
  have hti : t.Inv := by have := BR.readEntry_inv hD hi; rw [hc] at this; exact this
  have htd : t.delim = s.delim := by have := BR.readEntry_delim hD hi; rw [hc] at this; exact this
  have htu : t.unread <:+ s.unread := by have := BR.readEntry_suffix hD hi; rw [hc] at this; exact this
  obtain ⟨gone, hgone⟩ := htu.trans hu
  have hdat := BR.field_data hD hi hevs hu hc hgone.symm hn (by rw [htd]; exact hfd) os heof
  rcases hdat with hdat | ⟨hdat, hfirst, hsplit, hfar, -⟩
  · exact .inl hdat
  · refine .inr ⟨hdat, fun hclean => hclean (gone.length + dat.length) hsplit ?_ (by rw [← htd]; exact hfar)⟩
    rw [← hgone]
    unfold OccursAt
    rw [← List.drop_drop, List.drop_left]
    have hcr : crlf <+: t.unread.drop dat.length := by
      have h0 := BR.run_unread os hti
      rw [hdat, List.append_assoc] at h0
      rw [← h0, List.drop_left]
      exact List.prefix_append _ _
    have hd2 : s.delim <+: (t.unread.drop dat.length).drop 2 := by
      have := hfirst.1
      unfold OccursAt at this
      rw [List.drop_drop, ← htd]; exact this
    obtain ⟨y, hy⟩ := hd2
    rw [crlf_split hcr, ← hy, ← List.append_assoc]
    exact List.prefix_append _ _

/-- Reading `k` more fields: what comes out is determined by the bytes. -/
theorem reads_parts {D : Deps} (hD : D.Sane) {d : Bytes} {evs : List Ev} (hn : NoStall evs) (hne : NoErr evs)
    {s : BR} {got : List (FieldHeaders × Bytes)} {fin : Ending} (hr : Reads D s got fin) :
    ∀ {es : List (FieldHeaders × Bytes)} {fin' : Ending}, s.Inv → s.delim = d → s.evs <:+ evs → s.unread <:+ Ev.bytes evs →
      s.st ≠ .atEnd → (s.Drained ∨ (s.readEntry D).1 ≠ .err .unexpectedEof) → Parts D d s.unread es fin' →
      fin = fin' ∧ All2 (fun a b => a.1 = b.1 ∧ DataOk d evs b.2 a.2) got es := by
  induction hr with
  | @close s t hc =>
    intro es fin' hi hd hevs hu hst hdr hp
    subst hd
    obtain ⟨ho, hexact⟩ := BR.readEntry_verdict hD hi hst hdr hn hne hevs hu
    rw [hc] at ho
    cases hp with
    | close _ => exact ⟨rfl, .nil⟩
    | damaged h => have := ho.2.1 h; simp at this
    | truncated h => have := ho.2.2 h; simp at this
    | refused h h' => have := BR.readEntry_refused hD hi hst hdr hn hne hevs h h'; rw [hc] at this; simp at this
    | part a b _ =>
      obtain ⟨H, hs, h1, h2, h3, h4⟩ := b.headers
      have := hexact _ _ _ _ _ _ a h1 b.data h4 h3 h2
      rw [hc] at this; simp at this
  | @fail s t e hc =>
    intro es fin' hi hd hevs hu hst hdr hp
    subst hd
    obtain ⟨ho, hexact⟩ := BR.readEntry_verdict hD hi hst hdr hn hne hevs hu
    rw [hc] at ho
    cases hp with
    | close h => have := ho.1 _ h; simp at this
    | damaged h => have := ho.2.1 h; simp only [Res.err.injEq] at this; rw [this]; exact ⟨rfl, .nil⟩
    | truncated h => have := ho.2.2 h; simp only [Res.err.injEq] at this; rw [this]; exact ⟨rfl, .nil⟩
    | refused h h' => have := BR.readEntry_refused hD hi hst hdr hn hne hevs h h'; rw [hc] at this; simp only [Res.err.injEq] at this; rw [this]; exact ⟨rfl, .nil⟩
    | part a b _ =>
      obtain ⟨H, hs, h1, h2, h3, h4⟩ := b.headers
      have := hexact _ _ _ _ _ _ a h1 b.data h4 h3 h2
      rw [hc] at this; simp at this
  | @entry s t fh os got fin hc heof _ ih =>
    intro es fin' hi hd hevs hu hst hdr hp
    subst hd
    obtain ⟨ho, hexact⟩ := BR.readEntry_verdict hD hi hst hdr hn hne hevs hu
    rw [hc] at ho
    cases hp with
    | close h => have := ho.1 _ h; simp at this
    | damaged h => have := ho.2.1 h; simp at this
    | truncated h => have := ho.2.2 h; simp at this
    | refused h h' => have := BR.readEntry_refused hD hi hst hdr hn hne hevs h h'; rw [hc] at this; simp at this
    | @part _ rest X dat fh' es' _ a b hrest =>
      obtain ⟨H, hs, h1, h2, h3, h4⟩ := b.headers
      have hex := hexact _ _ _ _ _ _ a h1 b.data h4 h3 h2
      rw [hc] at hex
      simp only [Res.ok.injEq, Option.some.injEq] at hex
      obtain ⟨rfl, rfl⟩ := hex
      have hti : t.Inv := by have := BR.readEntry_inv hD hi; rw [hc] at this; exact this
      have htd : t.delim = s.delim := by have := BR.readEntry_delim hD hi; rw [hc] at this; exact this
      have hte : t.evs <:+ s.evs := by have := BR.readEntry_evs hD hi; rw [hc] at this; exact this
      have htu : t.unread <:+ s.unread := by have := BR.readEntry_suffix hD hi; rw [hc] at this; exact this
      have htst : t.st ≠ .atEnd := by
        have hsp := BR.readEntry_spec hD hi
        rw [hc] at hsp
        simp only at hsp
        cases hsp with | entry => assumption
      obtain ⟨r1, r2, r3, r4, r5⟩ := BR.run_skipped os hti
      have hri := BR.run_inv os hti
      have hnext : Parts D s.delim (t.run os).2.unread es' fin' := by
        have hsame : ∀ v, NextIs s.delim t.unread v → NextIs s.delim (t.run os).2.unread v := by
          intro v hv
          rw [r1]; apply hv.drop; rw [htd] at r2; exact r2
        cases hrest with
        | close h => exact .close (hsame _ h)
        | damaged h => exact .damaged (hsame _ h)
        | truncated h => exact .truncated (hsame _ h)
        | refused h h' => exact .refused (hsame _ h) h'
        | part h w p => exact .part (hsame _ h) w p
      have := ih hri (r3.trans htd) (r4.trans (hte.trans hevs))
        (by rw [r1]; exact (List.drop_suffix _ _).trans (htu.trans hu))
        (fun h => htst (r5.mp h)) (.inl (BR.AtEof.drained hri heof)) hnext
      exact ⟨this.1, .cons ⟨rfl, BR.field_dataOk hD hi hevs hu hc hn b.data os heof⟩ this.2⟩

/-- The parts still to come for a reader. -/
structure AtParts (D : Deps) (d : Bytes) (evs : List Ev) (s : BR) (es : List (FieldHeaders × Bytes)) (fin : Ending) : Prop where
  inv : s.Inv
  delim : s.delim = d
  script : s.evs <:+ evs
  unread : s.unread <:+ Ev.bytes evs
  st : s.st ≠ .atEnd
  parts : Parts D d s.unread es fin

theorem AtParts.start {D : Deps} {b : Bytes} {evs : List Ev} {es : List (FieldHeaders × Bytes)} {fin : Ending} (hP : Parts D (dashes ++ b) (Ev.bytes evs) es fin) :
    AtParts D (dashes ++ b) evs (withBody evs b) es fin :=
  ⟨BR.fromReader_inv evs b, rfl, List.suffix_rfl, by simp [withBody, BR.fromReader, BR.unread], by simp [withBody, BR.fromReader],
    by simpa [withBody, BR.fromReader, BR.unread] using hP⟩

theorem AtParts.run {D : Deps} {d : Bytes} {evs : List Ev} {s : BR} {es : List (FieldHeaders × Bytes)} {fin : Ending} (h : AtParts D d evs s es fin) (os : List FieldOp) :
    AtParts D d evs (s.run os).2 es fin := by
  obtain ⟨r1, r2, r3, r4, r5⟩ := BR.run_skipped os h.inv
  refine ⟨BR.run_inv os h.inv, r3.trans h.delim, r4.trans h.script, by rw [r1]; exact (List.drop_suffix _ _).trans h.unread, fun hh => h.st (r5.mp hh), ?_⟩
  have hsame : ∀ v, NextIs d s.unread v → NextIs d (s.run os).2.unread v := by
    intro v hv
    rw [r1]; apply hv.drop; rw [h.delim] at r2; exact r2
  cases h.parts with
  | close g => exact .close (hsame _ g)
  | damaged g => exact .damaged (hsame _ g)
  | truncated g => exact .truncated (hsame _ g)
  | refused g g' => exact .refused (hsame _ g) g'
  | part g w p => exact .part (hsame _ g) w p

theorem AtParts.entry_data {D : Deps} (hD : D.Sane) {d : Bytes} {evs : List Ev} (hn : NoStall evs) (hne : NoErr evs) {s t : BR} {es : List (FieldHeaders × Bytes)} {fin : Ending}
    {fh : FieldHeaders} (h : AtParts D d evs s es fin) (hdr : s.Drained ∨ (s.readEntry D).1 ≠ .err .unexpectedEof) (hc : s.readEntry D = (.ok (some fh), t)) :
    ∃ dat es', es = (fh, dat) :: es' ∧ AtParts D d evs t es' fin ∧ FieldData d t.unread dat := by
  obtain ⟨hi, rfl, hevs, hu, hst, hp⟩ := h
  obtain ⟨ho, hexact⟩ := BR.readEntry_verdict hD hi hst hdr hn hne hevs hu
  rw [hc] at ho hexact
  cases hp with
  | close h => have := ho.1 _ h; simp at this
  | damaged h => have := ho.2.1 h; simp at this
  | truncated h => have := ho.2.2 h; simp at this
  | refused h h' => have := BR.readEntry_refused hD hi hst hdr hn hne hevs h h'; rw [hc] at this; simp at this
  | @part _ rest X dat fh' es' _ a b hrest =>
    obtain ⟨H, hs, h1, h2, h3, h4⟩ := b.headers
    have hex := hexact _ _ _ _ _ _ a h1 b.data h4 h3 h2
    simp only [Res.ok.injEq, Option.some.injEq] at hex
    obtain ⟨rfl, rfl⟩ := hex
    have hti : t.Inv := by have := BR.readEntry_inv hD hi; rw [hc] at this; exact this
    have htd : t.delim = s.delim := by have := BR.readEntry_delim hD hi; rw [hc] at this; exact this
    have hte : t.evs <:+ s.evs := by have := BR.readEntry_evs hD hi; rw [hc] at this; exact this
    have htu : t.unread <:+ s.unread := by have := BR.readEntry_suffix hD hi; rw [hc] at this; exact this
    have htst : t.st ≠ .atEnd := by
      have hsp := BR.readEntry_spec hD hi
      rw [hc] at hsp
      simp only at hsp
      cases hsp with | entry => assumption
    exact ⟨dat, es', rfl, ⟨hti, htd, hte.trans hevs, htu.trans hu, htst, hrest⟩, b.data⟩

theorem AtParts.entry {D : Deps} (hD : D.Sane) {d : Bytes} {evs : List Ev} (hn : NoStall evs) (hne : NoErr evs) {s t : BR} {es : List (FieldHeaders × Bytes)} {fin : Ending}
    {fh : FieldHeaders} (h : AtParts D d evs s es fin) (hdr : s.Drained ∨ (s.readEntry D).1 ≠ .err .unexpectedEof) (hc : s.readEntry D = (.ok (some fh), t)) :
    ∃ dat es', es = (fh, dat) :: es' ∧ AtParts D d evs t es' fin := by
  obtain ⟨dat, es', h1, h2, -⟩ := h.entry_data hD hn hne hdr hc
  exact ⟨dat, es', h1, h2⟩

theorem AtParts.reads {D : Deps} (hD : D.Sane) {d : Bytes} {evs : List Ev} (hn : NoStall evs) (hne : NoErr evs) {s : BR} {es got : List (FieldHeaders × Bytes)} {fin fin' : Ending}
    (h : AtParts D d evs s es fin) (hdr : s.Drained ∨ (s.readEntry D).1 ≠ .err .unexpectedEof) (hr : Reads D s got fin') :
    fin' = fin ∧ All2 (fun a b => a.1 = b.1 ∧ DataOk d evs b.2 a.2) got es :=
  reads_parts hD hn hne hr h.inv h.delim h.script h.unread h.st hdr h.parts

end Multipart

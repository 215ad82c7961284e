import Verif.Lemmas.Entry
namespace Multipart

/-! ## Split points -/

theorem Ev.bytes_append (a b : List Ev) : Ev.bytes (a ++ b) = Ev.bytes a ++ Ev.bytes b := by
  induction a with
  | nil => rfl
  | cons e r ih => cases e <;> simp [Ev.bytes, ih]

theorem cutsFrom_split : ∀ (evs : List Ev) (len k : Nat), k ∈ cutsFrom len evs → ∃ a b, evs = a ++ b ∧ len + (Ev.bytes a).length = k := by
  intro evs
  induction evs with
  | nil => intro len k h; simp [cutsFrom] at h; exact ⟨[], [], rfl, by simp [Ev.bytes, h]⟩
  | cons e r ih =>
    intro len k h
    cases e with
    | data bs =>
      simp only [cutsFrom, List.mem_cons] at h
      rcases h with h | h
      · exact ⟨[], _, rfl, by simp [Ev.bytes, h]⟩
      · obtain ⟨a, b, h1, h2⟩ := ih _ _ h
        exact ⟨.data bs :: a, b, by rw [h1]; rfl, by simp [Ev.bytes]; omega⟩
    | err e =>
      simp only [cutsFrom, List.mem_cons] at h
      rcases h with h | h
      · exact ⟨[], _, rfl, by simp [Ev.bytes, h]⟩
      · obtain ⟨a, b, h1, h2⟩ := ih _ _ h
        exact ⟨.err e :: a, b, by rw [h1]; rfl, by simp [Ev.bytes]; omega⟩

/-- A cut of a state reached from the body is a split point of the body. -/
theorem BR.cuts_splitAt {s : BR} {evs : List Ev} {gone : Bytes} {k : Nat} (hs : s.evs <:+ evs) (hb : Ev.bytes evs = gone ++ s.unread)
    (hk : k ∈ s.cuts) : SplitAt evs (gone.length + k) := by
  obtain ⟨a, b, h1, h2⟩ := cutsFrom_split _ _ _ hk
  obtain ⟨pre, hpre⟩ := hs
  refine ⟨pre ++ a, b, by rw [← hpre, h1]; simp, ?_⟩
  have hl : (Ev.bytes pre).length = gone.length + s.buf.length := by
    have := congrArg List.length hb
    rw [← hpre, Ev.bytes_append] at this
    simp [BR.unread] at this
    omega
  rw [Ev.bytes_append, List.length_append]; omega

/-! ## Sessions -/

theorem BR.sop_inv {D : Deps} (hD : D.Sane) {s : BR} (h : s.Inv) (o : SOp) : (s.sop D o).Inv := by
  cases o with
  | readEntry => exact BR.readEntry_inv hD h
  | field o => exact BR.op_inv h o

theorem BR.sop_frame {D : Deps} (hD : D.Sane) {s : BR} (h : s.Inv) (o : SOp) :
    (s.sop D o).unread <:+ s.unread ∧ (s.sop D o).delim = s.delim ∧ (s.sop D o).evs <:+ s.evs := by
  cases o with
  | readEntry => exact ⟨BR.readEntry_suffix hD h, BR.readEntry_delim hD h, BR.readEntry_evs hD h⟩
  | field o =>
    have := BR.op_skipped h o
    exact ⟨by show (s.op o).2.unread <:+ _; rw [this.1]; exact List.drop_suffix _ _, this.2.2.1, this.2.2.2.1⟩

theorem BR.session_spec {D : Deps} (hD : D.Sane) : ∀ (os : List SOp) {s : BR}, s.Inv →
    (s.session D os).Inv ∧ (s.session D os).unread <:+ s.unread ∧ (s.session D os).delim = s.delim ∧ (s.session D os).evs <:+ s.evs := by
  intro os
  induction os with
  | nil => intro s h; exact ⟨h, List.suffix_rfl, rfl, List.suffix_rfl⟩
  | cons o os ih =>
    intro s h
    obtain ⟨a, b, c⟩ := BR.sop_frame hD h o
    obtain ⟨i1, i2, i3, i4⟩ := ih (BR.sop_inv hD h o)
    exact ⟨i1, i2.trans a, i3.trans b, i4.trans c⟩

theorem BR.session_append (D : Deps) (os os' : List SOp) (s : BR) :
    s.session D (os ++ os') = (s.session D os).session D os' := by
  induction os generalizing s with
  | nil => rfl
  | cons o os ih => exact ih _

theorem Reachable.spec {D : Deps} (hD : D.Sane) {evs : List Ev} {b : Bytes} {s : BR} (h : Reachable D evs b s) :
    s.Inv ∧ s.unread <:+ Ev.bytes evs ∧ s.delim = dashes ++ b ∧ s.evs <:+ evs := by
  obtain ⟨os, rfl⟩ := h
  have := BR.session_spec hD os (BR.fromReader_inv evs b)
  simpa [withBody, BR.fromReader, BR.unread] using this

theorem Reachable.step {D : Deps} {evs : List Ev} {b : Bytes} {s : BR} (h : Reachable D evs b s) (o : SOp) :
    Reachable D evs b (s.sop D o) := by
  obtain ⟨os, rfl⟩ := h
  exact ⟨os ++ [o], by rw [BR.session_append]; rfl⟩

theorem Reachable.session {D : Deps} {evs : List Ev} {b : Bytes} {s : BR} (h : Reachable D evs b s) (os : List SOp) :
    Reachable D evs b (s.session D os) := by
  obtain ⟨os', rfl⟩ := h
  exact ⟨os' ++ os, by rw [BR.session_append]⟩

theorem Reachable.run {D : Deps} {evs : List Ev} {b : Bytes} {s : BR} (h : Reachable D evs b s) (os : List FieldOp) :
    Reachable D evs b (s.run os).2 := by
  induction os generalizing s with
  | nil => exact h
  | cons o os ih => exact ih (h.step (.field o))

/-! ## Exactness: where the cursor stops before CRLF and delimiter -/

/-- The first delimiter is at `p`, preceded by CRLF, and the buffer never ends between that CR and LF. -/
structure BR.Exact (s : BR) (p : Nat) : Prop where
  first : FirstAt s.delim s.unread p
  two : 2 ≤ p
  crlf : OccursAt Multipart.crlf s.unread (p - 2)
  cut : p - 1 ∉ s.cuts
  idx : s.idx ≤ p - 2

theorem BR.Exact.refill {s : BR} {p : Nat} (h : s.Exact p) : s.refill.Exact p :=
  ⟨by rw [s.refill_unread]; exact h.first, h.two, by rw [s.refill_unread]; exact h.crlf,
   fun hc => h.cut ((fill_spec s.min s.evs s.buf).cuts _ hc), h.idx⟩

theorem occursAt_crlf_bytes {xs : Bytes} {p : Nat} (h : OccursAt crlf xs p) :
    xs[p]? = some 0x0D ∧ xs[p + 1]? = some 0x0A := by
  obtain ⟨r, hr⟩ := crlf_drop_zero h
  constructor
  · have : (xs.drop p)[0]? = some 0x0D := by rw [hr]; rfl
    simpa using this
  · have : (xs.drop p)[1]? = some 0x0A := by rw [hr]; rfl
    simpa [Nat.add_comm] using this

theorem drop_prefix_head {xs d : Bytes} {i : Nat} (hd : dashes <+: d) (hi : i < xs.length) (h : xs.drop i <+: d) : xs[i]? = some 0x2D := by
  have : xs.drop i = xs[i] :: xs.drop (i + 1) := by rw [List.drop_eq_getElem_cons hi]
  rw [this] at h
  have := prefix_head hd h
  rw [List.getElem?_eq_getElem hi, this]

/-- The first delimiter is at `p`, preceded by CRLF, and the cursor is not behind the data once the delimiter is found. -/
structure BR.Whole (s : BR) (p : Nat) : Prop where
  first : FirstAt s.delim s.unread p
  two : 2 ≤ p
  crlf : OccursAt Multipart.crlf s.unread (p - 2)
  idx : s.st ≠ .searching → s.idx ≤ p - 2

/-- If the buffer does not end between the CR and the LF, the next search stops in front of them. -/
theorem BR.Whole.exact {s : BR} {p : Nat} (hi : s.Inv) (h : s.Whole p) (hcut : p - 1 ∉ s.refill.cuts) : s.afterRead.Exact p := by
  have hfirst : FirstAt s.refill.delim s.refill.unread p := by rw [s.refill_unread]; exact h.first
  have hcrlf : OccursAt Multipart.crlf s.refill.unread (p - 2) := by rw [s.refill_unread]; exact h.crlf
  by_cases hst : s.st = .searching
  · have hri := s.refill_inv hi
    have hdef := BR.afterRead_searching hst
    obtain ⟨e1, e2, e3, e4, e5, e6, e7⟩ := s.refill.search_spec hri hst
    obtain ⟨b1, b2, b3, b4, b5, b6⟩ := s.refill.search.backUp_spec
    rw [← hdef] at b1 b2 b3 b4 b5 b6
    have hun := s.afterRead_unread
    have hcuts : s.afterRead.cuts = s.refill.cuts := by unfold BR.cuts; rw [b1, b2, e1, e2]
    refine ⟨by rw [hun, ← s.refill_unread, b4, e4]; exact hfirst, h.two, by rw [hun, ← s.refill_unread]; exact hcrlf, by rw [hcuts]; exact hcut, ?_⟩
    have hunr : s.refill.unread = s.refill.buf ++ Ev.bytes s.refill.evs := rfl
    obtain ⟨cr, lf⟩ := occursAt_crlf_bytes hcrlf
    have hp2 := h.two
    have hlenmem : s.refill.buf.length ∈ s.refill.cuts := mem_cutsFrom_self _ _
    -- position of the cursor before backing up
    have hy : s.refill.search.idx ≤ p - 2 ∨ (s.refill.search.idx = p ∧ p ≤ s.refill.buf.length ∧ ¬ Multipart.crlf <+: s.refill.buf.drop p) := by
      rcases e7 with ⟨_, fa, hl⟩ | ⟨_, noc, e8⟩
      · right
        have hp := fa.unique hfirst
        refine ⟨hp, by omega, ?_⟩
        intro hc
        have hocc : OccursAt s.refill.delim s.refill.buf p := by
          rw [hp] at hl
          exact occursAt_of_append hfirst.1 hl
        obtain ⟨t, ht⟩ := hocc
        rw [← ht] at hc
        exact dash_ne_crlf hri.dash t hc
      · by_cases hle : s.refill.search.idx ≤ p - 2
        · left; exact hle
        · right
          have hyp : s.refill.search.idx ≤ p := by
            by_cases hh : s.refill.search.idx ≤ p
            · exact hh
            · exact absurd hfirst.1 (noc p (by omega))
          have hne : s.refill.search.idx ≠ p - 1 := by
            intro heq
            rcases e8 with e8 | e8
            · apply hcut; rw [← heq, e8]; exact hlenmem
            · have h1 := drop_prefix_head hri.dash e8.1 e8.2.1
              have h2 : s.refill.unread[s.refill.search.idx]? = some 0x2D := by
                rw [hunr, List.getElem?_append_left e8.1]; exact h1
              rw [heq, show p - 1 = p - 2 + 1 by omega, lf] at h2
              simp at h2
          have heq : s.refill.search.idx = p := by omega
          refine ⟨heq, by omega, ?_⟩
          intro hc
          rw [← heq] at hc
          rcases e8 with e8 | e8
          · rw [e8, List.drop_length] at hc; simp [Multipart.crlf] at hc
          · have h1 := drop_prefix_head hri.dash e8.1 e8.2.1
            obtain ⟨r, hr'⟩ := crlf_drop_zero hc
            have : (s.refill.buf.drop s.refill.search.idx)[0]? = some 0x0D := by rw [hr']; rfl
            simp at this
            rw [h1] at this; simp at this
    rcases hy with hy | ⟨hy, hpl, hnc⟩
    · rcases b6 with b6 | b6 <;> omega
    · rcases b6 with ⟨b6, b7⟩ | ⟨b6, b7, _⟩
      · exfalso
        apply b7 (by omega)
        · rw [e1, hy]; exact hnc
        · rw [e1, hy]
          have hocc := hcrlf
          rw [hunr] at hocc
          have := occursAt_of_append hocc (by simp [Multipart.crlf]; omega)
          exact prefix_take_eq this
      · omega
  · rw [BR.afterRead_other hst]; exact ⟨hfirst, h.two, hcrlf, hcut, h.idx hst⟩

theorem BR.Exact.whole {s : BR} {p : Nat} (h : s.Exact p) : s.Whole p := ⟨h.first, h.two, h.crlf, fun _ => h.idx⟩

theorem BR.Whole.of_refill {s : BR} {p : Nat} (h : s.refill.Whole p) : s.Whole p :=
  ⟨by have := h.first; rwa [s.refill_unread] at this, h.two, by have := h.crlf; rwa [s.refill_unread] at this, h.idx⟩

theorem BR.Whole.refill {s : BR} {p : Nat} (h : s.Whole p) : s.refill.Whole p :=
  ⟨by rw [s.refill_unread]; exact h.first, h.two, by rw [s.refill_unread]; exact h.crlf, h.idx⟩

theorem BR.Exact.afterRead_of_refill {s : BR} {p : Nat} (hi : s.Inv) (hr : s.refill.Exact p) : s.afterRead.Exact p := hr.whole.of_refill.exact hi hr.cut

theorem BR.Exact.afterRead {s : BR} {p : Nat} (hi : s.Inv) (h : s.Exact p) : s.afterRead.Exact p := .afterRead_of_refill hi h.refill

theorem cutsFrom_shift : ∀ (evs : List Ev) (len t k : Nat), t ≤ len → (k ∈ cutsFrom (len - t) evs ↔ k + t ∈ cutsFrom len evs) := by
  intro evs
  induction evs with
  | nil => intro len t k h; simp [cutsFrom]; omega
  | cons e r ih =>
    intro len t k h
    cases e with
    | data bs =>
      simp only [cutsFrom, List.mem_cons]
      rw [show len - t + bs.length = (len + bs.length) - t by omega, ih _ _ _ (by omega)]
      constructor <;> rintro (h1 | h1) <;> first | (left; omega) | (right; exact h1)
    | err e =>
      simp only [cutsFrom, List.mem_cons]
      rw [ih _ _ _ h]
      constructor <;> rintro (h1 | h1) <;> first | (left; omega) | (right; exact h1)

theorem BR.Exact.consume {s : BR} {p : Nat} (hi : s.Inv) (h : s.Exact p) (n : Nat) :
    (s.consume n).Exact (p - Nat.min n s.idx) := by
  have hm : Nat.min n s.idx ≤ s.idx := Nat.min_le_right _ _
  have hu := BR.consume_unread_drop hi n
  have h2 := h.two; have hix := h.idx; have hil := hi.idx_le
  have e2 : (s.consume n).idx = s.idx - Nat.min n s.idx := rfl
  have hcuts : (s.consume n).cuts = cutsFrom (s.buf.length - Nat.min n s.idx) s.evs := by
    show cutsFrom (s.buf.drop (Nat.min n s.idx)).length s.evs = _
    rw [List.length_drop]
  generalize Nat.min n s.idx = t at *
  refine ⟨by rw [hu]; exact h.first.drop (by omega), by omega, ?_, ?_, by omega⟩
  · rw [hu, occursAt_drop]
    have : t + (p - t - 2) = p - 2 := by omega
    rw [this]; exact h.crlf
  · rw [hcuts, cutsFrom_shift _ _ _ _ (by omega)]
    have : p - t - 1 + t = p - 1 := by omega
    rw [this]; exact h.cut

theorem BR.Exact.op {s : BR} {p : Nat} (hi : s.Inv) (h : s.Exact p) (o : FieldOp) :
    (s.op o).1.length + 2 ≤ p ∧ (s.op o).2.Exact (p - (s.op o).1.length) := by
  have h2 := h.two
  cases o with
  | fillBuf =>
    simp only [BR.op, List.length_nil, Nat.sub_zero]
    refine ⟨by omega, ?_⟩
    rcases BR.readToBoundary_eq hi with ⟨e, _, he⟩ | ⟨_, he⟩
    · rw [he]; exact h.refill
    · rw [he]; exact h.afterRead hi
  | read n =>
    rcases BR.read_eq hi n with ⟨e, _, he⟩ | ⟨_, he⟩
    · simp only [BR.op, he, List.length_nil, Nat.sub_zero]; exact ⟨by omega, h.refill⟩
    · have hai := s.afterRead_inv hi
      have ha := h.afterRead hi
      have hl : (s.afterRead.buf.take (Nat.min n s.afterRead.idx)).length = Nat.min n s.afterRead.idx := by
        rw [List.length_take]; exact Nat.min_eq_left (Nat.le_trans (Nat.min_le_right _ _) hai.idx_le)
      simp only [BR.op, he, hl]
      have hm : Nat.min n s.afterRead.idx ≤ s.afterRead.idx := Nat.min_le_right _ _
      have := ha.idx
      exact ⟨by omega, ha.consume hai n⟩
  | consume n =>
    have hl : (s.buf.take (Nat.min n s.idx)).length = Nat.min n s.idx := by
      rw [List.length_take]; exact Nat.min_eq_left (Nat.le_trans (Nat.min_le_right _ _) hi.idx_le)
    simp only [BR.op, hl]
    have hm : Nat.min n s.idx ≤ s.idx := Nat.min_le_right _ _
    have := h.idx
    exact ⟨by omega, h.consume hi n⟩
  | setMin n =>
    simp only [BR.op, List.length_nil, Nat.sub_zero]
    exact ⟨by omega, h.first, h.two, h.crlf, h.cut, h.idx⟩

theorem BR.Exact.run : ∀ (os : List FieldOp) {s : BR} {p : Nat}, s.Inv → s.Exact p →
    (s.run os).1.length + 2 ≤ p ∧ (s.run os).2.Exact (p - (s.run os).1.length) := by
  intro os
  induction os with
  | nil => intro s p hi h; simp only [BR.run, List.length_nil, Nat.sub_zero]; exact ⟨by have := h.two; omega, h⟩
  | cons o os ih =>
    intro s p hi h
    obtain ⟨a, b⟩ := h.op hi o
    obtain ⟨c, d⟩ := ih (BR.op_inv hi o) b
    simp only [BR.run, List.length_append]
    refine ⟨by omega, ?_⟩
    rw [← Nat.sub_sub]; exact d

/-! ## End of a field -/

/-- At EOF on a stream that did not stall: the delimiter was found and nothing of the field is left before it, except perhaps
its CRLF; or there is no delimiter. -/
theorem BR.atEof_cases {s : BR} (hi : s.Inv) (hm : 2 * s.delim.length ≤ s.min) (hn : NoStall s.evs) (h : s.AtEof) (hst : s.st ≠ .atEnd) :
    FirstAt s.delim s.unread 0 ∨ (FirstAt s.delim s.unread 2 ∧ OccursAt crlf s.unread 0) ∨ Absent s.delim s.unread := by
  unfold BR.AtEof at h
  rcases BR.readToBoundary_eq hi with ⟨e, _, he⟩ | ⟨hf, he⟩
  · rw [he] at h; simp at h
  rw [he] at h
  have hai := s.afterRead_inv hi
  have hidx : s.afterRead.idx = 0 := by
    simp only [Res.ok.injEq] at h
    have := congrArg List.length h
    rw [List.length_take, Nat.min_eq_left hai.idx_le] at this
    simpa using this
  have hun := s.afterRead_unread
  have hde := s.afterRead_frame.2.2.2
  cases hs : s.afterRead.st with
  | atEnd => exact absurd (BR.afterRead_atEnd hi hs) hst
  | boundaryRead =>
    have hc := hai.cursor
    unfold BR.CursorOk at hc
    simp only [hs] at hc
    obtain ⟨p, hp1, hp2, hp3⟩ := hc
    rw [hun, hde] at hp1
    rw [hidx] at hp3
    rcases hp3 with hp3 | ⟨hp3, hp4⟩
    · left; rw [← hp3]; exact hp1
    · right; left
      refine ⟨by rw [hp3] at hp1; exact hp1, ?_⟩
      unfold OccursAt
      rw [← hun]
      exact hp4.trans (List.prefix_append _ _)
  | searching =>
    right; right
    have hss : s.st = .searching := by
      by_cases hss : s.st = .searching
      · exact hss
      · rw [BR.afterRead_other hss] at hs; exact absurd hs hss
    exact (BR.eof_absent hi hss hm hn hf hidx hs).1

end Multipart

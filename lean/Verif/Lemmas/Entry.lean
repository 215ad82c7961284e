import Verif.Lemmas.Stable
namespace Multipart

/-! ## Verdicts -/

theorem NextIs.unique {d u : Bytes} {v w : Verdict} (_hd : d ≠ []) (h : NextIs d u v) (h' : NextIs d u w) : v = w := by
  cases h with
  | part a b =>
    cases h' with
    | part a' b' => have := a.unique a'; subst this; rw [b] at b'; simpa using b'
    | close a' b' => have := a.unique a'; subst this; rw [b] at b'; simp [crlf, dashes] at b'
    | damaged a' _ c' _ => have := a.unique a'; subst this; rw [b] at c'; exact absurd (List.prefix_append _ _) c'
    | cut a' b' =>
      have := a.unique a'; subst this
      have := congrArg List.length b
      simp [crlf] at this; omega
    | none b' => exact absurd a.1 (b' _)
  | close a b =>
    cases h' with
    | part a' b' => have := a.unique a'; subst this; rw [b] at b'; simp [crlf, dashes] at b'
    | close a' b' => have := a.unique a'; subst this; rw [b] at b'; simpa using b'
    | damaged a' _ _ c' => have := a.unique a'; subst this; rw [b] at c'; exact absurd (List.prefix_append _ _) c'
    | cut a' b' =>
      have := a.unique a'; subst this
      have := congrArg List.length b
      simp [dashes] at this; omega
    | none b' => exact absurd a.1 (b' _)
  | damaged a l b c =>
    cases h' with
    | part a' b' => have := a.unique a'; subst this; rw [b'] at b; exact absurd (List.prefix_append _ _) b
    | close a' b' => have := a.unique a'; subst this; rw [b'] at c; exact absurd (List.prefix_append _ _) c
    | damaged _ _ _ _ => rfl
    | cut a' b' => have := a.unique a'; subst this; omega
    | none b' => exact absurd a.1 (b' _)
  | cut a b =>
    cases h' with
    | part a' b' =>
      have := a.unique a'; subst this
      have := congrArg List.length b'
      simp [crlf] at this; omega
    | close a' b' =>
      have := a.unique a'; subst this
      have := congrArg List.length b'
      simp [dashes] at this; omega
    | damaged a' l' _ _ => have := a.unique a'; subst this; omega
    | cut _ _ => rfl
    | none _ => rfl
  | none b =>
    cases h' with
    | part a' _ => exact absurd a'.1 (b _)
    | close a' _ => exact absurd a'.1 (b _)
    | damaged a' _ _ _ => exact absurd a'.1 (b _)
    | cut _ _ => rfl
    | none _ => rfl

/-- Every stream has a verdict. -/
theorem NextIs.total (d u : Bytes) : ∃ v, NextIs d u v := by
  rcases firstAt_or_absent d u with ⟨p, hp⟩ | h
  · by_cases hl : u.length < p + d.length + 2
    · exact ⟨_, .cut hp hl⟩
    · by_cases h1 : crlf <+: u.drop (p + d.length)
      · obtain ⟨r, hr⟩ := h1; exact ⟨_, .part hp hr.symm⟩
      · by_cases h2 : dashes <+: u.drop (p + d.length)
        · obtain ⟨r, hr⟩ := h2; exact ⟨_, .close hp hr.symm⟩
        · exact ⟨_, .damaged hp (by omega) h1 h2⟩
  · exact ⟨_, .none h⟩

/-- Dropping bytes in which no delimiter starts does not change the verdict. -/
theorem NextIs.drop {d u : Bytes} {v : Verdict} {k : Nat} (h : NextIs d u v) (hk : ∀ q, q < k → ¬ OccursAt d u q) :
    NextIs d (u.drop k) v := by
  have aux : ∀ p, FirstAt d u p → k ≤ p := by
    intro p hp
    by_cases hkp : k ≤ p
    · exact hkp
    · exact absurd hp.1 (hk p (by omega))
  have dd : ∀ p, k ≤ p → (u.drop k).drop (p - k + d.length) = u.drop (p + d.length) := by
    intro p hp
    rw [List.drop_drop]; congr 1; omega
  cases h with
  | part a b => have hp := aux _ a; exact .part (a.drop hp) (by rw [dd _ hp]; exact b)
  | close a b => have hp := aux _ a; exact .close (a.drop hp) (by rw [dd _ hp]; exact b)
  | damaged a l b c =>
    have hp := aux _ a
    exact .damaged (a.drop hp) (by rw [List.length_drop]; omega) (by rw [dd _ hp]; exact b) (by rw [dd _ hp]; exact c)
  | cut a b => have hp := aux _ a; exact .cut (a.drop hp) (by rw [List.length_drop]; omega)
  | none a => exact .none (fun q hq => a (k + q) (occursAt_drop.mp hq))

theorem NextIs.of_drop {d u : Bytes} {v : Verdict} {k : Nat} (hd : d ≠ []) (h : NextIs d (u.drop k) v)
    (hk : ∀ q, q < k → ¬ OccursAt d u q) : NextIs d u v := by
  obtain ⟨w, hw⟩ := NextIs.total d u
  rw [h.unique hd (hw.drop hk)]; exact hw

theorem NextIs.skipped {s t : BR} {k : Nat} {v : Verdict} (hs : BR.Skipped s t k) (h : NextIs s.delim s.unread v) :
    NextIs t.delim t.unread v := by
  rw [hs.unread, hs.delim]; exact h.drop hs.none

theorem crlf_split {xs : Bytes} (h : crlf <+: xs) : xs = crlf ++ xs.drop 2 := by
  obtain ⟨t, rfl⟩ := h; simp [crlf]

theorem dashes_split {xs : Bytes} (h : dashes <+: xs) : xs = dashes ++ xs.drop 2 := by
  obtain ⟨t, rfl⟩ := h; simp [dashes]

/-- Enough is buffered before `consume_boundary` looks for the delimiter line; true in every `read_entry`. -/
def BR.EntryMin (s : BR) : Prop := minBufSize ≤ s.min ∧ 2 * s.delim.length ≤ s.min

theorem BR.setMin_entryMin (s : BR) : (s.setMin minBufSize).EntryMin := by
  unfold BR.EntryMin BR.setMin minBufSize
  simp only
  exact ⟨Nat.le_max_right _ _, by rw [Nat.mul_comm]; exact Nat.le_max_left _ _⟩

/-- The data of the current field was read to its end, or the delimiter was not found yet. -/
def BR.Drained (s : BR) : Prop := s.st = .boundaryRead → s.idx = 0

/-- The result `consume_boundary` must have, given the verdict on the unread stream. -/
def Verdict.result : Verdict → Res Bool
  | .part _ => .ok true
  | .close _ => .ok false
  | .damaged => .err .invalidData
  | .truncated => .err .unexpectedEof

/-- `consume_boundary` on a stream that neither fails nor stalls, with nothing left unread in front of a delimiter
already found: the result is the verdict on the unread stream. -/
theorem BR.consumeBoundary_exact {s : BR} (h : s.Inv) (hm : s.EntryMin) (hst : s.st ≠ .atEnd) (hd : s.Drained)
    (he : NoErr s.evs) (hn : NoStall s.evs) {v : Verdict} (hv : NextIs s.delim s.unread v) :
    s.consumeBoundary.1 = v.result ∧
    (∀ rest, v = .part rest ∨ v = .close rest → s.consumeBoundary.2.unread = rest) := by
  have hc := BR.consumeBoundary_spec h
  have hne := h.delim_ne
  have hdl := h.delim_len
  generalize s.consumeBoundary.1 = r at hc ⊢
  generalize s.consumeBoundary.2 = t at hc ⊢
  have verdict : ∀ w, NextIs s.delim s.unread w → v = w := fun w hw => hv.unique hne hw
  cases hc with
  | done hc => exact absurd hc hst
  | next _ a b c _ _ _ _ _ _ =>
    have := verdict _ (.part a (crlf_split b)); subst this
    refine ⟨rfl, ?_⟩
    rintro rest (hr | hr)
    · cases hr; rw [c, List.drop_drop]
    · cases hr
  | close _ a b c _ _ _ _ _ _ =>
    have := verdict _ (.close a (dashes_split b)); subst this
    refine ⟨rfl, ?_⟩
    rintro rest (hr | hr)
    · cases hr
    · cases hr; rw [c, List.drop_drop]
  | damaged _ _ _ _ a b c d =>
    have := verdict _ (.damaged a b c d); subst this
    exact ⟨rfl, by rintro rest (hr | hr) <;> cases hr⟩
  | io _ _ _ _ hmem _ _ => exact absurd hmem (he _)
  | eof _ _ _ _ _ a =>
    have := verdict _ (.none (a hn hm.2).1); subst this
    exact ⟨rfl, by rintro rest (hr | hr) <;> cases hr⟩
  | @short _ k p _ hsk _ _ a hkp b c d e =>
    have hp2 : p ≤ k + 2 := by
      cases hs : s.st with
      | searching => exact d hs
      | boundaryRead => have := e hs; have := hd hs; omega
      | atEnd => exact absurd hs hst
    have hu : s.unread.length < p + s.delim.length + 2 := by
      rcases c hn with hf | hf
      · exfalso
        have h1 := hm.1; have h2 := hm.2
        rw [hsk.min] at hf
        unfold minBufSize at h1
        omega
      · have : t.unread = t.buf := by unfold BR.unread; rw [hf]; simp [Ev.bytes]
        rw [hsk.unread] at this
        have := congrArg List.length this
        rw [List.length_drop] at this
        omega
    have := verdict _ (.cut a hu); subst this
    exact ⟨rfl, by rintro rest (hr | hr) <;> cases hr⟩

/-! ## Headers -/

/-- Outcome of the loop of `with_headers`: it neither panics nor runs for ever, takes no byte, and accepts only what the
tokenizer accepts on the bytes of the part that are buffered. -/
inductive HdrLoopOut (D : Deps) (s : BR) : HRes (Nat × List Header) → BR → Prop
  | ok {t : BR} {n : Nat} {hs : List Header} : BR.Skipped s t 0 → t.Inv → t.Settled → (t.st = .atEnd → s.st = .atEnd) →
      D.parseHeaders (t.buf.take t.idx) = .complete n hs → (∀ h ∈ hs, utf8Valid h.val = true) → HdrLoopOut D s (.ok (n, hs)) t
  | err {t : BR} {e : HdrErr} : BR.Skipped s t 0 → t.Inv → (t.st = .atEnd → s.st = .atEnd) → HdrLoopOut D s (.err e) t

theorem BR.afterRead_atEnd {s : BR} (h : s.Inv) (ha : s.afterRead.st = .atEnd) : s.st = .atEnd := by
  by_cases hst : s.st = .searching
  · rcases BR.afterRead_st s h hst with h1 | h1 <;> rw [h1] at ha <;> simp at ha
  · rw [BR.afterRead_other hst] at ha; exact ha

theorem BR.skipped_zero_trans {s t w : BR} (h : BR.Skipped s t 0) (h' : BR.Skipped t w 0) : BR.Skipped s w 0 := h.trans h'

theorem withHeadersLoop_spec {D : Deps} (hD : D.Sane) : ∀ (n last : Nat) (s : BR), s.Inv →
    (s.evs.length + 2 ≤ n ∨ (s.evs.length + 1 ≤ n ∧ s.Settled ∧ last = s.idx)) →
    HdrLoopOut D s (withHeadersLoop D n last s).1 (withHeadersLoop D n last s).2 := by
  intro n
  induction n with
  | zero => intro last s _ h; rcases h with h | h <;> omega
  | succ n ih =>
    intro last s h hn
    unfold withHeadersLoop
    rcases BR.readToBoundary_eq h with ⟨e, h1, he⟩ | ⟨h1, he⟩
    · rw [he]; exact .err s.skipped_refill (s.refill_inv h) (fun h => h)
    · rw [he]
      have hai := s.afterRead_inv h
      have hlen : (s.afterRead.buf.take s.afterRead.idx).length = s.afterRead.idx := by
        rw [List.length_take]; exact Nat.min_eq_left hai.idx_le
      have hset : s.afterRead.Settled := ⟨s, h, rfl⟩
      simp only [hlen]
      split
      · exact .err s.skipped_afterRead hai (BR.afterRead_atEnd h)
      · next hne =>
        split
        · exact .err s.skipped_afterRead hai (BR.afterRead_atEnd h)
        · -- partial: go around
          have hprog : s.afterRead.evs.length + 1 ≤ n := by
            rw [s.afterRead_frame.2.1]
            rcases s.refill_evs_lt_or with hlt | ⟨hre, _⟩
            · rcases hn with hn | hn <;> omega
            · rw [hre]
              rcases hn with hn | ⟨_, hs, hl⟩
              · omega
              · exact absurd (by rw [BR.settled_stable hs hre]; exact hl.symm) hne
          have := ih s.afterRead.idx s.afterRead hai (.inr ⟨hprog, hset, rfl⟩)
          generalize withHeadersLoop D n s.afterRead.idx s.afterRead = r at this ⊢
          rcases r with ⟨r1, r2⟩
          simp only at this ⊢
          cases this with
          | ok k1 k2 k3 k4 k5 k6 => exact .ok (s.skipped_afterRead.trans k1) k2 k3 (fun hh => BR.afterRead_atEnd h (k4 hh)) k5 k6
          | err k1 k2 k3 => exact .err (s.skipped_afterRead.trans k1) k2 (fun hh => BR.afterRead_atEnd h (k3 hh))
        · next c raw hp =>
          unfold copyHeaders
          by_cases hu : raw.all (fun h => utf8Valid h.val) = true
          · rw [if_pos hu, if_pos (hD.four _ _ _ hp)]
            exact .ok s.skipped_afterRead hai hset (BR.afterRead_atEnd h) hp (by simpa using hu)
          · rw [if_neg hu]
            exact .err s.skipped_afterRead hai (BR.afterRead_atEnd h)

/-- Outcome of `read_headers`. -/
inductive HdrOut (D : Deps) (s : BR) : Res FieldHeaders → BR → Prop
  | ok {t : BR} {n : Nat} {hs : List Header} {fh : FieldHeaders} : BR.Skipped s t n → t.Inv → (t.st = .atEnd → s.st = .atEnd) →
      (∃ P, P <+: s.unread ∧ n ≤ P.length ∧ (∀ q, q < P.length → ¬ OccursAt s.delim s.unread q) ∧ D.parseHeaders P = .complete n hs) →
      (∀ h ∈ hs, utf8Valid h.val = true) →
      FieldHeaders.parse D hs = .ok fh → HdrOut D s (.ok fh) t
  | err {t : BR} {k : Nat} : BR.Skipped s t k → t.Inv → (t.st = .atEnd → s.st = .atEnd) → HdrOut D s (.err .invalidData) t

theorem BR.readHeaders_spec {D : Deps} (hD : D.Sane) {s : BR} (h : s.Inv) :
    HdrOut D s (s.readHeaders D).1 (s.readHeaders D).2 := by
  unfold BR.readHeaders FieldHeaders.readFrom withHeaders
  have := withHeadersLoop_spec hD (s.evs.length + 2) 0 s h (.inl (Nat.le_refl _))
  generalize withHeadersLoop D (s.evs.length + 2) 0 s = r at this ⊢
  rcases r with ⟨r1, t⟩
  simp only at this ⊢
  cases this with
  | err k1 k2 k3 => exact .err k1 k2 k3
  | @ok _ n hs k1 k2 k3 k4 k5 k6 =>
    simp only
    have hlen : (t.buf.take t.idx).length = t.idx := by
      rw [List.length_take]; exact Nat.min_eq_left k2.idx_le
    have hni : n ≤ t.idx := by have := hD.len _ _ _ k5; omega
    have hsk := k1.trans (BR.skipped_consume k2 n)
    have hmin : Nat.min n t.idx = n := Nat.min_eq_left hni
    rw [hmin, Nat.zero_add] at hsk
    have hci := BR.consume_inv k2 n
    cases hp : FieldHeaders.parse D hs with
    | error e => exact .err hsk hci k4
    | ok fh =>
      refine .ok hsk hci k4 ⟨t.buf.take t.idx, ?_, by omega, ?_, k5⟩ k6 hp
      · have : s.unread = t.unread := by have := k1.unread; simpa using this.symm
        rw [this]
        exact (List.take_prefix _ _).trans (List.prefix_append _ _)
      · rw [hlen]
        intro q hq hocc
        have hu : s.unread = t.unread := by have := k1.unread; simpa using this.symm
        rw [hu, ← k1.delim] at hocc
        exact k2.no_occ q hq hocc

/-- Outcome of `read_entry`. -/
inductive EntryOut (D : Deps) (s : BR) : Res (Option FieldHeaders) → BR → Prop
  | done {t : BR} : s.st = .atEnd → t = s.setMin minBufSize → EntryOut D s (.ok none) t
  | close {t : BR} {rest : Bytes} : s.st ≠ .atEnd → NextIs s.delim s.unread (.close rest) → t.unread = rest → t.Inv →
      t.delim = s.delim → t.EntryMin → t.evs <:+ s.evs → t.st = .atEnd → EntryOut D s (.ok none) t
  /-- an entry: the tokenizer accepted a prefix `P` of what follows the delimiter line -/
  | entry {t : BR} {rest : Bytes} {P : Bytes} {n : Nat} {hs : List Header} {fh : FieldHeaders} : s.st ≠ .atEnd →
      NextIs s.delim s.unread (.part rest) →
      P <+: rest → (∀ q, q < P.length → ¬ OccursAt s.delim rest q) → D.parseHeaders P = .complete n hs → n ≤ P.length →
      (∀ h ∈ hs, utf8Valid h.val = true) →
      FieldHeaders.parse D hs = .ok fh → t.unread = rest.drop n → t.Inv → t.delim = s.delim → t.EntryMin → t.evs <:+ s.evs →
      t.st ≠ .atEnd → EntryOut D s (.ok (some fh)) t
  | badHeaders {t : BR} {rest : Bytes} {k : Nat} : s.st ≠ .atEnd → NextIs s.delim s.unread (.part rest) →
      t.unread = rest.drop k → (∀ q, q < k → ¬ OccursAt s.delim rest q) → t.Inv → t.delim = s.delim → t.EntryMin → t.evs <:+ s.evs →
      t.st ≠ .atEnd → EntryOut D s (.err .invalidData) t
  | noBoundary {t : BR} {k : Nat} {e : IoErr} : s.st ≠ .atEnd → BR.Skipped (s.setMin minBufSize) t k → t.Inv → t.st ≠ .atEnd → t.EntryMin →
      (Ev.err e ∈ s.evs ∨ e = .unexpectedEof ∨ (e = .invalidData ∧ NextIs s.delim s.unread .damaged)) → EntryOut D s (.err e) t

theorem BR.EntryMin.of_eq {s t : BR} (h : s.EntryMin) (h1 : t.min = s.min) (h2 : t.delim = s.delim) : t.EntryMin := by
  unfold BR.EntryMin; rw [h1, h2]; exact h

theorem BR.readEntry_spec {D : Deps} (hD : D.Sane) {s : BR} (h : s.Inv) :
    EntryOut D s (s.readEntry D).1 (s.readEntry D).2 := by
  have hsi := BR.setMin_inv h minBufSize
  have hem := s.setMin_entryMin
  have hc := BR.consumeBoundary_spec hsi
  unfold BR.readEntry
  generalize (s.setMin minBufSize).consumeBoundary = r at hc ⊢
  rcases r with ⟨r1, t⟩
  simp only at hc ⊢
  have hun : (s.setMin minBufSize).unread = s.unread := rfl
  have hde : (s.setMin minBufSize).delim = s.delim := rfl
  cases hc with
  | done a => exact .done a rfl
  | next hst a b c d e f g i j =>
    have hN : NextIs s.delim s.unread (.part t.unread) := by
      refine .part a ?_
      have := crlf_split b
      rw [List.drop_drop, ← c] at this; exact this
    have hh := BR.readHeaders_spec hD d
    simp only
    generalize BR.readHeaders D t = r at hh ⊢
    rcases r with ⟨r1, w⟩
    simp only at hh ⊢
    have hwe : w.st ≠ .atEnd → True := fun _ => trivial
    cases hh with
    | ok k1 k2 k3 k4 k5 k6 =>
      obtain ⟨P, hP1, hP2, hP3, hP4⟩ := k4
      refine .entry hst hN hP1 ?_ hP4 hP2 k5 k6 k1.unread k2 (by rw [k1.delim, f]; rfl)
        (hem.of_eq (by rw [k1.min, e]) (by rw [k1.delim, f])) (k1.evs.trans g) (fun hw => ?_)
      · rw [f] at hP3; exact hP3
      · have := k3 hw; rw [i] at this; simp at this
    | err k1 k2 k3 =>
      refine .badHeaders hst hN k1.unread ?_ k2 (by rw [k1.delim, f]; rfl)
        (hem.of_eq (by rw [k1.min, e]) (by rw [k1.delim, f])) (k1.evs.trans g) (fun hw => ?_)
      · have := k1.none; rw [f] at this; exact this
      · have := k3 hw; rw [i] at this; simp at this
  | close hst a b c d e f g i j =>
    refine .close hst (.close a ?_) rfl d f (hem.of_eq e f) g i
    have := dashes_split b
    rw [List.drop_drop, ← c] at this; exact this
  | damaged hst hsk a b c d e f =>
    exact .noBoundary hst hsk a (by rw [b]; simp) (hem.of_eq hsk.min hsk.delim) (.inr (.inr ⟨rfl, .damaged c d e f⟩))
  | io hst hsk a b c _ _ => exact .noBoundary hst hsk a b (hem.of_eq hsk.min hsk.delim) (.inl c)
  | eof hst hsk a b c d => exact .noBoundary hst hsk a (by rw [b]; simp) (hem.of_eq hsk.min hsk.delim) (.inr (.inl rfl))
  | short hst hsk a b c _ d e f g => exact .noBoundary hst hsk a (by rw [b]; simp) (hem.of_eq hsk.min hsk.delim) (.inr (.inl rfl))

theorem BR.readEntry_inv {D : Deps} (hD : D.Sane) {s : BR} (h : s.Inv) : (s.readEntry D).2.Inv := by
  have := BR.readEntry_spec hD h
  generalize (s.readEntry D).1 = r at this
  generalize (s.readEntry D).2 = t at this
  cases this with
  | done _ b => rw [b]; exact BR.setMin_inv h _
  | _ => assumption

theorem BR.readEntry_suffix {D : Deps} (hD : D.Sane) {s : BR} (h : s.Inv) : (s.readEntry D).2.unread <:+ s.unread := by
  have := BR.readEntry_spec hD h
  generalize (s.readEntry D).1 = r at this
  generalize (s.readEntry D).2 = t at this
  have aux : ∀ (v : Bytes), NextIs s.delim s.unread (.part v) ∨ NextIs s.delim s.unread (.close v) → v <:+ s.unread := by
    rintro v (hv | hv)
    · cases hv with | @part p _ a b =>
      have h1 := List.drop_suffix (p + s.delim.length) s.unread
      rw [b] at h1; exact (List.suffix_append _ _).trans h1
    · cases hv with | @close p _ a b =>
      have h1 := List.drop_suffix (p + s.delim.length) s.unread
      rw [b] at h1; exact (List.suffix_append _ _).trans h1
  cases this with
  | done _ b => rw [b]; exact List.suffix_rfl
  | close _ a b => rw [b]; exact aux _ (.inr a)
  | entry _ a _ _ _ _ _ _ b => rw [b]; exact (List.drop_suffix _ _).trans (aux _ (.inl a))
  | badHeaders _ a b => rw [b]; exact (List.drop_suffix _ _).trans (aux _ (.inl a))
  | noBoundary _ a => rw [a.unread]; exact List.drop_suffix _ _

theorem BR.readEntry_delim {D : Deps} (hD : D.Sane) {s : BR} (h : s.Inv) : (s.readEntry D).2.delim = s.delim := by
  have := BR.readEntry_spec hD h
  generalize (s.readEntry D).1 = r at this
  generalize (s.readEntry D).2 = t at this
  cases this with
  | done _ b => rw [b]; rfl
  | noBoundary _ a => rw [a.delim]; rfl
  | _ => assumption

theorem BR.readEntry_evs {D : Deps} (hD : D.Sane) {s : BR} (h : s.Inv) : (s.readEntry D).2.evs <:+ s.evs := by
  have := BR.readEntry_spec hD h
  generalize (s.readEntry D).1 = r at this
  generalize (s.readEntry D).2 = t at this
  cases this with
  | done _ b => rw [b]; exact List.suffix_rfl
  | noBoundary _ a => exact a.evs
  | _ => assumption

theorem BR.readEntry_entryMin {D : Deps} (hD : D.Sane) {s : BR} (h : s.Inv) : (s.readEntry D).2.EntryMin := by
  have := BR.readEntry_spec hD h
  generalize (s.readEntry D).1 = r at this
  generalize (s.readEntry D).2 = t at this
  cases this with
  | done _ b => rw [b]; exact s.setMin_entryMin
  | _ => assumption

/-! ## Field operations: skips and frames -/

theorem BR.op_skipped {s : BR} (h : s.Inv) (o : FieldOp) :
    (s.op o).2.unread = s.unread.drop (s.op o).1.length ∧ (∀ q, q < (s.op o).1.length → ¬ OccursAt s.delim s.unread q) ∧
    (s.op o).2.delim = s.delim ∧ (s.op o).2.evs <:+ s.evs ∧ ((s.op o).2.st = .atEnd ↔ s.st = .atEnd) := by
  have hend : s.afterRead.st = .atEnd ↔ s.st = .atEnd := by
    refine ⟨BR.afterRead_atEnd h, fun hh => ?_⟩
    rw [BR.afterRead_other (by rw [hh]; simp)]; exact hh
  cases o with
  | fillBuf =>
    simp only [BR.op, List.length_nil, List.drop_zero]
    rcases BR.readToBoundary_eq h with ⟨e, _, he⟩ | ⟨_, he⟩
    · rw [he]; exact ⟨s.refill_unread, by omega, rfl, s.refill_evs_suf, Iff.rfl⟩
    · rw [he]; exact ⟨s.afterRead_unread, by omega, s.afterRead_frame.2.2.2, s.skipped_afterRead.evs, hend⟩
  | read n =>
    rcases BR.read_eq h n with ⟨e, _, he⟩ | ⟨_, he⟩
    · simp only [BR.op, he, List.length_nil, List.drop_zero]
      exact ⟨s.refill_unread, by omega, rfl, s.refill_evs_suf, Iff.rfl⟩
    · have hai := s.afterRead_inv h
      have hl : (s.afterRead.buf.take (Nat.min n s.afterRead.idx)).length = Nat.min n s.afterRead.idx := by
        rw [List.length_take]; exact Nat.min_eq_left (Nat.le_trans (Nat.min_le_right _ _) hai.idx_le)
      have hsk := s.skipped_afterRead.trans (BR.skipped_consume hai n)
      rw [Nat.zero_add] at hsk
      simp only [BR.op, he, hl]
      exact ⟨hsk.unread, hsk.none, hsk.delim, hsk.evs, hend⟩
  | consume n =>
    have hl : (s.buf.take (Nat.min n s.idx)).length = Nat.min n s.idx := by
      rw [List.length_take]; exact Nat.min_eq_left (Nat.le_trans (Nat.min_le_right _ _) h.idx_le)
    have hsk := BR.skipped_consume h n
    simp only [BR.op, hl]
    exact ⟨hsk.unread, hsk.none, hsk.delim, hsk.evs, Iff.rfl⟩
  | setMin n => simp only [BR.op, List.length_nil, List.drop_zero]; exact ⟨rfl, by omega, rfl, List.suffix_rfl, Iff.rfl⟩

theorem BR.run_skipped : ∀ (os : List FieldOp) {s : BR}, s.Inv →
    (s.run os).2.unread = s.unread.drop (s.run os).1.length ∧ (∀ q, q < (s.run os).1.length → ¬ OccursAt s.delim s.unread q) ∧
    (s.run os).2.delim = s.delim ∧ (s.run os).2.evs <:+ s.evs ∧ ((s.run os).2.st = .atEnd ↔ s.st = .atEnd) := by
  intro os
  induction os with
  | nil => intro s h; exact ⟨by simp [BR.run], by simp [BR.run], rfl, List.suffix_rfl, Iff.rfl⟩
  | cons o os ih =>
    intro s h
    obtain ⟨a1, a2, a3, a4, a5⟩ := BR.op_skipped h o
    obtain ⟨b1, b2, b3, b4, b5⟩ := ih (BR.op_inv h o)
    simp only [BR.run, List.length_append]
    refine ⟨by rw [b1, a1, List.drop_drop], ?_, by rw [b3, a3], b4.trans a4, b5.trans a5⟩
    intro q hq hocc
    by_cases hq1 : q < (s.op o).1.length
    · exact a2 q hq1 hocc
    · apply b2 (q - (s.op o).1.length) (by omega)
      rw [a1, a3, occursAt_drop]
      have : (s.op o).1.length + (q - (s.op o).1.length) = q := by omega
      rw [this]; exact hocc

end Multipart

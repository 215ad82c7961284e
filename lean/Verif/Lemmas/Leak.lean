import Verif.Lemmas.Parts
import Verif.Lemmas.Progress
import Verif.Spec.Cut
import Verif.Lemmas.Arrive
import Verif.Lemmas.Utf8
/-!
# The last reads of a body are not made before they are needed

A body of some reads and the last reads `B`: as long as `m` bytes precede `B` in what is unread, none of `B` has been read.
-/
namespace Multipart

theorem fill_last {B : List Ev} (hB : B ≠ []) (min : Nat) : ∀ (es : List Ev) (buf : Bytes),
    (∃ es', (fill min buf (es ++ B)).2.2 = es' ++ B) ∨ (buf ++ Ev.bytes es).length < min := by
  intro es
  induction es with
  | nil =>
    intro buf
    by_cases h : min ≤ buf.length
    · left
      refine ⟨[], ?_⟩
      cases B with
      | nil => exact absurd rfl hB
      | cons e r =>
        cases e with
        | data bs => cases bs <;> simp [fill, h]
        | err e => simp [fill, h]
    · right; simp [Ev.bytes]; omega
  | cons e es ih =>
    intro buf
    cases e with
    | data bs =>
      cases bs with
      | nil =>
        simp only [List.cons_append, fill]
        split
        · exact .inl ⟨.data [] :: es, rfl⟩
        · exact .inl ⟨es, rfl⟩
      | cons x xs =>
        simp only [List.cons_append, fill]
        split
        · exact .inl ⟨.data (x :: xs) :: es, rfl⟩
        · rcases ih (buf ++ x :: xs) with h | h
          · exact .inl h
          · right; simpa [Ev.bytes] using h
    | err e =>
      simp only [List.cons_append, fill]
      split
      · exact .inl ⟨.err e :: es, rfl⟩
      · exact .inl ⟨es, rfl⟩

/-- All of `B` is still to be read, or fewer than `m` bytes precede it. -/
structure BR.Late (m : Nat) (B : List Ev) (s : BR) : Prop where
  inv : s.Inv
  min : s.min ≤ m
  late : (∃ es, s.evs = es ++ B) ∨ s.unread.length < m + (Ev.bytes B).length

variable {m : Nat} {B : List Ev} {s t : BR} {D : Deps}

theorem BR.Late.step (h : s.Late m B) (hi : t.Inv) (hm : t.min = s.min) (he : t.evs = s.evs) (hu : t.unread.length ≤ s.unread.length) :
    t.Late m B := by
  refine ⟨hi, by rw [hm]; exact h.min, ?_⟩
  rcases h.late with ⟨es, h⟩ | h
  · exact .inl ⟨es, by rw [he, h]⟩
  · exact .inr (by omega)

theorem BR.Late.refill (hB : B ≠ []) (h : s.Late m B) : s.refill.Late m B := by
  refine ⟨BR.refill_inv h.inv, h.min, ?_⟩
  rcases h.late with ⟨es, he⟩ | hl
  · rcases fill_last hB s.min es s.buf with hf | hf
    · left
      obtain ⟨es', hf⟩ := hf
      exact ⟨es', by rw [← hf, ← he]; rfl⟩
    · right
      rw [BR.refill_unread]
      have := h.min
      unfold BR.unread
      rw [he, Ev.bytes_append, ← List.append_assoc, List.length_append]
      omega
  · exact .inr (by rw [BR.refill_unread]; exact hl)

theorem BR.Late.afterRead (hB : B ≠ []) (h : s.Late m B) : s.afterRead.Late m B := by
  have hf := s.afterRead_frame
  have hr := h.refill hB
  exact hr.step (BR.afterRead_inv h.inv) (by rw [hf.2.2.1]; rfl) hf.2.1 (by rw [s.afterRead_unread, s.refill_unread]; exact Nat.le_refl _)

theorem BR.Late.readToBoundary (hB : B ≠ []) (h : s.Late m B) : s.readToBoundary.2.Late m B := by
  rcases BR.readToBoundary_eq h.inv with ⟨e, _, he⟩ | ⟨_, he⟩
  · rw [he]; exact h.refill hB
  · rw [he]; exact h.afterRead hB

theorem BR.Late.consume (h : s.Late m B) (n : Nat) : (s.consume n).Late m B :=
  h.step (BR.consume_inv h.inv n) rfl rfl (by rw [(BR.skipped_consume h.inv n).unread, List.length_drop]; omega)

theorem BR.Late.setMin (h : s.Late m B) {n : Nat} (hd : 2 * s.delim.length ≤ m) (hn : n ≤ m) : (s.setMin n).Late m B :=
  ⟨BR.setMin_inv h.inv n, Nat.max_le.mpr ⟨by omega, hn⟩, h.late⟩

theorem BR.Late.op (hB : B ≠ []) (h : s.Late m B) (hd : 2 * s.delim.length ≤ m) (o : FieldOp) (ho : ∀ n, o = .setMin n → n ≤ m) :
    (s.op o).2.Late m B := by
  cases o with
  | fillBuf => exact h.readToBoundary hB
  | read n =>
    rcases BR.read_eq h.inv n with ⟨e, _, he⟩ | ⟨_, he⟩
    · simp only [BR.op, he]; exact h.refill hB
    · simp only [BR.op, he]; exact (h.afterRead hB).consume n
  | consume n => exact h.consume n
  | setMin n => exact h.setMin hd (ho n rfl)

theorem BR.Late.run (hB : B ≠ []) : ∀ {s : BR}, s.Late m B → 2 * s.delim.length ≤ m → ∀ (os : List FieldOp), (∀ n, .setMin n ∈ os → n ≤ m) → (s.run os).2.Late m B := by
  intro s h hd os
  induction os generalizing s with
  | nil => intro _; exact h
  | cons o os ih =>
    intro ho
    refine ih (h.op hB hd o fun n hn => ho n (by rw [hn]; exact List.mem_cons_self)) ?_ (fun n hn => ho n (List.mem_cons_of_mem _ hn))
    rw [(BR.op_skipped h.inv o).2.2.1]; exact hd

theorem BR.Late.searchLoop (hB : B ≠ []) : ∀ (n : Nat) {s : BR}, s.Late m B → (BR.searchLoop n s).2.Late m B := by
  intro n
  induction n with
  | zero => intro s h; exact h
  | succ n ih =>
    intro s h
    have hr := h.readToBoundary hB
    unfold BR.searchLoop
    split
    · generalize s.readToBoundary = r at hr ⊢
      rcases r with ⟨r, t⟩
      cases r with
      | ok x =>
        simp only at hr ⊢
        split
        · exact hr
        · exact ih (hr.consume _)
      | _ => exact hr
    · exact h

theorem BR.verifyBoundary_frame (s : BR) : s.verifyBoundary.2.min = s.min ∧ s.verifyBoundary.2.evs = s.refill.evs ∧
    s.verifyBoundary.2.unread.length ≤ s.unread.length := by
  have hrf : s.refill = { s with buf := (fill s.min s.buf s.evs).2.1, evs := (fill s.min s.buf s.evs).2.2 } := rfl
  rw [← s.refill_unread]
  unfold BR.verifyBoundary
  generalize fill s.min s.buf s.evs = f at hrf ⊢
  rcases f with ⟨f1, buf, evs⟩
  simp only at hrf
  rw [hrf]
  cases f1 with
  | some e => exact ⟨rfl, rfl, Nat.le_refl _⟩
  | none =>
    simp only
    repeat' split
    all_goals (refine ⟨rfl, rfl, ?_⟩; unfold BR.unread; simp only [List.length_append, List.length_drop]; omega)

theorem BR.Late.consumeBoundary (hB : B ≠ []) (h : s.Late m B) : s.consumeBoundary.2.Late m B := by
  have hinv := BR.consumeBoundary_inv h.inv
  have hl := BR.Late.searchLoop hB (s.pending + 2) h
  unfold BR.consumeBoundary at hinv ⊢
  by_cases he : s.st = .atEnd
  · rw [if_pos he]; exact h
  rw [if_neg he] at hinv ⊢
  generalize BR.searchLoop (s.pending + 2) s = r at hl hinv ⊢
  rcases r with ⟨r, t⟩
  cases r with
  | ok x =>
    simp only at hl hinv ⊢
    obtain ⟨a, b, c⟩ := t.verifyBoundary_frame
    exact (hl.refill hB).step hinv a b (by rw [t.refill_unread]; exact c)
  | _ => exact hl

theorem BR.Late.withHeadersLoop (hB : B ≠ []) : ∀ (n last : Nat) {s : BR}, s.Late m B → (withHeadersLoop D n last s).2.Late m B := by
  intro n
  induction n with
  | zero => intro last s h; exact h
  | succ n ih =>
    intro last s h
    have hr := h.readToBoundary hB
    unfold Multipart.withHeadersLoop
    generalize s.readToBoundary = r at hr ⊢
    rcases r with ⟨r, t⟩
    cases r with
    | ok x =>
      simp only at hr ⊢
      split
      · exact hr
      · split
        · exact hr
        · exact ih _ hr
        · split <;> exact hr
    | _ => exact hr

theorem BR.Late.readHeaders (hB : B ≠ []) (h : s.Late m B) : (s.readHeaders D).2.Late m B := by
  have hw := BR.Late.withHeadersLoop (D := D) hB (s.evs.length + 2) 0 h
  unfold BR.readHeaders FieldHeaders.readFrom withHeaders
  generalize Multipart.withHeadersLoop D (s.evs.length + 2) 0 s = w at hw ⊢
  rcases w with ⟨w, t⟩
  cases w with
  | ok x =>
    simp only at hw ⊢
    cases FieldHeaders.parse D x.2 <;> exact hw.consume _
  | _ => exact hw

theorem BR.Late.readEntry (hB : B ≠ []) (h : s.Late m B) (hm : entryBuf s.delim ≤ m) : (s.readEntry D).2.Late m B := by
  have hm1 : 1024 ≤ m := Nat.le_trans (Nat.le_max_left _ _) hm
  have hm2 : 2 * s.delim.length ≤ m := Nat.le_trans (Nat.le_max_right _ _) hm
  have hc := (h.setMin hm2 (n := minBufSize) hm1).consumeBoundary hB
  unfold BR.readEntry
  generalize (s.setMin minBufSize).consumeBoundary = r at hc ⊢
  rcases r with ⟨r, t⟩
  cases r with
  | ok x =>
    cases x with
    | false => exact hc
    | true =>
      have hh := BR.Late.readHeaders (D := D) hB hc
      simp only at hh ⊢
      generalize t.readHeaders D = w at hh ⊢
      rcases w with ⟨w, t'⟩
      cases w <;> exact hh
  | _ => exact hc

theorem BR.Late.session (hD : D.Sane) (hB : B ≠ []) : ∀ (os : List SOp) {s : BR}, s.Late m B → entryBuf s.delim ≤ m →
    (∀ n, SOp.field (.setMin n) ∈ os → n ≤ m) → (s.session D os).Late m B := by
  intro os
  induction os with
  | nil => intro s h _ _; exact h
  | cons o os ih =>
    intro s h hm ho
    have hd := (BR.sop_frame hD h.inv o).2.1
    refine ih ?_ ?_ (fun n hn => ho n (List.mem_cons_of_mem _ hn))
    · cases o with
      | readEntry => exact h.readEntry hB hm
      | field o => exact h.op hB (Nat.le_trans (Nat.le_max_right _ _) hm) o (fun n hn => ho n (by rw [hn]; exact List.mem_cons_self))
    · rw [hd]; exact hm

theorem BR.buffer_of_late {evs : List Ev} (h0 : 0 < m) {n : Nat} (hsz : ReadsUpTo n evs) (he : s.evs <:+ evs) (hu : s.unread <:+ Ev.bytes evs)
    (h : ∀ before after, evs = before ++ after → after ≠ [] → s.Late m after) : s.buf.length < m + n := by
  obtain ⟨used, rfl⟩ := he
  have hlen := hu.length_le
  rcases List.eq_nil_or_concat used with rfl | ⟨pre, ev, rfl⟩
  · unfold BR.unread at hlen
    simp at hlen
    omega
  · rw [List.concat_eq_append] at *
    rcases (h pre (ev :: s.evs) (by simp) (by simp)).late with ⟨es, hes⟩ | hl
    · have := congrArg List.length hes
      simp at this
      omega
    · have hev : (Ev.bytes [ev]).length ≤ n := by
        cases ev with
        | data bs => simpa [Ev.bytes] using hsz bs (by simp)
        | err e => simp [Ev.bytes]
      have : Ev.bytes (ev :: s.evs) = Ev.bytes [ev] ++ Ev.bytes s.evs := Ev.bytes_append [ev] s.evs
      rw [this] at hl
      unfold BR.unread at hl
      simp only [List.length_append] at hl
      omega

/-- All that is buffered ends with the CR of the CRLF in front of the delimiter: it is all handed out. -/
theorem BR.leak_cr {dat : Bytes} (hi : s.Inv) (hst : s.st ≠ .atEnd) (hcr : (0x0D : Byte) ∉ s.delim)
    (hbuf : s.refill.buf = dat ++ [0x0D]) (hf : FirstAt s.delim s.unread (dat.length + 2)) : s.afterRead.idx = dat.length + 1 := by
  have hlen : s.refill.buf.length = dat.length + 1 := by rw [hbuf]; simp
  have hri := BR.refill_inv hi
  have hsearch : s.st = .searching := by
    cases h : s.st with
    | searching => rfl
    | atEnd => exact absurd h hst
    | boundaryRead =>
      exfalso
      have hc := hri.cursor
      unfold BR.CursorOk at hc
      rw [show s.refill.st = .boundaryRead from h] at hc
      obtain ⟨p, hp, hl, _⟩ := hc
      have := hri.delim_len
      rw [s.refill_unread] at hp
      exact hf.2 p (by omega) hp.1
  rw [BR.afterRead_searching hsearch]
  obtain ⟨e1, e2, e3, e4, e5, e6, e7⟩ := BR.search_spec hri hsearch
  have hs : s.refill.search.idx = dat.length + 1 := by
    rcases e7 with ⟨_, hp, hl⟩ | ⟨_, _, h3⟩
    · exfalso
      have := hri.delim_len
      rw [s.refill_unread] at hp
      exact hf.2 _ (by omega) hp.1
    · rcases h3 with h3 | ⟨h3, h4, _⟩
      · omega
      · exfalso
        apply hcr
        apply h4.subset
        rw [hbuf, List.drop_append_of_le_length (by omega)]
        simp
  obtain ⟨f1, f2, f3, f4, f5, f6⟩ := s.refill.search.backUp_spec
  rcases f6 with ⟨h, _⟩ | ⟨h1, h2, h3, _⟩
  · rw [h, hs]
  · exfalso
    rw [hs] at h1 h3
    rw [e1, hbuf] at h3
    have h4 := congrArg (fun l => l[1]?) h3
    simp only [crlf, List.getElem?_take, List.getElem?_drop] at h4
    have h5 : dat.length + 1 - 2 + 1 = dat.length := by omega
    rw [h5] at h4
    simp at h4

/-- In front of the reads `B` are `rem` and the CR of the CRLF in front of the delimiter. What of it is not buffered comes in reads that fill the buffer, and what is buffered last fills it. -/
structure BR.Ahead (m N : Nat) (B : List Ev) (s : BR) (rem : Bytes) (Ps : List Ev) : Prop where
  inv : s.Inv
  st : s.st ≠ .atEnd
  min : s.min ≤ m
  pos : 1 < m
  cr : (0x0D : Byte) ∉ s.delim
  evs : s.evs = Ps ++ B
  sizes : ReadsFrom m Ps
  upTo : ∀ bs, .data bs ∈ Ps → m + bs.length ≤ N
  last : Ps = [] → m ≤ s.buf.length ∧ s.buf.length ≤ N
  bytes : s.buf ++ Ev.bytes Ps = rem ++ [0x0D]
  first : FirstAt s.delim s.unread (rem.length + 2)

variable {N : Nat} {rem : Bytes} {Ps : List Ev}

theorem fill_one {min : Nat} {buf P : Bytes} {es : List Ev} (h : buf.length < min) (hP : min ≤ P.length) : fill min buf (.data P :: es) = (none, buf ++ P, es) := by
  cases P with
  | nil => simp at hP; omega
  | cons c P =>
    have h2 : min ≤ (buf ++ c :: P).length := by rw [List.length_append]; omega
    rw [fill, if_neg (by omega)]
    cases es with
    | nil => rfl
    | cons e es =>
      cases e with
      | data bs => cases bs <;> rw [fill, if_pos h2]
      | err e => rw [fill, if_pos h2]

theorem BR.Ahead.unread (h : s.Ahead m N B rem Ps) : s.unread.length = rem.length + 1 + (Ev.bytes B).length := by
  unfold BR.unread
  rw [h.evs, Ev.bytes_append, ← List.append_assoc, h.bytes]
  simp
  omega

theorem BR.Ahead.piece (h : s.Ahead m N B rem Ps) (hP : Ps ≠ []) : m ≤ (Ev.bytes Ps).length := by
  cases Ps with
  | nil => exact absurd rfl hP
  | cons e Ps =>
    obtain ⟨P, rfl, hP⟩ := h.sizes _ List.mem_cons_self
    simp only [Ev.bytes, List.length_append]
    omega

theorem BR.Ahead.refill (h : s.Ahead m N B rem Ps) : (fill s.min s.buf s.evs).1 = none ∧ ∃ Ps', s.refill.Ahead m N B rem Ps' := by
  by_cases hm : s.min ≤ s.buf.length
  · obtain ⟨h1, h2⟩ := BR.refill_eq_self (s := s) (.inl hm)
    exact ⟨h2, Ps, by rw [h1]; exact h⟩
  · cases Ps with
    | nil => have := (h.last rfl).1; have := h.min; omega
    | cons e Ps =>
      obtain ⟨P, rfl, hP⟩ := h.sizes _ List.mem_cons_self
      have hmin := h.min
      have hf := fill_one (es := Ps ++ B) (show s.buf.length < s.min by omega) (Nat.le_trans hmin hP)
      rw [← List.cons_append, ← h.evs] at hf
      have hb : s.refill.buf = s.buf ++ P := by unfold BR.refill; rw [hf]
      have he : s.refill.evs = Ps ++ B := by unfold BR.refill; rw [hf]
      refine ⟨by rw [hf], Ps, BR.refill_inv h.inv, h.st, hmin, h.pos, h.cr, he, fun e he => h.sizes e (List.mem_cons_of_mem _ he), fun bs hb => h.upTo bs (List.mem_cons_of_mem _ hb), ?_, ?_, ?_⟩
      · intro _
        have := h.upTo P List.mem_cons_self
        rw [hb, List.length_append]
        omega
      · rw [hb, ← h.bytes]; simp [Ev.bytes]
      · rw [s.refill_unread]; exact h.first

theorem BR.Ahead.afterRead (h : s.Ahead m N B rem Ps) : (fill s.min s.buf s.evs).1 = none ∧ ∃ Ps', s.afterRead.Ahead m N B rem Ps' ∧ (Ps' = [] → s.afterRead.idx = s.afterRead.buf.length) := by
  obtain ⟨hok, Ps', hr⟩ := h.refill
  obtain ⟨f1, f2, f3, f4⟩ := s.afterRead_frame
  refine ⟨hok, Ps', ⟨BR.afterRead_inv h.inv, fun hc => h.st (BR.afterRead_atEnd h.inv hc), by rw [f3]; exact h.min, h.pos, by rw [f4]; exact h.cr, by rw [f2]; exact hr.evs, hr.sizes, hr.upTo,
    by rw [f1]; exact hr.last, by rw [f1]; exact hr.bytes, by rw [f4, s.afterRead_unread]; exact h.first⟩, fun hp => ?_⟩
  subst hp
  have hb := hr.bytes
  simp only [Ev.bytes, List.append_nil] at hb
  rw [BR.leak_cr h.inv h.st h.cr hb h.first, f1, hb]
  simp

/-- As long as reads follow, it does not matter how much is consumed. -/
theorem BR.Ahead.consume (h : s.Ahead m N B rem Ps) (hP : Ps ≠ []) (k : Nat) : (s.consume k).Ahead m N B (rem.drop (Nat.min k s.idx)) Ps ∧ s.buf.take (Nat.min k s.idx) = rem.take (Nat.min k s.idx) := by
  have hpos : 0 < (Ev.bytes Ps).length := by have := h.piece hP; have := h.pos; omega
  have hle : s.buf.length ≤ rem.length := by
    have := congrArg List.length h.bytes
    simp at this
    omega
  have hk : Nat.min k s.idx ≤ s.buf.length := Nat.le_trans (Nat.min_le_right _ _) h.inv.idx_le
  have hsplit : s.buf = rem.take s.buf.length := by
    have := congrArg (List.take s.buf.length) h.bytes
    rw [List.take_left, List.take_append_of_le_length hle] at this
    exact this
  refine ⟨⟨BR.consume_inv h.inv k, h.st, h.min, h.pos, h.cr, h.evs, h.sizes, h.upTo, fun hc => absurd hc hP, ?_, ?_⟩, ?_⟩
  · have := congrArg (List.drop (Nat.min k s.idx)) h.bytes
    rw [List.drop_append_of_le_length hk, List.drop_append_of_le_length (Nat.le_trans hk hle)] at this
    exact this
  · rw [BR.consume_unread_drop h.inv k]
    have := h.first.drop (n := Nat.min k s.idx) (by omega)
    rw [List.length_drop]
    have h3 : rem.length + 2 - Nat.min k s.idx = rem.length - Nat.min k s.idx + 2 := by omega
    rw [← h3]
    exact this
  · rw [hsplit, List.take_take, Nat.min_eq_left hk]

/-- The CR in front of the delimiter will be handed out before its LF is read, or it was (`U`: what is in front of it is UTF-8). -/
inductive BR.Leaking (m N : Nat) (U : Prop) (B : List Ev) (s : BR) : Prop
  | before {rem : Bytes} {Ps : List Ev} : s.Ahead m N B rem Ps → (U → IsUtf8 rem) → s.Leaking m N U B
  | behind : s.Inv → s.unread.length ≤ (Ev.bytes B).length → s.Leaking m N U B

variable {U : Prop}

theorem BR.Leaking.inv (h : s.Leaking m N U B) : s.Inv := by
  cases h with
  | before h _ => exact h.inv
  | behind h _ => exact h

theorem BR.Leaking.weaken (h : s.Leaking m N U B) : s.Leaking m N False B := by
  cases h with
  | before h _ => exact .before h False.elim
  | behind h1 h2 => exact .behind h1 h2

theorem BR.Leaking.readToBoundary (h : s.Leaking m N U B) : s.readToBoundary.2.Leaking m N U B := by
  rcases BR.readToBoundary_eq h.inv with ⟨e, hx, he⟩ | ⟨_, he⟩ <;> rw [he] <;> simp only
  · cases h with
    | before h _ => rw [h.afterRead.1] at hx; cases hx
    | behind hi hl => exact .behind (BR.refill_inv hi) (by rw [s.refill_unread]; exact hl)
  · cases h with
    | before h hu => obtain ⟨-, Ps', h', -⟩ := h.afterRead; exact .before h' hu
    | behind hi hl => exact .behind (BR.afterRead_inv hi) (by rw [s.afterRead_unread]; exact hl)

/-- What may be consumed: nothing, all that was handed out, or, if the data are text, a part that is text if the whole is not. -/
theorem BR.Leaking.consume {buf : Bytes} (h : s.Leaking m N U B) (hr : s.readToBoundary = (.ok buf, t)) :
    (t.consume 0).Leaking m N U B ∧ ((U → IsUtf8 buf) → ∀ k, buf.length ≤ k → (t.consume k).Leaking m N U B) ∧ (U → ∀ k, k ≤ buf.length → IsUtf8 (buf.take k) → ¬ IsUtf8 buf → (t.consume k).Leaking m N U B) := by
  rcases BR.readToBoundary_eq h.inv with ⟨e, hx, he⟩ | ⟨_, he⟩
  · rw [hr] at he; cases he
  rw [hr] at he
  simp only [Prod.mk.injEq, Res.ok.injEq] at he
  obtain ⟨rfl, rfl⟩ := he
  cases h with
  | behind hi hl =>
    have key : ∀ k, (s.afterRead.consume k).Leaking m N U B := fun k =>
      .behind (BR.consume_inv (BR.afterRead_inv hi) k) (by rw [BR.consume_unread_drop (BR.afterRead_inv hi) k, List.length_drop, s.afterRead_unread]; omega)
    exact ⟨key _, fun _ _ _ => key _, fun _ _ _ _ _ => key _⟩
  | @before rem Ps h hu =>
    obtain ⟨-, Ps', h', hidx⟩ := h.afterRead
    generalize s.afterRead = t at h' hidx
    have hil := h'.inv.idx_le
    have hbl : (t.buf.take t.idx).length = t.idx := by rw [List.length_take]; omega
    have h0 : t.consume 0 = t := by
      unfold BR.consume
      have : Nat.min 0 t.idx = 0 := Nat.zero_min _
      simp only [this]
      rfl
    refine ⟨by rw [h0]; exact .before h' hu, fun hv k hk => ?_, fun hU k hk hv hnv => ?_⟩
    · rw [hbl] at hk
      have hmin : Nat.min k t.idx = t.idx := Nat.min_eq_right hk
      by_cases hp : Ps' = []
      · subst hp
        refine .behind (BR.consume_inv h'.inv k) ?_
        have hb := congrArg List.length h'.bytes
        simp [Ev.bytes] at hb
        have := h'.unread
        rw [BR.consume_unread_drop h'.inv k, List.length_drop, hmin, hidx rfl]
        omega
      · obtain ⟨h2, h3⟩ := h'.consume hp k
        refine .before h2 fun hU => ?_
        rw [hmin] at h3 ⊢
        have := hu hU
        rw [← List.take_append_drop t.idx rem, ← h3] at this
        exact this.of_append_left (hv hU)
    · rw [hbl] at hk
      have hmin : Nat.min k t.idx = k := Nat.min_eq_left hk
      have hp : Ps' ≠ [] := by
        intro hp
        subst hp
        apply hnv
        have hb := h'.bytes
        simp only [Ev.bytes, List.append_nil] at hb
        rw [hidx rfl, List.take_length, hb]
        exact (hu hU).append ((utf8Valid_iff _).mp (by decide))
      obtain ⟨h2, h3⟩ := h'.consume hp k
      refine .before h2 fun hU => ?_
      rw [hmin] at h3 ⊢
      rw [List.take_take, Nat.min_eq_left hk, h3] at hv
      have := hu hU
      rw [← List.take_append_drop k rem] at this
      exact this.of_append_left hv

/-- A read with room for all that is buffered. -/
theorem BR.Leaking.read (h : s.Leaking m N False B) {n : Nat} (hn : N ≤ n) : (s.op (.read n)).2.Leaking m N False B := by
  have hr := h.readToBoundary
  have hc := fun buf t => h.consume (t := t) (buf := buf)
  rcases BR.read_eq h.inv n with ⟨e, hx, he⟩ | ⟨hx, he⟩
  · rcases BR.readToBoundary_eq h.inv with ⟨e', _, he'⟩ | ⟨hx', _⟩
    · rw [he'] at hr; simp only [BR.op, he]; exact hr
    · rw [hx] at hx'; cases hx'
  · rcases BR.readToBoundary_eq h.inv with ⟨e', hx', _⟩ | ⟨_, he'⟩
    · rw [hx] at hx'; cases hx'
    · simp only [BR.op, he]
      by_cases hle : (s.afterRead.buf.take s.afterRead.idx).length ≤ n
      · exact (hc _ _ he').2.1 False.elim n hle
      · have hlen : (s.afterRead.buf.take s.afterRead.idx).length ≤ s.afterRead.buf.length := by rw [List.length_take]; exact Nat.min_le_right _ _
        cases h with
        | behind hi hl =>
          exact .behind (BR.consume_inv (BR.afterRead_inv hi) n) (by rw [BR.consume_unread_drop (BR.afterRead_inv hi) n, List.length_drop, s.afterRead_unread]; omega)
        | before h hu =>
          obtain ⟨-, Ps', h', hidx⟩ := h.afterRead
          by_cases hp : Ps' = []
          · have := (h'.last hp).2; omega
          · exact .before (h'.consume hp n).1 False.elim

theorem BR.Leaking.run (os : List FieldOp) (ho : ∀ o ∈ os, TakesAll N o) : ∀ {s : BR}, s.Leaking m N False B → (s.run os).2.Leaking m N False B := by
  induction os with
  | nil => intro s h; exact h
  | cons o os ih =>
    intro s h
    refine ih (fun o h => ho o (List.mem_cons_of_mem _ h)) ?_
    rcases ho o List.mem_cons_self with rfl | ⟨n, hn, rfl⟩
    · exact h.readToBoundary
    · exact h.read hn

/-- At its end, the CRLF is among what came out of the field. -/
theorem BR.Leaking.taken {dat got z : Bytes} (h : s.Leaking m N U B) (hu : got ++ s.unread = dat ++ [0x0D] ++ Ev.bytes B) (hg : got = dat ∨ got = z) : got = z := by
  rcases hg with rfl | h'
  · exfalso
    rw [List.append_assoc] at hu
    have := congrArg List.length (List.append_cancel_left hu)
    simp at this
    cases h with
    | behind _ hl => omega
    | @before rem Ps h _ =>
      have h1 := h.unread
      have h2 : rem.length = 0 := by omega
      have h3 := congrArg List.length h.bytes
      simp at h3
      have hp := h.pos
      by_cases hP : Ps = []
      · have := (h.last hP).1
        omega
      · have := h.piece hP
        omega
  · exact h'

/-- A field whose data and the CR behind it arrive in reads that fill the buffer, the first with the last byte of the headers or earlier. -/
theorem BR.leak_state (hD : D.Sane) {d dat : Bytes} {G : List Ev} {fh : FieldHeaders} (hB : B ≠ []) (hd : s.delim = d) (hcr : (0x0D : Byte) ∉ d)
    (hL : s.Late (entryBuf d) B) (hevs : s.evs <:+ G ++ Ps ++ B) (he : s.readEntry D = (.ok (some fh), t)) (hX : t.unread = dat ++ [0x0D] ++ Ev.bytes B)
    (hf : FirstAt d t.unread (dat.length + 2)) (hlong : entryBuf d ≤ dat.length + 1) (hP : ReadsFrom (entryBuf d) Ps) (hlen : dat.length + 1 < (Ev.bytes Ps).length)
    (hN : ∀ bs, .data bs ∈ Ps → entryBuf d + bs.length ≤ N) (hbuf : t.buf.length ≤ N) (hu : U → IsUtf8 dat) : t.Leaking (entryBuf d) N U B := by
  subst hd
  have htl := hL.readEntry (D := D) hB (Nat.le_refl _)
  rw [he] at htl
  have htd : t.delim = s.delim := by have := BR.readEntry_delim hD hL.inv; rw [he] at this; exact this
  have hte : t.evs <:+ s.evs := by have := BR.readEntry_evs hD hL.inv; rw [he] at this; exact this
  have htst : t.st ≠ .atEnd := by
    have hsp := BR.readEntry_spec hD hL.inv
    rw [he] at hsp
    simp only at hsp
    cases hsp with | entry => assumption
  have hpos : 1 < entryBuf s.delim := Nat.lt_of_lt_of_le (by decide) (Nat.le_max_left 1024 _)
  obtain ⟨es, hes⟩ : ∃ es, t.evs = es ++ B := by
    rcases htl.late with h | h
    · exact h
    · exfalso
      rw [hX] at h
      simp at h
      omega
  have hb : t.buf ++ Ev.bytes es = dat ++ [0x0D] := by
    have h := hX
    unfold BR.unread at h
    rw [hes, Ev.bytes_append, ← List.append_assoc] at h
    exact List.append_cancel_right h
  have hbl := congrArg List.length hb
  simp at hbl
  have hsuf : es <:+ Ps := by
    obtain ⟨l, hl⟩ := hte.trans hevs
    rw [hes, ← List.append_assoc] at hl
    have h1 : es <:+ G ++ Ps := ⟨l, List.append_cancel_right hl⟩
    rcases List.suffix_or_suffix_of_suffix h1 (List.suffix_append G Ps) with h | ⟨pre, h⟩
    · exact h
    · exfalso
      rw [← h, Ev.bytes_append, List.length_append] at hbl
      omega
  refine .before ⟨htl.inv, htst, htl.min, hpos, by rw [htd]; exact hcr, hes, fun e h => hP e (hsuf.mem h), fun bs h => hN bs (hsuf.mem h), fun h => ?_, hb, by rw [htd]; exact hf⟩ hu
  subst h
  simp [Ev.bytes] at hbl
  omega

theorem BR.leak_field (hD : D.Sane) {d dat : Bytes} {G : List Ev} {fh : FieldHeaders} (hB : B ≠ []) (hd : s.delim = d) (hn : NoStall (G ++ Ps ++ B)) (hcr : (0x0D : Byte) ∉ d)
    (hL : s.Late (entryBuf d) B) (hevs : s.evs <:+ G ++ Ps ++ B) (hun : s.unread <:+ Ev.bytes (G ++ Ps ++ B)) (he : s.readEntry D = (.ok (some fh), t)) (hX : t.unread = dat ++ [0x0D] ++ Ev.bytes B)
    (hfd : FieldData d t.unread dat) (hf : FirstAt d t.unread (dat.length + 2)) (hlong : entryBuf d ≤ dat.length + 1) (hP : ReadsFrom (entryBuf d) Ps) (hlen : dat.length + 1 < (Ev.bytes Ps).length)
    (hN : ∀ bs, .data bs ∈ Ps → entryBuf d + bs.length ≤ N) (hbuf : t.buf.length ≤ N) {os : List FieldOp} (hos : ∀ o ∈ os, TakesAll N o) (heof : (t.run os).2.AtEof) :
    (t.run os).1 = dat ++ crlf := by
  have hl := BR.leak_state (U := False) hD hB hd hcr hL hevs he hX hf hlong hP hlen hN hbuf False.elim
  have h1 := BR.field_dataOk hD hL.inv hevs hun he hn (hd ▸ hfd) os heof
  exact (hl.run os hos).taken (by rw [BR.run_unread os hl.inv]; exact hX) (h1.imp id And.left)

theorem reads_leak (hD : D.Sane) {d dat u w rest : Bytes} {fh : FieldHeaders} {es : List (FieldHeaders × Bytes)} {evs G : List Ev} {k : Nat}
    (hn : NoStall evs) (hne : NoErr evs) (hE : evs = G ++ Ps ++ B) (hB : B ≠ []) (hk : ReadsUpTo k Ps) (hPs : ReadsFrom (entryBuf d) Ps) (hlen : dat.length + 1 < (Ev.bytes Ps).length) (hcr : (0x0D : Byte) ∉ d)
    (hW : WellFormedPart D d rest fh dat (dat ++ [0x0D] ++ Ev.bytes B)) (hf : FirstAt d (dat ++ [0x0D] ++ Ev.bytes B) (dat.length + 2))
    (hlong : entryBuf d ≤ dat.length + 1) (hP : PartsTo D d u es w) :
    ∀ {s : BR}, s.Late (entryBuf d) B → s.delim = d → s.evs <:+ evs → s.unread <:+ Ev.bytes evs → s.st ≠ .atEnd → s.Drained →
      (∀ v, NextIs d u v → NextIs d s.unread v) → NextIs d w (.part rest) → ∃ got fin, Reads D s got fin ∧ got[es.length]? = some (fh, dat ++ crlf) := by
  induction hP with
  | nil =>
    intro s hL hd hevs hu hst hdr hun hN
    obtain ⟨-, hexact⟩ := BR.readEntry_verdict hD hL.inv hst (.inl hdr) hn hne hevs hu
    obtain ⟨H, hs, h1, h2, h3, h4⟩ := hW.headers
    rw [hd] at hexact
    have hex := hexact _ _ _ _ _ _ (hun _ hN) h1 hW.data h4 h3 h2
    rcases hc : s.readEntry D with ⟨r, t⟩
    rw [hc] at hex
    obtain ⟨rfl, hX⟩ := hex
    simp only at hX
    have hti : t.Inv := by have := BR.readEntry_inv hD hL.inv; rw [hc] at this; exact this
    obtain ⟨i, -, heof⟩ := BR.reaches_eof (n := entryBuf d + k + t.buf.length + 1) (by omega) _ hti (Nat.le_refl _)
    have hr := BR.leak_field (N := entryBuf d + k + t.buf.length) hD hB hd (hE ▸ hn) hcr hL (hE ▸ hevs) (hE ▸ hu) hc hX (by rw [hX]; exact hW.data) (by rw [hX]; exact hf) hlong hPs hlen
      (fun bs hb => by have := hk bs hb; omega) (by omega) (fun o ho => .inr ⟨_, by omega, (List.mem_replicate.mp ho).2⟩) heof
    obtain ⟨got, fin, hR⟩ := reads_total hD _ (BR.run_inv (List.replicate i (.read (entryBuf d + k + t.buf.length + 1))) hti) (Nat.le_refl _)
    exact ⟨_, fin, .entry hc heof hR, by simp [hr]⟩
  | @part u rest' X w dat' fh' es hN' hW' hP' ih =>
    intro s hL hd hevs hu hst hdr hun hN
    obtain ⟨-, hexact⟩ := BR.readEntry_verdict hD hL.inv hst (.inl hdr) hn hne hevs hu
    obtain ⟨H, hs, h1, h2, h3, h4⟩ := hW'.headers
    rw [hd] at hexact
    have hex := hexact _ _ _ _ _ _ (hun _ hN') h1 hW'.data h4 h3 h2
    rcases hc : s.readEntry D with ⟨r, t⟩
    rw [hc] at hex
    obtain ⟨rfl, hX⟩ := hex
    simp only at hX
    have htl := hL.readEntry (D := D) hB (by rw [hd]; exact Nat.le_refl _)
    rw [hc] at htl
    simp only at htl
    have htd : t.delim = s.delim := by have := BR.readEntry_delim hD hL.inv; rw [hc] at this; exact this
    have hte : t.evs <:+ s.evs := by have := BR.readEntry_evs hD hL.inv; rw [hc] at this; exact this
    have htu : t.unread <:+ s.unread := by have := BR.readEntry_suffix hD hL.inv; rw [hc] at this; exact this
    have htst : t.st ≠ .atEnd := by
      have hsp := BR.readEntry_spec hD hL.inv
      rw [hc] at hsp
      simp only at hsp
      cases hsp with | entry => assumption
    obtain ⟨k, -, hk⟩ := BR.reaches_eof (n := 1) (by omega) _ htl.inv (Nat.le_refl _)
    obtain ⟨r1, r2, r3, r4, r5⟩ := BR.run_skipped (List.replicate k (.read 1)) htl.inv
    obtain ⟨got, fin, hR, hg⟩ := ih (s := (t.run (List.replicate k (.read 1))).2)
      (htl.run hB (by rw [htd, hd]; exact Nat.le_max_right _ _) _ (fun n hm => by simp [List.mem_replicate] at hm)) (by rw [r3, htd, hd])
      (r4.trans (hte.trans hevs)) (by rw [r1]; exact (List.drop_suffix _ _).trans (htu.trans hu)) (fun h => htst (r5.mp h))
      (BR.AtEof.drained (BR.run_inv _ htl.inv) hk) (fun v hv => by rw [r1, hX]; apply hv.drop; rw [htd, hd, hX] at r2; exact r2) hN
    exact ⟨_, fin, .entry hc hk hR, by simpa using hg⟩

theorem NextIs.suffix {d u rest : Bytes} (h : NextIs d u (.part rest)) : rest <:+ u := by
  cases h with
  | part _ h => exact (List.suffix_append crlf rest).trans (h ▸ List.drop_suffix _ _)

theorem PartsTo.suffix {d u w : Bytes} {es : List (FieldHeaders × Bytes)} (h : PartsTo D d u es w) : w <:+ u := by
  induction h with
  | nil => exact List.suffix_rfl
  | part hN hW _ ih =>
    obtain ⟨H, hs, h1, -⟩ := hW.headers
    exact ih.trans (List.IsSuffix.trans ⟨H, h1.split.symm⟩ hN.suffix)

theorem PartsTo.then {d u w : Bytes} {es es' : List (FieldHeaders × Bytes)} {fin : Ending} (h : PartsTo D d u es w) (hw : Parts D d w es' fin) :
    Parts D d u (es ++ es') fin := by
  induction h with
  | nil => exact hw
  | part hN hW _ ih => exact .part hN hW (ih hw)

/-- A way for a body to arrive in reads of less than twice the minimum buffer, such that the data of one of its fields, from the last byte of its headers to the CR behind them, come in reads that fill this buffer,
and all else byte by byte. -/
theorem WellFormedPart.arrive {d body w rest dat post : Bytes} {es : List (FieldHeaders × Bytes)} {fh : FieldHeaders} (hP : PartsTo D d body es w) (hN : NextIs d w (.part rest))
    (hW : WellFormedPart D d rest fh dat (dat ++ crlf ++ d ++ post)) (hlong : entryBuf d ≤ dat.length + 1) :
    ∃ G Ps B, Ev.bytes (G ++ Ps ++ B) = body ∧ NoStall (G ++ Ps ++ B) ∧ NoErr (G ++ Ps ++ B) ∧ ReadsUpTo (2 * entryBuf d) (G ++ Ps ++ B) ∧ ReadsFrom (entryBuf d) Ps ∧
      Ev.bytes B = 0x0A :: (d ++ post) ∧ B ≠ [] ∧ dat.length + 1 < (Ev.bytes Ps).length := by
  have hm : 0 < entryBuf d := Nat.lt_of_lt_of_le (by decide) (Nat.le_max_left 1024 _)
  obtain ⟨H, _, h1, -⟩ := hW.headers
  obtain ⟨gone, hg⟩ := hN.suffix.trans hP.suffix
  rcases List.eq_nil_or_concat H with rfl | ⟨H, z, rfl⟩
  · exact absurd rfl h1.nonempty
  obtain ⟨Ps, p1, p2, p3⟩ := Ev.pieces hm _ (z :: (dat ++ [0x0D])) (Nat.le_refl _) (by simp; omega)
  obtain ⟨a1, a2, a3⟩ := Ev.around (u := gone ++ H) (v := 0x0A :: (d ++ post)) p2 p3 hm (by omega)
  refine ⟨Ev.single (gone ++ H), Ps, Ev.single (0x0A :: (d ++ post)), ?_, a1, a2, a3, p2, Ev.bytes_single _, by simp [Ev.single], by rw [p1]; simp⟩
  rw [Ev.bytes_append, Ev.bytes_append, Ev.bytes_single, Ev.bytes_single, p1, ← hg, h1.split]
  simp [crlf]

end Multipart

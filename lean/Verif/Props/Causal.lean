import Verif.Lemmas.Causal
import Verif.Lemmas.Grown
import Verif.Spec.Answers
import Verif.Props.ReadAhead
/-!
# C130 and C131: what has arrived, and what has not
-/
namespace Multipart
variable {D : Deps} {b : Bytes} {m : Nat} {s : BR} {B B' : List Ev}

theorem BR.sop_cont (hD : D.Sane) (hB : B ≠ []) (hi : (s.cont B).Inv) (hi' : (s.cont B').Inv) (o : SOp) (hu : ((s.cont B).sop D o).Before B) :
    (s.cont B').answer D o = (s.cont B).answer D o ∧ ∃ u : BR, (s.cont B).sop D o = u.cont B ∧ (s.cont B').sop D o = u.cont B' := by
  cases o with
  | readEntry =>
    obtain ⟨h1, h2⟩ := BR.readEntry_cont hD hB hi hi' hu
    exact ⟨by simp only [BR.answer, h1], h2⟩
  | field o =>
    cases o with
    | fillBuf =>
      obtain ⟨h1, h2⟩ := BR.readToBoundary_cont (B' := B') hB hu
      exact ⟨by simp only [BR.answer, h1], h2⟩
    | read n =>
      have hb : (s.cont B).readToBoundary.2.Before B := by
        unfold BR.sop BR.op BR.read at hu
        generalize (s.cont B).readToBoundary = r at hu ⊢
        obtain ⟨r, t⟩ := r
        cases r <;> exact hu
      have ha := BR.readToBoundary_cont (B' := B') hB hb
      simp only [BR.answer, BR.sop, BR.op, BR.read]
      generalize (s.cont B).readToBoundary = r at ha ⊢
      generalize (s.cont B').readToBoundary = r' at ha ⊢
      obtain ⟨r, t⟩ := r
      obtain ⟨r', t'⟩ := r'
      obtain ⟨h1, u, h2, h3⟩ := ha
      simp only at h1 h2 h3
      subst h1 h2 h3
      cases r with
      | ok x => exact ⟨rfl, u.consume (x.take n).length, rfl, rfl⟩
      | _ => exact ⟨rfl, u, rfl, rfl⟩
    | consume n => exact ⟨rfl, s.consume n, rfl, rfl⟩
    | setMin n => exact ⟨rfl, s.setMin n, rfl, rfl⟩

theorem BR.session_cont (hD : D.Sane) (hB : B ≠ []) : ∀ (os : List SOp) (s : BR), (s.cont B).Inv → (s.cont B').Inv → ((s.cont B).session D os).Before B →
    (s.cont B').answers D os = (s.cont B).answers D os ∧ ∃ u : BR, (s.cont B).session D os = u.cont B ∧ (s.cont B').session D os = u.cont B' := by
  intro os
  induction os with
  | nil => intro s _ _ _; exact ⟨rfl, s, rfl, rfl⟩
  | cons o os ih =>
    intro s hi hi' hu
    have hsi := BR.sop_inv hD hi o
    have hsi' := BR.sop_inv hD hi' o
    have hb : ((s.cont B).sop D o).Before B := hu.of_suffix (BR.session_spec hD os hsi).2.2.2
    obtain ⟨h1, u, h2, h3⟩ := BR.sop_cont hD hB hi hi' o hb
    unfold BR.session at hu ⊢
    rw [h2] at hsi hu
    rw [h3] at hsi'
    obtain ⟨h4, h5⟩ := ih u hsi hsi' hu
    rw [h2, h3]
    exact ⟨by simp only [BR.answers, h1, h2, h3, h4], h5⟩

/-- C130: as long as none of the last reads of a stream has been made, all answers, and the reads that were made, are the same whatever these reads are. -/
theorem C130_only_arrived (hD : D.Sane) {before after es : List Ev} {os : List SOp} (ha : after ≠ []) (hs : ((withBody (before ++ after) b).session D os).evs = es ++ after) (after' : List Ev) :
    (withBody (before ++ after') b).answers D os = (withBody (before ++ after) b).answers D os ∧ ((withBody (before ++ after') b).session D os).evs = es ++ after' := by
  have hc : ∀ C, withBody (before ++ C) b = (withBody before b).cont C := fun _ => rfl
  rw [hc] at hs
  rw [hc, hc]
  obtain ⟨h1, u, h2, h3⟩ := BR.session_cont (B' := after') hD ha os (withBody before b) (BR.fromReader_inv (before ++ after) b) (BR.fromReader_inv (before ++ after') b) ⟨es, hs⟩
  refine ⟨h1, ?_⟩
  rw [h3]
  rw [h2] at hs
  have : u.evs = es := List.append_cancel_right hs
  rw [← this]
  rfl

namespace Sample
/-- The headers of a field and 1100 bytes of its data. -/
def evsFirst : List Ev := [.data (b!"--b\r\nContent-Disposition: form-data; name=\"a\"\r\n\r\n" ++ List.replicate 1100 0x61)]
/-- The next field is asked for, and its first bytes. -/
def opsFirst : List SOp := [.readEntry, .field (.read 5)]
end Sample

example : ((withBody (Sample.evsFirst ++ [.err (.other 5)]) Sample.bnd).answers refDeps Sample.opsFirst).length = 2 ∧
    ((withBody (Sample.evsFirst ++ [.data b!"\r\n--b--"]) Sample.bnd).answers refDeps Sample.opsFirst).getLast? = some (.bytes (.ok b!"aaaaa")) ∧
    (withBody (Sample.evsFirst ++ [.err (.other 5)]) Sample.bnd).answers refDeps Sample.opsFirst = (withBody (Sample.evsFirst ++ [.data b!"\r\n--b--"]) Sample.bnd).answers refDeps Sample.opsFirst :=
  ⟨by decide +kernel, by decide +kernel, (C130_only_arrived (es := []) refDeps_sane (by simp) (by decide +kernel) _).1⟩

/-- C130: so the answers depend only on the bytes that the caller has taken, and on `m` more, where `m` is the size of the minimum buffer. -/
theorem C130_early (hD : D.Sane) (hm : entryBuf (dashes ++ b) ≤ m) {before after : List Ev} {os : List SOp} (hos : ∀ n, SOp.field (.setMin n) ∈ os → n ≤ m)
    (hfar : m + (Ev.bytes after).length ≤ ((withBody (before ++ after) b).session D os).unread.length) (ha : after ≠ []) (after' : List Ev) :
    (withBody (before ++ after') b).answers D os = (withBody (before ++ after) b).answers D os := by
  rcases C114_read_ahead hD hm hos ha rfl with ⟨es, h⟩ | h
  · exact (C130_only_arrived hD ha h after').1
  · omega

example : (withBody (Sample.evsFirst ++ [.err (.other 5)]) Sample.bnd).answers refDeps Sample.opsFirst = (withBody (Sample.evsFirst ++ [.data b!"\r\n--b--"]) Sample.bnd).answers refDeps Sample.opsFirst :=
  C130_early (m := 1024) refDeps_sane (by decide +kernel) (by simp [Sample.opsFirst]) (by decide +kernel) (by simp) _

/-- All claims of C131: a body that has arrived up to its end can be read to its end, whatever the stream does afterwards. -/
def C131_claim : Prop := ∀ (D : Deps), D.Sane → ∀ (evs rest : List Ev) (b : Bytes) (os : List SOp), NoErr evs → NoStall evs →
  ((withBody evs b).answers D (os ++ [.readEntry])).getLast? = some (.entry (.ok none)) →
  (withBody (evs ++ rest) b).answers D (os ++ [.readEntry]) = (withBody evs b).answers D (os ++ [.readEntry])

theorem C131_false : ¬ C131_claim := by
  intro h
  have := h refDeps refDeps_sane [.data b!"--b--"] [.err (.other 5)] Sample.bnd [] (by intro e; simp) (by decide) (by decide +kernel)
  revert this
  decide +kernel

/-- C131 as far as it holds: if `m` more bytes have arrived. -/
theorem C131_more_partial (hD : D.Sane) (hm : entryBuf (dashes ++ b) ≤ m) {evs rest : List Ev} {os : List SOp} (hos : ∀ n, SOp.field (.setMin n) ∈ os → n ≤ m)
    (hfar : m + (Ev.bytes rest).length ≤ ((withBody (evs ++ rest) b).session D os).unread.length) :
    (withBody (evs ++ rest) b).answers D os = (withBody evs b).answers D os := by
  by_cases hr : rest = []
  · rw [hr, List.append_nil]
  · have := C130_early hD hm hos hfar hr []
    rw [List.append_nil] at this
    exact this.symm

example : (withBody (Sample.evsFirst ++ [.err (.other 5)]) Sample.bnd).answers refDeps Sample.opsFirst = (withBody Sample.evsFirst Sample.bnd).answers refDeps Sample.opsFirst :=
  C131_more_partial (m := 1024) refDeps_sane (by decide +kernel) (by simp [Sample.opsFirst]) (by decide +kernel)

theorem BR.readEntry_good (hD : D.Sane) (hi : s.Inv) (hg : (s.readEntry D).2.Good) : s.Good := by
  refine hg.back (BR.readEntry_suffix hD hi) (BR.readEntry_delim hD hi) (fun h => ?_)
  have := BR.readEntry_spec hD hi
  generalize s.readEntry D = r at this h
  obtain ⟨r, t⟩ := r
  cases this with
  | done k => exact .inl k
  | close _ k =>
    cases k with
    | close k1 k2 =>
      refine .inr ⟨_, k1.1, ?_⟩
      have := congrArg List.length k2
      simp [dashes] at this
      omega
  | entry _ _ _ _ _ _ _ _ _ _ _ _ _ k => exact absurd h k
  | badHeaders _ _ _ _ _ _ _ _ k => exact absurd h k
  | noBoundary _ _ _ k => exact absurd h k

theorem BR.sop_good (hD : D.Sane) (hi : s.Inv) (o : SOp) (hg : (s.sop D o).Good) : s.Good := by
  cases o with
  | readEntry => exact BR.readEntry_good hD hi hg
  | field o =>
    obtain ⟨h1, h2, -⟩ := BR.sop_frame hD hi (.field o)
    refine hg.back h1 h2 (fun h => .inl ?_)
    have hr : s.readToBoundary.2.st = .atEnd → s.st = .atEnd := by
      intro h
      rcases BR.readToBoundary_eq hi with ⟨e, -, he⟩ | ⟨-, he⟩
      · rw [he] at h; exact h
      · rw [he] at h; exact BR.afterRead_atEnd hi h
    cases o with
    | fillBuf => exact hr h
    | read n =>
      unfold BR.sop BR.op BR.read at h
      generalize s.readToBoundary = r at h hr
      obtain ⟨r, t⟩ := r
      cases r <;> exact hr h
    | consume n => exact h
    | setMin n => exact h

theorem BR.sop_grown {s' : BR} (hD : D.Sane) (h : s.Grown s') (hi : s.Inv) (hi' : s'.Inv) (o : SOp) (hg' : (s.sop D o).Good) :
    s'.answer D o = s.answer D o ∧ (s.sop D o).Grown (s'.sop D o) := by
  have hg := BR.sop_good hD hi o hg'
  cases o with
  | readEntry =>
    obtain ⟨h1, h2⟩ := h.readEntry hD hi hi' hg hg'
    exact ⟨by simp only [BR.answer, h1], h2⟩
  | field o =>
    cases o with
    | fillBuf =>
      obtain ⟨h1, h2⟩ := h.readToBoundary_same hi hi' hg.need
      exact ⟨by simp only [BR.answer, h1], h2⟩
    | read n =>
      obtain ⟨h1, h2⟩ := h.readToBoundary hi hi' hg.need
      simp only [BR.answer, BR.sop, BR.op, BR.read]
      rw [h1, h2]
      exact ⟨rfl, (h.afterRead hi hg.need).consume (s.afterRead_inv hi) _⟩
    | consume n => exact ⟨rfl, h.consume hi n⟩
    | setMin n => exact ⟨rfl, h.setMin n⟩

theorem BR.session_good (hD : D.Sane) : ∀ (os : List SOp) (s : BR), s.Inv → (s.session D os).Good → s.Good := by
  intro os
  induction os with
  | nil => intro s _ h; exact h
  | cons o os ih => intro s hi h; exact BR.sop_good hD hi o (ih _ (BR.sop_inv hD hi o) h)

theorem BR.session_grown (hD : D.Sane) : ∀ (os : List SOp) (s s' : BR), s.Grown s' → s.Inv → s'.Inv → (s.session D os).Good →
    s'.answers D os = s.answers D os := by
  intro os
  induction os with
  | nil => intro s s' _ _ _ _; rfl
  | cons o os ih =>
    intro s s' h hi hi' hg
    have hsi := BR.sop_inv hD hi o
    obtain ⟨h1, h2⟩ := BR.sop_grown hD h hi hi' o (BR.session_good hD os _ hsi hg)
    simp only [BR.answers, h1]
    rw [ih _ _ h2 hsi (BR.sop_inv hD hi' o) hg]

theorem BR.answers_append (os os' : List SOp) (s : BR) : s.answers D (os ++ os') = s.answers D os ++ (s.session D os).answers D os' := by
  induction os generalizing s with
  | nil => rfl
  | cons o os ih => simp only [List.cons_append, BR.answers, ih]; rfl

/-- C131 as far as it holds: if the stream only brings more data, and does not fail. -/
theorem C131_data_partial (hD : D.Sane) {evs rest : List Ev} {os : List SOp} (he : NoErr evs) (hn : NoStall evs) (hr : NoErr rest)
    (hend : ((withBody evs b).answers D (os ++ [.readEntry])).getLast? = some (.entry (.ok none))) :
    (withBody (evs ++ rest) b).answers D (os ++ [.readEntry]) = (withBody evs b).answers D (os ++ [.readEntry]) := by
  have hi := BR.fromReader_inv evs b
  refine BR.session_grown hD _ _ _ ⟨rfl, rfl, rfl, rfl, he, ?_, hn, .inl ⟨rfl, rest, rfl⟩⟩ hi (BR.fromReader_inv (evs ++ rest) b) ?_
  · intro e hm
    rcases List.mem_append.mp hm with hm | hm
    · exact he e hm
    · exact hr e hm
  · left
    rw [BR.session_append]
    rw [BR.answers_append] at hend
    simp only [BR.answers, BR.answer, List.getLast?_append, List.getLast?_singleton, Option.some_or, Option.some.injEq, CallAnswer.entry.injEq] at hend
    show (((withBody evs b).session D os).readEntry D).2.st = .atEnd
    have hsi : ((withBody evs b).session D os).Inv := (BR.session_spec hD os hi).1
    have := BR.readEntry_spec hD hsi
    generalize ((withBody evs b).session D os).readEntry D = r at this hend ⊢
    obtain ⟨r, t⟩ := r
    simp only at hend
    subst hend
    cases this with
    | done k1 k2 => exact (congrArg BR.st k2).trans k1
    | close _ _ _ _ _ _ _ k => exact k

/-- `C131_data_partial`: a form and a second one behind it. -/
example : (withBody ([.data b!"--b\r\nContent-Disposition: form-data; name=\"a\"\r\n\r\nxy\r\n--b--"] ++ [.data b!"\r\n--b\r\nContent-Disposition", .data [], .data b!"zz"]) Sample.bnd).answers refDeps ([.readEntry, .field (.read 5)] ++ [.readEntry])
    = (withBody [.data b!"--b\r\nContent-Disposition: form-data; name=\"a\"\r\n\r\nxy\r\n--b--"] Sample.bnd).answers refDeps ([.readEntry, .field (.read 5)] ++ [.readEntry]) :=
  C131_data_partial refDeps_sane (by intro e; simp) (by decide) (by intro e; simp) (by decide +kernel)

theorem fill_waits {rest : List Ev} (hr : rest ≠ []) (min : Nat) : ∀ (es : List Ev) (buf : Bytes), NoErr es → NoStall es → (buf ++ Ev.bytes es).length < min →
    (fill min buf (es ++ rest)).2.2.length < rest.length := by
  intro es
  induction es with
  | nil =>
    intro buf _ _ hl
    have hl : ¬ min ≤ buf.length := by simpa [Ev.bytes] using hl
    cases rest with
    | nil => exact absurd rfl hr
    | cons e r =>
      cases e with
      | data bs =>
        cases bs with
        | nil => simp [fill, hl]
        | cons x xs =>
          simp only [List.nil_append, fill, if_neg hl]
          have := (fill_spec min r (buf ++ x :: xs)).suf.length_le
          simp only [List.length_cons]
          omega
      | err e => simp [fill, hl]
  | cons e es ih =>
    intro buf he hn hl
    cases e with
    | data bs =>
      cases bs with
      | nil => exact absurd List.mem_cons_self hn
      | cons x xs =>
        have h0 : ¬ min ≤ buf.length := by simp only [List.length_append] at hl; omega
        simp only [List.cons_append, fill, if_neg h0]
        exact ih _ (fun e h => he e (List.mem_cons_of_mem _ h)) (hn.suffix (List.suffix_cons _ _)) (by simpa [Ev.bytes] using hl)
    | err e => exact absurd List.mem_cons_self (he e)

/-- C131: `fill_buf` makes another read of the stream whenever fewer bytes than the minimum buffer have arrived, even if the end of the field is among them. -/
theorem C131_waits {es rest : List Ev} (hs : s.evs = es ++ rest) (he : NoErr es) (hn : NoStall es) (hrest : rest ≠ [])
    (hl : (s.buf ++ Ev.bytes es).length < s.min) : s.readToBoundary.2.evs.length < rest.length := by
  rw [BR.readToBoundary_evs, hs]
  exact fill_waits hrest s.min es s.buf he hn hl

/-- `C131_waits`: the delimiter is in the buffer, and `fill_buf` reports the error of the next read. -/
example : let s : BR := { withBody [.err (.other 5)] Sample.bnd with buf := b!"abc\r\n--b\r\n" }
    s.readToBoundary.1 = .err (.other 5) ∧ s.readToBoundary.2.evs.length < 1 :=
  ⟨by decide +kernel, C131_waits (es := []) (rest := [.err (.other 5)]) rfl (by intro e; simp) (by decide) (by simp) (by decide +kernel)⟩

theorem BR.consumeBoundary_fills (hst : s.st ≠ .atEnd) : s.consumeBoundary.2.evs <:+ (fill s.min s.buf s.evs).2.2 := by
  have hv : ∀ t : BR, t.verifyBoundary.2.evs <:+ t.evs := by
    intro t
    rw [t.verifyBoundary_frame.2.1]
    exact (fill_spec t.min t.evs t.buf).suf
  unfold BR.consumeBoundary
  rw [if_neg hst]
  by_cases hs : s.st = .searching
  · have hl : (BR.searchLoop (s.pending + 2) s).2.evs <:+ (fill s.min s.buf s.evs).2.2 := by
      rw [← BR.readToBoundary_evs]
      unfold BR.searchLoop
      rw [if_pos hs]
      generalize s.readToBoundary = r
      obtain ⟨r, t⟩ := r
      cases r with
      | ok x =>
        simp only
        split
        · exact List.suffix_rfl
        · exact BR.searchLoop_evs _ _
      | _ => exact List.suffix_rfl
    generalize BR.searchLoop (s.pending + 2) s = r at hl ⊢
    obtain ⟨r, t⟩ := r
    cases r with
    | ok x => exact (hv t).trans hl
    | _ => exact hl
  · unfold BR.searchLoop
    rw [if_neg hs]
    simp only
    rw [s.verifyBoundary_frame.2.1]
    exact List.suffix_rfl

theorem BR.readEntry_fills (hst : s.st ≠ .atEnd) : (s.readEntry D).2.evs <:+ (fill (s.setMin minBufSize).min s.buf s.evs).2.2 := by
  have hc := BR.consumeBoundary_fills (s := s.setMin minBufSize) hst
  unfold BR.readEntry
  generalize (s.setMin minBufSize).consumeBoundary = r at hc ⊢
  obtain ⟨r, t⟩ := r
  cases r with
  | ok x =>
    cases x with
    | false => exact hc
    | true =>
      refine List.IsSuffix.trans ?_ hc
      simp only
      have : (t.readHeaders D).2.evs <:+ t.evs := by rw [BR.readHeaders_evs]; exact withHeadersLoop_evs _ _ _
      generalize t.readHeaders D = w at this ⊢
      obtain ⟨w, v⟩ := w
      cases w <;> exact this
  | _ => exact hc

/-- C131: and so does `read_entry`, until the closing delimiter has been seen. -/
theorem C131_entry_waits {evs : List Ev} (hD : D.Sane) (hr : Reachable D evs b s) {es rest : List Ev} (hs : s.evs = es ++ rest) (he : NoErr es) (hn : NoStall es) (hrest : rest ≠ [])
    (hst : s.st ≠ .atEnd) (hl : (s.buf ++ Ev.bytes es).length < entryBuf (dashes ++ b)) : (s.readEntry D).2.evs.length < rest.length := by
  obtain ⟨-, -, hdl, -⟩ := hr.spec hD
  have hmin : (s.setMin minBufSize).min = entryBuf (dashes ++ b) := by
    show Nat.max (s.delim.length * 2) minBufSize = _
    unfold entryBuf
    rw [hdl, Nat.mul_comm]
    exact Nat.max_comm _ _
  have hfill : (fill (s.setMin minBufSize).min s.buf s.evs).2.2.length < rest.length := by
    rw [hmin, hs]
    exact fill_waits hrest _ es s.buf he hn hl
  exact Nat.lt_of_le_of_lt (BR.readEntry_fills hst).length_le hfill

example : ((withBody ([.data b!"--b--"] ++ [.err (.other 5)]) Sample.bnd).readEntry refDeps).1 = .err (.other 5) ∧ ((withBody ([.data b!"--b--"] ++ [.err (.other 5)]) Sample.bnd).readEntry refDeps).2.evs.length < 1 :=
  ⟨by decide +kernel, C131_entry_waits (s := withBody ([.data b!"--b--"] ++ [.err (.other 5)]) Sample.bnd) (es := [.data b!"--b--"]) (rest := [.err (.other 5)]) refDeps_sane ⟨[], rfl⟩ rfl (by intro e; simp) (by decide) (by simp) (by decide) (by decide +kernel)⟩

end Multipart

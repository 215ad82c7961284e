import Verif.Spec.Lazy
import Verif.Lemmas.Client
/-! # Lemmas about lazy requests -/
namespace Multipart

/-- All bytes a stream delivers up to its end to a caller who repeats every failed read. -/
def Ev.allBytes : List Ev → Bytes
  | [] => []
  | .data [] :: _ => []
  | .data (x :: xs) :: r => (x :: xs) ++ Ev.allBytes r
  | .err _ :: r => Ev.allBytes r

theorem upToEnd_dropErrs : ∀ evs : List Ev, Ev.upToEnd (Ev.dropErrs evs) = Ev.allBytes evs := by
  intro evs
  induction evs with
  | nil => rfl
  | cons ev evs ih =>
    match ev with
    | .data [] => rfl
    | .data (x :: xs) => simp [Ev.dropErrs, Ev.upToEnd, Ev.allBytes, ih]
    | .err e => simp [Ev.dropErrs, Ev.allBytes, ih]

theorem dropErrs_noErr : ∀ {evs : List Ev}, NoErr evs → Ev.dropErrs evs = evs := by
  intro evs
  induction evs with
  | nil => intro _; rfl
  | cons ev evs ih =>
    intro h
    match ev with
    | .data bs => simp [Ev.dropErrs, ih (fun e he => h e (by simp [he]))]
    | .err e => exact absurd (by simp) (h e)

/-! ## Reading -/

def Cursor.rest (c : Cursor) : Bytes := c.data.drop c.pos

def PField.rest (f : PField) : Bytes := f.header.rest ++ Ev.allBytes f.stream

def Prepared.rest (p : Prepared) : Bytes := p.text.rest ++ p.streams.reverse.flatMap PField.rest ++ p.endBoundary.rest

/-- Bytes and events to come: bounds the number of reads. -/
def PField.meas (f : PField) : Nat := f.header.rest.length + (Ev.bytes f.stream).length + f.stream.length + 1

def Prepared.meas (p : Prepared) : Nat := p.text.rest.length + (p.streams.map PField.meas).sum + p.endBoundary.rest.length

structure Prepared.Inv (p : Prepared) : Prop where
  text : p.text.pos ≤ p.text.data.length
  end_ : p.endBoundary.pos ≤ p.endBoundary.data.length
  streams : ∀ f ∈ p.streams, f.header.pos ≤ f.header.data.length
  order : p.endBoundary.pos ≠ 0 ∨ p.endBoundary.data = [] → p.text.atEnd = true ∧ p.streams = []

theorem Cursor.atEnd_iff {c : Cursor} (h : c.pos ≤ c.data.length) : c.atEnd = true ↔ c.rest = [] := by
  simp [Cursor.atEnd, Cursor.rest, List.drop_eq_nil_iff]; omega

theorem Cursor.read_spec {c : Cursor} (n : Nat) (h : c.pos ≤ c.data.length) :
    (c.read n).1 = c.rest.take n ∧ (c.read n).2.rest = c.rest.drop n ∧ (c.read n).2.pos ≤ (c.read n).2.data.length ∧ (c.read n).2.data = c.data := by
  refine ⟨rfl, ?_, ?_, rfl⟩
  · simp only [Cursor.read, Cursor.rest, List.drop_drop, List.length_take, List.length_drop]
    by_cases hn : n ≤ c.data.length - c.pos
    · rw [Nat.min_eq_left hn]
    · rw [Nat.min_eq_right (by omega), List.drop_eq_nil_iff.mpr (by omega), List.drop_eq_nil_iff.mpr (by omega)]
  · simp only [Cursor.read, List.length_take, List.length_drop]; omega

/-- What one read of a field's stream may do. -/
theorem readEv_spec {n : Nat} (hn : n ≠ 0) : ∀ evs : List Ev,
    (readEv n evs = (.ok [], (readEv n evs).2) ∧ Ev.allBytes evs = [] ∧ ReadsFine evs) ∨
    (∃ x xs, (readEv n evs).1 = .ok (x :: xs) ∧ (x :: xs).length ≤ n ∧ Ev.allBytes evs = (x :: xs) ++ Ev.allBytes (readEv n evs).2 ∧ (ReadsFine (readEv n evs).2 → ReadsFine evs)) ∨
    (∃ e, (readEv n evs).1 = .err e ∧ .err e ∈ evs ∧ Ev.allBytes evs = Ev.allBytes (readEv n evs).2) := by
  intro evs
  match evs with
  | [] => exact .inl ⟨rfl, rfl, .nil⟩
  | .err e :: r => exact .inr (.inr ⟨e, rfl, by simp, rfl⟩)
  | .data [] :: r => exact .inl ⟨by simp [readEv], rfl, .eof⟩
  | .data (x :: xs) :: r =>
    refine .inr (.inl ?_)
    simp only [readEv]
    split
    · next h => exact ⟨x, xs, rfl, h, by simp [Ev.allBytes], .data⟩
    · next h =>
      obtain ⟨m, rfl⟩ : ∃ m, n = m + 1 := ⟨n - 1, by omega⟩
      obtain ⟨y, ys, hy⟩ : ∃ y ys, List.drop (m + 1) (x :: xs) = y :: ys := by
        match hd : List.drop (m + 1) (x :: xs) with
        | [] => rw [List.drop_eq_nil_iff] at hd; omega
        | y :: ys => exact ⟨y, ys, rfl⟩
      refine ⟨x, xs.take m, rfl, by simp; omega, ?_, ?_⟩
      · have : x :: xs = (x :: xs.take m) ++ (y :: ys) := by rw [← hy]; simp
        conv => lhs; rw [this]
        simp only [hy, List.cons_append, Ev.allBytes, List.append_assoc]
      · intro hf
        simp only [hy] at hf
        cases hf with
        | data hf => exact .data hf

theorem readEv_errs {n : Nat} {evs : List Ev} {e : IoErr} (h : .err e ∈ (readEv n evs).2) : .err e ∈ evs := by
  match evs, h with
  | [], h => exact h
  | .err e' :: r, h => exact List.mem_cons_of_mem _ h
  | .data bs :: r, h =>
    simp only [readEv] at h
    split at h
    · exact List.mem_cons_of_mem _ h
    · simp at h; simp [h]

theorem PField.read_spec {f : PField} {n : Nat} (hn : n ≠ 0) (hf : f.header.pos ≤ f.header.data.length) :
    ((f.read n).1 = .ok [] ∧ f.rest = [] ∧ ReadsFine f.stream) ∨
    (∃ x xs, (f.read n).1 = .ok (x :: xs) ∧ (x :: xs).length ≤ n ∧ f.rest = (x :: xs) ++ (f.read n).2.rest ∧ (f.read n).2.header.pos ≤ (f.read n).2.header.data.length ∧
      (ReadsFine (f.read n).2.stream → ReadsFine f.stream)) ∨
    (∃ e, (f.read n).1 = .err e ∧ .err e ∈ f.stream ∧ f.rest = (f.read n).2.rest ∧ (f.read n).2.header.pos ≤ (f.read n).2.header.data.length) := by
  unfold PField.read
  cases hh : f.header.atEnd with
  | false =>
    obtain ⟨h1, h2, h3, h4⟩ := f.header.read_spec n hf
    simp only [Bool.not_false, if_true]
    have hne : f.header.rest ≠ [] := fun h => by rw [(Cursor.atEnd_iff hf).mpr h] at hh; simp at hh
    match hr : f.header.rest.take n with
    | [] => rw [List.take_eq_nil_iff] at hr; exact absurd hr (by simp [hn, hne])
    | x :: xs =>
      refine .inr (.inl ⟨x, xs, by rw [h1, hr], ?_, ?_, h3, id⟩)
      · have : (x :: xs).length = (f.header.rest.take n).length := by rw [hr]
        rw [this, List.length_take]; omega
      · simp only [PField.rest]
        rw [h2, ← hr, ← List.append_assoc, List.take_append_drop]
  | true =>
    simp only [Bool.not_true, Bool.false_eq_true, if_false]
    have h0 := (Cursor.atEnd_iff hf).mp hh
    rcases readEv_spec hn f.stream with ⟨h1, h2, h3⟩ | ⟨x, xs, h1, h2, h3, h4⟩ | ⟨e, h1, h2, h3⟩
    · exact .inl ⟨by rw [h1], by simp [PField.rest, h0, h2], h3⟩
    · exact .inr (.inl ⟨x, xs, h1, h2, by simp only [PField.rest, h0, h3]; simp, hf, h4⟩)
    · exact .inr (.inr ⟨e, h1, h2, by simp only [PField.rest, h3], hf⟩)

theorem readEv_meas {n : Nat} (evs : List Ev) : (match (readEv n evs).1 with
    | .ok xs => (Ev.bytes (readEv n evs).2).length + xs.length ≤ (Ev.bytes evs).length ∧ (readEv n evs).2.length ≤ evs.length
    | _ => (Ev.bytes (readEv n evs).2).length ≤ (Ev.bytes evs).length ∧ (readEv n evs).2.length < evs.length) := by
  match evs with
  | [] => simp [readEv]
  | .err e :: r => simp [readEv, Ev.bytes]
  | .data bs :: r =>
    by_cases h : bs.length ≤ n
    · simp [readEv, h, Ev.bytes]; omega
    · simp [readEv, h, Ev.bytes]; omega

theorem PField.read_meas {f : PField} {n : Nat} (hf : f.header.pos ≤ f.header.data.length) : (match (f.read n).1 with
    | .ok xs => (f.read n).2.meas + xs.length ≤ f.meas
    | _ => (f.read n).2.meas < f.meas) := by
  unfold PField.read
  cases f.header.atEnd with
  | false =>
    obtain ⟨h1, h2, -, -⟩ := f.header.read_spec n hf
    simp only [Bool.not_false, if_true, PField.meas, h1, h2, List.length_take, List.length_drop]
    omega
  | true =>
    have := readEv_meas (n := n) f.stream
    simp only [Bool.not_true, Bool.false_eq_true, if_false]
    generalize readEv n f.stream = x at this ⊢
    obtain ⟨r, evs⟩ := x
    cases r <;> simp only [PField.meas] at this ⊢ <;> omega

theorem PField.read_errs {f : PField} {n : Nat} {e : IoErr} (h : .err e ∈ (f.read n).2.stream) : .err e ∈ f.stream := by
  unfold PField.read at h
  split at h
  · exact h
  · exact readEv_errs h

/-- All streams can be read to their ends. -/
def Prepared.Fine (p : Prepared) : Prop := ∀ f ∈ p.streams, ReadsFine f.stream

def Prepared.HasErr (p : Prepared) (e : IoErr) : Prop := ∃ f ∈ p.streams, .err e ∈ f.stream

/-- What reading may do: `lost` is what was copied before an error. -/
structure Prepared.Step (p p' : Prepared) (cap : Nat) (chunk : Bytes) (r : Res Bytes) (got : Bytes) : Prop where
  inv : p'.Inv
  rest : p.rest = chunk ++ p'.rest
  bound : p'.endBoundary.data = p.endBoundary.data
  len : p'.contentLen = p.contentLen
  errs : ∀ e, p'.HasErr e → p.HasErr e
  meas : p'.meas + chunk.length ≤ p.meas
  res : (r = .ok (got ++ chunk) ∧ chunk.length ≤ cap ∧ (chunk.length = cap ∨ p'.endBoundary.atEnd = true) ∧ (p'.Fine → p.Fine)) ∨
    (∃ e, r = .err e ∧ chunk.length < cap ∧ p'.meas + chunk.length < p.meas ∧ p.HasErr e)

theorem Prepared.Step.cons {p p1 p' : Prepared} {cap : Nat} {a chunk : Bytes} {r : Res Bytes} {got : Bytes} (hr : p.rest = a ++ p1.rest) (hb : p1.endBoundary.data = p.endBoundary.data)
    (hl : p1.contentLen = p.contentLen) (hm : p1.meas + a.length ≤ p.meas) (he : ∀ e, p1.HasErr e → p.HasErr e) (hfine : p1.Fine → p.Fine) (hc : a.length ≤ cap)
    (h : Step p1 p' (cap - a.length) chunk r (got ++ a)) : Step p p' cap (a ++ chunk) r got := by
  refine ⟨h.inv, by rw [hr, h.rest, List.append_assoc], h.bound.trans hb, h.len.trans hl, fun e x => he e (h.errs e x), by have := h.meas; simp; omega, ?_⟩
  rcases h.res with ⟨h1, h2, h3, h4⟩ | ⟨e, h1, h2, h2', h3⟩
  · refine .inl ⟨by rw [h1, List.append_assoc], by simp; omega, ?_, fun x => hfine (h4 x)⟩
    rcases h3 with h3 | h3
    · exact .inl (by simp; omega)
    · exact .inr h3
  · exact .inr ⟨e, h1, by simp; omega, by simp; omega, he e h3⟩

theorem Prepared.readLoop_spec : ∀ (fuel n : Nat) (got : Bytes) (p : Prepared), p.Inv → got.length ≤ n → n - got.length + p.streams.length < fuel →
    ∃ chunk, Step p (p.readLoop fuel n got).2 (n - got.length) chunk (p.readLoop fuel n got).1 got := by
  intro fuel
  induction fuel with
  | zero => intro n got p _ _ h; omega
  | succ fuel ih =>
    intro n got p hi hg hfu
    have go : ∀ (p1 : Prepared) (a : Bytes), p1.Inv → p.rest = a ++ p1.rest → p1.endBoundary.data = p.endBoundary.data → p1.contentLen = p.contentLen → p1.meas + a.length ≤ p.meas →
        (∀ e, p1.HasErr e → p.HasErr e) → (p1.Fine → p.Fine) → a.length ≤ n - got.length → n - (got ++ a).length + p1.streams.length < fuel →
        ∃ chunk, Step p (p1.readLoop fuel n (got ++ a)).2 (n - got.length) chunk (p1.readLoop fuel n (got ++ a)).1 got := by
      intro p1 a h1 h2 h3 h4 hm h5 h6 h7 h8
      obtain ⟨chunk, hs⟩ := ih n (got ++ a) p1 h1 (by simp; omega) h8
      have e : n - (got ++ a).length = n - got.length - a.length := by simp; omega
      rw [e] at hs
      exact ⟨_, hs.cons h2 h3 h4 hm h5 h6 h7⟩
    unfold Prepared.readLoop
    split
    case isFalse h =>
      refine ⟨[], hi, by simp, rfl, rfl, fun _ h => h, by simp, .inl ⟨by simp, by simp, ?_, id⟩⟩
      by_cases hlt : got.length < n
      · right
        cases he : p.endBoundary.atEnd with
        | true => rfl
        | false => exact absurd ⟨hlt, by simp [he]⟩ h
      · left; simp; omega
    case isTrue h =>
      obtain ⟨hlt, hend⟩ := h
      have hend : p.endBoundary.atEnd = false := by simpa using hend
      have hn0 : n - got.length ≠ 0 := by omega
      split
      · -- text
        next ht =>
        have ht : p.text.atEnd = false := by simpa using ht
        obtain ⟨h1, h2, h3, h4⟩ := p.text.read_spec (n - got.length) hi.text
        have hne : p.text.rest ≠ [] := fun h => by rw [(Cursor.atEnd_iff hi.text).mpr h] at ht; simp at ht
        have hz : ¬ (p.endBoundary.pos ≠ 0 ∨ p.endBoundary.data = []) := fun h => by rw [(hi.order h).1] at ht; simp at ht
        have hl : (p.text.read (n - got.length)).1.length ≤ n - got.length := by rw [h1, List.length_take]; omega
        have hl0 : (p.text.read (n - got.length)).1.length ≠ 0 := by
          rw [h1]; intro h; rw [List.length_eq_zero_iff, List.take_eq_nil_iff] at h; simp [hn0, hne] at h
        refine go { p with text := (p.text.read (n - got.length)).2 } _ ⟨h3, hi.end_, hi.streams, fun h => absurd h hz⟩ ?_ rfl rfl
          (by simp only [Prepared.meas, h1, h2, List.length_take, List.length_drop]; omega) (fun _ h => h) id hl (by simp; omega)
        simp only [Prepared.rest]
        rw [h1, h2]
        simp only [← List.append_assoc, List.take_append_drop]
      · next ht =>
        have ht : p.text.atEnd = true := by simpa using ht
        have ht0 := (Cursor.atEnd_iff hi.text).mp ht
        split
        · next field hlast =>
          obtain ⟨ss, hss⟩ : ∃ ss, p.streams = ss ++ [field] := by
            rw [List.getLast?_eq_some_iff] at hlast; exact hlast
          have hdl : p.streams.dropLast = ss := by rw [hss]; simp
          rw [hdl]
          have hz : ¬ (p.endBoundary.pos ≠ 0 ∨ p.endBoundary.data = []) := fun h => by have := (hi.order h).2; rw [hss] at this; simp at this
          have hsl : p.streams.length = ss.length + 1 := by rw [hss]; simp
          have hrest : p.rest = field.rest ++ (ss.reverse.flatMap PField.rest ++ p.endBoundary.rest) := by
            simp [Prepared.rest, ht0, hss]
          have hF : ∀ g : PField, ∀ q : Prepared, q.streams = ss ++ [g] → (∀ e, .err e ∈ g.stream → .err e ∈ field.stream) → ∀ e, q.HasErr e → p.HasErr e := by
            intro g q hq hg e ⟨f, hf, he⟩
            rw [hq] at hf
            rcases List.mem_append.mp hf with hf | hf
            · exact ⟨f, by rw [hss]; simp [hf], he⟩
            · rw [List.mem_singleton.mp hf] at he
              exact ⟨field, by rw [hss]; simp, hg e he⟩
          have hst := PField.read_spec hn0 (hi.streams field (by rw [hss]; simp))
          have herr := fun e => PField.read_errs (f := field) (n := n - got.length) (e := e)
          have hme := PField.read_meas (n := n - got.length) (hi.streams field (by rw [hss]; simp))
          have hpm : ∀ (t : List PField), { p with streams := t }.meas = p.text.rest.length + (t.map PField.meas).sum + p.endBoundary.rest.length := fun t => rfl
          have hpm0 : p.meas = p.text.rest.length + ((ss.map PField.meas).sum + field.meas) + p.endBoundary.rest.length := by simp [Prepared.meas, hss]
          generalize field.read (n - got.length) = x at hst herr hme ⊢
          obtain ⟨r, field'⟩ := x
          rcases hst with ⟨rfl, h2, h3⟩ | ⟨x, xs, rfl, h2, h3, h4, h5⟩ | ⟨e, rfl, h2, h3, h4⟩
          · simp only
            have := go { p with streams := ss } [] ⟨hi.text, hi.end_, fun f hf => hi.streams f (by rw [hss]; simp [hf]), fun h => absurd h hz⟩
              (by rw [hrest, h2]; simp [Prepared.rest, ht0]) rfl rfl (by rw [hpm, hpm0]; simp <;> omega) (fun e ⟨f, hf, he⟩ => ⟨f, by rw [hss]; simp [hf], he⟩)
              (fun hfi f hf => by
                rw [hss] at hf
                rcases List.mem_append.mp hf with hf | hf
                · exact hfi f hf
                · rw [List.mem_singleton.mp hf]; exact h3) (by simp) (by simp; omega)
            simpa using this
          · simp only
            refine go { p with streams := ss ++ [field'] } (x :: xs) ⟨hi.text, hi.end_, ?_, fun h => absurd h hz⟩ ?_ rfl rfl (by rw [hpm, hpm0]; simp at hme ⊢; omega) (hF field' _ rfl herr) ?_ h2 ?_
            · intro f hf
              rcases List.mem_append.mp hf with hf | hf
              · exact hi.streams f (by rw [hss]; simp [hf])
              · rw [List.mem_singleton.mp hf]; exact h4
            · rw [hrest, h3]; simp [Prepared.rest, ht0]
            · intro hfi f hf
              rw [hss] at hf
              rcases List.mem_append.mp hf with hf | hf
              · exact hfi f (by simp [hf])
              · rw [List.mem_singleton.mp hf]; exact h5 (hfi field' (by simp))
            · simp at h2 ⊢; omega
          · simp only
            refine ⟨[], ⟨hi.text, hi.end_, ?_, fun h => absurd h hz⟩, ?_, rfl, rfl, hF field' _ rfl herr, by rw [hpm, hpm0]; simp at hme ⊢; omega, .inr ⟨e, rfl, by simp; omega, by rw [hpm, hpm0]; simp at hme ⊢; omega, field, by rw [hss]; simp, h2⟩⟩
            · intro f hf
              rcases List.mem_append.mp hf with hf | hf
              · exact hi.streams f (by rw [hss]; simp [hf])
              · rw [List.mem_singleton.mp hf]; exact h4
            · rw [hrest, h3]; simp [Prepared.rest, ht0]
        · next hlast =>
          have hs0 : p.streams = [] := by simpa using hlast
          obtain ⟨h1, h2, h3, h4⟩ := p.endBoundary.read_spec (n - got.length) hi.end_
          have hne : p.endBoundary.rest ≠ [] := fun h => by rw [(Cursor.atEnd_iff hi.end_).mpr h] at hend; simp at hend
          have hl : (p.endBoundary.read (n - got.length)).1.length ≤ n - got.length := by rw [h1, List.length_take]; omega
          have hl0 : (p.endBoundary.read (n - got.length)).1.length ≠ 0 := by
            rw [h1]; intro h; rw [List.length_eq_zero_iff, List.take_eq_nil_iff] at h; simp [hn0, hne] at h
          refine go { p with endBoundary := (p.endBoundary.read (n - got.length)).2 } _ ⟨hi.text, h3, hi.streams, fun _ => ⟨ht, hs0⟩⟩ ?_ h4 rfl
            (by simp only [Prepared.meas, h1, h2, List.length_take, List.length_drop]; omega) (fun _ h => h) id hl (by simp; omega)
          simp only [Prepared.rest, hs0, ht0]
          rw [h1, h2]
          simp

theorem Prepared.read_spec {p : Prepared} (hi : p.Inv) (n : Nat) (hn : n ≠ 0) : ∃ chunk, Step p (p.read n).2 n chunk (p.read n).1 [] := by
  unfold Prepared.read
  rw [if_neg hn]
  exact p.readLoop_spec (n + p.streams.length + 1) n [] hi (by simp) (by simp)

theorem Prepared.Inv.done {p : Prepared} (hi : p.Inv) (h : p.endBoundary.atEnd = true) : p.rest = [] ∧ p.streams = [] := by
  have h0 := (Cursor.atEnd_iff hi.end_).mp h
  have : p.endBoundary.pos ≠ 0 ∨ p.endBoundary.data = [] := by
    simp only [Cursor.atEnd, decide_eq_true_eq] at h
    by_cases hz : p.endBoundary.pos = 0
    · right; rw [hz] at h; exact List.length_eq_zero_iff.mp h.symm
    · exact .inl hz
  obtain ⟨h1, h2⟩ := hi.order this
  exact ⟨by simp [Prepared.rest, h0, h2, (Cursor.atEnd_iff hi.text).mp h1], h2⟩

/-! ## Preparing -/

def ClientOp.toField : ClientOp → LazyField
  | .text name val => { name := name, data := .text val }
  | .file name path => { name := name, data := .file path }
  | .stream name data filename ct => { name := name, data := .stream filename (ct.getD octetStream) data }

theorem build_eq (os : List ClientOp) : LazyMp.build os = os.map ClientOp.toField := by
  have : ∀ (os : List ClientOp) (m : LazyMp), os.foldl LazyMp.add m = m ++ os.map ClientOp.toField := by
    intro os
    induction os with
    | nil => intro m; simp
    | cons o os ih => intro m; rw [List.foldl_cons, ih]; cases o <;> simp [LazyMp.add, ClientOp.toField]
  simpa [LazyMp.build] using this os []

theorem standsFor_file {env : FileEnv} {n : Bytes} {p : Path} {evs : List Ev} (ho : env.open_ p = .ok evs) :
    StandsFor env (.file n p) ⟨n, optFilename p, some (env.guess p).src, Ev.upToEnd evs⟩ := by
  rcases List.eq_nil_or_concat p with rfl | ⟨dir, fname, rfl⟩
  · exact .fileUnnamed n [] evs ho (by simp)
  · rw [List.concat_eq_append] at ho ⊢
    by_cases hu : IsFileName fname
    · rw [optFilename_some hu]; exact .file n dir fname evs ho hu
    · rw [optFilename_none hu]
      refine .fileUnnamed n _ evs ho ?_
      intro d f h
      have := List.append_inj_right' h rfl
      simp at this
      rw [← this]; exact hu

theorem standsFor_stream {env : FileEnv} (n : Bytes) (evs : List Ev) (fn : Option Bytes) (ct : Option Mime) :
    StandsFor env (.stream n evs fn ct) ⟨n, fn, some (ct.getD octetStream).src, Ev.upToEnd evs⟩ := by
  cases ct with
  | none => exact .octets n evs fn
  | some ct => exact .stream n evs fn ct

theorem fromStream_rest (n b : Bytes) (ct : Mime) (fn : Option Bytes) (evs : List Ev) :
    (PField.fromStream n (b!"\r\n--" ++ b) ct fn evs).rest = lazyPart b ⟨n, fn, some ct.src, Ev.upToEnd (Ev.dropErrs evs)⟩ := by
  rw [upToEnd_dropErrs]
  cases fn <;> simp [PField.rest, PField.fromStream, Cursor.rest, Cursor.new, lazyPart, OutField.headers, OutField.disposition, crlf, dashes]

/-- What preparing makes of the calls `os`, which stand for `fs`. -/
structure PrepDone (env : LazyEnv) (b : Bytes) (os : List ClientOp) (fs : List OutField) (s s' : PrepState) : Prop where
  text : s'.text = s.text ++ (fs.filter (·.ctype.isNone)).flatMap (lazyPart b)
  streams : ∃ ss, s'.streams = s.streams ++ ss ∧ ss.map PField.rest = (fs.filter (·.ctype.isSome)).map (lazyPart b) ∧ (∀ f ∈ ss, f.header.pos = 0) ∧
    (∀ f ∈ ss, ∃ o ∈ os, o.reads env.toFileEnv f.stream) ∧ (∀ o ∈ os, ∀ evs, o.reads env.toFileEnv evs → ∃ f ∈ ss, f.stream = evs)
  useLen : s'.useLen = (s.useLen && !os.any (·.isStream))
  len : NoReadErr env.toFileEnv os → TrueSizes env os → os.any (·.isStream) = false → s'.contentLen = s.contentLen + ((fs.filter (·.ctype.isSome)).flatMap (lazyPart b)).length

theorem prepLoop_spec (env : LazyEnv) (b : Bytes) : ∀ (os : List ClientOp) (s : PrepState),
    (∃ fs s', prepLoop env (b!"\r\n--" ++ b) s (os.map ClientOp.toField) = .ok s' ∧ All2 (StandsFor env.toFileEnv.dropErrs) (os.map ClientOp.dropErrs) fs ∧ PrepDone env b os fs s s' ∧
      (∀ o ∈ os, ∀ n e, ¬ FileFails env o n e)) ∨
    (∃ pre o post n e, os = pre ++ o :: post ∧ FileFails env o n e ∧ (∀ o' ∈ pre, ∀ n e, ¬ FileFails env o' n e) ∧
      prepLoop env (b!"\r\n--" ++ b) s (os.map ClientOp.toField) = .error ⟨some n, e⟩) := by
  intro os
  induction os with
  | nil =>
    intro s
    exact .inl ⟨[], s, rfl, .nil, ⟨by simp, ⟨[], by simp⟩, by simp, by simp⟩, by simp⟩
  | cons o os ih =>
    intro s
    -- a step that succeeds
    have go : ∀ (s1 : PrepState) (f : OutField), (∀ n e, ¬ FileFails env o n e) → StandsFor env.toFileEnv.dropErrs o.dropErrs f →
        prepLoop env (b!"\r\n--" ++ b) s (List.map ClientOp.toField (o :: os)) = prepLoop env (b!"\r\n--" ++ b) s1 (os.map ClientOp.toField) →
        (∀ fs s', PrepDone env b os fs s1 s' → PrepDone env b (o :: os) (f :: fs) s s') →
        (∃ fs s', prepLoop env (b!"\r\n--" ++ b) s (List.map ClientOp.toField (o :: os)) = .ok s' ∧ All2 (StandsFor env.toFileEnv.dropErrs) (List.map ClientOp.dropErrs (o :: os)) fs ∧ PrepDone env b (o :: os) fs s s' ∧
          (∀ o' ∈ o :: os, ∀ n e, ¬ FileFails env o' n e)) ∨
        (∃ pre o' post n e, o :: os = pre ++ o' :: post ∧ FileFails env o' n e ∧ (∀ o' ∈ pre, ∀ n e, ¬ FileFails env o' n e) ∧
          prepLoop env (b!"\r\n--" ++ b) s (List.map ClientOp.toField (o :: os)) = .error ⟨some n, e⟩) := by
      intro s1 f hno hf heq hstep
      rw [heq]
      rcases ih s1 with ⟨fs, s', h1, h2, h3, h4⟩ | ⟨pre, o', post, n, e, h1, h2, h3, h4⟩
      · refine .inl ⟨f :: fs, s', h1, .cons hf h2, hstep fs s' h3, fun o' ho' => ?_⟩
        rcases List.mem_cons.mp ho' with rfl | ho'
        · exact hno
        · exact h4 o' ho'
      · refine .inr ⟨o :: pre, o', post, n, e, by rw [h1]; rfl, h2, fun o' ho' => ?_, h4⟩
        rcases List.mem_cons.mp ho' with rfl | ho'
        · exact hno
        · exact h3 o' ho'
    cases o with
    | text name val =>
      refine go { s with text := s.text ++ (b!"\r\n--" ++ b ++ b!"\r\nContent-Disposition: form-data; name=\"" ++ name ++ b!"\"\r\n\r\n" ++ val) } ⟨name, none, none, val⟩
        (by rintro n e ⟨p, hp, _⟩; cases hp) (.text name val) (by simp [ClientOp.toField, prepLoop]) ?_
      intro fs s' h
      obtain ⟨ss, a1, a2, a3, a4, a5⟩ := h.streams
      refine ⟨?_, ⟨ss, a1, by simpa using a2, a3, ?_, ?_⟩, ?_, ?_⟩
      · rw [h.text]; simp [lazyPart, OutField.headers, OutField.disposition, crlf, dashes]
      · intro f hf; obtain ⟨o, ho, hr⟩ := a4 f hf; exact ⟨o, by simp [ho], hr⟩
      · intro o ho evs hr
        rcases List.mem_cons.mp ho with rfl | ho
        · exact hr.elim
        · exact a5 o ho evs hr
      · rw [h.useLen]; simp [ClientOp.isStream]
      · intro n1 n2 n3
        rw [h.len (fun o ho => n1 o (by simp [ho])) (fun n p evs hm => n2 n p evs (by simp [hm])) (by simpa [ClientOp.isStream] using n3)]
        simp
    | file name path =>
      have fail : ∀ e, (env.open_ path = .error e ∨ (∃ evs, env.open_ path = .ok evs ∧ env.size path = .error e)) →
          PField.fromPath env name path (b!"\r\n--" ++ b) = .error ⟨some name, e⟩ := by
        rintro e (h | ⟨evs, h1, h2⟩)
        · simp [PField.fromPath, h, LazyErr.withField]
        · simp [PField.fromPath, h1, h2, LazyErr.withField]
      have hfail : ∀ e, (env.open_ path = .error e ∨ (∃ evs, env.open_ path = .ok evs ∧ env.size path = .error e)) →
          ∃ pre o' post n e, .file name path :: os = pre ++ o' :: post ∧ FileFails env o' n e ∧ (∀ o' ∈ pre, ∀ n e, ¬ FileFails env o' n e) ∧
          prepLoop env (b!"\r\n--" ++ b) s (List.map ClientOp.toField (.file name path :: os)) = .error ⟨some n, e⟩ := by
        intro e h
        refine ⟨[], .file name path, os, name, e, rfl, ⟨path, rfl, h⟩, by simp, ?_⟩
        have := fail e h
        rw [List.map_cons]
        unfold prepLoop
        simp only [ClientOp.toField, this]
      cases ho : env.open_ path with
      | error e => exact .inr (hfail e (.inl ho))
      | ok evs =>
        cases hsz : env.size path with
        | error e => exact .inr (hfail e (.inr ⟨evs, ho, hsz⟩))
        | ok len =>
          let pf := PField.fromStream name (b!"\r\n--" ++ b) (env.guess path) (optFilename path) evs
          have hp : PField.fromPath env name path (b!"\r\n--" ++ b) = .ok (pf, len + pf.header.data.length) := by
            simp [PField.fromPath, ho, hsz, mimeFilename, pf]
          have hrest : pf.rest = lazyPart b ⟨name, optFilename path, some (env.guess path).src, Ev.upToEnd (Ev.dropErrs evs)⟩ := fromStream_rest _ _ _ _ _
          refine go { s with contentLen := s.contentLen + (len + pf.header.data.length), streams := s.streams ++ [pf] } ⟨name, optFilename path, some (env.guess path).src, Ev.upToEnd (Ev.dropErrs evs)⟩ ?_ ?_ ?_ ?_
          · rintro n e ⟨p, hp, h⟩
            cases hp
            rcases h with h | ⟨evs', h1, h2⟩
            · rw [ho] at h; simp at h
            · rw [hsz] at h2; simp at h2
          · exact standsFor_file (env := env.toFileEnv.dropErrs) (by simp [FileEnv.dropErrs, ho, Except.map])
          · rw [List.map_cons]
            conv => lhs; unfold prepLoop
            simp only [ClientOp.toField, hp]
          · intro fs s' h
            obtain ⟨ss, a1, a2, a3, a4, a5⟩ := h.streams
            refine ⟨by rw [h.text]; simp, ⟨pf :: ss, by rw [a1]; simp, by simp [a2, hrest], ?_, ?_, ?_⟩, by rw [h.useLen]; simp [ClientOp.isStream], ?_⟩
            · intro f hf
              rcases List.mem_cons.mp hf with rfl | hf
              · rfl
              · exact a3 f hf
            · intro f hf
              rcases List.mem_cons.mp hf with rfl | hf
              · exact ⟨_, List.mem_cons_self, ho⟩
              · obtain ⟨o, ho, hr⟩ := a4 f hf; exact ⟨o, by simp [ho], hr⟩
            · intro o ho' evs' hr
              rcases List.mem_cons.mp ho' with rfl | ho'
              · cases ho.symm.trans hr; exact ⟨pf, List.mem_cons_self, rfl⟩
              · obtain ⟨f, hf, hs⟩ := a5 o ho' evs' hr; exact ⟨f, by simp [hf], hs⟩
            · intro n1 n2 n3
              rw [h.len (fun o ho => n1 o (by simp [ho])) (fun n p evs hm => n2 n p evs (by simp [hm])) (by simpa [ClientOp.isStream] using n3)]
              have hne := n1 (.file name path) (by simp) evs ho
              have hl := n2 name path evs (by simp) ho
              rw [hsz] at hl
              cases hl
              have : pf.header.data.length + (Ev.upToEnd evs).length = (lazyPart b ⟨name, optFilename path, some (env.guess path).src, Ev.upToEnd (Ev.dropErrs evs)⟩).length := by
                have e1 : Ev.allBytes evs = Ev.upToEnd evs := by rw [← upToEnd_dropErrs, dropErrs_noErr hne]
                rw [← hrest]
                simp only [PField.rest, pf, PField.fromStream, Cursor.rest, Cursor.new, List.drop_zero, e1, List.length_append]
              simp only [List.filter_cons, Option.isSome_some, if_true, List.flatMap_cons, List.length_append]
              omega
    | stream name evs fn ct =>
      let pf := PField.fromStream name (b!"\r\n--" ++ b) (ct.getD octetStream) fn evs
      have hrest : pf.rest = lazyPart b ⟨name, fn, some (ct.getD octetStream).src, Ev.upToEnd (Ev.dropErrs evs)⟩ := fromStream_rest _ _ _ _ _
      refine go { s with useLen := false, streams := s.streams ++ [pf] } ⟨name, fn, some (ct.getD octetStream).src, Ev.upToEnd (Ev.dropErrs evs)⟩
        (by rintro n e ⟨p, hp, _⟩; cases hp) (standsFor_stream _ _ _ _) (by simp [ClientOp.toField, prepLoop, pf]) ?_
      intro fs s' h
      obtain ⟨ss, a1, a2, a3, a4, a5⟩ := h.streams
      refine ⟨by rw [h.text]; simp, ⟨pf :: ss, by rw [a1]; simp, by simp [a2, hrest], ?_, ?_, ?_⟩, by rw [h.useLen]; simp [ClientOp.isStream], by simp [ClientOp.isStream]⟩
      · intro f hf
        rcases List.mem_cons.mp hf with rfl | hf
        · rfl
        · exact a3 f hf
      · intro f hf
        rcases List.mem_cons.mp hf with rfl | hf
        · exact ⟨_, List.mem_cons_self, rfl⟩
        · obtain ⟨o, ho, hr⟩ := a4 f hf; exact ⟨o, by simp [ho], hr⟩
      · intro o ho' evs' hr
        rcases List.mem_cons.mp ho' with rfl | ho'
        · cases hr; exact ⟨pf, List.mem_cons_self, rfl⟩
        · obtain ⟨f, hf, hs⟩ := a5 o ho' evs' hr; exact ⟨f, by simp [hf], hs⟩

/-- A prepared request, before anything is read. -/
structure PrepSpec (env : LazyEnv) (b : Bytes) (os : List ClientOp) (fs : List OutField) (p : Prepared) : Prop where
  fields : All2 (StandsFor env.toFileEnv.dropErrs) (os.map ClientOp.dropErrs) fs
  inv : p.Inv
  start : p.text.pos = 0 ∧ p.endBoundary.pos = 0 ∧ ∀ f ∈ p.streams, f.header.pos = 0
  rest : p.rest = encodeLazy b (lazyOrder fs)
  bound : p.endBoundary.data = if os = [] then [] else b!"\r\n--" ++ b ++ b!"--"
  errs : ∀ e, p.HasErr e → ∃ o ∈ os, ∃ evs, o.reads env.toFileEnv evs ∧ .err e ∈ evs
  fine : p.Fine → ∀ o ∈ os, ∀ evs, o.reads env.toFileEnv evs → ReadsFine evs
  noLen : os.any (·.isStream) = true → p.contentLen = none
  len : NoReadErr env.toFileEnv os → TrueSizes env os → os.any (·.isStream) = false →
    p.contentLen = some (((fs.filter (·.ctype.isSome)).flatMap (lazyPart b)).length + p.endBoundary.data.length)
  someLen : os.any (·.isStream) = false → p.contentLen ≠ none
  text : p.text.data = (fs.filter (·.ctype.isNone)).flatMap (lazyPart b)

theorem lazyOrder_eq_nil {fs : List OutField} : lazyOrder fs = [] ↔ fs = [] := by
  constructor
  · intro h
    simp only [lazyOrder, List.append_eq_nil_iff, List.reverse_eq_nil_iff, List.filter_eq_nil_iff] at h
    cases fs with
    | nil => rfl
    | cons f fs =>
      have h1 := h.1 f (by simp)
      have h2 := h.2 f (by simp)
      cases hc : f.ctype <;> simp [hc] at h1 h2
  · rintro rfl; rfl

theorem flatMap_of_map {α β : Type} {f : α → List UInt8} {g : β → List UInt8} {xs : List α} {ys : List β} (h : xs.map f = ys.map g) : xs.reverse.flatMap f = ys.reverse.flatMap g := by
  simp only [List.flatMap_def, List.map_reverse, h]

theorem all2_nil_iff {α β : Type} {R : α → β → Prop} {xs : List α} {ys : List β} (h : All2 R xs ys) : xs = [] ↔ ys = [] := by
  cases h <;> simp

theorem prepare_spec {env : LazyEnv} {b : Bytes} {os : List ClientOp} {p : Prepared} (h : PreparedFrom env b os p) : ∃ fs, PrepSpec env b os fs p := by
  unfold PreparedFrom LazyMp.prepare Prepared.fromFields at h
  rw [build_eq] at h
  rcases prepLoop_spec env b os ⟨[], [], 0, true⟩ with ⟨fs, s', h1, h2, h3, h4⟩ | ⟨pre, o, post, n, e, h1, h2, h3, h4⟩
  case inr => simp only [h4] at h; cases h
  refine ⟨fs, ?_⟩
  simp only [h1, Except.ok.injEq] at h
  obtain ⟨ss, a1, a2, a3, a4, a5⟩ := h3.streams
  have ht := h3.text
  simp only [List.nil_append] at ht a1
  have hnil := all2_nil_iff h2
  rw [List.map_eq_nil_iff] at hnil
  have hemp : (s'.text.isEmpty && s'.streams.isEmpty) = true ↔ os = [] := by
    rw [hnil, ← lazyOrder_eq_nil, ht, a1]
    have hn : ∀ gs : List OutField, gs.flatMap (lazyPart b) = [] ↔ gs = [] := by
      intro gs
      cases gs with
      | nil => simp
      | cons f gs => simp [lazyPart, crlf]
    have hss : ss = [] ↔ fs.filter (·.ctype.isSome) = [] := by
      have := congrArg List.length a2
      simp only [List.length_map] at this
      rw [← List.length_eq_zero_iff, this, List.length_eq_zero_iff]
    simp only [Bool.and_eq_true, List.isEmpty_iff, lazyOrder, List.append_eq_nil_iff, List.reverse_eq_nil_iff]
    rw [hn, hss]
  have hfl : (ss.reverse.flatMap PField.rest) = (fs.filter (·.ctype.isSome)).reverse.flatMap (lazyPart b) := flatMap_of_map a2
  subst h
  refine ⟨h2, ?_, ⟨rfl, rfl, fun f hf => a3 f (by simpa only [a1] using hf)⟩, ?_, ?_, ?_, ?_, ?_, ?_, ?_, ht⟩
  · refine ⟨by simp [Cursor.new], by simp [Cursor.new], fun f hf => ?_, ?_⟩
    · rw [a1] at hf; rw [a3 f hf]; simp
    · rintro (h | h)
      · simp [Cursor.new] at h
      · simp only [Cursor.new] at h
        split at h
        · next he =>
          simp only [Bool.and_eq_true, List.isEmpty_iff] at he
          simp [Cursor.atEnd, Cursor.new, he.1, he.2]
        · simp at h
  · simp only [Prepared.rest, Cursor.rest, Cursor.new, List.drop_zero, a1, hfl, ht]
    unfold encodeLazy
    by_cases ho : os = []
    · have := hemp.mpr ho
      rw [a1, ht] at this
      rw [if_pos (lazyOrder_eq_nil.mpr (hnil.mp ho)), this, hnil.mp ho]
      simp
    · rw [if_neg (fun h => ho (hnil.mpr (lazyOrder_eq_nil.mp h)))]
      have : (s'.text.isEmpty && s'.streams.isEmpty) = false := by
        cases hc : (s'.text.isEmpty && s'.streams.isEmpty) with
        | false => rfl
        | true => exact absurd (hemp.mp hc) ho
      rw [a1, ht] at this
      rw [this]
      simp [lazyOrder, crlf, dashes]
  · simp only [Cursor.new]
    by_cases ho : os = []
    · rw [hemp.mpr ho, if_pos ho]; simp
    · have : (s'.text.isEmpty && s'.streams.isEmpty) = false := by
        cases hc : (s'.text.isEmpty && s'.streams.isEmpty) with
        | false => rfl
        | true => exact absurd (hemp.mp hc) ho
      rw [this, if_neg ho]; simp
  · rintro e ⟨f, hf, he⟩
    simp only [a1] at hf
    obtain ⟨o, ho, hr⟩ := a4 f hf
    exact ⟨o, ho, _, hr, he⟩
  · intro hf o ho evs hr
    obtain ⟨f, hfm, rfl⟩ := a5 o ho evs hr
    exact hf f (by simpa only [a1] using hfm)
  · intro hs
    have := h3.useLen
    simp only [hs, Bool.not_true, Bool.and_false] at this
    simp [this]
  · intro n1 n2 n3
    have hu := h3.useLen
    simp only [n3, Bool.not_false, Bool.and_true] at hu
    have := h3.len n1 n2 n3
    simp only [Nat.zero_add] at this
    simp only [hu, if_true, this, Cursor.new]
  · intro hs
    have := h3.useLen
    simp only [hs, Bool.not_false, Bool.and_true] at this
    simp [this]

/-! ## Many reads -/

theorem Prepared.read_inv {p : Prepared} (hi : p.Inv) (n : Nat) : (p.read n).2.Inv ∧ (p.read n).2.endBoundary.data = p.endBoundary.data ∧ (∀ e, (p.read n).2.HasErr e → p.HasErr e) := by
  by_cases hn : n = 0
  · subst hn; exact ⟨hi, rfl, fun _ h => h⟩
  · obtain ⟨_, h⟩ := p.read_spec hi n hn
    exact ⟨h.inv, h.bound, h.errs⟩

theorem Prepared.reads_bound : ∀ (ns : List Nat) {p : Prepared}, p.Inv → (p.reads ns).2.endBoundary.data = p.endBoundary.data := by
  intro ns
  induction ns with
  | nil => intro p _; rfl
  | cons n ns ih =>
    intro p hi
    obtain ⟨h1, h2, -⟩ := p.read_inv hi n
    exact (ih h1).trans h2

/-- Without failures: every read returns the next bytes. -/
theorem Prepared.read_ok {p : Prepared} (hi : p.Inv) (hne : ∀ e, ¬ p.HasErr e) (n : Nat) : (p.read n).1 = .ok (p.rest.take n) ∧ (p.read n).2.rest = p.rest.drop n := by
  by_cases hn : n = 0
  · subst hn; simp [Prepared.read]
  · obtain ⟨chunk, h⟩ := p.read_spec hi n hn
    rcases h.res with ⟨h1, h2, h3, -⟩ | ⟨e, h1, h2, -, h3⟩
    · have hlen : chunk.length = n ∨ (p.read n).2.rest = [] := h3.imp_right fun h3 => (h.inv.done h3).1
      rw [h1, h.rest]
      rcases hlen with hl | hl
      · subst hl; simp
      · rw [hl]; simp [List.take_of_length_le h2, h2]
    · exact absurd h3 (hne e)

theorem Prepared.reads_ok : ∀ (ns : List Nat) {p : Prepared}, p.Inv → (∀ e, ¬ p.HasErr e) → (p.reads ns).1 = (cuts p.rest ns).map .ok := by
  intro ns
  induction ns with
  | nil => intro p _ _; rfl
  | cons n ns ih =>
    intro p hi hne
    obtain ⟨h1, h2⟩ := p.read_ok hi hne n
    obtain ⟨i1, -, i3⟩ := p.read_inv hi n
    simp only [Prepared.reads, cuts, List.map_cons]
    rw [h1, ih i1 (fun e h => hne e (i3 e h)), h2]

/-- With failures: the bytes that are passed at every read. -/
theorem Prepared.reads_pieces : ∀ (ns : List Nat) {p : Prepared}, p.Inv → ∃ pieces : List Bytes, p.rest = pieces.flatten ++ (p.reads ns).2.rest ∧ pieces.length = ns.length ∧
    All2 (fun x n => x.1 = .ok x.2 ∨ (∃ e, x.1 = .err e) ∧ x.2.length < n) ((p.reads ns).1.zip pieces) ns ∧ (p.reads ns).1.length = ns.length := by
  intro ns
  induction ns with
  | nil => intro p _; exact ⟨[], by simp [Prepared.reads], rfl, .nil, rfl⟩
  | cons n ns ih =>
    intro p hi
    obtain ⟨pieces, h1, h2, h3, h4⟩ := ih (p.read_inv hi n).1
    by_cases hn : n = 0
    · subst hn
      refine ⟨[] :: pieces, ?_, by simp [h2], .cons (.inl rfl) h3, by simp [Prepared.reads, h4]⟩
      have e : (p.read 0).2 = p := rfl
      simp only [Prepared.reads, e] at h1 ⊢
      simpa using h1
    · obtain ⟨chunk, h⟩ := p.read_spec hi n hn
      refine ⟨chunk :: pieces, ?_, by simp [h2], .cons ?_ h3, by simp [Prepared.reads, h4]⟩
      · simp only [Prepared.reads, List.flatten_cons, List.append_assoc]; rw [← h1]; exact h.rest
      · rcases h.res with ⟨h1, h2, h3, -⟩ | ⟨e, h1, h2, -, h3⟩
        · exact .inl h1
        · exact .inr ⟨⟨e, h1⟩, h2⟩

/-- `io::copy`: whatever happens, it returns. -/
theorem Prepared.copy_total {n : Nat} (hn : n ≠ 0) : ∀ (fuel : Nat) (p : Prepared) (k : Sink), p.Inv → p.meas < fuel →
    (p.copy n fuel k).1 = .ok () ∨ ∃ e, (p.copy n fuel k).1 = .err e := by
  intro fuel
  induction fuel with
  | zero => intro p k _ h; omega
  | succ fuel ih =>
    intro p k hi hm
    obtain ⟨chunk, h⟩ := p.read_spec hi n hn
    unfold Prepared.copy
    generalize p.read n = x at h
    obtain ⟨r, p'⟩ := x
    rcases h.res with ⟨h1, h2, h3, -⟩ | ⟨e, h1, h2, h2', h3⟩
    · simp only [List.nil_append] at h1
      subst h1
      cases chunk with
      | nil => exact .inl rfl
      | cons x xs =>
        simp only
        have hw := Sink.writeAll_spec (c := fun _ => False) (x :: xs) k
        generalize k.writeAll (x :: xs) = y at hw ⊢
        obtain ⟨r', k'⟩ := y
        have hms := h.meas
        simp only [List.length_cons] at hms
        obtain ⟨_, _, ⟨hw, -⟩ | ⟨e, _, hw, -⟩⟩ := hw
        · subst hw; exact ih p' k' h.inv (by omega)
        · simp only at hw; subst hw; exact .inr ⟨e, rfl⟩
    · simp only at h1; subst h1
      have hms : p'.meas < fuel := by simp only at h2'; omega
      cases e with
      | interrupted => exact ih p' k h.inv hms
      | _ => exact .inr ⟨_, rfl⟩

/-- `io::copy` without interruptions. -/
theorem Prepared.copy_spec {n : Nat} (hn : n ≠ 0) : ∀ (fuel : Nat) (p : Prepared) (k : Sink), p.Inv → p.meas < fuel → ¬ p.HasErr .interrupted →
    Wrote p.Fine (fun e => p.HasErr e) p.rest k (p.copy n fuel k).1 (p.copy n fuel k).2.2 := by
  intro fuel
  induction fuel with
  | zero => intro p k _ h; omega
  | succ fuel ih =>
    intro p k hi hm hni
    obtain ⟨chunk, h⟩ := p.read_spec hi n hn
    unfold Prepared.copy
    generalize p.read n = x at h
    obtain ⟨r, p'⟩ := x
    rcases h.res with ⟨h1, h2, h3, h4⟩ | ⟨e, h1, h2, h2', h3⟩
    · simp only [List.nil_append] at h1
      subst h1
      cases chunk with
      | nil =>
        simp only
        have hend : p'.endBoundary.atEnd = true := h3.resolve_left (by simp; omega)
        obtain ⟨d1, d2⟩ := h.inv.done hend
        rw [h.rest, d1]
        exact .nil (h4 (by intro f hf; simp only at d2; rw [d2] at hf; simp at hf))
      | cons x xs =>
        simp only
        have hw := Sink.writeAll_spec (c := fun e => p.HasErr e) (x :: xs) k
        generalize k.writeAll (x :: xs) = y at hw ⊢
        obtain ⟨r', k'⟩ := y
        have hms := h.meas
        simp only [List.length_cons] at hms
        rw [h.rest]
        cases r' with
        | ok u => exact (hw.append ((ih p' k' h.inv (by omega) fun hh => hni (h.errs _ hh)).imp id h.errs)).imp (fun hf => h4 hf.2) fun _ h => h
        | _ => exact hw.stop _ (by simp)
    · simp only at h1; subst h1
      rw [h.rest]
      have hstop : ∀ e, p.HasErr e → Wrote p.Fine (fun e => p.HasErr e) (chunk ++ p'.rest) k (.err e) k := fun e he =>
        ⟨[], .nil, .inr ⟨e, [], rfl, List.nil_prefix, by simp, .inr ⟨rfl, he⟩⟩⟩
      cases e with
      | interrupted => exact absurd h3 hni
      | _ => exact hstop _ h3

theorem Prepared.fuel_meas {p : Prepared} (h : p.text.pos = 0 ∧ p.endBoundary.pos = 0 ∧ ∀ f ∈ p.streams, f.header.pos = 0) : p.meas < p.fuel := by
  obtain ⟨h1, h2, h3⟩ := h
  have : p.streams.map PField.meas = p.streams.map fun f => f.header.data.length + (Ev.bytes f.stream).length + f.stream.length + 1 := by
    apply List.map_congr_left
    intro f hf
    simp [PField.meas, Cursor.rest, h3 f hf]
  simp only [Prepared.meas, Prepared.fuel, this, Cursor.rest, h1, h2, List.drop_zero]
  omega

end Multipart

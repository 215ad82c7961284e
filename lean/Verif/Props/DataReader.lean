import Verif.Spec.DataReader
import Verif.Lemmas.Client
import Verif.Lemmas.Lazy
import Verif.Props.Save
/-!
# Reading saved data (C79), and `write_debug` (C80)
-/
namespace Multipart

variable {opens : Path → Except IoErr (List Ev)} {d : SavedData} {c : Bytes} {r : DataReader}

/-! ## C79 -/

theorem readEv_cases {n : Nat} (hn : n ≠ 0) {evs : List Ev} (h : NoStall evs) :
    (∃ x, (readEv n evs).1 = .ok x ∧ Ev.bytes evs = x ++ Ev.bytes (readEv n evs).2 ∧ (x = [] → Ev.bytes evs = []) ∧ NoStall (readEv n evs).2 ∧
      (x ≠ [] → (readEv n evs).2.length ≤ evs.length)) ∨
    (∃ e, (readEv n evs).1 = .err e ∧ .err e ∈ evs ∧ Ev.bytes evs = Ev.bytes (readEv n evs).2 ∧ NoStall (readEv n evs).2 ∧ (readEv n evs).2.length < evs.length) := by
  match evs, h with
  | [], h => exact .inl ⟨[], rfl, rfl, fun _ => rfl, h, fun _ => Nat.le_refl _⟩
  | .err e :: r, h => exact .inr ⟨e, rfl, List.mem_cons_self .., rfl, fun g => h (List.mem_cons_of_mem _ g), Nat.lt_succ_self _⟩
  | .data bs :: r, h =>
    have hb : bs ≠ [] := by rintro rfl; exact h (List.mem_cons_self ..)
    have hr : NoStall r := fun g => h (List.mem_cons_of_mem _ g)
    left
    simp only [readEv]
    split
    · exact ⟨bs, rfl, rfl, fun g => absurd g hb, hr, fun _ => Nat.le_succ _⟩
    · next hl =>
      refine ⟨bs.take n, rfl, by simp [Ev.bytes, ← List.append_assoc], fun g => ?_, ?_, fun _ => Nat.le_refl _⟩
      · rw [List.take_eq_nil_iff] at g; rcases g with g | g
        · exact absurd g hn
        · exact absurd g hb
      · intro g
        rcases List.mem_cons.mp g with g | g
        · simp only [Ev.data.injEq] at g
          have := List.drop_eq_nil_iff.mp g.symm
          omega
        · exact hr g

/-- All bytes that are still to come. -/
def DataReader.rest : DataReader → Bytes
  | .bytes bs => bs
  | .file f => f.buf ++ Ev.bytes f.file

/-- The file has no reads without data before its end. -/
def DataReader.Fine : DataReader → Prop
  | .bytes _ => True
  | .file f => NoStall f.file

/-- The errors to come. -/
def DataReader.HasErr (e : IoErr) : DataReader → Prop
  | .bytes _ => False
  | .file f => .err e ∈ f.file

/-- One call: it delivers a piece of what is to come (an empty one only at the end, if something was asked for), or it fails and takes nothing. -/
theorem DataReader.op_spec (hf : r.Fine) (o : DataOp) :
    (r.op o).2.Fine ∧ (∀ e, (r.op o).2.HasErr e → r.HasErr e) ∧
    ((∃ x, (r.op o).1 = .ok x ∧ r.rest = x ++ (r.op o).2.rest ∧ (o.asks ≠ 0 → x = [] → r.rest = []) ∧ (x ≠ [] → (r.op o).2.todo < r.todo)) ∨
     (∃ e, (r.op o).1 = .err e ∧ r.HasErr e ∧ r.rest = (r.op o).2.rest ∧ (r.op o).2.todo < r.todo)) := by
  cases r with
  | bytes bs =>
    have key : ∀ k, (∃ x, (Res.ok (bs.take k) : Res Bytes) = .ok x ∧ bs = x ++ bs.drop k ∧ (k ≠ 0 → x = [] → bs = []) ∧ (x ≠ [] → (bs.drop k).length < bs.length)) := by
      intro k
      refine ⟨_, rfl, (List.take_append_drop _ _).symm, fun h g => ?_, fun h => ?_⟩
      · rw [List.take_eq_nil_iff] at g; exact g.resolve_left h
      · have : bs ≠ [] := by rintro rfl; simp at h
        have hk : k ≠ 0 := by rintro rfl; simp at h
        have := List.length_pos_iff.mpr this
        rw [List.length_drop]; omega
    cases o with
    | read n => exact ⟨trivial, fun _ h => h, .inl (key n)⟩
    | use k =>
      have h1 : DataReader.op (.bytes bs) (.use k) = (.ok (bs.take k), .bytes (bs.drop k)) := by
        simp only [DataReader.op, DataReader.fillBuf, DataReader.consume]
        rw [if_neg (by rw [List.length_take]; omega)]
        simp only [List.length_take]
        congr 2
        rcases Nat.le_total k bs.length with h | h
        · rw [Nat.min_eq_left h]
        · rw [Nat.min_eq_right h, List.drop_length, List.drop_eq_nil_of_le h]
      rw [h1]
      exact ⟨trivial, fun _ h => h, .inl (key k)⟩
  | file f =>
    obtain ⟨buf, evs⟩ := f
    have hf : NoStall evs := hf
    have hdrop : ∀ (bs : Bytes) (k : Nat), bs.drop (Nat.min (bs.take k).length bs.length) = bs.drop k := by
      intro bs k
      rw [List.length_take]
      show bs.drop (min (min k bs.length) bs.length) = _
      rcases Nat.le_total k bs.length with h | h
      · rw [Nat.min_eq_left h, Nat.min_eq_left h]
      · rw [Nat.min_eq_right h, Nat.min_self, List.drop_length, List.drop_eq_nil_of_le h]
    -- both calls show the buffer and take from it
    have shown : ∀ k, ∃ y : Res Bytes × BufFile, y = (match (BufFile.mk buf evs).fillBuf with
        | (.ok bs, f) => (.ok (bs.take k), f.consume (bs.take k).length)
        | r => r) ∧ NoStall y.2.file ∧ (∀ e, Ev.err e ∈ y.2.file → Ev.err e ∈ evs) ∧
        ((∃ x, y.1 = .ok x ∧ buf ++ Ev.bytes evs = x ++ (y.2.buf ++ Ev.bytes y.2.file) ∧ (k ≠ 0 → x = [] → buf ++ Ev.bytes evs = []) ∧
            (x ≠ [] → y.2.buf.length + (Ev.bytes y.2.file).length + y.2.file.length < buf.length + (Ev.bytes evs).length + evs.length)) ∨
         (∃ e, y.1 = .err e ∧ .err e ∈ evs ∧ buf ++ Ev.bytes evs = y.2.buf ++ Ev.bytes y.2.file ∧
            y.2.buf.length + (Ev.bytes y.2.file).length + y.2.file.length < buf.length + (Ev.bytes evs).length + evs.length)) := by
      intro k
      refine ⟨_, rfl, ?_⟩
      unfold BufFile.fillBuf
      by_cases hb : buf = []
      · subst hb
        simp only [if_true]
        have herr := fun e => readEv_errs (n := bufCap) (evs := evs) (e := e)
        have hc := readEv_cases (n := bufCap) (by decide) hf
        generalize readEv bufCap evs = z at herr hc ⊢
        obtain ⟨a, evs'⟩ := z
        rcases hc with ⟨x, h1, h2, h3, h4, h5⟩ | ⟨e, h1, h2, h3, h4, h5⟩
        · simp only at h1
          subst h1
          simp only [BufFile.consume, hdrop, List.nil_append] at h2 h3 h4 h5 ⊢
          refine ⟨h4, fun e => herr e, .inl ⟨_, rfl, by rw [h2, ← List.append_assoc, List.take_append_drop], fun hk hx => ?_, fun hx => ?_⟩⟩
          · rw [List.take_eq_nil_iff] at hx
            exact h3 (hx.resolve_left hk)
          · have hx' : x ≠ [] := by rintro rfl; simp at hx
            have hk : k ≠ 0 := by rintro rfl; simp at hx
            have hl := List.length_pos_iff.mpr hx'
            have := h5 hx'
            rw [h2, List.length_drop, List.length_append, List.length_nil]
            omega
        · simp only at h1
          subst h1
          simp only [List.nil_append, List.length_nil] at h2 h3 h4 h5 ⊢
          refine ⟨h4, fun e => herr e, .inr ⟨_, rfl, h2, h3, ?_⟩⟩
          rw [h3]; omega
      · rw [if_neg hb]
        simp only [BufFile.consume, hdrop]
        refine ⟨hf, fun e h => h, .inl ⟨_, rfl, by rw [← List.append_assoc, List.take_append_drop], fun hk hx => ?_, fun hx => ?_⟩⟩
        · rw [List.take_eq_nil_iff] at hx
          exact absurd (hx.resolve_left hk) hb
        · have hk : k ≠ 0 := by rintro rfl; simp at hx
          have := List.length_pos_iff.mpr hb
          rw [List.length_drop]
          omega
    cases o with
    | read n =>
      simp only [DataReader.op, DataReader.read, DataReader.Fine, DataReader.HasErr, DataReader.rest, DataReader.todo, DataOp.asks]
      by_cases hd : buf = [] ∧ bufCap ≤ n
      · unfold BufFile.read
        rw [if_pos hd]
        obtain ⟨rfl, hd⟩ := hd
        have hn : n ≠ 0 := by rintro rfl; simp [bufCap] at hd
        simp only [List.nil_append, List.length_nil]
        rcases readEv_cases (evs := evs) hn hf with ⟨x, h1, h2, h3, h4, h5⟩ | ⟨e, h1, h2, h3, h4, h5⟩
        · refine ⟨h4, fun e => readEv_errs, .inl ⟨x, h1, h2, fun _ => h3, fun hx => ?_⟩⟩
          have := h5 hx
          have hl := List.length_pos_iff.mpr hx
          have h6 := congrArg List.length h2
          rw [List.length_append] at h6
          simp only [Nat.zero_add]
          omega
        · refine ⟨h4, fun e => readEv_errs, .inr ⟨e, h1, h2, h3, ?_⟩⟩
          have h6 := congrArg List.length h3
          simp only [Nat.zero_add]
          omega
      · obtain ⟨y, hy, h1, h2, h3⟩ := shown n
        have : (BufFile.mk buf evs).read n = y := by
          unfold BufFile.read
          rw [if_neg hd, hy]
          rcases (BufFile.mk buf evs).fillBuf with ⟨_ | _ | _ | _, f⟩ <;> rfl
        rw [this]
        exact ⟨h1, h2, h3⟩
    | use k =>
      obtain ⟨y, hy, h1, h2, h3⟩ := shown k
      have : DataReader.op (.file ⟨buf, evs⟩) (.use k) = (y.1, .file y.2) := by
        simp only [DataReader.op, DataReader.fillBuf]
        rw [hy]
        rcases (BufFile.mk buf evs).fillBuf with ⟨_ | _ | _ | _, f⟩ <;> simp [DataReader.consume]
      rw [this]
      exact ⟨h1, h2, h3⟩

theorem DataReader.ops_spec : ∀ (os : List DataOp) {r : DataReader}, r.Fine →
    (r.ops os).2.Fine ∧ r.rest = okBytes (r.ops os).1 ++ (r.ops os).2.rest ∧ (∀ x ∈ (r.ops os).1, (∃ y, x = .ok y) ∨ ∃ e, x = .err e ∧ r.HasErr e) ∧
    (∀ o, os.getLast? = some o → o.asks ≠ 0 → (r.ops os).1.getLast? = some (.ok []) → (r.ops os).2.rest = []) := by
  intro os
  induction os with
  | nil => intro r hf; exact ⟨hf, rfl, by simp [DataReader.ops], by simp⟩
  | cons o os ih =>
    intro r hf
    obtain ⟨h1, h2, h3⟩ := DataReader.op_spec hf o
    obtain ⟨g1, g2, g3, g4⟩ := ih h1
    have hrest : r.rest = okBytes (r.ops (o :: os)).1 ++ ((r.op o).2.ops os).2.rest := by
      simp only [DataReader.ops]
      rcases h3 with ⟨x, k1, k2, -⟩ | ⟨e, k1, k2, k3, -⟩
      · rw [k1, k2, g2]; simp [okBytes]
      · rw [k1, k3, g2]; simp [okBytes]
    refine ⟨g1, hrest, ?_, ?_⟩
    · intro x hx
      rcases List.mem_cons.mp hx with rfl | hx
      · rcases h3 with ⟨y, k1, -⟩ | ⟨e, k1, k2, -⟩
        · exact .inl ⟨y, k1⟩
        · exact .inr ⟨e, k1, k2⟩
      · rcases g3 x hx with h | ⟨e, k1, k2⟩
        · exact .inl h
        · exact .inr ⟨e, k1, h2 e k2⟩
    · intro o' ho ha hl
      cases os with
      | nil =>
        simp only [List.getLast?_singleton, Option.some.injEq, DataReader.ops] at ho hl ⊢
        subst ho
        rcases h3 with ⟨y, k1, k2, k3, -⟩ | ⟨e, k1, -⟩
        · rw [k1] at hl
          simp only [Res.ok.injEq] at hl
          have := k3 ha hl
          rw [this] at k2
          exact (List.append_eq_nil_iff.mp k2.symm).2
        · rw [k1] at hl; simp at hl
      | cons o2 os =>
        refine g4 o' ?_ ha ?_
        · rwa [List.getLast?_cons_cons] at ho
        · simp only [DataReader.ops] at hl ⊢
          rwa [List.getLast?_cons_cons] at hl

/-- Enough calls reach the end. -/
theorem DataReader.ops_end {o : DataOp} (_ho : o.asks ≠ 0) : ∀ (n : Nat) {r : DataReader}, r.Fine → r.todo ≤ n →
    (r.ops (List.replicate (n + 1) o)).1.getLast? = some (.ok []) ∨ ∃ m, m ≤ n ∧ (r.ops (List.replicate (m + 1) o)).1.getLast? = some (.ok []) := by
  intro n
  induction n with
  | zero =>
    intro r hf hn
    left
    simp only [Nat.zero_add, List.replicate_one, DataReader.ops, List.getLast?_singleton]
    obtain ⟨-, -, ⟨x, k1, k2, k3, k4⟩ | ⟨e, k1, k2, k3, k4⟩⟩ := DataReader.op_spec hf o
    · rw [k1]
      by_cases hx : x = []
      · rw [hx]
      · have := k4 hx; omega
    · omega
  | succ n ih =>
    intro r hf hn
    right
    obtain ⟨h1, -, h3⟩ := DataReader.op_spec hf o
    have stop : (r.op o).1 = .ok [] → ∃ m, m ≤ n + 1 ∧ (r.ops (List.replicate (m + 1) o)).1.getLast? = some (.ok []) := fun h =>
      ⟨0, by omega, by simp [DataReader.ops, h]⟩
    have step : (r.op o).2.todo < r.todo → ∃ m, m ≤ n + 1 ∧ (r.ops (List.replicate (m + 1) o)).1.getLast? = some (.ok []) := by
      intro hlt
      have more : ∀ m, (((r.op o).2.ops (List.replicate (m + 1) o)).1.getLast? = some (.ok [])) → (r.ops (List.replicate (m + 1 + 1) o)).1.getLast? = some (.ok []) := by
        intro m hm
        rw [List.replicate_succ, DataReader.ops]
        rw [List.replicate_succ, DataReader.ops] at hm ⊢
        simp only [List.getLast?_cons_cons]
        exact hm
      rcases ih h1 (by omega) with h | ⟨m, hm, h⟩
      · exact ⟨n + 1, Nat.le_refl _, more n h⟩
      · exact ⟨m + 1, by omega, more m h⟩
    rcases h3 with ⟨x, k1, k2, k3, k4⟩ | ⟨e, k1, k2, k3, k4⟩
    · by_cases hx : x = []
      · exact stop (by rw [k1, hx])
      · exact step (k4 hx)
    · exact step k4

theorem Contents.reader (h : Contents opens d c) : ∃ r, d.reader opens = .ok r ∧ r.Fine ∧ r.rest = c ∧
    ∀ e, r.HasErr e → ∃ p n evs, d = .file p n ∧ opens p = .ok evs ∧ .err e ∈ evs := by
  cases h with
  | text => exact ⟨.bytes c, rfl, trivial, rfl, fun _ h => h.elim⟩
  | bytes => exact ⟨.bytes c, rfl, trivial, rfl, fun _ h => h.elim⟩
  | @file p n evs h1 h2 => exact ⟨.file ⟨[], evs⟩, by simp [SavedData.reader, h1], h2, by simp [DataReader.rest], fun e h => ⟨p, n, evs, rfl, h1, h⟩⟩

/-- C79: saved data that consists of `c` can be opened, and whatever calls are made, what they return is a beginning of `c` without gaps: a call delivers bytes or fails with an error of the file (so data in
memory never fails), and if the last call asked for something and got nothing, everything was delivered. Any call that asks for something, repeated often enough, gets there. -/
theorem C79_reads_back (h : Contents opens d c) : ∃ r, d.reader opens = .ok r ∧
    (∀ os, okBytes (r.ops os).1 <+: c ∧
      (∀ x ∈ (r.ops os).1, (∃ y, x = .ok y) ∨ ∃ e p n evs, x = .err e ∧ d = .file p n ∧ opens p = .ok evs ∧ .err e ∈ evs) ∧
      (∀ o, os.getLast? = some o → o.asks ≠ 0 → (r.ops os).1.getLast? = some (.ok []) → okBytes (r.ops os).1 = c)) ∧
    ∀ o, o.asks ≠ 0 → ∃ m, okBytes (r.ops (List.replicate m o)).1 = c := by
  obtain ⟨r, h1, h2, rfl, h4⟩ := h.reader
  refine ⟨r, h1, fun os => ?_, fun o ho => ?_⟩
  · obtain ⟨g1, g2, g3, g4⟩ := DataReader.ops_spec os h2
    refine ⟨⟨_, g2.symm⟩, fun x hx => ?_, fun o k1 k2 k3 => ?_⟩
    · rcases g3 x hx with g | ⟨e, k1, k2⟩
      · exact .inl g
      · obtain ⟨p, n, evs, k3, k4, k5⟩ := h4 e k2
        exact .inr ⟨e, p, n, evs, k1, k3, k4, k5⟩
    · have := g4 o k1 k2 k3
      rw [this, List.append_nil] at g2
      exact g2.symm
  · have key : ∀ m, (r.ops (List.replicate (m + 1) o)).1.getLast? = some (.ok []) → okBytes (r.ops (List.replicate (m + 1) o)).1 = r.rest := by
      intro m hm
      obtain ⟨-, g2, -, g4⟩ := DataReader.ops_spec (List.replicate (m + 1) o) h2
      have := g4 o (by rw [List.getLast?_replicate]; simp) ho hm
      rw [this, List.append_nil] at g2
      exact g2.symm
    rcases DataReader.ops_end ho _ h2 (Nat.le_refl _) with g | ⟨m, -, g⟩
    · exact ⟨_, key _ g⟩
    · exact ⟨_, key _ g⟩

/-- A file read with interruptions, and in pieces. -/
example : Contents (fun _ => .ok [.data b!"ab", .err .interrupted, .data b!"c"]) (.file [b!"x"] 3) b!"abc" := .file (evs := [.data b!"ab", .err .interrupted, .data b!"c"]) rfl (by decide)

/-- C79: there is no reader exactly if the data is in a file that cannot be opened; the error is that of opening it. -/
theorem C79_lost (e : IoErr) : d.reader opens = .error e ↔ ∃ p n, d = .file p n ∧ opens p = .error e := by
  cases d with
  | text t => simp [SavedData.reader]
  | bytes b => simp [SavedData.reader]
  | file p n =>
    cases ho : opens p <;> simp [SavedData.reader, ho]

example : (SavedData.file [b!"x"] 3).reader (fun _ => .error .notFound) = .error .notFound := rfl

/-- C79 and C54: what is read back is what a save stored: `SavedData::readable` of the model is the contents, whenever files deliver what is in them. -/
theorem C79_readable {w : World} (hw : ∀ p c, w.files p = some c → ∃ evs, opens p = .ok evs ∧ NoStall evs ∧ Ev.bytes evs = c) (h : d.readable w = .ok c) : Contents opens d c := by
  cases d with
  | text t => cases h; exact .text _
  | bytes b => cases h; exact .bytes _
  | file p n =>
    simp only [SavedData.readable] at h
    cases hp : w.files p with
    | none => rw [hp] at h; simp at h
    | some c' =>
      rw [hp] at h
      cases h
      obtain ⟨evs, h1, h2, rfl⟩ := hw p c hp
      exact .file h1 h2

example : ∀ p c, ({ Sample.disk with files := fun q => if q = [b!"x"] then some b!"abc" else none } : World).files p = some c →
    ∃ evs, (fun p => if p = [b!"x"] then .ok [.data b!"ab", .data b!"c"] else .error .notFound : Path → Except IoErr (List Ev)) p = .ok evs ∧ NoStall evs ∧ Ev.bytes evs = c := by
  intro p c h
  simp only at h
  split at h
  · next hp => subst hp; cases h; exact ⟨[.data b!"ab", .data b!"c"], rfl, by decide, rfl⟩
  · simp at h

/-- C79, outside of the contract of `BufRead`: consuming more than was shown panics for data in memory, but not for files. -/
theorem C79_consume_beyond (k : Nat) : (∀ bs, r = .bytes bs → bs.length < k → (r.consume k).1 = .panic) ∧ (∀ f, r = .file f → (r.consume k).1 = .ok ()) := by
  constructor
  · rintro bs rfl h
    simp [DataReader.consume, h]
  · rintro f rfl
    rfl

/-! ## C80 -/

theorem DataReader.copyLoop_spec : ∀ (n : Nat) {r : DataReader} (k : Sink), r.Fine → r.todo < n →
    Wrote True (fun e => r.HasErr e ∧ e ≠ .interrupted) r.rest k (DataReader.copyLoop n r k).1 (DataReader.copyLoop n r k).2 := by
  intro n
  induction n with
  | zero => intro r k _ h; omega
  | succ n ih =>
    intro r k hf hn
    unfold DataReader.copyLoop
    have hop := DataReader.op_spec hf (.read bufCap)
    simp only [DataReader.op] at hop
    generalize r.read bufCap = y at hop ⊢
    obtain ⟨x, r1⟩ := y
    obtain ⟨h1, h2, ⟨x, rfl, h3, h4, h5⟩ | ⟨e, rfl, h3, h4, h5⟩⟩ := hop
    · cases x with
      | nil =>
        rw [h4 (by decide) rfl]
        exact .nil trivial
      | cons x xs =>
        simp only at h1 h2 h3 h5 ⊢
        have hw := Sink.writeAll_spec (c := fun e => r.HasErr e ∧ e ≠ .interrupted) (x :: xs) k
        generalize k.writeAll (x :: xs) = y at hw ⊢
        obtain ⟨a, k1⟩ := y
        rw [h3]
        cases a with
        | ok u =>
          have := (ih k1 h1 (by have := h5 (by simp); omega)).imp (c' := fun e => r.HasErr e ∧ e ≠ .interrupted) (g := True) id fun e h => ⟨h2 e h.1, h.2⟩
          exact (Wrote.append hw this).imp (fun _ => trivial) fun _ h => h
        | _ => exact Wrote.stop _ hw (by simp)
    · simp only at h1 h2 h4 h5 ⊢
      cases e with
      | interrupted =>
        simp only
        rw [h4]
        exact (ih k h1 (by omega)).imp id fun e h => ⟨h2 e h.1, h.2⟩
      | _ => exact ⟨[], .nil, .inr ⟨_, [], rfl, List.nil_prefix, by simp, .inr ⟨rfl, h3, by simp⟩⟩⟩

variable {F : DebugFmt} {cs : SavedField → Bytes}

theorem reader_error {e : IoErr} (h : d.reader opens = .error e) : Unreadable opens d e := by
  cases d with
  | text t => simp [SavedData.reader] at h
  | bytes b => simp [SavedData.reader] at h
  | file p n =>
    refine ⟨p, n, rfl, .inl ?_⟩
    simp only [SavedData.reader] at h
    cases ho : opens p with
    | ok evs => rw [ho] at h; simp at h
    | error e' => rw [ho] at h; simpa using h

theorem digitChar_byte : ∀ d, d < 10 → UInt8.ofNat (Nat.digitChar d).toNat = UInt8.ofNat (48 + d) := by decide

theorem digitsAux_eq : ∀ (k n : Nat), n ≤ k → (Nat.toDigits 10 n).map (fun c => UInt8.ofNat c.toNat) = digitsAux k n := by
  intro k
  induction k with
  | zero => intro n h; rw [Nat.le_zero.mp h]; decide
  | succ k ih =>
    intro n h
    unfold digitsAux
    split
    · next hl => rw [Nat.toDigits_of_lt_base hl]; simp [digitChar_byte n hl]
    · next hl =>
      rw [Nat.toDigits_of_base_le (by decide) (by omega), List.map_append, ih _ (by omega)]
      simp [digitChar_byte (n % 10) (Nat.mod_lt _ (by decide))]

theorem decimal_eq (n : Nat) : decimal n = digits n := digitsAux_eq n n (Nat.le_refl _)

theorem debugFields_spec : ∀ (fs : List SavedField) (idx : Nat) (k : Sink), (∀ f ∈ fs, Contents opens f.data (cs f) ∨ ∃ p n e, f.data = .file p n ∧ opens p = .error e) →
    Wrote (∀ f ∈ fs, Contents opens f.data (cs f)) (fun e => ∃ f ∈ fs, Unreadable opens f.data e) (debugFieldsText F cs idx fs) k (debugFields F opens idx fs k).1 (debugFields F opens idx fs k).2 := by
  intro fs
  induction fs with
  | nil => intro idx k _; exact .nil (by simp)
  | cons f fs ih =>
    intro idx k hc
    unfold debugFields
    have hcf := hc f (List.mem_cons_self ..)
    cases hr : f.data.reader opens with
    | error e => exact ⟨[], .nil, .inr ⟨e, [], rfl, List.nil_prefix, by simp, .inr ⟨rfl, f, List.mem_cons_self .., reader_error hr⟩⟩⟩
    | ok r =>
      simp only
      have hcf : Contents opens f.data (cs f) := by
        rcases hcf with h | ⟨p, n, e, h1, h2⟩
        · exact h
        · rw [h1] at hr; simp [SavedData.reader, h2] at hr
      obtain ⟨r', g1, g2, g3, g4⟩ := hcf.reader
      rw [hr] at g1
      cases g1
      have htext : debugFieldsText F cs idx (f :: fs) =
          ([decimal idx, b!": "] ++ F.filename f.headers.filename ++ [b!" ("] ++ F.ctype f.headers.contentType ++ [b!"):\n"]).flatten ++ (cs f ++ debugFieldsText F cs (idx + 1) fs) := by
        simp [debugFieldsText, decimal_eq]
      rw [htext]
      generalize hp : [decimal idx, b!": "] ++ F.filename f.headers.filename ++ [b!" ("] ++ F.ctype f.headers.contentType ++ [b!"):\n"] = ps
      have hw := Sink.writeFmt_spec (c := fun e => ∃ f' ∈ f :: fs, Unreadable opens f'.data e) ps k
      generalize k.writeFmt ps = y at hw ⊢
      obtain ⟨a, k1⟩ := y
      cases a with
      | ok u =>
        simp only
        have hcp : Wrote True (fun e => ∃ f' ∈ f :: fs, Unreadable opens f'.data e) (cs f) k1 (r.copy k1).1 (r.copy k1).2 := by
          have := DataReader.copyLoop_spec (r.todo + 1) k1 g2 (by omega)
          rw [g3] at this
          refine this.imp id ?_
          rintro e ⟨h1, h2⟩
          obtain ⟨p, n, evs, k3, k4, k5⟩ := g4 e h1
          exact ⟨f, List.mem_cons_self .., p, n, k3, .inr ⟨evs, k4, k5, h2⟩⟩
        generalize r.copy k1 = y at hcp ⊢
        obtain ⟨a, k2⟩ := y
        cases a with
        | ok u' =>
          simp only
          have h3 := (ih (idx + 1) k2 (fun f hf => hc f (List.mem_cons_of_mem _ hf))).imp (g := ∀ f ∈ fs, Contents opens f.data (cs f))
            (c' := fun e => ∃ f' ∈ f :: fs, Unreadable opens f'.data e) id fun e ⟨f, h1, h2⟩ => ⟨f, List.mem_cons_of_mem _ h1, h2⟩
          refine (Wrote.append hw (Wrote.append hcp h3)).imp (fun h => ?_) fun _ h => h
          intro f' hf'
          rcases List.mem_cons.mp hf' with rfl | hf'
          · exact hcf
          · exact h.2.2 f' hf'
        | _ => exact Wrote.append hw (Wrote.stop _ hcp (by simp)) |>.imp (f := True ∧ _) (fun h => h.2) fun _ h => h
      | _ => exact Wrote.stop _ hw (by simp)

theorem debugMap_spec : ∀ (m : List (Bytes × List SavedField)) (k : Sink), (∀ kv ∈ m, ∀ f ∈ kv.2, Contents opens f.data (cs f) ∨ ∃ p n e, f.data = .file p n ∧ opens p = .error e) →
    Wrote (∀ kv ∈ m, ∀ f ∈ kv.2, Contents opens f.data (cs f)) (fun e => ∃ kv ∈ m, ∃ f ∈ kv.2, Unreadable opens f.data e) (debugText F cs m) k (debugMap F opens m k).1 (debugMap F opens m k).2 := by
  intro m
  induction m with
  | nil => intro k _; exact .nil (by simp)
  | cons kv m ih =>
    intro k hc
    obtain ⟨name, fs⟩ := kv
    unfold debugMap
    have htext : debugText F cs ((name, fs) :: m) =
        ([b!"Field "] ++ F.name name ++ [b!" has ", decimal fs.length, b!" entries:\n"]).flatten ++ (debugFieldsText F cs 0 fs ++ debugText F cs m) := by
      simp [debugText, decimal_eq]
    rw [htext]
    generalize [b!"Field "] ++ F.name name ++ [b!" has ", decimal fs.length, b!" entries:\n"] = ps
    have hw := Sink.writeFmt_spec (c := fun e => ∃ kv ∈ (name, fs) :: m, ∃ f ∈ kv.2, Unreadable opens f.data e) ps k
    generalize k.writeFmt ps = y at hw ⊢
    obtain ⟨a, k1⟩ := y
    cases a with
    | ok u =>
      simp only
      have h2 := (debugFields_spec (F := F) fs 0 k1 (hc (name, fs) (List.mem_cons_self ..))).imp (g := ∀ f ∈ fs, Contents opens f.data (cs f))
        (c' := fun e => ∃ kv ∈ (name, fs) :: m, ∃ f ∈ kv.2, Unreadable opens f.data e) id fun e ⟨f, h1, h2⟩ => ⟨_, List.mem_cons_self .., f, h1, h2⟩
      generalize debugFields F opens 0 fs k1 = y at h2 ⊢
      obtain ⟨a, k2⟩ := y
      cases a with
      | ok u' =>
        simp only
        have h3 := (ih k2 (fun kv hf => hc kv (List.mem_cons_of_mem _ hf))).imp (g := ∀ kv ∈ m, ∀ f ∈ kv.2, Contents opens f.data (cs f))
          (c' := fun e => ∃ kv ∈ (name, fs) :: m, ∃ f ∈ kv.2, Unreadable opens f.data e) id fun e ⟨f, h1, h2⟩ => ⟨f, List.mem_cons_of_mem _ h1, h2⟩
        refine (Wrote.append hw (Wrote.append h2 h3)).imp (fun h => ?_) fun _ h => h
        intro kv hkv
        rcases List.mem_cons.mp hkv with rfl | hkv
        · exact h.2.1
        · exact h.2.2 kv hkv
      | _ => exact Wrote.append hw (Wrote.stop _ h2 (by simp)) |>.imp (f := True ∧ _) (fun h => h.2) fun _ h => h
    | _ => exact Wrote.stop _ hw (by simp)

/-- C80: `write_debug` (in whatever order the map is visited, with whatever short writes and failures) writes the text of all fields with their contents, and then returns `Ok`; or it returns an error, and has
written a beginning of this text. An error has a cause: a failing write, or a file that cannot be opened or read. If it returns `Ok`, all files were there. -/
theorem C80_output {m : List (Bytes × List SavedField)} {k k' : Sink} {res : Res Unit}
    (hc : ∀ kv ∈ m, ∀ f ∈ kv.2, Contents opens f.data (cs f) ∨ ∃ p n e, f.data = .file p n ∧ opens p = .error e) (h : debugMap F opens m k = (res, k')) :
    (res = .ok () ∧ k'.got = k.got ++ debugText F cs m ∧ ∀ kv ∈ m, ∀ f ∈ kv.2, Contents opens f.data (cs f)) ∨
    (∃ e p, res = .err e ∧ p <+: debugText F cs m ∧ k'.got = k.got ++ p ∧ ((∃ ev ∈ k.script, ev.FailsWith e) ∨ ∃ kv ∈ m, ∃ f ∈ kv.2, Unreadable opens f.data e)) := by
  have hs := debugMap_spec (F := F) m k hc
  rw [h] at hs
  obtain ⟨used, -, ⟨h1, h2, -, h4⟩ | ⟨e, p, h1, h2, h3, h4⟩⟩ := hs
  · exact .inl ⟨h1, h2, h4⟩
  · refine .inr ⟨e, p, h1, h2, h3, ?_⟩
    rcases h4 with ⟨ev, h4, h5⟩ | ⟨-, h5⟩
    · exact .inl ⟨ev, by rw [h4]; simp, h5⟩
    · exact .inr h5

namespace Sample

/-- Texts as they are. -/
def fmt : DebugFmt := ⟨fun n => [b!"'", n, b!"'"], fun f => match f with | some n => [n] | none => [b!"-"], fun c => match c with | some m => [m.src] | none => [b!"-"]⟩

def saved : List (Bytes × List SavedField) := [(b!"a", [⟨⟨b!"a", none, none⟩, .text b!"hi\n"⟩, ⟨⟨b!"a", some b!"n", none⟩, .file [b!"x"] 3⟩])]

def savedOpens (p : Path) : Except IoErr (List Ev) := if p = [b!"x"] then .ok [.data b!"ab", .err .interrupted, .data b!"c"] else .error .notFound

end Sample

/-- The hypotheses of C80_output are met. -/
example : (∀ kv ∈ Sample.saved, ∀ f ∈ kv.2, Contents Sample.savedOpens f.data (if f.data = .text b!"hi\n" then b!"hi\n" else b!"abc") ∨ ∃ p n e, f.data = .file p n ∧ Sample.savedOpens p = .error e) ∧
    debugMap Sample.fmt Sample.savedOpens Sample.saved ⟨[.accept 3, .err .interrupted], []⟩ = (.ok (), ⟨[], b!"Field 'a' has 2 entries:\n0: - (-):\nhi\n1: n (-):\nabc"⟩) := by
  refine ⟨?_, by decide +kernel⟩
  intro kv hkv f hf
  simp [Sample.saved] at hkv
  subst hkv
  simp at hf
  rcases hf with rfl | rfl
  · exact .inl (.text _)
  · exact .inl (.file (evs := [.data b!"ab", .err .interrupted, .data b!"c"]) (by simp [Sample.savedOpens]) (by decide))

end Multipart

import Verif.Spec.LocalTest
import Verif.Props.Split
import Verif.Props.Mock
import Verif.Props.Owned
/-!
# C99: the crate's random tests of its clients against its server
-/
namespace Multipart

variable {D : Deps} {evs : List Ev} {b : Bytes}

/-! ## Removing from maps of sets -/

/-- Keys are different and no set is empty. -/
structure SetMap.Ok {α : Type} (m : SetMap α) : Prop where
  keys : (m.map (·.1)).Nodup
  sets : ∀ e ∈ m, e.2 ≠ []

theorem SetMap.flat_cons {α : Type} (e : Bytes × List α) (m : SetMap α) : SetMap.flat (e :: m) = e.2.map (fun x => (e.1, x)) ++ SetMap.flat m := by
  simp [SetMap.flat]

theorem SetMap.mem_flat {α : Type} {m : SetMap α} {k : Bytes} {x : α} : (k, x) ∈ m.flat ↔ ∃ e ∈ m, e.1 = k ∧ x ∈ e.2 := by
  simp only [SetMap.flat, List.mem_flatMap, List.mem_map, Prod.mk.injEq]
  constructor
  · rintro ⟨e, he, y, hy, rfl, rfl⟩; exact ⟨e, he, rfl, hy⟩
  · rintro ⟨e, he, rfl, hx⟩; exact ⟨e, he, x, hx, rfl, rfl⟩

theorem SetMap.remove_spec {α : Type} [DecidableEq α] {k : Bytes} {x : α} : ∀ {m : SetMap α}, m.Ok → (k, x) ∈ m.flat →
    ∃ m', m.remove k x = some m' ∧ m'.Ok ∧ (∀ e ∈ m', e.1 ∈ m.map (·.1)) ∧ m.flat.Perm ((k, x) :: m'.flat) := by
  intro m
  induction m with
  | nil => intro _ h; simp [SetMap.flat] at h
  | cons e m ih =>
    intro hm hx
    have hk := hm.keys
    rw [List.map_cons, List.nodup_cons] at hk
    have hm' : SetMap.Ok m := ⟨hk.2, fun e he => hm.sets e (List.mem_cons_of_mem _ he)⟩
    unfold SetMap.remove
    by_cases h1 : e.1 = k
    · rw [if_pos h1]
      have hin : x ∈ e.2 := by
        obtain ⟨e', he', h2, h3⟩ := SetMap.mem_flat.mp hx
        rcases List.mem_cons.mp he' with rfl | he'
        · exact h3
        · exact absurd (List.mem_map_of_mem (f := (·.1)) he') (by rw [h2, ← h1]; exact hk.1)
      rw [if_pos hin]
      have hp : (SetMap.flat (e :: m)).Perm ((k, x) :: ((e.2.erase x).map (fun y => (e.1, y)) ++ SetMap.flat m)) := by
        rw [SetMap.flat_cons]
        have := ((List.perm_cons_erase hin).map (fun y => (e.1, y))).append_right (SetMap.flat m)
        rw [← h1]
        simpa using this
      by_cases h2 : e.2.erase x = []
      · rw [if_pos h2]
        rw [h2] at hp
        exact ⟨m, rfl, hm', fun e he => List.mem_cons_of_mem _ (List.mem_map_of_mem (f := (·.1)) he), hp⟩
      · rw [if_neg h2]
        refine ⟨_, rfl, ⟨by simpa using hm.keys, ?_⟩, ?_, by rw [SetMap.flat_cons]; exact hp⟩
        · intro e' he'
          rcases List.mem_cons.mp he' with rfl | he'
          · exact h2
          · exact hm'.sets e' he'
        · intro e' he'
          rcases List.mem_cons.mp he' with rfl | he'
          · simp
          · exact List.mem_cons_of_mem _ (List.mem_map_of_mem (f := (·.1)) he')
    · rw [if_neg h1]
      have hin : (k, x) ∈ SetMap.flat m := by
        rw [SetMap.flat_cons, List.mem_append] at hx
        rcases hx with hx | hx
        · obtain ⟨y, -, h2⟩ := List.mem_map.mp hx
          exact absurd (congrArg Prod.fst h2) h1
        · exact hx
      obtain ⟨m', h2, h3, h4, h5⟩ := ih hm' hin
      refine ⟨e :: m', by rw [h2]; rfl, ⟨?_, ?_⟩, ?_, ?_⟩
      · rw [List.map_cons, List.nodup_cons]
        refine ⟨fun h => ?_, h3.keys⟩
        obtain ⟨e', he', h6⟩ := List.mem_map.mp h
        exact hk.1 (h6 ▸ h4 e' he')
      · intro e' he'
        rcases List.mem_cons.mp he' with rfl | he'
        · exact hm.sets _ (List.mem_cons_self ..)
        · exact h3.sets e' he'
      · intro e' he'
        rcases List.mem_cons.mp he' with rfl | he'
        · simp
        · exact List.mem_cons_of_mem _ (h4 e' he')
      · rw [SetMap.flat_cons, SetMap.flat_cons]
        exact (h5.append_left _).trans List.perm_middle

theorem SetMap.Ok.nil_of_flat {α : Type} {m : SetMap α} (h : m.Ok) (hf : m.flat = []) : m = [] := by
  cases m with
  | nil => rfl
  | cons e m =>
    rw [SetMap.flat_cons, List.append_eq_nil_iff, List.map_eq_nil_iff] at hf
    exact absurd hf.1 (h.sets e (List.mem_cons_self ..))

/-! ## What the servers of the tests do with the fields they read -/

/-- `check_field` for a field with this data. -/
def TestFields.take (t : TestFields) (e : FieldHeaders × Bytes) : Option TestFields :=
  match e.1.contentType with
  | none => if utf8Valid e.2 then (t.texts.remove e.1.name e.2).map fun x => { t with texts := x } else none
  | some ct => (t.files.remove e.1.name ⟨ct, e.1.filename, e.2⟩).map fun x => { t with files := x }

/-- Several fields. -/
def TestFields.takes (t : TestFields) : List (FieldHeaders × Bytes) → Option TestFields
  | [] => some t
  | e :: es =>
    match t.take e with
    | some t => t.takes es
    | none => none

theorem checkField_take {sz : BR → Nat → Nat} {t t' : TestFields} {fh : FieldHeaders} {m m' : BR} {dat : Bytes} (hr : m.readToEnd (sz m) = (.ok (), dat, m')) (h : t.take (fh, dat) = some t') :
    t.checkField sz fh m = .ok (t', m') := by
  unfold TestFields.take at h
  unfold TestFields.checkField
  cases hc : fh.contentType with
  | none =>
    simp only [hc] at h
    split at h
    · next hu =>
      cases hx : t.texts.remove fh.name dat with
      | none => rw [hx] at h; simp at h
      | some x =>
        rw [hx] at h
        simp only [Option.map_some, Option.some.injEq] at h
        simp only [BR.readToString, hr, hu, if_true, hx, h]
    · simp at h
  | some ct =>
    simp only [hc] at h
    cases hx : t.files.remove fh.name ⟨ct, fh.filename, dat⟩ with
    | none => rw [hx] at h; simp at h
    | some x =>
      rw [hx] at h
      simp only [Option.map_some, Option.some.injEq] at h
      simp only [hr, hx, h]

theorem serverLoop_takes {sz : BR → Nat → Nat} : ∀ (n : Nat) {got : List (FieldHeaders × Bytes)} {t t' : TestFields} {m : BR}, OwnedReads D sz (m.intoEntry D) got .closed → t.takes got = some t' → got.length < n →
    testServerLoop D sz n t m = .ok t' ∧ testEntryLoop D sz n t m = .ok t' := by
  intro n
  induction n with
  | zero => intro got t t' m _ _ h; omega
  | succ n ih =>
    intro got t t' m hr ht hl
    simp only [testServerLoop, testEntryLoop]
    generalize ho : m.intoEntry D = o at hr
    have hre : m.intoEntry D = o := ho
    unfold BR.intoEntry at hre
    cases hr with
    | @fin m1 =>
      rcases he : m.readEntry D with ⟨r, u⟩
      rw [he] at hre
      rcases r with (_ | _) | _ | _ | _ <;> simp at hre
      simp only [TestFields.takes, Option.some.injEq] at ht
      simp only [Owned.unwrapOpt, ht, and_self]
    | @entry fh s1 u dat es fin h1 h2 =>
      rcases he : m.readEntry D with ⟨r, v⟩
      rw [he] at hre
      rcases r with (_ | _) | _ | _ | _ <;> simp at hre
      obtain ⟨rfl, rfl⟩ := hre
      simp only [TestFields.takes] at ht
      rename_i fh
      cases hk : t.take (fh, dat) with
      | none => rw [hk] at ht; simp at ht
      | some t1 =>
        rw [hk] at ht
        simp only at ht
        have hcf := checkField_take h1 hk
        obtain ⟨h3, h4⟩ := ih (m := u) h2 ht (by simpa using hl)
        simp only [Owned.unwrapOpt, TestFields.checkEntry, hcf, h3, h4, and_self]

theorem takes_all : ∀ {l : List (FieldHeaders × Bytes)} {t : TestFields}, t.texts.Ok → t.files.Ok → (textsOf l).Perm t.texts.flat → (filesOf l).Perm t.files.flat →
    (∀ e ∈ l, e.1.contentType = none → utf8Valid e.2 = true) → t.takes l = some ⟨[], []⟩ := by
  intro l
  induction l with
  | nil =>
    intro t h1 h2 h3 h4 _
    have e1 := h1.nil_of_flat h3.symm.eq_nil
    have e2 := h2.nil_of_flat h4.symm.eq_nil
    simp only [TestFields.takes, Option.some.injEq]
    cases t; simp_all
  | cons e l ih =>
    intro t h1 h2 h3 h4 hu
    have hu' : ∀ e ∈ l, e.1.contentType = none → utf8Valid e.2 = true := fun e he => hu e (List.mem_cons_of_mem _ he)
    simp only [TestFields.takes, TestFields.take]
    cases hc : e.1.contentType with
    | none =>
      have et : textsOf (e :: l) = (e.1.name, e.2) :: textsOf l := by simp [textsOf, hc]
      have ef : filesOf (e :: l) = filesOf l := by simp [filesOf, hc]
      rw [et] at h3
      rw [ef] at h4
      obtain ⟨m', h5, h6, -, h7⟩ := SetMap.remove_spec h1 (h3.subset (List.mem_cons_self ..))
      simp only [hu e (List.mem_cons_self ..) hc, if_true, h5, Option.map_some]
      exact ih h6 h2 ((h3.trans h7).cons_inv) h4 hu'
    | some ct =>
      have et : textsOf (e :: l) = textsOf l := by simp [textsOf, hc]
      have ef : filesOf (e :: l) = (e.1.name, ⟨ct, e.1.filename, e.2⟩) :: filesOf l := by simp [filesOf, hc]
      rw [et] at h3
      rw [ef] at h4
      obtain ⟨m', h5, h6, -, h7⟩ := SetMap.remove_spec h2 (h4.subset (List.mem_cons_self ..))
      simp only [h5, Option.map_some]
      exact ih h1 h6 h3 ((h4.trans h7).cons_inv) hu'

/-! ## The fields that are sent -/

/-- A field of the test: a file or a text, with its key. -/
inductive Item where
  | file (f : Bytes × FileEntry)
  | text (t : Bytes × Bytes)

def Item.op : Item → ClientOp
  | .file f => fileOp f
  | .text t => textOp t

def Item.fld : Item → OutField
  | .file f => ⟨f.1, f.2.filename, some f.2.contentType.src, f.2.data⟩
  | .text t => ⟨t.1, none, none, t.2⟩

def Item.ct : Item → Option Mime
  | .file f => some f.2.contentType
  | .text _ => none

def Item.read (i : Item) : FieldHeaders × Bytes := i.fld.asRead i.ct

/-- The order of the calls. -/
def items : List (Bytes × FileEntry) → List (Bytes × Bytes) → List Item
  | fs, [] => fs.map .file
  | [], t :: ts => .text t :: items [] ts
  | f :: fs, t :: ts => .file f :: .text t :: items fs ts

theorem testOps_eq (fs : List (Bytes × FileEntry)) (ts : List (Bytes × Bytes)) : testOps fs ts = (items fs ts).map Item.op := by
  induction ts generalizing fs with
  | nil => simp only [testOps, items, List.map_map]; rfl
  | cons t ts ih =>
    cases fs with
    | nil => simp only [testOps, items, List.map_cons, ih]; rfl
    | cons f fs => simp only [testOps, items, List.map_cons, ih]; rfl

theorem items_perm (fs : List (Bytes × FileEntry)) (ts : List (Bytes × Bytes)) : (items fs ts).Perm (fs.map .file ++ ts.map .text) := by
  induction ts generalizing fs with
  | nil => simp [items]
  | cons t ts ih =>
    cases fs with
    | nil => simpa [items] using ih []
    | cons f fs =>
      simp only [items, List.map_cons, List.cons_append]
      refine .cons _ ?_
      exact (List.Perm.cons _ (ih fs)).trans List.perm_middle.symm

theorem textsOf_read {is : List Item} {fs : List (Bytes × FileEntry)} {ts : List (Bytes × Bytes)} (h : is.Perm (fs.map .file ++ ts.map .text)) :
    (textsOf (is.map Item.read)).Perm ts ∧ (filesOf (is.map Item.read)).Perm fs := by
  have h' := h.map Item.read
  refine ⟨(h'.filterMap _).trans ?_, (h'.filterMap _).trans ?_⟩
  · have e1 : ((fs.map Item.file).map Item.read).filterMap (fun e => if e.1.contentType = none then some (e.1.name, e.2) else none) = [] := by
      rw [List.filterMap_eq_nil_iff]
      intro e he
      obtain ⟨i, hi, rfl⟩ := List.mem_map.mp he
      obtain ⟨f, -, rfl⟩ := List.mem_map.mp hi
      simp [Item.read, OutField.asRead, Item.ct]
    rw [List.map_append, List.filterMap_append, e1, List.nil_append]
    simp only [List.filterMap_map]
    rw [show (((fun e : FieldHeaders × Bytes => if e.1.contentType = none then some (e.1.name, e.2) else none) ∘ Item.read) ∘ Item.text) = some from by
      funext t; simp [Item.read, OutField.asRead, Item.ct, Item.fld]]
    simp
  · have e1 : ((ts.map Item.text).map Item.read).filterMap (fun e => e.1.contentType.map fun ct => ((e.1.name, ⟨ct, e.1.filename, e.2⟩) : Bytes × FileEntry)) = [] := by
      rw [List.filterMap_eq_nil_iff]
      intro e he
      obtain ⟨i, hi, rfl⟩ := List.mem_map.mp he
      obtain ⟨f, -, rfl⟩ := List.mem_map.mp hi
      simp [Item.read, OutField.asRead, Item.ct]
    rw [List.map_append, List.filterMap_append, e1, List.append_nil]
    simp only [List.filterMap_map]
    rw [show (((fun e : FieldHeaders × Bytes => e.1.contentType.map fun ct => ((e.1.name, ⟨ct, e.1.filename, e.2⟩) : Bytes × FileEntry)) ∘ Item.read) ∘ Item.file) = some from by
      funext f; simp [Item.read, OutField.asRead, Item.ct, Item.fld]]
    simp

/-- The order in which the lazy client sends. -/
def lazyItems (is : List Item) : List Item := is.filter (·.fld.ctype.isNone) ++ (is.filter (·.fld.ctype.isSome)).reverse

theorem lazyItems_fld (is : List Item) : (lazyItems is).map Item.fld = lazyOrder (is.map Item.fld) := by
  simp [lazyItems, lazyOrder, List.filter_map, Function.comp_def, List.map_reverse]

theorem lazyItems_perm (is : List Item) : (lazyItems is).Perm is := by
  have h1 : is.filter (·.fld.ctype.isSome) = is.filter (fun f => !f.fld.ctype.isNone) := by
    congr 1; funext f; cases f.fld.ctype <;> rfl
  unfold lazyItems
  rw [h1]
  exact ((List.reverse_perm _).append_left _).trans (List.filter_append_perm _ is)

theorem item_standsFor (env : FileEnv) (i : Item) : StandsFor env i.op i.fld := by
  cases i with
  | text t => exact .text t.1 t.2
  | file f =>
    have h := StandsFor.stream (env := env) f.1 [.data f.2.data] f.2.filename f.2.contentType
    have : Ev.upToEnd [.data f.2.data] = f.2.data := by cases f.2.data <;> simp [Ev.upToEnd]
    rw [this] at h
    exact h

theorem items_all2 {α β : Type} {R : α → β → Prop} {f : Item → α} {g : Item → β} : ∀ {is : List Item}, (∀ i ∈ is, R (f i) (g i)) → All2 R (is.map f) (is.map g) := by
  intro is
  induction is with
  | nil => intro _; exact .nil
  | cons i is ih => intro h; exact .cons (h i (List.mem_cons_self ..)) (ih fun i hi => h i (List.mem_cons_of_mem _ hi))

theorem zipWith_read (is : List Item) : List.zipWith OutField.asRead (is.map Item.fld) (is.map Item.ct) = is.map Item.read := by
  induction is with
  | nil => rfl
  | cons i is ih => simp only [List.map_cons, List.zipWith_cons_cons, ih]; rfl

/-! ## Generated fields can be sent -/

/-- What matters of `gen_string`. -/
structure Nice (s : Bytes) : Prop where
  len : s.length ≤ 12
  chars : ∀ c ∈ s, c = 0x2D ∨ IsLetterOrDigit c

theorem GenString.nice {s : Bytes} (h : GenString s) : Nice s := by
  obtain ⟨x, n, y, rfl, hn, hx, hy, hcx, hcy⟩ := h
  refine ⟨by simp; omega, fun c hc => ?_⟩
  simp only [List.mem_append, List.mem_replicate] at hc
  rcases hc with (hc | hc) | hc
  · exact .inr (hcx c hc)
  · exact .inl hc.2
  · exact .inr (hcy c hc)

theorem isUtf8_of_ascii : ∀ {s : Bytes}, (∀ c ∈ s, c.toNat < 128) → IsUtf8 s := by
  have key : ∀ n : Fin 128, String.utf8EncodeChar (Char.ofNat n.val) = [UInt8.ofNat n.val] := by decide +kernel
  intro s h
  refine ⟨s.map fun c => Char.ofNat c.toNat, ?_⟩
  induction s with
  | nil => rfl
  | cons c s ih =>
    have h1 := key ⟨c.toNat, h c (List.mem_cons_self ..)⟩
    simp only [UInt8.ofNat_toNat] at h1
    rw [List.map_cons, encodeChars, List.flatMap_cons, h1, List.singleton_append]
    exact congrArg _ (ih fun c hc => h c (List.mem_cons_of_mem _ hc))

theorem Nice.range {s : Bytes} (h : Nice s) : ∀ c ∈ s, 0x2D ≤ c.toNat ∧ c.toNat ≤ 0x7A ∧ c.toNat ≠ 0x3B := by
  intro c hc
  rcases h.chars c hc with rfl | h | h | h
  · decide
  all_goals omega

theorem Nice.utf8 {s : Bytes} (h : Nice s) : IsUtf8 s := isUtf8_of_ascii fun c hc => by have := h.range c hc; omega

theorem Nice.nameText {s : Bytes} (h : Nice s) : NameText s := by
  refine ⟨⟨?_, ?_, ?_⟩, fun c hc => ?_, h.utf8⟩
  · intro hc; exact absurd rfl (h.range _ hc).2.2
  · intro hc
    have := (h.range _ (List.mem_of_mem_head? hc)).1
    revert this; decide
  · intro hc
    have := (h.range _ (List.mem_of_mem_getLast? hc)).1
    revert this; decide
  · have := h.range c hc; omega

theorem absent_of_short {d s : Bytes} (h : s.length < d.length) : Absent d s := by
  intro q hq
  have := hq.length_le
  rw [List.length_drop] at this
  omega

theorem Absent.longer {d e s : Bytes} (h : Absent d s) : Absent (d ++ e) s := fun q hq => h q ((List.prefix_append d e).trans hq)

/-- A generated item. -/
def Item.Generated : Item → Prop
  | .file f => GenString f.1 ∧ f.2.Generated
  | .text t => GenString t.1 ∧ GenString t.2

theorem testMimes_text {m : Mime} (h : m ∈ testMimes) : HeaderText m.src ∧ Absent dashes m.src ∧ m.src.length ≤ 24 := by
  have abs : ∀ v : Bytes, findSub dashes v = none → Absent dashes v := fun v h => findSub_eq_none_iff.mp h
  simp only [testMimes, List.mem_cons, List.not_mem_nil, or_false] at h
  rcases h with rfl | rfl | rfl
  · exact ⟨⟨by decide, by decide, by decide, (utf8Valid_iff _).mp (by decide +kernel)⟩, abs _ (by decide +kernel), by decide⟩
  · exact ⟨⟨by decide, by decide, by decide, (utf8Valid_iff _).mp (by decide +kernel)⟩, abs _ (by decide +kernel), by decide⟩
  · exact ⟨⟨by decide, by decide, by decide, (utf8Valid_iff _).mp (by decide +kernel)⟩, abs _ (by decide +kernel), by decide⟩

theorem Item.size {i : Item} (h : i.Generated) : i.fld.headers.length + i.fld.data.length ≤ match i with
    | .file _ => 132
    | .text _ => 67 := by
  cases i with
  | text t =>
    have h1 := h.1.nice.len
    have h2 := h.2.nice.len
    simp only [Item.fld, OutField.headers, OutField.disposition, crlf, List.length_append, List.length_cons, List.length_nil]
    omega
  | file f =>
    have h1 := h.1.nice.len
    have h2 := h.2.data.nice.len
    have h3 := (testMimes_text h.2.contentType).2.2
    simp only [Item.fld, OutField.headers, OutField.disposition, crlf, List.length_append, List.length_cons, List.length_nil]
    cases hf : f.2.filename with
    | none => simp only [List.length_nil]; omega
    | some n =>
      have h4 := (h.2.filename n hf).nice.len
      simp only [List.length_append, List.length_cons, List.length_nil]
      omega

theorem Item.sendable (hm : ∀ m ∈ testMimes, D.parseMime m.src = some m) (hb : b.length = 16) {i : Item} (h : i.Generated) : Sendable D b i.fld i.ct := by
  have hd : (dashes ++ b).length = 18 := by simp [dashes, hb]
  have hsz := Item.size h
  have short : ∀ {s : Bytes}, Nice s → Absent (dashes ++ b) s := fun hs => absent_of_short (by rw [hd]; have := hs.len; omega)
  have he : entryBuf (dashes ++ b) = 1024 := by simp only [entryBuf, hd]; rfl
  cases i with
  | text t =>
    refine ⟨h.1.nice.nameText, by simp [Item.fld], by simp [Item.fld], rfl, by rw [hd, he]; simp only at hsz; omega, short h.1.nice, by simp [Item.fld], by simp [Item.fld], short h.2.nice⟩
  | file f =>
    have h3 := testMimes_text h.2.contentType
    refine ⟨h.1.nice.nameText, fun n hn => (h.2.filename n hn).nice.nameText, ?_, ?_, by rw [hd, he]; simp only at hsz; omega, short h.1.nice,
      fun n hn => short (h.2.filename n hn).nice, ?_, short h.2.data.nice⟩
    · intro t ht; cases ht; exact h3.1
    · simp only [Item.fld, Item.ct, Option.map_some, hm _ h.2.contentType]
    · intro t ht; cases ht; exact h3.2.1.longer

/-! ## The bodies are small -/

theorem encode_length (b : Bytes) (fs : List OutField) : (encode b fs).length = (fs.map fun f => f.headers.length + f.data.length + b.length + 6).sum + b.length + 6 := by
  induction fs with
  | nil => simp [encode, dashes, crlf]
  | cons f fs ih =>
    simp only [encode, List.length_append, ih, List.map_cons, List.sum_cons, dashes, crlf, List.length_cons, List.length_nil]
    omega

theorem encodeLazy_length (b : Bytes) (fs : List OutField) : (encodeLazy b fs).length ≤ (fs.map fun f => f.headers.length + f.data.length + b.length + 6).sum + b.length + 6 := by
  unfold encodeLazy
  split
  · simp
  · have : (fs.flatMap (lazyPart b)).length = (fs.map fun f => f.headers.length + f.data.length + b.length + 6).sum := by
      rw [List.length_flatMap]
      congr 2
      funext f
      simp [lazyPart, dashes, crlf]
      omega
    simp only [List.length_append, this, dashes, crlf, List.length_cons, List.length_nil]
    omega

theorem sum_le_mul {α : Type} {f : α → Nat} {k : Nat} : ∀ {l : List α}, (∀ x ∈ l, f x ≤ k) → (l.map f).sum ≤ l.length * k := by
  intro l
  induction l with
  | nil => intro _; simp
  | cons x l ih =>
    intro h
    have h1 := h x (List.mem_cons_self ..)
    have h2 := ih fun x hx => h x (List.mem_cons_of_mem _ hx)
    simp only [List.map_cons, List.sum_cons, List.length_cons, Nat.add_mul]
    omega

theorem SetMap.Generated.flat_length {α : Type} {P : α → Prop} {m : SetMap α} (h : SetMap.Generated P m) : 1 ≤ m.flat.length ∧ m.flat.length ≤ 4 := by
  have hl : m.flat.length = (m.map fun e => e.2.length).sum := by
    simp only [SetMap.flat, List.length_flatMap, List.length_map]
  have h1 := sum_le_mul (f := fun e : Bytes × List α => e.2.length) (k := 2) (l := m) fun e he => (h.sets e he).2.2.1.2
  have h2 := h.count
  refine ⟨?_, by omega⟩
  rw [hl]
  cases m with
  | nil => simp at h2
  | cons e m =>
    have := (h.sets e (List.mem_cons_self ..)).2.2.1.1
    simp only [List.map_cons, List.sum_cons]
    omega

theorem SetMap.Generated.ok {α : Type} {P : α → Prop} {m : SetMap α} (h : SetMap.Generated P m) : m.Ok :=
  ⟨h.keys, fun e he hn => by have := (h.sets e he).2.2.1.1; rw [hn] at this; simp at this⟩

theorem SetMap.Generated.mem {α : Type} {P : α → Prop} {m : SetMap α} (h : SetMap.Generated P m) {e : Bytes × α} (he : e ∈ m.flat) : GenString e.1 ∧ P e.2 := by
  obtain ⟨e', he', h1, h2⟩ := SetMap.mem_flat.mp he
  exact ⟨h1 ▸ (h.sets e' he').1, (h.sets e' he').2.2.2 _ h2⟩

/-- All fields of a test, in the order of the calls. -/
def TestFields.items (t : TestFields) : List Item := Multipart.items t.files.flat t.texts.flat

variable {t : TestFields}

theorem TestFields.Generated.item (ht : t.Generated) {i : Item} (hi : i ∈ t.items) : i.Generated := by
  have := (items_perm t.files.flat t.texts.flat).subset hi
  rw [List.mem_append] at this
  rcases this with h | h
  · obtain ⟨f, hf, rfl⟩ := List.mem_map.mp h; exact ht.files.mem hf
  · obtain ⟨f, hf, rfl⟩ := List.mem_map.mp h; exact ht.texts.mem hf

theorem TestFields.Generated.small (ht : t.Generated) (hb : b.length = 16) {is : List Item} (hp : is.Perm t.items) :
    ((is.map Item.fld).map fun f => f.headers.length + f.data.length + b.length + 6).sum + b.length + 6 ≤ 994 := by
  have hp' := hp.trans (items_perm t.files.flat t.texts.flat)
  rw [((hp'.map Item.fld).map _).sum_nat, List.map_append, List.map_append, List.sum_append]
  have h1 := sum_le_mul (f := fun f : OutField => f.headers.length + f.data.length + b.length + 6) (k := 154) (l := (t.files.flat.map Item.file).map Item.fld) (by
    intro f hf
    obtain ⟨i, hi, rfl⟩ := List.mem_map.mp hf
    obtain ⟨x, hx, rfl⟩ := List.mem_map.mp hi
    have := Item.size (i := .file x) (ht.files.mem hx)
    simp only at this ⊢
    omega)
  have h2 := sum_le_mul (f := fun f : OutField => f.headers.length + f.data.length + b.length + 6) (k := 89) (l := (t.texts.flat.map Item.text).map Item.fld) (by
    intro f hf
    obtain ⟨i, hi, rfl⟩ := List.mem_map.mp hf
    obtain ⟨x, hx, rfl⟩ := List.mem_map.mp hi
    have := Item.size (i := .text x) (ht.texts.mem hx)
    simp only at this ⊢
    omega)
  have h3 := ht.files.flat_length
  have h4 := ht.texts.flat_length
  simp only [List.length_map] at h1 h2
  omega

theorem TestFields.ops_eq (t : TestFields) : t.ops = t.items.map Item.op := testOps_eq _ _

theorem TestFields.Generated.nonempty (ht : t.Generated) : ∃ f, Item.file f ∈ t.items := by
  have h := ht.files.flat_length.1
  cases hf : t.files.flat with
  | nil => rw [hf] at h; simp at h
  | cons f fs => exact ⟨f, (items_perm t.files.flat t.texts.flat).symm.subset (by rw [hf]; simp)⟩

theorem ops_reads (env : FileEnv) {o : ClientOp} {evs : List Ev} (ho : o ∈ t.ops) (hr : o.reads env evs) : ReadsFine evs ∧ NoErr evs := by
  rw [t.ops_eq] at ho
  obtain ⟨i, -, rfl⟩ := List.mem_map.mp ho
  cases i with
  | text x => exact absurd hr (by simp [Item.op, textOp, ClientOp.reads])
  | file f =>
    have : evs = [.data f.2.data] := by simpa [Item.op, fileOp, ClientOp.reads, eq_comm] using hr
    subst this
    exact ⟨.data .nil, by intro e; simp⟩

theorem Ev.allBytes_le (evs : List Ev) : (Ev.allBytes evs).length ≤ (Ev.bytes evs).length := by
  fun_induction Ev.allBytes evs <;> simp_all [Ev.bytes]

theorem Prepared.rest_le_meas (p : Prepared) : p.rest.length ≤ p.meas := by
  have : (p.streams.reverse.flatMap PField.rest).length ≤ (p.streams.map PField.meas).sum := by
    have h1 : ∀ fs : List PField, (fs.flatMap PField.rest).length ≤ (fs.map PField.meas).sum := by
      intro fs
      induction fs with
      | nil => simp
      | cons f fs ih =>
        simp only [List.flatMap_cons, List.length_append, List.map_cons, List.sum_cons, PField.rest, PField.meas]
        have := Ev.allBytes_le f.stream
        omega
    have h2 := h1 p.streams.reverse
    rw [List.map_reverse, List.sum_reverse] at h2
    exact h2
  simp only [Prepared.rest, Prepared.meas, List.length_append]
  omega

theorem Prepared.readToEnd_ok (sz : Nat → Nat) : ∀ (n i : Nat) (acc : Bytes) {p : Prepared}, p.Inv → (∀ e, ¬ p.HasErr e) → p.rest.length < n → p.readToEnd sz n i acc = .ok (acc ++ p.rest) := by
  intro n
  induction n with
  | zero => intro i acc p _ _ h; omega
  | succ n ih =>
    intro i acc p hi hne hl
    unfold Prepared.readToEnd
    obtain ⟨h1, h2⟩ := p.read_ok hi hne (sz i + 1)
    obtain ⟨h3, -, h4⟩ := p.read_inv hi (sz i + 1)
    rcases hr : p.read (sz i + 1) with ⟨r, q⟩
    rw [hr] at h1 h2 h3 h4
    simp only at h1 h2 h3 h4
    subst h1
    cases hk : p.rest.take (sz i + 1) with
    | nil =>
      have : p.rest = [] := by
        cases hp : p.rest with
        | nil => rfl
        | cons x xs => rw [hp] at hk; simp at hk
      simp [this]
    | cons x xs =>
      simp only
      have hlen : (x :: xs).length ≤ p.rest.length := by rw [← hk, List.length_take]; omega
      have hd : q.rest.length < n := by
        rw [h2, List.length_drop]
        have : p.rest.length ≠ 0 := by simp at hlen; omega
        omega
      rw [ih (i + 1) (acc ++ x :: xs) h3 (fun e he => hne e (h4 e he)) hd, h2, ← hk, List.append_assoc, List.take_append_drop]

/-- Both clients send the body of the fields, which is small, with the boundary and without a length. -/
theorem test_clients (ht : t.Generated) (env : LazyEnv) (rng : List Nat) (sz : Nat → Nat) :
    (∃ h, testClient env.toFileEnv rng b t = .ok h ∧ h.buf = encode b (t.items.map Item.fld) ∧ h.boundary = b ∧ h.contentLen = none) ∧
    (∃ h p, testClientLazy env sz b t = .ok h ∧ PreparedFrom env b t.ops p ∧ p.rest = h.buf ∧ h.buf = encodeLazy b (lazyOrder (t.items.map Item.fld)) ∧ h.boundary = b ∧ h.contentLen = none) := by
  have hos : All2 (StandsFor env.toFileEnv) t.ops (t.items.map Item.fld) := by
    rw [t.ops_eq]
    exact items_all2 fun i _ => item_standsFor _ i
  obtain ⟨f, hf⟩ := ht.nonempty
  have ho : t.ops ≠ [] := by
    rw [t.ops_eq]
    intro h
    rw [List.map_eq_nil_iff] at h
    rw [h] at hf
    simp at hf
  constructor
  · obtain ⟨h, h1, h2, h3, h4⟩ := C71_sent (b := b) rng hos fun o ho evs hr => (ops_reads _ ho hr).1
    exact ⟨h, by simp only [testClient, h1], h2, h3, h4⟩
  · have hnr : NoReadErr env.toFileEnv t.ops := fun o ho evs hr => (ops_reads _ ho hr).2
    cases hp : ((LazyMp.build t.ops).prepare env b).1 with
    | error e =>
      obtain ⟨pre, o, post, nm, e, h1, ⟨path, h2, -⟩, -⟩ := (C36_named env b t.ops e).mp hp
      have : o ∈ t.ops := by rw [h1]; simp
      rw [t.ops_eq] at this
      obtain ⟨i, -, rfl⟩ := List.mem_map.mp this
      cases i <;> simp [Item.op, textOp, fileOp] at h2
    | ok p =>
      have hs := prepare_spec' hp hnr hos
      have hbd := C33_boundary_partial hp ho []
      simp only [Prepared.reads] at hbd
      have hfu : p.rest.length < p.fuel := by
        have h1 := Prepared.fuel_meas hs.start
        have h2 : p.rest.length ≤ p.meas := p.rest_le_meas
        omega
      have hre := Prepared.readToEnd_ok sz p.fuel 0 [] hs.inv (hs.noErrs hnr) hfu
      have hcl : p.contentLen = none := hs.noLen (by
        rw [List.any_eq_true]
        exact ⟨(Item.file f).op, by rw [t.ops_eq]; exact List.mem_map_of_mem hf, rfl⟩)
      refine ⟨_, p, by simp only [testClientLazy, hp, hbd, hre]; rfl, hp, rfl, hs.rest, rfl, hcl⟩

/-- What a server of the tests does with a small body that has these parts. -/
theorem test_servers (hD : D.Sane) (ht : t.Generated) {is : List Item} (hp : is.Perm t.items) {h : HttpBuffer} (hc : h.contentLen = none) (hb : h.boundary = b) (hl : b.length = 16)
    (hsm : h.buf.length ≤ 994) (hP : ∀ evs, Ev.bytes evs = h.buf → Parts D (dashes ++ b) (Ev.bytes evs) (is.map Item.read) .closed)
    (sz : BR → Nat → Nat) (rng : List Nat) {ns : List Nat} (hn : 0 ∉ ns) (hns : 994 ≤ ns.length) {fuel : Nat} (hf : 8 < fuel) :
    testServer D sz ns rng fuel h t = .ok ⟨[], []⟩ ∧ testServerEntryApi D sz ns rng fuel h t = .ok ⟨[], []⟩ := by
  obtain ⟨evs, h1, h2, h3, h4⟩ := C71_received h rng hn (by omega)
  rw [hb] at h1
  have hd : (dashes ++ b).length = 18 := by simp [dashes, hl]
  have he : entryBuf (dashes ++ b) = 1024 := by simp only [entryBuf, hd]; rfl
  obtain ⟨got, fin, hR⟩ := C82_total (evs := evs) (b := b) (s := withBody evs b) hD ⟨[], rfl⟩ sz
  obtain ⟨rfl, rfl⟩ := C93_exact_partial hD h2 h3 (by rw [h4, he]; omega) (hP evs h4) (hR.reads hD h2 h3 ⟨[], rfl⟩ rfl)
  have hpp := hp.trans (items_perm t.files.flat t.texts.flat)
  have htk : t.takes (is.map Item.read) = some ⟨[], []⟩ := by
    refine takes_all ht.texts.ok ht.files.ok (textsOf_read hpp).1 (textsOf_read hpp).2 ?_
    intro e hem hct
    obtain ⟨i, hi, rfl⟩ := List.mem_map.mp hem
    have hg := ht.item (hp.subset hi)
    cases i with
    | text x => exact (utf8Valid_iff _).mpr hg.2.nice.utf8
    | file x => simp [Item.read, OutField.asRead, Item.ct] at hct
  have hlen : (is.map Item.read).length ≤ 8 := by
    rw [List.length_map, hpp.length_eq, List.length_append, List.length_map, List.length_map]
    have := ht.files.flat_length; have := ht.texts.flat_length; omega
  have hcl : (h.forServer rng).contentLen = none := hc
  obtain ⟨k1, k2⟩ := serverLoop_takes (D := D) (sz := sz) fuel hR htk (by omega)
  refine ⟨by simp only [testServer, hcl, true_or, if_true, h1, k1], ?_⟩
  obtain ⟨n, rfl⟩ : ∃ n, fuel = n + 1 := ⟨fuel - 1, by omega⟩
  simp only [testServerEntryApi, hcl, true_or, if_true, h1]
  have hne : is ≠ [] := by
    rintro rfl
    obtain ⟨f, hf⟩ := ht.nonempty
    have := hp.symm.subset hf
    simp at this
  cases is with
  | nil => exact absurd rfl hne
  | cons i is =>
    generalize ho : (withBody evs b).intoEntry D = o at hR
    rw [List.map_cons] at hR htk hlen
    generalize hir : i.read = x at hR htk hlen
    generalize his : is.map Item.read = xs at hR htk hlen
    cases hR with
    | @entry fh s1 u dat es fin h5 h6 =>
      simp only [Owned.unwrap, TestFields.checkEntry]
      simp only [TestFields.takes] at htk
      cases hk : t.take (fh, dat) with
      | none => rw [hk] at htk; simp at htk
      | some t1 =>
        rw [hk] at htk
        simp only at htk
        simp only [checkField_take h5 hk]
        exact (serverLoop_takes (n + 1) (m := u) h6 htk (by simp at hlen; omega)).2

/-- **C99.** The four random tests of the crate pass, whatever random fields, boundary, split of writes and reads, buffer sizes and orders of iteration they come upon. -/
theorem C99_tests_pass (hD : D.Sane) (hT : D.Tokenizes) (hm : ∀ m ∈ testMimes, D.parseMime m.src = some m) (ht : t.Generated) {rs rs' : List UInt32} (hb : genBoundary rs = some (b, rs'))
    (env : LazyEnv) (rng rng' : List Nat) (szc : Nat → Nat) (sz : BR → Nat → Nat) {ns : List Nat} (hn : 0 ∉ ns) (hns : 994 ≤ ns.length) {fuel : Nat} (hf : 8 < fuel) :
    doTest (testClient env.toFileEnv rng b) (testServer D sz ns rng' fuel) t = .ok () ∧
    doTest (testClient env.toFileEnv rng b) (testServerEntryApi D sz ns rng' fuel) t = .ok () ∧
    doTest (testClientLazy env szc b) (testServer D sz ns rng' fuel) t = .ok () ∧
    doTest (testClientLazy env szc b) (testServerEntryApi D sz ns rng' fuel) t = .ok () := by
  obtain ⟨hl, hal⟩ := C29_boundary hb
  have hsb : SafeBoundary b := ⟨by rintro rfl; simp at hl, fun c hc => by
    have := hal c hc
    simp only [isAlnum, UInt8.le_iff_toNat_le] at this
    exact this⟩
  have hos : All2 (StandsFor env.toFileEnv) t.ops (t.items.map Item.fld) := by
    rw [t.ops_eq]
    exact items_all2 fun i _ => item_standsFor _ i
  have hse : ∀ {is : List Item}, is.Perm t.items → All2 (Sendable D b) (is.map Item.fld) (is.map Item.ct) := fun hp =>
    items_all2 fun i hi => Item.sendable hm hl (ht.item (hp.subset hi))
  obtain ⟨⟨h, a1, a2, a3, a4⟩, ⟨h', p, c1, cp, cr, c2, c3, c4⟩⟩ := test_clients (b := b) ht env rng szc
  obtain ⟨s1, s2⟩ := test_servers (D := D) hD ht (.refl _) a4 a3 hl (by rw [a2, encode_length]; exact ht.small hl (.refl _)) (fun evs he => by
    rw [← zipWith_read, he, a2]; exact encoded_parts hT hsb (hse (.refl _))) sz rng' hn hns hf
  have hlp := lazyItems_perm t.items
  have hlse := hse hlp
  obtain ⟨f, hfi⟩ := ht.nonempty
  have ho : t.ops ≠ [] := by
    rw [t.ops_eq]
    intro h
    rw [List.map_eq_nil_iff] at h
    rw [h] at hfi
    simp at hfi
  have hnr : NoReadErr env.toFileEnv t.ops := fun o ho evs hr => (ops_reads _ ho hr).2
  rw [← lazyItems_fld] at c2
  obtain ⟨s3, s4⟩ := test_servers (D := D) hD ht hlp c4 c3 hl (by rw [c2]; exact Nat.le_trans (encodeLazy_length _ _) (ht.small hl hlp)) (fun evs he => by
    rw [← zipWith_read, lazyItems_fld]
    rw [lazyItems_fld] at hlse
    refine prepared_parts (ns := [h'.buf.length + 1, 1]) hT hsb cp hnr ho hos hlse ?_ he
    have hrd := C30_read_sizes cp hnr hos [h'.buf.length + 1, 1]
    rw [← lazyItems_fld, ← c2] at hrd
    refine ⟨by simp, ?_, ?_⟩
    · rw [hrd]; simp [cuts]
    · rw [hrd, okBytes_map]; simp [cuts, List.take_of_length_le]) sz rng' hn hns hf
  exact ⟨by simp only [doTest, a1, s1, and_self, if_true], by simp only [doTest, a1, s2, and_self, if_true], by simp only [doTest, c1, s3, and_self, if_true],
    by simp only [doTest, c1, s4, and_self, if_true]⟩

/-- What they test is limited: every body they send fits into the buffer of the server (of at least 1024 bytes), and no request has a length. So they can not come upon what is wrong with
larger bodies (C01, C07, C93) or with lengths (C31). -/
theorem C99_small_bodies (ht : t.Generated) {rs rs' : List UInt32} (hb : genBoundary rs = some (b, rs')) (env : LazyEnv) (rng : List Nat) (sz : Nat → Nat) {h : HttpBuffer}
    (hs : testClient env.toFileEnv rng b t = .ok h ∨ testClientLazy env sz b t = .ok h) : h.buf.length ≤ 994 ∧ h.buf.length < entryBuf (dashes ++ b) ∧ h.contentLen = none := by
  obtain ⟨hl, -⟩ := C29_boundary hb
  obtain ⟨⟨h1, a1, a2, -, a4⟩, ⟨h2, p, c1, -, -, c2, -, c4⟩⟩ := test_clients (b := b) ht env rng sz
  have he : 1024 ≤ entryBuf (dashes ++ b) := Nat.le_max_left ..
  have key : h.buf.length ≤ 994 ∧ h.contentLen = none := by
    rcases hs with hs | hs
    · rw [a1] at hs; cases hs
      exact ⟨by rw [a2, encode_length]; exact ht.small hl (.refl _), a4⟩
    · rw [c1] at hs; cases hs
      exact ⟨by rw [c2, ← lazyItems_fld]; exact Nat.le_trans (encodeLazy_length _ _) (ht.small hl (lazyItems_perm _)), c4⟩
  exact ⟨key.1, by omega, key.2⟩

/-! ## What the tests check -/

theorem SetMap.remove_perm {α : Type} [DecidableEq α] {k : Bytes} {x : α} : ∀ {m m' : SetMap α}, m.remove k x = some m' → m.flat.Perm ((k, x) :: m'.flat) := by
  intro m
  induction m with
  | nil => intro m' h; simp [SetMap.remove] at h
  | cons e m ih =>
    intro m' h
    unfold SetMap.remove at h
    split at h
    · next h1 =>
      split at h
      · next hin =>
        have hp : (SetMap.flat (e :: m)).Perm ((k, x) :: ((e.2.erase x).map (fun y => (e.1, y)) ++ SetMap.flat m)) := by
          rw [SetMap.flat_cons]
          have := ((List.perm_cons_erase hin).map (fun y => (e.1, y))).append_right (SetMap.flat m)
          rw [← h1]
          simpa using this
        simp only [Option.some.injEq] at h
        subst h
        split
        · next h2 => rw [h2] at hp; exact hp
        · rw [SetMap.flat_cons]; exact hp
      · simp at h
    · cases hr : SetMap.remove k x m with
      | none => rw [hr] at h; simp at h
      | some m1 =>
        rw [hr] at h
        simp only [Option.map_some, Option.some.injEq] at h
        subst h
        rw [SetMap.flat_cons, SetMap.flat_cons]
        exact ((ih hr).append_left _).trans List.perm_middle

theorem checkField_perm {sz : BR → Nat → Nat} {t t' : TestFields} {fh : FieldHeaders} {m m1 m' : BR} {dat : Bytes} (hr : m.readToEnd (sz m) = (.ok (), dat, m1)) (h : t.checkField sz fh m = .ok (t', m')) :
    m' = m1 ∧ ∀ l, (textsOf l).Perm t'.texts.flat ∧ (filesOf l).Perm t'.files.flat → (textsOf ((fh, dat) :: l)).Perm t.texts.flat ∧ (filesOf ((fh, dat) :: l)).Perm t.files.flat := by
  unfold TestFields.checkField at h
  cases hc : fh.contentType with
  | none =>
    simp only [hc, BR.readToString, hr] at h
    have et : ∀ l, textsOf ((fh, dat) :: l) = (fh.name, dat) :: textsOf l := fun l => by simp [textsOf, hc]
    have ef : ∀ l, filesOf ((fh, dat) :: l) = filesOf l := fun l => by simp [filesOf, hc]
    cases hu : utf8Valid dat with
    | false => simp [hu, Res.cast] at h
    | true =>
      simp only [hu, if_true] at h
      cases hx : t.texts.remove fh.name dat with
      | none => simp [hx] at h
      | some x =>
        simp only [hx, Res.ok.injEq, Prod.mk.injEq] at h
        obtain ⟨rfl, rfl⟩ := h
        refine ⟨rfl, fun l hl => ?_⟩
        rw [et, ef]
        exact ⟨(hl.1.cons _).trans (SetMap.remove_perm hx).symm, hl.2⟩
  | some ct =>
    simp only [hc, hr] at h
    have et : ∀ l, textsOf ((fh, dat) :: l) = textsOf l := fun l => by simp [textsOf, hc]
    have ef : ∀ l, filesOf ((fh, dat) :: l) = (fh.name, ⟨ct, fh.filename, dat⟩) :: filesOf l := fun l => by simp [filesOf, hc]
    cases hx : t.files.remove fh.name ⟨ct, fh.filename, dat⟩ with
    | none => simp [hx] at h
    | some x =>
      simp only [hx, Res.ok.injEq, Prod.mk.injEq] at h
      obtain ⟨rfl, rfl⟩ := h
      refine ⟨rfl, fun l hl => ?_⟩
      rw [et, ef]
      exact ⟨hl.1, (hl.2.cons _).trans (SetMap.remove_perm hx).symm⟩

theorem checkField_broken {sz : BR → Nat → Nat} {t : TestFields} {fh : FieldHeaders} {m m1 : BR} {dat : Bytes} {e : IoErr} (hr : m.readToEnd (sz m) = (.err e, dat, m1)) :
    t.checkField sz fh m = .panic := by
  unfold TestFields.checkField
  cases hc : fh.contentType <;> simp [BR.readToString, hr, Res.cast]

/-- What the tests check is complete: whatever the server reads from whatever body, if no check fails and no field is left over, it read exactly the fields that were to be sent, each as often
as it was to be sent, with their names, types, filenames and data, and then the end. -/
theorem C99_pass_means {sz : BR → Nat → Nat} : ∀ (n : Nat) {t : TestFields} {m : BR} {got : List (FieldHeaders × Bytes)} {fin : Ending}, OwnedReads D sz (m.intoEntry D) got fin →
    (testServerLoop D sz n t m = .ok ⟨[], []⟩ ∨ testEntryLoop D sz n t m = .ok ⟨[], []⟩) → fin = .closed ∧ (textsOf got).Perm t.texts.flat ∧ (filesOf got).Perm t.files.flat := by
  intro n
  induction n with
  | zero => intro t m got fin _ h; simp [testServerLoop, testEntryLoop] at h
  | succ n ih =>
    intro t m got fin hr h
    simp only [testServerLoop, testEntryLoop] at h
    generalize ho : m.intoEntry D = o at hr h
    have hre : m.intoEntry D = o := ho
    unfold BR.intoEntry at hre
    rcases he : m.readEntry D with ⟨r, u⟩
    rw [he] at hre h
    cases hr with
    | fin =>
      rcases r with (_ | _) | _ | _ | _ <;> simp at hre
      simp only [Owned.unwrapOpt, or_self, Res.ok.injEq] at h
      subst h
      exact ⟨rfl, .refl _, .refl _⟩
    | error =>
      rcases r with (_ | _) | _ | _ | _ <;> simp at hre
      simp [Owned.unwrapOpt, Res.cast] at h
    | @entry fh s1 v dat es fin h1 h2 =>
      rcases r with (_ | _) | _ | _ | _ <;> simp at hre
      obtain ⟨rfl, rfl⟩ := hre
      rename_i fh
      simp only [Owned.unwrapOpt, TestFields.checkEntry] at h
      cases hk : t.checkField sz fh u with
      | ok x =>
        obtain ⟨t1, m1⟩ := x
        simp only [hk] at h
        obtain ⟨rfl, hp⟩ := checkField_perm h1 hk
        obtain ⟨h3, h4⟩ := ih (m := m1) h2 h
        exact ⟨h3, hp _ h4⟩
      | err e => simp [hk, Res.cast] at h
      | panic => simp [hk, Res.cast] at h
      | hang => simp [hk, Res.cast] at h
    | @broken fh s1 v dat e h1 =>
      rcases r with (_ | _) | _ | _ | _ <;> simp at hre
      obtain ⟨rfl, rfl⟩ := hre
      simp [Owned.unwrapOpt, TestFields.checkEntry, checkField_broken h1, Res.cast] at h

/-- A whole test that passes: the client wrote a request that announces no length or the right one, the server accepted it, and what the server reads from it, by either API, are exactly the
fields that were to be sent, and then the end. Nothing is assumed of the client, of the crates or of the fields. -/
theorem C99_do_test {client : TestFields → Res HttpBuffer} {sz : BR → Nat → Nat} {ns rng : List Nat} {fuel : Nat} {t : TestFields}
    (h : doTest client (testServer D sz ns rng fuel) t = .ok () ∨ doTest client (testServerEntryApi D sz ns rng fuel) t = .ok ()) :
    ∃ buf m, client t = .ok buf ∧ (buf.contentLen = none ∨ buf.contentLen = some buf.buf.length) ∧ fromRequest (mockHttp ns) (buf.forServer rng) = .ok m ∧
      ∀ {got : List (FieldHeaders × Bytes)} {fin : Ending}, OwnedReads D sz (m.intoEntry D) got fin →
        fin = .closed ∧ (textsOf got).Perm t.texts.flat ∧ (filesOf got).Perm t.files.flat := by
  have left : ∀ {server : HttpBuffer → TestFields → Res TestFields}, doTest client server t = .ok () → ∃ buf, client t = .ok buf ∧ server buf t = .ok ⟨[], []⟩ := by
    intro server h
    unfold doTest at h
    rcases hc : client t with buf | _ | _ | _ <;> simp only [hc, Res.cast] at h <;> try (simp at h; done)
    rcases hs : server buf t with t' | _ | _ | _ <;> simp only [hs] at h <;> try (simp at h; done)
    split at h
    · next he =>
      obtain ⟨x, y⟩ := t'
      obtain ⟨rfl, rfl⟩ := he
      exact ⟨buf, rfl, hs⟩
    · exact absurd h (by simp)
  rcases h with h | h
  · obtain ⟨buf, hc, hs⟩ := left h
    unfold testServer at hs
    simp only at hs
    split at hs
    · next hl =>
      cases hq : fromRequest (mockHttp ns) (buf.forServer rng) with
      | error _ => simp [hq] at hs
      | ok m =>
        simp only [hq] at hs
        exact ⟨buf, m, hc, hl, hq, fun hr => C99_pass_means fuel hr (.inl hs)⟩
    · simp at hs
  · obtain ⟨buf, hc, hs⟩ := left h
    unfold testServerEntryApi at hs
    simp only at hs
    split at hs
    · next hl =>
      cases hq : fromRequest (mockHttp ns) (buf.forServer rng) with
      | error _ => simp [hq] at hs
      | ok m =>
        simp only [hq] at hs
        refine ⟨buf, m, hc, hl, hq, fun hr => C99_pass_means (fuel + 1) hr (.inr ?_)⟩
        unfold testEntryLoop
        cases ho : m.intoEntry D <;> simp only [ho, Owned.unwrap, Res.cast] at hs <;> try (simp at hs; done)
        exact hs
    · simp at hs

namespace Sample

/-- Fields as a test may generate them. -/
def testFields : TestFields :=
  ⟨[(b!"a1-b2", [b!"x1--y2", b!"abcde--fghij"])], [(b!"f0f0", [⟨octetStream, some b!"n1n1", b!"data"⟩, ⟨⟨b!"text/plain", b!"text"⟩, none, b!"da-ta"⟩]), (b!"a1-b2", [⟨⟨b!"image/png", b!"image"⟩, none, b!"dat00"⟩])]⟩

theorem genString {s : Bytes} (k n : Nat) (hs : s = s.take k ++ List.replicate n 0x2D ++ s.drop (k + n)) (hn : n ≤ 2) (hx : 2 ≤ (s.take k).length ∧ (s.take k).length ≤ 5)
    (hy : 2 ≤ (s.drop (k + n)).length ∧ (s.drop (k + n)).length ≤ 5) (h : (s.take k ++ s.drop (k + n)).all (fun c => decide (0x30 ≤ c.toNat ∧ c.toNat ≤ 0x39 ∨ 0x41 ≤ c.toNat ∧ c.toNat ≤ 0x5A ∨ 0x61 ≤ c.toNat ∧ c.toNat ≤ 0x7A)) = true) :
    GenString s := by
  rw [List.all_eq_true] at h
  exact ⟨_, n, _, hs, hn, hx, hy, fun c hc => by simpa [IsLetterOrDigit] using h c (by simp [hc]), fun c hc => by simpa [IsLetterOrDigit] using h c (by simp [hc])⟩

theorem testFields_generated : testFields.Generated := by
  refine ⟨⟨by decide, by decide, ?_⟩, ⟨by decide, by decide, ?_⟩⟩
  · intro e he
    simp only [testFields, List.mem_singleton] at he
    subst he
    refine ⟨genString 2 1 (by decide) (by decide) (by decide) (by decide) (by decide), by decide, by decide, ?_⟩
    intro x hx
    simp only [List.mem_cons, List.not_mem_nil, or_false] at hx
    rcases hx with rfl | rfl
    · exact genString 2 2 (by decide) (by decide) (by decide) (by decide) (by decide)
    · exact genString 5 2 (by decide) (by decide) (by decide) (by decide) (by decide)
  · intro e he
    simp only [testFields, List.mem_cons, List.not_mem_nil, or_false] at he
    rcases he with rfl | rfl
    · refine ⟨genString 2 0 (by decide) (by decide) (by decide) (by decide) (by decide), by decide, by decide, ?_⟩
      intro x hx
      simp only [List.mem_cons, List.not_mem_nil, or_false] at hx
      rcases hx with rfl | rfl
      · exact ⟨by decide, fun n hn => by cases hn; exact genString 2 0 (by decide) (by decide) (by decide) (by decide) (by decide), genString 2 0 (by decide) (by decide) (by decide) (by decide) (by decide)⟩
      · exact ⟨by decide, fun n hn => (by cases hn), genString 2 1 (by decide) (by decide) (by decide) (by decide) (by decide)⟩
    · refine ⟨genString 2 1 (by decide) (by decide) (by decide) (by decide) (by decide), by decide, by decide, ?_⟩
      intro x hx
      simp only [List.mem_cons, List.not_mem_nil, or_false] at hx
      subst hx
      exact ⟨by decide, fun n hn => (by cases hn), genString 2 0 (by decide) (by decide) (by decide) (by decide) (by decide)⟩

end Sample

/-- The hypotheses of C99 are met. Those of C99_small_bodies are among them (a passed test has clients that do not fail). -/
example : refDeps.Sane ∧ refDeps.Tokenizes ∧ (∀ m ∈ testMimes, refDeps.parseMime m.src = some m) ∧ Sample.testFields.Generated ∧
    (∃ b rs', genBoundary (List.replicate 17 0xFFFFFFFF ++ List.replicate 20 0x12345678) = some (b, rs')) ∧ 0 ∉ List.replicate 994 7 ∧ 994 ≤ (List.replicate 994 7).length :=
  ⟨refDeps_sane, refDeps_tokenizes, by decide +kernel, Sample.testFields_generated, ⟨List.replicate 16 0x45, List.replicate 4 0x12345678, by decide +kernel⟩, fun h => absurd (List.eq_of_mem_replicate h) (by decide), by rw [List.length_replicate]; exact Nat.le_refl _⟩

/-- The hypothesis of C99_do_test is met (any test of C99_tests_pass would do), and is not met by every test: here the announced length is wrong, here a file is not sent. -/
example : doTest (fun _ => .ok (HttpBuffer.withBuf (encode b!"b" [⟨b!"a", none, none, b!"x"⟩]) b!"b" none [])) (testServer refDeps (fun _ i => i) (List.replicate 9 100) (List.replicate 9 99) 9) ⟨[(b!"a", [b!"x"])], []⟩ = .ok () ∧
    doTest (fun _ => .ok (HttpBuffer.withBuf (encode b!"b" [⟨b!"a", none, none, b!"x"⟩]) b!"b" (some 7) [])) (testServer refDeps (fun _ i => i) (List.replicate 9 100) (List.replicate 9 99) 9) ⟨[(b!"a", [b!"x"])], []⟩ = .panic ∧
    doTest (fun _ => .ok (HttpBuffer.withBuf (encode b!"b" [⟨b!"a", none, none, b!"x"⟩]) b!"b" none [])) (testServerEntryApi refDeps (fun _ i => i) (List.replicate 9 100) (List.replicate 9 99) 9)
      ⟨[(b!"a", [b!"x"])], [(b!"a", [⟨octetStream, none, b!"y"⟩])]⟩ = .panic := by decide +kernel

/-- A test that is not passed: the body lacks a field. -/
example : (match testServerLoop refDeps (fun _ i => i) 9 ⟨[(b!"a", [b!"x", b!"y"])], []⟩ (withBody [.data (encode b!"b" [⟨b!"a", none, none, b!"x"⟩])] b!"b") with
    | .ok t => decide (t.texts = [(b!"a", [b!"y"])])
    | _ => false) = true := by decide +kernel

/-- The hypotheses of C99_pass_means are met. -/
example : (match testServerLoop refDeps (fun _ i => i) 9 ⟨[(b!"a", [b!"x"])], []⟩ (withBody [.data (encode b!"b" [⟨b!"a", none, none, b!"x"⟩])] b!"b") with
      | .ok t => decide (t.texts = [] ∧ t.files = []) | _ => false) = true ∧
    ∃ got fin, OwnedReads refDeps (fun _ i => i) ((withBody [.data (encode b!"b" [⟨b!"a", none, none, b!"x"⟩])] b!"b").intoEntry refDeps) got fin :=
  ⟨by decide +kernel, C82_total (evs := _) (b := _) refDeps_sane ⟨[], rfl⟩ _⟩

end Multipart

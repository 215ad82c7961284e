import Verif.Props.ExampleClients
import Verif.Spec.Collisions
/-!
# Boundaries that occur in the data (C103)
-/
namespace Multipart

variable {D : Deps} {evs : List Ev} {b b' : Bytes} {fs : List OutField} {cts : List (Option Mime)}

theorem alnumTable_iff (c : Byte) : c ∈ alnumTable ↔ isAlnum c := by
  have hall : ∀ n : Fin 256, UInt8.ofNat n.val ∈ alnumTable ↔ isAlnum (UInt8.ofNat n.val) := by unfold isAlnum; decide +kernel
  have := hall ⟨c.toNat, c.toNat_lt⟩
  simpa using this

theorem alnumTable_length : alnumTable.length = 62 := by decide +kernel

theorem alnumTable_nodup : alnumTable.Nodup := by decide +kernel

/-! ## All boundaries -/

theorem strings (n : Nat) : ∃ l : List Bytes, l.Nodup ∧ l.length = 62 ^ n ∧ ∀ b, b ∈ l ↔ b.length = n ∧ ∀ c ∈ b, isAlnum c := by
  induction n with
  | zero => exact ⟨[[]], by simp, by simp, fun b => by simp; rintro rfl; simp⟩
  | succ n ih =>
    obtain ⟨l, h1, h2, h3⟩ := ih
    refine ⟨alnumTable.flatMap fun c => l.map (c :: ·), ?_, ?_, ?_⟩
    · refine List.pairwise_flatMap.mpr ⟨fun c _ => List.pairwise_map.mpr (h1.imp fun h h' => h (List.cons.inj h').2), alnumTable_nodup.imp ?_⟩
      intro c c' hc x hx y hy hxy
      simp only [List.mem_map] at hx hy
      obtain ⟨x, -, rfl⟩ := hx
      obtain ⟨y, -, rfl⟩ := hy
      exact hc (List.cons.inj hxy).1
    · rw [List.length_flatMap]
      simp only [List.length_map, h2, List.map_const', List.sum_replicate_nat, alnumTable_length, Nat.pow_succ]
      omega
    · intro b
      simp only [List.mem_flatMap, List.mem_map, h3, alnumTable_iff]
      constructor
      · rintro ⟨c, hc, x, ⟨hx, hx'⟩, rfl⟩
        exact ⟨by simp [hx], fun d hd => (List.mem_cons.mp hd).elim (fun e => e ▸ hc) (hx' d)⟩
      · rintro ⟨hb, hb'⟩
        cases b with
        | nil => simp at hb
        | cons c x => exact ⟨c, hb' c (by simp), x, ⟨by simpa using hb, fun d hd => hb' d (by simp [hd])⟩, rfl⟩

/-- C103: there are 62 to the power of 16 boundaries. -/
theorem C103_count : ∃ l : List Bytes, l.Nodup ∧ l.length = 62 ^ 16 ∧ ∀ b, b ∈ l ↔ Generable b := strings 16

/-! ## Each is as likely as the others -/

/-- The random number with the same low 26 bits that selects the character `c`. -/
def selecting (c : Byte) (r : UInt32) : UInt32 := UInt32.ofNat (alnumTable.idxOf c * 2 ^ 26 + r.toNat % 2 ^ 26)

/-- Replace the numbers that select characters by those that select the characters of `b`. -/
def retarget (sel : Byte → UInt32 → UInt32) : Bytes → List UInt32 → List UInt32
  | [], rs => rs
  | _ :: _, [] => []
  | c :: b, r :: rs =>
    match alnumTable[(r >>> 26).toNat]? with
    | some _ => sel c r :: retarget sel b rs
    | none => r :: retarget sel (c :: b) rs

theorem top_eq (r : UInt32) : (r >>> 26).toNat = r.toNat / 2 ^ 26 := by
  rw [UInt32.toNat_shiftRight]
  simp [Nat.shiftRight_eq_div_pow]

theorem idxOf_lt {c : Byte} (h : isAlnum c) : alnumTable.idxOf c < 62 := by
  rw [← alnumTable_length]
  exact List.idxOf_lt_length_iff.mpr ((alnumTable_iff c).mpr h)

theorem selecting_toNat {c : Byte} (h : isAlnum c) (r : UInt32) : (selecting c r).toNat = alnumTable.idxOf c * 2 ^ 26 + r.toNat % 2 ^ 26 := by
  have := idxOf_lt h
  have h2 := Nat.mod_lt r.toNat (show 0 < 2 ^ 26 by decide)
  unfold selecting
  rw [UInt32.toNat_ofNat']
  omega

theorem table_idxOf {c : Byte} (h : isAlnum c) : alnumTable[alnumTable.idxOf c]? = some c := by
  have := idxOf_lt h
  rw [← alnumTable_length] at this
  rw [List.getElem?_eq_getElem this, List.getElem_idxOf]

theorem selecting_top {c : Byte} (h : isAlnum c) (r : UInt32) : alnumTable[(selecting c r >>> 26).toNat]? = some c := by
  have : (selecting c r >>> 26).toNat = alnumTable.idxOf c := by
    rw [top_eq, selecting_toNat h]
    omega
  rw [this, table_idxOf h]

theorem selecting_back {c c' : Byte} {r : UInt32} (h : isAlnum c) (h' : isAlnum c') (hc : alnumTable[(r >>> 26).toNat]? = some c) : selecting c (selecting c' r) = r := by
  have hi : alnumTable.idxOf c = (r >>> 26).toNat := by
    obtain ⟨hlt, he⟩ := List.getElem?_eq_some_iff.mp hc
    rw [← he]
    exact alnumTable_nodup.idxOf_getElem _ hlt
  apply UInt32.toNat_inj.mp
  rw [selecting_toNat h, selecting_toNat h', hi, top_eq]
  omega

theorem retarget_spec {sel : Byte → UInt32 → UInt32} (hs : ∀ {c}, isAlnum c → ∀ r, alnumTable[(sel c r >>> 26).toNat]? = some c)
    (hs' : ∀ {c c' : Byte} {r : UInt32}, isAlnum c → isAlnum c' → alnumTable[(r >>> 26).toNat]? = some c → sel c (sel c' r) = r) {rs : List UInt32} : ∀ {b b' : Bytes} {rest : List UInt32}, randomAlphanumeric b.length rs = some (b, rest) → (∀ c ∈ b, isAlnum c) → (∀ c ∈ b', isAlnum c) →
    b'.length = b.length → (retarget sel b' rs).length = rs.length ∧ randomAlphanumeric b'.length (retarget sel b' rs) = some (b', rest) ∧
      retarget sel b (retarget sel b' rs) = rs := by
  induction rs with
  | nil =>
    intro b b' rest h h1 h2 hl
    cases b with
    | nil =>
      cases b' with
      | nil => exact ⟨rfl, h, rfl⟩
      | cons _ _ => simp at hl
    | cons c b => simp [randomAlphanumeric, sampleAlnum] at h
  | cons r rs ih =>
    intro b b' rest h h1 h2 hl
    cases b with
    | nil =>
      cases b' with
      | nil => exact ⟨rfl, h, rfl⟩
      | cons _ _ => simp at hl
    | cons c b =>
      cases b' with
      | nil => simp at hl
      | cons c' b' =>
        simp only [List.length_cons, randomAlphanumeric, sampleAlnum] at h
        cases ht : alnumTable[(r >>> 26).toNat]? with
        | some d =>
          rw [ht] at h
          simp only [Option.map_eq_some_iff] at h
          obtain ⟨⟨x, y⟩, hx, hxy⟩ := h
          simp only [Prod.mk.injEq, List.cons.injEq] at hxy
          obtain ⟨⟨rfl, rfl⟩, rfl⟩ := hxy
          obtain ⟨g1, g2, g3⟩ := ih (b' := b') hx (fun c hc => h1 c (List.mem_cons_of_mem _ hc)) (fun c hc => h2 c (List.mem_cons_of_mem _ hc)) (by simpa using hl)
          have ha := h1 d (List.mem_cons_self ..)
          have ha' := h2 c' (List.mem_cons_self ..)
          simp only [retarget, ht, List.length_cons, g1, true_and]
          refine ⟨?_, ?_⟩
          · simp only [randomAlphanumeric, sampleAlnum, hs ha', g2, Option.map_some]
          · simp only [hs ha', hs' ha ha' ht, g3]
        | none =>
          rw [ht] at h
          obtain ⟨g1, g2, g3⟩ := ih (b := c :: b) (b' := c' :: b') (rest := rest) (by simpa only [List.length_cons, randomAlphanumeric] using h) h1 h2 hl
          simp only [retarget, ht, List.length_cons, g1, true_and]
          refine ⟨?_, by simp only [g3]⟩
          simp only [List.length_cons, randomAlphanumeric] at g2
          simp only [randomAlphanumeric, sampleAlnum, ht]
          exact g2

/-- C103: all boundaries are equally likely. The sequences of random numbers that give a boundary correspond one to one to those, of the same length and with the same numbers left, that give another. -/
theorem C103_uniform (hb : Generable b) (hb' : Generable b') : ∃ f g : List UInt32 → List UInt32,
    (∀ rs rest, genBoundary rs = some (b, rest) → (f rs).length = rs.length ∧ genBoundary (f rs) = some (b', rest) ∧ g (f rs) = rs) ∧
    (∀ rs rest, genBoundary rs = some (b', rest) → (g rs).length = rs.length ∧ genBoundary (g rs) = some (b, rest) ∧ f (g rs) = rs) := by
  refine ⟨retarget selecting b', retarget selecting b, fun rs rest h => ?_, fun rs rest h => ?_⟩
  · have := retarget_spec selecting_top selecting_back (b := b) (b' := b') (rs := rs) (rest := rest) (by rw [hb.1]; exact h) hb.2 hb'.2 (by rw [hb.1, hb'.1])
    rwa [hb'.1] at this
  · have := retarget_spec selecting_top selecting_back (b := b') (b' := b) (rs := rs) (rest := rest) (by rw [hb'.1]; exact h) hb'.2 hb.2 (by rw [hb.1, hb'.1])
    rwa [hb.1] at this

example : Generable b!"ABCDEFGHabcdefgh" ∧ Generable b!"0123456789012345" ∧ ∃ rs rest, genBoundary rs = some (List.replicate 16 0x45, rest) :=
  ⟨⟨by decide, by unfold isAlnum; decide⟩, ⟨by decide, by unfold isAlnum; decide⟩, List.replicate 17 0xFFFFFFFF ++ List.replicate 20 0x12345678, List.replicate 4 0x12345678, by decide +kernel⟩

/-! ## Few of them occur in the data -/

/-- The 16 bytes two bytes behind each position. -/
def windows (s : Bytes) : List Bytes := (List.range s.length).map fun q => (s.drop (q + 2)).take 16

theorem windows_length (s : Bytes) : (windows s).length = s.length := by simp [windows]

theorem absent_windows {s : Bytes} (hb : b.length = 16) (h : b ∉ windows s) : Absent (dashes ++ b) s := by
  intro q hq
  apply h
  obtain ⟨t, ht⟩ := hq
  have hlen := congrArg List.length ht
  simp only [List.length_append, List.length_drop, dashes, List.length_cons, List.length_nil, hb] at hlen
  refine List.mem_map.mpr ⟨q, List.mem_range.mpr (by omega), ?_⟩
  have : s.drop (q + 2) = b ++ t := by
    rw [← List.drop_drop, ← ht]
    simp [dashes]
  rw [this, List.take_left' hb]

/-- The boundaries that could collide with a field. -/
def OutField.collisions (f : OutField) : List Bytes := windows f.name ++ windows (f.filename.getD []) ++ windows (f.ctype.getD []) ++ windows f.data

theorem collisions_length (f : OutField) : f.collisions.length = f.size := by
  simp only [OutField.collisions, List.length_append, windows_length, OutField.size]

theorem sendable_of (hb : b.length = 16) {f : OutField} {ct : Option Mime} (h : SendableOtherwise D f ct) (hc : b ∉ f.collisions) : Sendable D b f ct := by
  obtain ⟨h1, h2⟩ := delim18 hb
  simp only [OutField.collisions, List.mem_append, not_or] at hc
  obtain ⟨⟨⟨c1, c2⟩, c3⟩, c4⟩ := hc
  refine ⟨h.name, h.filename, h.ctype, h.mime, by rw [h1, h2]; have := h.size; omega, absent_windows hb c1, ?_, ?_, absent_windows hb c4⟩
  · intro n hn
    rw [hn] at c2
    exact absent_windows hb c2
  · intro t ht
    rw [ht] at c3
    exact absent_windows hb c3

theorem all2_sendable (hb : b.length = 16) (h : All2 (SendableOtherwise D) fs cts) (hc : b ∉ fs.flatMap OutField.collisions) : All2 (Sendable D b) fs cts := by
  induction h with
  | nil => exact .nil
  | cons h1 _ ih =>
    simp only [List.flatMap_cons, List.mem_append, not_or] at hc
    exact .cons (sendable_of hb h1 hc.1) (ih hc.2)

/-- C103: of all generated boundaries, at most as many as the request has bytes occur in it; with all others every field can be sent. -/
theorem C103_few (h : All2 (SendableOtherwise D) fs cts) : ∃ bad : List Bytes, bad.length ≤ (fs.map OutField.size).sum ∧
    ∀ rs b rs', genBoundary rs = some (b, rs') → b ∉ bad → SafeBoundary b ∧ All2 (Sendable D b) fs cts := by
  refine ⟨fs.flatMap OutField.collisions, ?_, fun rs b rs' hg hc => ⟨(genBoundary_safe hg).1, all2_sendable (genBoundary_safe hg).2 h hc⟩⟩
  rw [List.length_flatMap]
  simp only [collisions_length]
  exact Nat.le_refl _

/-- The hypotheses of the theorem above and of C103_arrives are met. -/
example : All2 (SendableOtherwise refDeps) [helloText, helloBytes b!"--ABCDEFGHabcdefgh\r\n"] [none, some octetStream] ∧ ∃ rs b rs', genBoundary rs = some (b, rs') :=
  ⟨.cons ⟨Sample.nameText (by decide) (by decide) (by decide) (by decide) (by decide +kernel), by simp [helloText], by simp [helloText], rfl, by decide⟩
    (.cons ⟨nameText_binary, by simp [helloBytes], by intro t ht; cases ht; exact (testMimes_text (m := octetStream) (by simp [testMimes])).1, by decide +kernel, by decide +kernel⟩ .nil),
    List.replicate 17 0xFFFFFFFF ++ List.replicate 20 0x12345678, List.replicate 16 0x45, List.replicate 4 0x12345678, by decide +kernel⟩

/-- C103: so for all but at most that many boundaries, the fields of every request that was sent arrive, whatever server gets it, in whatever pieces. -/
theorem C103_arrives (hD : D.Sane) (hT : D.Tokenizes) (h : All2 (SendableOtherwise D) fs cts) : ∃ bad : List Bytes, bad.length ≤ (fs.map OutField.size).sum ∧
    ∀ rs b rs', genBoundary rs = some (b, rs') → b ∉ bad → ∀ (env : FileEnv) (os : List ClientOp), All2 (StandsFor env) os fs →
      ∀ (req : ClientReq) (s : ClientStream), plainRequest env req b os = (.ok (), some s) → ∀ (q : HyperClientReq) (len : Option Nat) (m : HMime), q.method = .post →
        (q.applyHeaders b len).2.contentType = some m → ∀ evs, NoStall evs → NoErr evs → Ev.bytes evs = s.sink.got → Arrives D b evs m fs cts := by
  obtain ⟨bad, h1, h2⟩ := C103_few h
  refine ⟨bad, h1, fun rs b rs' hg hb env os hos req s hs q len m hq hm evs hn hne he => ?_⟩
  obtain ⟨h3, h4⟩ := h2 rs b rs' hg hb
  exact C92_plain hD hT h3 hs hos h4 hq hm hn hne he

end Multipart

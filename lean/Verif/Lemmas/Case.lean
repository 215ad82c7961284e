import Verif.Spec.Header
import Verif.Lemmas.Find
namespace Multipart

theorem lowerByte_toNat (x : Byte) : (lowerByte x).toNat = if 0x41 ≤ x.toNat ∧ x.toNat ≤ 0x5A then x.toNat + 32 else x.toNat := by
  unfold lowerByte
  have hx : x.toNat < 256 := x.toNat_lt
  simp only [Bool.and_eq_true, decide_eq_true_eq, UInt8.le_iff_toNat_le]
  have e1 : (0x41 : UInt8).toNat = 0x41 := rfl
  have e2 : (0x5A : UInt8).toNat = 0x5A := rfl
  rw [e1, e2]
  split
  · rw [UInt8.toNat_add]
    have e3 : (0x20 : UInt8).toNat = 0x20 := rfl
    rw [e3]; omega
  · rfl

theorem lowerByte_eq_iff (x y : Byte) : lowerByte x = lowerByte y ↔ SameLetter x y := by
  rw [← UInt8.toNat_inj, lowerByte_toNat, lowerByte_toNat]
  unfold SameLetter
  rw [← UInt8.toNat_inj]
  split <;> split <;> omega

theorem eqIgnoreCase_iff (a b : Bytes) : eqIgnoreCase a b = true ↔ SameName a b := by
  unfold eqIgnoreCase SameName
  rw [beq_iff_eq]
  induction a generalizing b with
  | nil =>
    cases b with
    | nil => exact ⟨fun _ => .nil, fun _ => rfl⟩
    | cons y b => exact ⟨fun h => by simp at h, fun h => by cases h⟩
  | cons x a ih =>
    cases b with
    | nil => exact ⟨fun h => by simp at h, fun h => by cases h⟩
    | cons y b =>
      simp only [List.map_cons, List.cons.injEq]
      rw [lowerByte_eq_iff, ih]
      exact ⟨fun h => .cons h.1 h.2, fun h => by cases h with | cons h1 h2 => exact ⟨h1, h2⟩⟩

theorem findHeader_some_iff (hs : List Header) (name : Bytes) (h : Header) :
    findHeader hs name = some h ↔ FirstHeader hs name h := by
  unfold findHeader FirstHeader
  induction hs with
  | nil => exact ⟨fun h => by simp at h, fun ⟨pre, post, h, _⟩ => by cases pre <;> simp at h⟩
  | cons x xs ih =>
    rw [List.find?_cons]
    by_cases hx : eqIgnoreCase x.name name = true
    · rw [hx]
      simp only [Option.some.injEq]
      constructor
      · rintro rfl; exact ⟨[], xs, rfl, (eqIgnoreCase_iff _ _).mp hx, by simp⟩
      · rintro ⟨pre, post, h1, h2, h3⟩
        cases pre with
        | nil => simp at h1; exact h1.1
        | cons p pre =>
          simp only [List.cons_append, List.cons.injEq] at h1
          exact absurd ((eqIgnoreCase_iff _ _).mp hx) (by rw [h1.1]; exact h3 p (by simp))
    · have hx' : eqIgnoreCase x.name name = false := by simpa using hx
      rw [hx']
      simp only
      rw [ih]
      constructor
      · rintro ⟨pre, post, h1, h2, h3⟩
        refine ⟨x :: pre, post, by rw [h1]; rfl, h2, ?_⟩
        intro y hy
        rcases List.mem_cons.mp hy with rfl | hy
        · intro hc; exact hx ((eqIgnoreCase_iff _ _).mpr hc)
        · exact h3 y hy
      · rintro ⟨pre, post, h1, h2, h3⟩
        cases pre with
        | nil =>
          simp only [List.nil_append, List.cons.injEq] at h1
          exact absurd ((eqIgnoreCase_iff _ _).mpr h2) (by rw [← h1.1]; exact hx)
        | cons p pre =>
          simp only [List.cons_append, List.cons.injEq] at h1
          exact ⟨pre, post, h1.2, h2, fun y hy => h3 y (by simp [hy])⟩

theorem findHeader_none_iff (hs : List Header) (name : Bytes) :
    findHeader hs name = none ↔ ∀ h ∈ hs, ¬ SameName h.name name := by
  unfold findHeader
  rw [List.find?_eq_none]
  constructor
  · intro h x hx hc; exact h x hx ((eqIgnoreCase_iff _ _).mpr hc)
  · intro h x hx hc; exact h x hx ((eqIgnoreCase_iff _ _).mp hc)

/-! ## Pieces of a Content-Disposition value -/

theorem findByte_some {c : Byte} : ∀ {xs : Bytes} {i : Nat}, findByte c xs = some i → c ∉ xs.take i ∧ xs[i]? = some c := by
  intro xs
  induction xs with
  | nil => intro i h; simp [findByte] at h
  | cons x xs ih =>
    intro i h
    unfold findByte at h
    split at h
    · next hx => cases h; simp [hx]
    · next hx =>
      cases hf : findByte c xs with
      | none => rw [hf] at h; simp at h
      | some j =>
        rw [hf] at h
        simp at h
        subst h
        have := ih hf
        simp only [List.take_succ_cons, List.mem_cons, not_or, List.getElem?_cons_succ]
        exact ⟨⟨fun e => hx e.symm, this.1⟩, this.2⟩

theorem findByte_append {c : Byte} {a b : Bytes} (h : c ∉ a) : findByte c (a ++ c :: b) = some a.length := by
  induction a with
  | nil => simp [findByte]
  | cons x a ih =>
    simp only [List.mem_cons, not_or] at h
    simp [findByte, Ne.symm h.1, ih h.2]

theorem findByte_none {c : Byte} {a : Bytes} (h : c ∉ a) : findByte c a = none := by
  induction a with
  | nil => rfl
  | cons x a ih =>
    simp only [List.mem_cons, not_or] at h
    simp [findByte, Ne.symm h.1, ih h.2]

theorem dropWhile_none {p : Byte → Bool} {a : Bytes} (h : ∀ c, a.head? = some c → p c = false) : a.dropWhile p = a := by
  cases a with
  | nil => rfl
  | cons x a => simp [h x rfl]

theorem trimQuotes_plain {n : Bytes} (h1 : n.head? ≠ some 0x22) (h2 : n.getLast? ≠ some 0x22) : trimQuotes n = n := by
  unfold trimQuotes
  rw [dropWhile_none (a := n) (by intro c hc; simp; rintro rfl; exact h1 hc)]
  rw [dropWhile_none (a := n.reverse) (by intro c hc; simp; rintro rfl; apply h2; simpa using hc)]
  simp

theorem trimQuotes_quoted {n : Bytes} (h1 : n.head? ≠ some 0x22) (h2 : n.getLast? ≠ some 0x22) :
    trimQuotes (0x22 :: n ++ [0x22]) = n := by
  unfold trimQuotes
  have e1 : (0x22 :: n ++ [0x22] : Bytes).dropWhile (· = 0x22) = n ++ [0x22] ∨ (n = [] ∧ (0x22 :: n ++ [0x22] : Bytes).dropWhile (· = 0x22) = []) := by
    cases n with
    | nil => right; simp
    | cons x n =>
      left
      have : x ≠ 0x22 := by intro h; apply h1; simp [h]
      simp [this]
  rcases e1 with e1 | ⟨hn, e1⟩
  · rw [e1]
    simp only [List.reverse_append, List.reverse_cons, List.reverse_nil, List.nil_append, List.singleton_append]
    rw [List.dropWhile_cons_of_pos (by simp)]
    rw [dropWhile_none (a := n.reverse) (by intro c hc; simp; rintro rfl; apply h2; simpa using hc)]
    simp
  · rw [e1, hn]; rfl

/-- `get_str_after` on a value followed by the end, or by the end delimiter. -/
theorem getStrAfter_eq {needle A v T : Bytes} {c : Byte} (hf : FirstAt needle (A ++ needle ++ v ++ T) A.length) (hv : c ∉ v)
    (hT : T = [] ∨ T.head? = some c) : getStrAfter needle c (A ++ needle ++ v ++ T) = some (v, T) := by
  unfold getStrAfter
  rw [findSub_eq_some_iff.mpr hf]
  simp only
  have hd : (A ++ needle ++ v ++ T).drop (A.length + needle.length) = v ++ T := by
    rw [List.append_assoc (A ++ needle), ← List.length_append, List.drop_left]
  rw [hd]
  rcases hT with rfl | hT
  · simp only [List.append_nil]
    rw [findByte_none hv]
    simp only
    rw [show (A ++ needle ++ v).length - (A.length + needle.length) = v.length by simp; omega]
    simp
  · cases T with
    | nil => simp at hT
    | cons x T =>
      simp at hT; subst hT
      rw [findByte_append hv]
      simp only
      rw [show v.length + (A.length + needle.length) - (A.length + needle.length) = v.length by omega]
      have : (A ++ needle ++ v ++ x :: T).drop (v.length + (A.length + needle.length)) = x :: T := by
        rw [show v.length + (A.length + needle.length) = (A ++ needle ++ v).length by simp; omega, List.drop_left]
      rw [this]; simp

/-! ## `trim` -/

/-- The encodings of the white-space characters. -/
def whiteCodes : List Bytes := [[0x09], [0x0A], [0x0B], [0x0C], [0x0D], [0x20]] ++ wsEncodings

theorem whiteCodes_eq : whiteSpace.map (fun n => String.utf8EncodeChar (Char.ofNat n)) = [[0x09], [0x0A], [0x0B], [0x0C], [0x0D], [0x20], [0xC2, 0x85], [0xC2, 0xA0]] ++ wsEncodings.drop 2 := by
  decide +kernel

theorem whiteCodes_iff {e : Bytes} : e ∈ whiteCodes ↔ ∃ c : Char, c.toNat ∈ whiteSpace ∧ e = String.utf8EncodeChar c := by
  have h : whiteCodes = whiteSpace.map (fun n => String.utf8EncodeChar (Char.ofNat n)) := by rw [whiteCodes_eq]; rfl
  rw [h]
  constructor
  · intro hm
    obtain ⟨n, h1, h2⟩ := List.mem_map.mp hm
    have hv : ∀ n ∈ whiteSpace, (Char.ofNat n).toNat = n := by decide +kernel
    exact ⟨Char.ofNat n, by rw [hv n h1]; exact h1, h2.symm⟩
  · rintro ⟨c, h1, h2⟩
    exact List.mem_map.mpr ⟨c.toNat, h1, by rw [h2, Char.ofNat_toNat]⟩

theorem white_iff {w : Bytes} : White w ↔ ∃ es : List Bytes, w = es.flatten ∧ ∀ e ∈ es, e ∈ whiteCodes := by
  constructor
  · rintro ⟨cs, h1, h2⟩
    refine ⟨cs.map String.utf8EncodeChar, by rw [h1, encodeChars, List.flatMap_def], fun e he => ?_⟩
    obtain ⟨c, hc, rfl⟩ := List.mem_map.mp he
    exact whiteCodes_iff.mpr ⟨c, h2 c hc, rfl⟩
  · rintro ⟨es, h1, h2⟩
    subst h1
    induction es with
    | nil => exact ⟨[], rfl, by simp⟩
    | cons e es ih =>
      obtain ⟨cs, i1, i2⟩ := ih (fun e he => h2 e (by simp [he]))
      obtain ⟨c, h3, h4⟩ := whiteCodes_iff.mp (h2 e (by simp))
      refine ⟨c :: cs, by simp [encodeChars, h4] at i1 ⊢; exact i1, fun x hx => ?_⟩
      rcases List.mem_cons.mp hx with rfl | hx
      · exact h3
      · exact i2 x hx

theorem isWs1_iff {c : Byte} : isWs1 c = true ↔ [c] ∈ whiteCodes := by
  have : ∀ n : Fin 256, isWs1 (UInt8.ofNat n) = true ↔ [UInt8.ofNat n] ∈ whiteCodes := by decide +kernel
  have h := this ⟨c.toNat, c.toNat_lt⟩
  simpa using h

theorem wsLen_front {bs : Bytes} (h : wsLen wsEncodings bs ≠ 0) : bs.take (wsLen wsEncodings bs) ∈ whiteCodes := by
  cases bs with
  | nil => simp [wsLen] at h
  | cons x xs =>
    simp only [wsLen] at h ⊢
    split at h
    · rename_i h1
      rw [if_pos h1]
      exact isWs1_iff.mp h1
    · rename_i h1
      rw [if_neg h1]
      cases hf : wsEncodings.find? (fun e => e.isPrefixOf (x :: xs)) with
      | none => rw [hf] at h; simp at h
      | some e =>
        have h2 := List.find?_some hf
        obtain ⟨r, hr⟩ := List.isPrefixOf_iff_prefix.mp h2
        simp only
        rw [← hr, List.take_left]
        exact List.mem_append_right _ (List.mem_of_find?_eq_some hf)

theorem wsLen_back {bs : Bytes} (h : wsLen (wsEncodings.map List.reverse) bs ≠ 0) : (bs.take (wsLen (wsEncodings.map List.reverse) bs)).reverse ∈ whiteCodes := by
  cases bs with
  | nil => simp [wsLen] at h
  | cons x xs =>
    simp only [wsLen] at h ⊢
    split at h
    · rename_i h1
      rw [if_pos h1]
      exact isWs1_iff.mp h1
    · rename_i h1
      rw [if_neg h1]
      cases hf : (wsEncodings.map List.reverse).find? (fun e => e.isPrefixOf (x :: xs)) with
      | none => rw [hf] at h; simp at h
      | some e =>
        have h2 := List.find?_some hf
        obtain ⟨r, hr⟩ := List.isPrefixOf_iff_prefix.mp h2
        simp only
        rw [← hr, List.take_left]
        obtain ⟨e', h3, h4⟩ := List.mem_map.mp (List.mem_of_find?_eq_some hf)
        rw [← h4, List.reverse_reverse]
        exact List.mem_append_right _ h3

theorem trimStartAux_front : ∀ (n : Nat) (bs : Bytes), ∃ w, White w ∧ bs = w ++ trimStartAux wsEncodings n bs := by
  intro n
  induction n with
  | zero => intro bs; exact ⟨[], ⟨[], rfl, by simp⟩, rfl⟩
  | succ n ih =>
    intro bs
    unfold trimStartAux
    split
    · exact ⟨[], ⟨[], rfl, by simp⟩, rfl⟩
    · rename_i h
      obtain ⟨w, hw, e⟩ := ih (bs.drop (wsLen wsEncodings bs))
      obtain ⟨es, e1, e2⟩ := white_iff.mp hw
      refine ⟨bs.take (wsLen wsEncodings bs) ++ w, white_iff.mpr ⟨bs.take (wsLen wsEncodings bs) :: es, by simp [e1], fun x hx => ?_⟩, ?_⟩
      · rcases List.mem_cons.mp hx with rfl | hx
        · exact wsLen_front h
        · exact e2 x hx
      · rw [List.append_assoc, ← e, List.take_append_drop]

theorem trimStartAux_back : ∀ (n : Nat) (bs : Bytes), ∃ w, White w ∧ bs = w.reverse ++ trimStartAux (wsEncodings.map List.reverse) n bs := by
  intro n
  induction n with
  | zero => intro bs; exact ⟨[], ⟨[], rfl, by simp⟩, rfl⟩
  | succ n ih =>
    intro bs
    unfold trimStartAux
    split
    · exact ⟨[], ⟨[], rfl, by simp⟩, rfl⟩
    · rename_i h
      obtain ⟨w, hw, e⟩ := ih (bs.drop (wsLen (wsEncodings.map List.reverse) bs))
      obtain ⟨es, e1, e2⟩ := white_iff.mp hw
      refine ⟨w ++ (bs.take (wsLen (wsEncodings.map List.reverse) bs)).reverse,
        white_iff.mpr ⟨es ++ [(bs.take (wsLen (wsEncodings.map List.reverse) bs)).reverse], by simp [e1], fun x hx => ?_⟩, ?_⟩
      · rcases List.mem_append.mp hx with hx | hx
        · exact e2 x hx
        · simp only [List.mem_singleton] at hx; subst hx; exact wsLen_back h
      · rw [List.reverse_append, List.reverse_reverse, List.append_assoc, ← e, List.take_append_drop]

theorem wsLen_code {e : Bytes} (h : e ∈ whiteCodes) (r : Bytes) : wsLen wsEncodings (e ++ r) = e.length := by
  simp only [whiteCodes, wsEncodings, List.cons_append, List.nil_append, List.mem_cons, List.not_mem_nil, or_false] at h
  rcases h with rfl | rfl | rfl | rfl | rfl | rfl | rfl | rfl | rfl | rfl | rfl | rfl | rfl | rfl | rfl | rfl | rfl | rfl | rfl | rfl | rfl | rfl | rfl | rfl | rfl <;>
    simp [wsLen, isWs1, wsEncodings, List.find?, List.isPrefixOf]

theorem wsLen_code_back {e : Bytes} (h : e ∈ whiteCodes) (r : Bytes) : wsLen (wsEncodings.map List.reverse) (e.reverse ++ r) = e.length := by
  simp only [whiteCodes, wsEncodings, List.cons_append, List.nil_append, List.mem_cons, List.not_mem_nil, or_false] at h
  rcases h with rfl | rfl | rfl | rfl | rfl | rfl | rfl | rfl | rfl | rfl | rfl | rfl | rfl | rfl | rfl | rfl | rfl | rfl | rfl | rfl | rfl | rfl | rfl | rfl | rfl <;>
    simp [wsLen, isWs1, wsEncodings, List.find?, List.isPrefixOf]

theorem whiteCodes_pos {e : Bytes} (h : e ∈ whiteCodes) : 0 < e.length :=
  (by decide +kernel : ∀ e ∈ whiteCodes, 0 < e.length) e h

/-- Characters, found one after the other by `wsLen`, are stripped. -/
theorem trimStartAux_codes (encs : List Bytes) {core : Bytes} (hc : wsLen encs core = 0) :
    ∀ (es : List Bytes) (n : Nat), (∀ e ∈ es, 0 < e.length ∧ ∀ r, wsLen encs (e ++ r) = e.length) → es.flatten.length ≤ n → trimStartAux encs n (es.flatten ++ core) = core := by
  intro es
  induction es with
  | nil => intro n _ _; cases n <;> simp [trimStartAux, hc]
  | cons e es ih =>
    intro n he hn
    obtain ⟨h0, h1⟩ := he e (by simp)
    simp only [List.flatten_cons, List.length_append] at hn
    cases n with
    | zero => omega
    | succ n =>
      simp only [List.flatten_cons, List.append_assoc, trimStartAux, h1]
      rw [if_neg (by omega), List.drop_left]
      exact ih n (fun x hx => he x (by simp [hx])) (by omega)

/-- What `trim` gives is `form-data` exactly for `form-data` with white space around it. -/
theorem trimWs_formData_iff {x : Bytes} : trimWs x = b!"form-data" ↔ ∃ w1 w2, White w1 ∧ White w2 ∧ x = w1 ++ b!"form-data" ++ w2 := by
  constructor
  · intro h
    unfold trimWs at h
    simp only at h
    obtain ⟨w1, h1, e1⟩ := trimStartAux_front x.length x
    obtain ⟨w2, h2, e2⟩ := trimStartAux_back (trimStartAux wsEncodings x.length x).length (trimStartAux wsEncodings x.length x).reverse
    refine ⟨w1, w2, h1, h2, ?_⟩
    have e3 := congrArg List.reverse e2
    rw [List.reverse_reverse, List.reverse_append, List.reverse_reverse, h] at e3
    rw [List.append_assoc, ← e3]; exact e1
  · rintro ⟨w1, w2, h1, h2, rfl⟩
    obtain ⟨es1, d1, d2⟩ := white_iff.mp h1
    obtain ⟨es2, d3, d4⟩ := white_iff.mp h2
    unfold trimWs
    have e1 : trimStartAux wsEncodings (w1 ++ b!"form-data" ++ w2).length (w1 ++ b!"form-data" ++ w2) = b!"form-data" ++ w2 := by
      rw [List.append_assoc, d1]
      exact trimStartAux_codes _ (by simp [wsLen, isWs1, wsEncodings]) es1 _ (fun e he => ⟨whiteCodes_pos (d2 e he), wsLen_code (d2 e he)⟩) (by simp)
    rw [e1]
    simp only
    have e2 : (b!"form-data" ++ w2).reverse = (es2.map List.reverse).reverse.flatten ++ b!"form-data".reverse := by
      rw [List.reverse_append, d3, List.reverse_flatten]
    rw [e2, trimStartAux_codes _ (by decide)]
    · rfl
    · intro e he
      simp only [List.mem_reverse, List.mem_map] at he
      obtain ⟨e', h3, rfl⟩ := he
      exact ⟨by rw [List.length_reverse]; exact whiteCodes_pos (d4 e' h3), fun r => by rw [wsLen_code_back (d4 e' h3), List.length_reverse]⟩
    · have := congrArg List.length e2
      simp only [List.length_append, List.length_reverse] at this ⊢
      omega

theorem White.noSemi {w : Bytes} (h : White w) : (0x3B : Byte) ∉ w := by
  obtain ⟨es, rfl, h2⟩ := white_iff.mp h
  intro hm
  obtain ⟨e, h3, h4⟩ := List.mem_flatten.mp hm
  exact (by decide +kernel : ∀ e ∈ whiteCodes, (0x3B : Byte) ∉ e) e (h2 e h3) h4

theorem white_nil : White [] := ⟨[], rfl, by simp⟩

end Multipart

import Verif.Model.Utf8
import Verif.Spec.Text
/-!
# `utf8Valid` and `validUpTo` against Lean's own UTF-8 encoder
-/
namespace Multipart

theorem IsUtf8.nil : IsUtf8 [] := ⟨[], rfl⟩

theorem IsUtf8.append {a b : Bytes} (ha : IsUtf8 a) (hb : IsUtf8 b) : IsUtf8 (a ++ b) := by
  obtain ⟨cs, rfl⟩ := ha
  obtain ⟨ds, rfl⟩ := hb
  exact ⟨cs ++ ds, by simp [encodeChars]⟩

theorem byte_le {a b : Byte} : (decide (a ≤ b)) = true ↔ a.toNat ≤ b.toNat := by
  rw [decide_eq_true_iff, UInt8.le_iff_toNat_le]

theorem byte_eq {a b : Byte} : a = b ↔ a.toNat = b.toNat := ⟨fun h => by rw [h], UInt8.toNat_inj.mp⟩

theorem isCont_iff (b : Byte) : isCont b = true ↔ 0x80 ≤ b.toNat ∧ b.toNat ≤ 0xBF := by
  simp only [isCont, Bool.and_eq_true, byte_le]; exact Iff.rfl

theorem ofNat_toNat {n : Nat} (h : n < 256) : (UInt8.ofNat n).toNat = n := by
  rw [UInt8.toNat_ofNat']; omega

theorem char_range (c : Char) : c.val.toNat < 0xd800 ∨ (0xdfff < c.val.toNat ∧ c.val.toNat < 0x110000) := c.valid

/-- A character's encoding is recognised, whatever follows it. -/
theorem utf8CharLen_encode (c : Char) (r : Bytes) : utf8CharLen (String.utf8EncodeChar c ++ r) = some (String.utf8EncodeChar c).length := by
  have hv := char_range c
  unfold String.utf8EncodeChar
  generalize c.val.toNat = v at hv
  simp only
  by_cases h1 : v ≤ 0x7f
  · have e : (UInt8.ofNat v).toNat = v := ofNat_toNat (by omega)
    simp only [if_pos h1, List.cons_append, List.nil_append, utf8CharLen]
    rw [if_pos (by rw [UInt8.le_iff_toNat_le, e]; exact h1)]
    rfl
  rw [if_neg h1]
  by_cases h2 : v ≤ 0x7ff
  · rw [if_pos h2]
    have e1 : (UInt8.ofNat (v / 64 % 32 + 192)).toNat = v / 64 % 32 + 192 := ofNat_toNat (by omega)
    have e2 : (UInt8.ofNat (v % 64 + 128)).toNat = v % 64 + 128 := ofNat_toNat (by omega)
    simp only [List.cons_append, List.nil_append, utf8CharLen]
    rw [if_neg (by rw [UInt8.le_iff_toNat_le, e1]; simp <;> omega),
      if_pos (by rw [Bool.and_eq_true, byte_le, byte_le, e1]; simp <;> omega), if_pos (by rw [isCont_iff, e2]; omega)]
    rfl
  rw [if_neg h2]
  by_cases h3 : v ≤ 0xffff
  · rw [if_pos h3]
    have e1 : (UInt8.ofNat (v / 4096 % 16 + 224)).toNat = v / 4096 % 16 + 224 := ofNat_toNat (by omega)
    have e2 : (UInt8.ofNat (v / 64 % 64 + 128)).toNat = v / 64 % 64 + 128 := ofNat_toNat (by omega)
    have e3 : (UInt8.ofNat (v % 64 + 128)).toNat = v % 64 + 128 := ofNat_toNat (by omega)
    simp only [List.cons_append, List.nil_append, utf8CharLen]
    rw [if_neg (by rw [UInt8.le_iff_toNat_le, e1]; simp <;> omega),
      if_neg (by rw [Bool.and_eq_true, byte_le, byte_le, e1]; simp <;> omega),
      if_pos (by rw [Bool.and_eq_true, byte_le, byte_le, e1]; simp <;> omega)]
    rw [if_pos]
    · rfl
    · rw [Bool.and_eq_true, isCont_iff, e3]
      refine ⟨?_, by omega⟩
      split
      · next h => rw [byte_eq, e1] at h; simp at h; rw [Bool.and_eq_true, byte_le, byte_le, e2]; simp; omega
      · next h =>
        rw [byte_eq, e1] at h; simp at h
        split
        · next h => rw [byte_eq, e1] at h; simp at h; rw [Bool.and_eq_true, byte_le, byte_le, e2]; simp; omega
        · rw [isCont_iff, e2]; omega
  · rw [if_neg h3]
    have e1 : (UInt8.ofNat (v / 262144 % 8 + 240)).toNat = v / 262144 % 8 + 240 := ofNat_toNat (by omega)
    have e2 : (UInt8.ofNat (v / 4096 % 64 + 128)).toNat = v / 4096 % 64 + 128 := ofNat_toNat (by omega)
    have e3 : (UInt8.ofNat (v / 64 % 64 + 128)).toNat = v / 64 % 64 + 128 := ofNat_toNat (by omega)
    have e4 : (UInt8.ofNat (v % 64 + 128)).toNat = v % 64 + 128 := ofNat_toNat (by omega)
    simp only [List.cons_append, List.nil_append, utf8CharLen]
    rw [if_neg (by rw [UInt8.le_iff_toNat_le, e1]; simp <;> omega),
      if_neg (by rw [Bool.and_eq_true, byte_le, byte_le, e1]; simp <;> omega),
      if_neg (by rw [Bool.and_eq_true, byte_le, byte_le, e1]; simp <;> omega),
      if_pos (by rw [Bool.and_eq_true, byte_le, byte_le, e1]; simp <;> omega)]
    rw [if_pos]
    · rfl
    · rw [Bool.and_eq_true, Bool.and_eq_true, isCont_iff, isCont_iff, e3, e4]
      refine ⟨⟨?_, by omega⟩, by omega⟩
      split
      · next h => rw [byte_eq, e1] at h; simp at h; rw [Bool.and_eq_true, byte_le, byte_le, e2]; simp; omega
      · next h =>
        rw [byte_eq, e1] at h; simp at h
        split
        · next h => rw [byte_eq, e1] at h; simp at h; rw [Bool.and_eq_true, byte_le, byte_le, e2]; simp; omega
        · rw [isCont_iff, e2]; omega

/-- The character with a given code point. -/
theorem exists_char {v : Nat} (h : v < 0xd800 ∨ (0xdfff < v ∧ v < 0x110000)) : ∃ c : Char, c.val.toNat = v := by
  have hlt : v < 2 ^ 32 := by omega
  refine ⟨⟨UInt32.ofNat v, ?_⟩, ?_⟩
  · have : (UInt32.ofNat v).toNat = v := by rw [UInt32.toNat_ofNat']; omega
    show Nat.isValidChar _
    rw [this]; exact h
  · show (UInt32.ofNat v).toNat = v
    rw [UInt32.toNat_ofNat']; omega

/-- What is recognised is a character's encoding. -/
theorem utf8CharLen_some {bs : Bytes} {k : Nat} (h : utf8CharLen bs = some k) :
    ∃ c, bs = String.utf8EncodeChar c ++ bs.drop k ∧ k = (String.utf8EncodeChar c).length := by
  have lt (b : Byte) : b.toNat < 256 := UInt8.toNat_lt b
  unfold utf8CharLen at h
  cases bs with
  | nil => simp at h
  | cons a r =>
    simp only at h
    split at h
    · next h1 =>
      rw [UInt8.le_iff_toNat_le] at h1
      have h1 : a.toNat ≤ 127 := h1
      obtain ⟨c, hc⟩ := exists_char (v := a.toNat) (by omega)
      simp only [Option.some.injEq] at h; subst h
      refine ⟨c, ?_, ?_⟩ <;> unfold String.utf8EncodeChar <;> simp only [hc, if_pos h1]
      · simp
      · rfl
    next n1 =>
    rw [UInt8.le_iff_toNat_le] at n1
    have n1 : ¬ a.toNat ≤ 127 := n1
    split at h
    · next h1 =>
      rw [Bool.and_eq_true, byte_le, byte_le] at h1
      have h1 : 194 ≤ a.toNat ∧ a.toNat ≤ 223 := h1
      cases r with
      | nil => simp at h
      | cons b r =>
        simp only at h
        split at h
        · next h2 =>
          rw [isCont_iff] at h2
          simp only [Option.some.injEq] at h; subst h
          obtain ⟨c, hc⟩ := exists_char (v := (a.toNat - 192) * 64 + (b.toNat - 128)) (by omega)
          refine ⟨c, ?_, ?_⟩ <;> unfold String.utf8EncodeChar <;> simp only [hc]
          · rw [if_neg (by omega), if_pos (by omega)]
            simp only [List.cons_append, List.nil_append, List.drop_succ_cons, List.drop_zero, List.cons.injEq, and_true]
            exact ⟨byte_eq.mpr (by rw [ofNat_toNat (by omega)]; omega), byte_eq.mpr (by rw [ofNat_toNat (by omega)]; omega)⟩
          · rw [if_neg (by omega), if_pos (by omega)]; rfl
        · simp at h
    next n2 =>
    rw [Bool.and_eq_true, byte_le, byte_le] at n2
    have n2 : ¬ (194 ≤ a.toNat ∧ a.toNat ≤ 223) := n2
    split at h
    · next h1 =>
      rw [Bool.and_eq_true, byte_le, byte_le] at h1
      have h1 : 224 ≤ a.toNat ∧ a.toNat ≤ 239 := h1
      match r, h with
      | [], h => simp at h
      | [_], h => simp at h
      | b :: c :: r, h =>
        simp only at h
        rw [Option.ite_none_right_eq_some] at h
        obtain ⟨h2, h⟩ := h
        · rw [Bool.and_eq_true, isCont_iff] at h2
          obtain ⟨hb, hc⟩ := h2
          simp only [Option.some.injEq] at h; subst h
          have hb : 128 ≤ b.toNat ∧ b.toNat ≤ 191 ∧ (a.toNat = 224 → 160 ≤ b.toNat) ∧ (a.toNat = 237 → b.toNat ≤ 159) := by
            split at hb
            · next e => subst e; rw [Bool.and_eq_true, byte_le, byte_le] at hb; simp at hb ⊢; omega
            · next e =>
              rw [byte_eq] at e
              have e : a.toNat ≠ 224 := e
              split at hb
              · next e => subst e; rw [Bool.and_eq_true, byte_le, byte_le] at hb; simp at hb ⊢; omega
              · next e => rw [byte_eq] at e; have e : a.toNat ≠ 237 := e; rw [isCont_iff] at hb; omega
          obtain ⟨x, hx⟩ := exists_char (v := (a.toNat - 224) * 4096 + (b.toNat - 128) * 64 + (c.toNat - 128)) (by omega)
          refine ⟨x, ?_, ?_⟩ <;> unfold String.utf8EncodeChar <;> simp only [hx]
          · rw [if_neg (by omega), if_neg (by omega), if_pos (by omega)]
            simp only [List.cons_append, List.nil_append, List.drop_succ_cons, List.drop_zero, List.cons.injEq, and_true]
            exact ⟨byte_eq.mpr (by rw [ofNat_toNat (by omega)]; omega), byte_eq.mpr (by rw [ofNat_toNat (by omega)]; omega),
              byte_eq.mpr (by rw [ofNat_toNat (by omega)]; omega)⟩
          · rw [if_neg (by omega), if_neg (by omega), if_pos (by omega)]; rfl
    next n3 =>
    rw [Bool.and_eq_true, byte_le, byte_le] at n3
    have n3 : ¬ (224 ≤ a.toNat ∧ a.toNat ≤ 239) := n3
    split at h
    · next h1 =>
      rw [Bool.and_eq_true, byte_le, byte_le] at h1
      have h1 : 240 ≤ a.toNat ∧ a.toNat ≤ 244 := h1
      match r, h with
      | [], h => simp at h
      | [_], h => simp at h
      | [_, _], h => simp at h
      | b :: c :: d :: r, h =>
        simp only at h
        rw [Option.ite_none_right_eq_some] at h
        obtain ⟨h2, h⟩ := h
        · rw [Bool.and_eq_true, Bool.and_eq_true, isCont_iff, isCont_iff] at h2
          obtain ⟨⟨hb, hc⟩, hd⟩ := h2
          simp only [Option.some.injEq] at h; subst h
          have hb : 128 ≤ b.toNat ∧ b.toNat ≤ 191 ∧ (a.toNat = 240 → 144 ≤ b.toNat) ∧ (a.toNat = 244 → b.toNat ≤ 143) := by
            split at hb
            · next e => subst e; rw [Bool.and_eq_true, byte_le, byte_le] at hb; simp at hb ⊢; omega
            · next e =>
              rw [byte_eq] at e
              have e : a.toNat ≠ 240 := e
              split at hb
              · next e => subst e; rw [Bool.and_eq_true, byte_le, byte_le] at hb; simp at hb ⊢; omega
              · next e => rw [byte_eq] at e; have e : a.toNat ≠ 244 := e; rw [isCont_iff] at hb; omega
          obtain ⟨x, hx⟩ := exists_char
            (v := (a.toNat - 240) * 262144 + (b.toNat - 128) * 4096 + (c.toNat - 128) * 64 + (d.toNat - 128)) (by omega)
          refine ⟨x, ?_, ?_⟩ <;> unfold String.utf8EncodeChar <;> simp only [hx]
          · rw [if_neg (by omega), if_neg (by omega), if_neg (by omega)]
            simp only [List.cons_append, List.nil_append, List.drop_succ_cons, List.drop_zero, List.cons.injEq, and_true]
            exact ⟨byte_eq.mpr (by rw [ofNat_toNat (by omega)]; omega), byte_eq.mpr (by rw [ofNat_toNat (by omega)]; omega),
              byte_eq.mpr (by rw [ofNat_toNat (by omega)]; omega), byte_eq.mpr (by rw [ofNat_toNat (by omega)]; omega)⟩
          · rw [if_neg (by omega), if_neg (by omega), if_neg (by omega)]; rfl
    · simp at h

theorem encode_length_pos (c : Char) : 0 < (String.utf8EncodeChar c).length := List.length_pos_iff.mpr String.utf8EncodeChar_ne_nil

theorem encode_length_le (c : Char) : (String.utf8EncodeChar c).length ≤ 4 := by
  unfold String.utf8EncodeChar; simp only; split <;> (try split) <;> (try split) <;> simp

/-- The accepted prefix is text. -/
theorem validUpToAux_valid : ∀ (n : Nat) (bs : Bytes), validUpToAux n bs ≤ bs.length ∧ IsUtf8 (bs.take (validUpToAux n bs)) := by
  intro n
  induction n with
  | zero => intro bs; exact ⟨Nat.zero_le _, by simp [validUpToAux]; exact .nil⟩
  | succ n ih =>
    intro bs
    unfold validUpToAux
    cases h : utf8CharLen bs with
    | none => exact ⟨Nat.zero_le _, by simp; exact .nil⟩
    | some k =>
      obtain ⟨c, hc, hk⟩ := utf8CharLen_some h
      obtain ⟨i1, i2⟩ := ih (bs.drop k)
      have hl : k ≤ bs.length := by
        have := congrArg List.length hc
        rw [List.length_append, List.length_drop] at this
        omega
      simp only
      refine ⟨by rw [List.length_drop] at i1; omega, ?_⟩
      have e : bs.take k = String.utf8EncodeChar c := by
        rw [hc, hk]; simp
      rw [List.take_add, e]
      exact .append ⟨[c], by simp [encodeChars]⟩ i2

/-- Every text at the start is accepted. -/
theorem validUpToAux_encode : ∀ (cs : List Char) (n : Nat) (r : Bytes), (encodeChars cs).length ≤ n →
    (encodeChars cs).length ≤ validUpToAux n (encodeChars cs ++ r) := by
  intro cs
  induction cs with
  | nil => intro n r _; simp [encodeChars]
  | cons c cs ih =>
    intro n r hn
    have e : encodeChars (c :: cs) = String.utf8EncodeChar c ++ encodeChars cs := by simp [encodeChars]
    rw [e, List.length_append] at hn ⊢
    have := encode_length_pos c
    cases n with
    | zero => omega
    | succ n =>
      unfold validUpToAux
      rw [List.append_assoc, utf8CharLen_encode]
      simp only [List.drop_left]
      have := ih n r (by omega)
      omega

/-- `valid_up_to` is the length of the longest prefix that is text. -/
theorem validUpTo_spec (bs : Bytes) : validUpTo bs ≤ bs.length ∧ IsUtf8 (bs.take (validUpTo bs)) ∧
    ∀ k, k ≤ bs.length → IsUtf8 (bs.take k) → k ≤ validUpTo bs := by
  refine ⟨(validUpToAux_valid _ _).1, (validUpToAux_valid _ _).2, fun k hk ⟨cs, hcs⟩ => ?_⟩
  have hl : (encodeChars cs).length = k := by rw [← hcs, List.length_take]; omega
  have := validUpToAux_encode cs bs.length (bs.drop k) (by omega)
  rw [hl, ← hcs, List.take_append_drop] at this
  exact this

/-- `from_utf8` accepts exactly the encodings of texts. -/
theorem utf8Valid_iff (bs : Bytes) : utf8Valid bs = true ↔ IsUtf8 bs := by
  unfold utf8Valid
  rw [beq_iff_eq]
  obtain ⟨h1, h2, h3⟩ := validUpTo_spec bs
  constructor
  · intro h; rw [h, List.take_length] at h2; exact h2
  · intro h; exact Nat.le_antisymm h1 (h3 _ (Nat.le_refl _) (by rw [List.take_length]; exact h))

/-- Invalid bytes stay invalid behind text. -/
theorem IsUtf8.of_append_left {a b : Bytes} (h : IsUtf8 (a ++ b)) (ha : IsUtf8 a) : IsUtf8 b := by
  obtain ⟨cs, rfl⟩ := ha
  induction cs with
  | nil => simpa [encodeChars] using h
  | cons c cs ih =>
    apply ih
    have e : encodeChars (c :: cs) = String.utf8EncodeChar c ++ encodeChars cs := by simp [encodeChars]
    obtain ⟨ds, hds⟩ := h
    rw [e, List.append_assoc] at hds
    have h1 := utf8CharLen_encode c (encodeChars cs ++ b)
    cases ds with
    | nil =>
      have := congrArg List.length hds
      have h2 := encode_length_pos c
      rw [List.length_append] at this
      change _ = 0 at this
      omega
    | cons d ds =>
      have e2 : encodeChars (d :: ds) = String.utf8EncodeChar d ++ encodeChars ds := by simp [encodeChars]
      have h2 := utf8CharLen_encode d (encodeChars ds)
      rw [← e2, ← hds, h1] at h2
      simp only [Option.some.injEq] at h2
      rw [e2] at hds
      exact ⟨ds, (List.append_inj hds h2).2⟩

end Multipart

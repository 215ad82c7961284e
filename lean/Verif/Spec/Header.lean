import Verif.Model.Server
import Verif.Spec.Parts
import Verif.Spec.Text
/-!
# Vocabulary for statements about headers
-/
namespace Multipart

/-- Two bytes that are the same up to ASCII case. -/
def SameLetter (x y : Byte) : Prop :=
  x = y ∨ (0x41 ≤ x.toNat ∧ x.toNat ≤ 0x5A ∧ y.toNat = x.toNat + 32) ∨ (0x41 ≤ y.toNat ∧ y.toNat ≤ 0x5A ∧ x.toNat = y.toNat + 32)

/-- Two names that are the same up to ASCII case. -/
def SameName (a b : Bytes) : Prop := All2 SameLetter a b

/-- `h` is the first header with this name. -/
def FirstHeader (hs : List Header) (name : Bytes) (h : Header) : Prop :=
  ∃ pre post, hs = pre ++ h :: post ∧ SameName h.name name ∧ ∀ x ∈ pre, ¬ SameName x.name name

/-- A parameter value as written: bare or in double quotes. -/
inductive Quoting (n : Bytes) : Bytes → Prop
  | bare : Quoting n n
  | quoted : Quoting n (0x22 :: n ++ [0x22])

/-- A value that survives the parser's handling of `;` and of quotes. -/
structure Plain (n : Bytes) : Prop where
  semi : (0x3B : Byte) ∉ n
  head : n.head? ≠ some 0x22
  last : n.getLast? ≠ some 0x22

/-- What follows a parameter: nothing, or `;` and more. -/
def Rest (T : Bytes) : Prop := T = [] ∨ T.head? = some 0x3B

/-- The code points of Unicode with the property White_Space. -/
def whiteSpace : List Nat := [0x09, 0x0A, 0x0B, 0x0C, 0x0D, 0x20, 0x85, 0xA0, 0x1680, 0x2000, 0x2001, 0x2002, 0x2003, 0x2004, 0x2005, 0x2006, 0x2007, 0x2008, 0x2009, 0x200A,
  0x2028, 0x2029, 0x202F, 0x205F, 0x3000]

/-- Only white space. -/
def White (w : Bytes) : Prop := ∃ cs : List Char, w = encodeChars cs ∧ ∀ c ∈ cs, c.toNat ∈ whiteSpace

/-- A value of `Content-Disposition` that is accepted: the type is `form-data`, up to white space around it, and behind the `;` there is `name=` somewhere. -/
def GoodDisposition (v : Bytes) : Prop := ∃ w1 w2 A, v = w1 ++ b!"form-data" ++ w2 ++ 0x3B :: A ∧ White w1 ∧ White w2 ∧ ¬ Absent b!"name=" A

/-- `raw` is the text of the parameter `key` in `hay`: it stands behind the first occurrence of `key` and reaches to the next `;` or to the end; `rest` follows. -/
def ParamText (key hay raw rest : Bytes) : Prop :=
  ∃ A, hay = A ++ key ++ raw ++ rest ∧ FirstAt key hay A.length ∧ (0x3B : Byte) ∉ raw ∧ Rest rest

/-- `v` is `raw` without the double quotes at its two ends. -/
def Unquoted (raw v : Bytes) : Prop :=
  ∃ m n, raw = List.replicate m 0x22 ++ v ++ List.replicate n 0x22 ∧ v.head? ≠ some 0x22 ∧ v.getLast? ≠ some 0x22

/-- What the value `v` of `Content-Disposition` says, for better or worse: `form-data`, then a name and, behind it, possibly a filename. -/
def Says (v name : Bytes) (filename : Option Bytes) : Prop :=
  ∃ w1 w2 A raw rest, v = w1 ++ b!"form-data" ++ w2 ++ 0x3B :: A ∧ White w1 ∧ White w2 ∧ ParamText b!"name=" (0x3B :: A) raw rest ∧ Unquoted raw name ∧
    match filename with
    | none => Absent b!"filename=" rest
    | some f => ∃ raw' rest', ParamText b!"filename=" rest raw' rest' ∧ Unquoted raw' f

end Multipart

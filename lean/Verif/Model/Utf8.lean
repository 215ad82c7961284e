import Verif.Model.Basic
/-!
# UTF-8 validation (`std::str::from_utf8`, `Utf8Error::valid_up_to`)

`std` is not part of /repo; this is its documented behaviour (Unicode table 3-7), used at src/server/field.rs:371-373 and
src/server/save.rs:407-445. `Verif/Lemmas/Utf8.lean` proves it against Lean's own UTF-8 encoder.
-/
namespace Multipart

def isCont (b : Byte) : Bool := 0x80 ≤ b && b ≤ 0xBF

/-- Length of the well-formed UTF-8 sequence at the start of the bytes, if there is one. -/
def utf8CharLen : Bytes → Option Nat
  | [] => none
  | a :: r =>
    if a ≤ 0x7F then some 1
    else if 0xC2 ≤ a && a ≤ 0xDF then
      match r with
      | b :: _ => if isCont b then some 2 else none
      | _ => none
    else if 0xE0 ≤ a && a ≤ 0xEF then
      match r with
      | b :: c :: _ =>
        if (if a = 0xE0 then 0xA0 ≤ b && b ≤ 0xBF else if a = 0xED then 0x80 ≤ b && b ≤ 0x9F else isCont b) && isCont c
        then some 3 else none
      | _ => none
    else if 0xF0 ≤ a && a ≤ 0xF4 then
      match r with
      | b :: c :: d :: _ =>
        if (if a = 0xF0 then 0x90 ≤ b && b ≤ 0xBF else if a = 0xF4 then 0x80 ≤ b && b ≤ 0x8F else isCont b) && isCont c && isCont d
        then some 4 else none
      | _ => none
    else none

/-- `valid_up_to`, with fuel: number of leading bytes that form complete well-formed characters. -/
def validUpToAux : Nat → Bytes → Nat
  | 0, _ => 0
  | n + 1, bs =>
    match utf8CharLen bs with
    | none => 0
    | some k => k + validUpToAux n (bs.drop k)

/-- `Utf8Error::valid_up_to` (the whole length if there is no error). -/
def validUpTo (bs : Bytes) : Nat := validUpToAux bs.length bs

/-- `str::from_utf8(bs).is_ok()` -/
def utf8Valid (bs : Bytes) : Bool := validUpTo bs == bs.length

end Multipart

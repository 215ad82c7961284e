/-!
# Basic vocabulary of the model

Bytes, byte-string literals, I/O results. Rust `u8` is `UInt8`; `&[u8]`, `Vec<u8>`, `&str` and `String`
(as UTF-8) are `List UInt8`.
-/
namespace Multipart

abbrev Byte := UInt8
abbrev Bytes := List UInt8

/-- `b!"..."`: the UTF-8 bytes of a string literal, as an explicit list (Rust `b"..."`). -/
macro:max "b!" s:str : term => do
  let bs := s.getString.toUTF8.toList
  let mut t ← `(([] : List UInt8))
  for b in bs.reverse do
    t ← `(List.cons ($(Lean.quote b.toNat) : UInt8) $t)
  return t

/-- `\r\n` -/
def crlf : Bytes := b!"\r\n"

/-- `--` -/
def dashes : Bytes := b!"--"

/-- `io::ErrorKind`, as far as the crate looks at or produces it; every other kind is `other n`. -/
inductive IoErr where
  | interrupted
  | unexpectedEof
  | invalidData
  | writeZero
  | alreadyExists
  | notFound
  | other (n : Nat)
  deriving DecidableEq, Repr

/-- Outcome of a call: `Ok`, `Err`, a panic, or "loop fuel used up" (the call has not returned). -/
inductive Res (α : Type) where
  | ok (a : α)
  | err (e : IoErr)
  | panic
  | hang
  deriving DecidableEq, Repr

/-- Result of one `Read::read` call on the underlying stream: `data bs` is `Ok(bs.len())` with these bytes
(`data []` is `Ok(0)`), `err e` is `Err(e)`. -/
inductive Ev where
  | data (bs : Bytes)
  | err (e : IoErr)
  deriving DecidableEq, Repr

/-- Result of one `Write::write(buf)` call: `accept n` is `Ok(min n buf.len())`, `err e` is `Err(e)`.
A script that has run out accepts everything. -/
inductive WEv where
  | accept (n : Nat)
  | err (e : IoErr)
  deriving DecidableEq, Repr

/-- All bytes a read script will still deliver. -/
def Ev.bytes : List Ev → Bytes
  | [] => []
  | .data bs :: r => bs ++ Ev.bytes r
  | .err _ :: r => Ev.bytes r

/-- `u64::MAX` -/
def u64Max : Nat := 18446744073709551615
/-- `u32::MAX` -/
def u32Max : Nat := 4294967295

end Multipart

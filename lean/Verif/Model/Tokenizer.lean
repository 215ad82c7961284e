import Verif.Model.Field
/-!
# A concrete instance of the dependencies

`httparse` and `mime` are not part of /repo and are parameters of the model (`Deps`). This file gives one concrete instance, a
simplified `httparse::parse_headers` (lines end with CRLF, a header is `token ":" OWS value OWS`, at most four headers, bytes
checked against httparse's character tables) and a simplified `Mime` parser. It is used to show that hypotheses about
the dependencies can be met, and in the `example`s; no theorem about the crate depends on it.
-/
namespace Multipart

/-- RFC 7230 `tchar`. -/
def isTokenByte (b : Byte) : Bool :=
  (0x30 ≤ b && b ≤ 0x39) || (0x41 ≤ b && b ≤ 0x5A) || (0x61 ≤ b && b ≤ 0x7A) ||
  (b!"!#$%&'*+-.^_`|~").contains b

/-- Bytes httparse accepts in a header value. -/
def isValueByte (b : Byte) : Bool := b = 0x09 || (0x20 ≤ b && b ≤ 0x7E) || 0x80 ≤ b

def isBlank (b : Byte) : Bool := b = 0x20 || b = 0x09

/-- Strip blanks at both ends. -/
def trimBlank (bs : Bytes) : Bytes := ((bs.dropWhile isBlank).reverse.dropWhile isBlank).reverse

/-- One header line (without CRLF). -/
def parseHeaderLine (line : Bytes) : Option Header :=
  match findByte 0x3A line with
  | none => none
  | some i =>
    if i ≠ 0 && (line.take i).all isTokenByte && (line.drop (i + 1)).all isValueByte
    then some { name := line.take i, val := trimBlank (line.drop (i + 1)) } else none

/-- Arguments: fuel, bytes before the current line, headers so far, remaining bytes. -/
def refParseAux : Nat → Nat → List Header → Bytes → HParse
  | 0, _, _, _ => .error
  | n + 1, pos, acc, bs =>
    match findSub crlf bs with
    | none => .partialHdrs
    | some 0 => .complete (pos + 2) acc
    | some (i + 1) =>
      match parseHeaderLine (bs.take (i + 1)) with
      | none => .error
      | some h => if acc.length < 4 then refParseAux n (pos + i + 3) (acc ++ [h]) (bs.drop (i + 3)) else .error

def refParseHeaders (bs : Bytes) : HParse := refParseAux (bs.length + 1) 0 [] bs

/-- `type "/" subtype...`, both non-empty; the type in lower case. -/
def refParseMime (bs : Bytes) : Option Mime :=
  match findByte 0x2F bs with
  | none => none
  | some i => if i = 0 || i + 1 = bs.length then none else some { src := bs, type_ := (bs.take i).map lowerByte }

def refDeps : Deps := { parseHeaders := refParseHeaders, parseMime := refParseMime }

end Multipart

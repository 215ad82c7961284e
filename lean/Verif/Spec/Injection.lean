import Verif.Spec.RoundTrip
/-!
# Names that a client is given
-/
namespace Multipart

/-- Text on one line: valid UTF-8 without control characters other than TAB. -/
structure LineText (n : Bytes) : Prop where
  bytes : ∀ c ∈ n, c = 0x09 ∨ (0x20 ≤ c.toNat ∧ c.toNat ≠ 0x7F)
  utf8 : IsUtf8 n

/-- A field that can be sent with boundary `b`, as `Sendable`, except that its names may be any text on one line, in particular with `;` and quotes. -/
structure OneLine (D : Deps) (b : Bytes) (f : OutField) (ct : Option Mime) : Prop where
  name : LineText f.name
  filename : ∀ n, f.filename = some n → LineText n
  ctype : ∀ t, f.ctype = some t → HeaderText t
  mime : f.ctype.map D.parseMime = ct.map some
  size : f.headers.length + (dashes ++ b).length + 1 ≤ entryBuf (dashes ++ b)
  noDelim : Absent (dashes ++ b) f.name ∧ (∀ n, f.filename = some n → Absent (dashes ++ b) n) ∧ (∀ t, f.ctype = some t → Absent (dashes ++ b) t) ∧ Absent (dashes ++ b) f.data

/-- A field that can be sent with boundary `b`, except that its names may be anything in which the delimiter does not occur. -/
structure AnyNames (D : Deps) (b : Bytes) (f : OutField) (ct : Option Mime) : Prop where
  ctype : ∀ t, f.ctype = some t → HeaderText t
  mime : f.ctype.map D.parseMime = ct.map some
  size : f.headers.length + (dashes ++ b).length + 1 ≤ entryBuf (dashes ++ b)
  noDelim : Absent (dashes ++ b) (f.headers ++ f.data)

end Multipart

import Verif.Spec.OtherClients
/-!
# The delimiter inside of a line
-/
namespace Multipart

/-- A part that the server has room for and that says the names and the type `fh`; what its data is does not matter here. -/
structure FormHeaders (D : Deps) (b : Bytes) (p : RawPart) (fh : FieldHeaders) : Prop where
  lines : ∀ h ∈ p.headers, HeaderName h.name ∧ HeaderText h.val
  count : p.headers.length ≤ 4
  size : (renderHeaders p.headers).length + (dashes ++ b).length + 1 ≤ entryBuf (dashes ++ b)
  disposition : ∃ cd, FirstHeader p.headers b!"Content-Disposition" cd ∧ Says cd.val fh.name fh.filename
  ctype : TypeIs D p.headers fh.contentType

/-- No line of the part begins with the delimiter. RFC 2046, 5.1.1, asks no more: "boundary delimiters must not appear within the encapsulated material", and they are defined to be at the beginning of a line. -/
def NoDelimiterLine (b : Bytes) (p : RawPart) : Prop := Absent (crlf ++ dashes ++ b) (crlf ++ renderHeaders p.headers ++ p.data ++ crlf)

/-- The bytes of the delimiter stand in the data of the part, for the first time behind `x`, and `x` is not a number of complete lines; `y` follows. -/
structure MidLine (b : Bytes) (p : RawPart) (x y : Bytes) : Prop where
  split : p.data = x ++ (dashes ++ b) ++ y
  first : FirstAt (dashes ++ b) (renderHeaders p.headers ++ p.data) (renderHeaders p.headers ++ x).length
  inside : x ≠ [] ∧ ¬ crlf <:+ x

end Multipart

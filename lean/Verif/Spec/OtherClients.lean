import Verif.Spec.RoundTrip
import Verif.Spec.Parts
/-!
# Bodies that other clients write
-/
namespace Multipart

/-- A part as a client writes it: its header lines, and its data. -/
structure RawPart where
  headers : List Header
  data : Bytes

/-- RFC 2046, 5.1.1: every part is a delimiter line, header lines, an empty line and data, and is ended by a CRLF. The closing delimiter and the epilogue follow. -/
def writeBody (b epilogue : Bytes) : List RawPart → Bytes
  | [] => dashes ++ b ++ dashes ++ epilogue
  | p :: ps => dashes ++ b ++ crlf ++ renderHeaders p.headers ++ p.data ++ crlf ++ writeBody b epilogue ps

/-- What may stand in front of the first delimiter line: nothing, or lines that do not contain the delimiter. -/
def Preamble (b pre : Bytes) : Prop := pre = [] ∨ ∃ p, pre = p ++ crlf ∧ Absent (dashes ++ b) p

/-- RFC 7578, 4.2: the value of Content-Disposition as browsers write it. -/
def formValue (name : Bytes) (filename : Option Bytes) : Bytes :=
  b!"form-data; name=\"" ++ name ++ b!"\"" ++ (match filename with | some f => b!"; filename=\"" ++ f ++ b!"\"" | none => [])

/-- The content type of a part with the headers `hs`. -/
def TypeIs (D : Deps) (hs : List Header) : Option Mime → Prop
  | none => ∀ x ∈ hs, ¬ SameName x.name b!"Content-Type"
  | some m => ∃ ct, FirstHeader hs b!"Content-Type" ct ∧ D.parseMime ct.val = some m

/-- A part of a form (RFC 7578) that is to be read as the entry `e`: names are quoted and contain no quotes, and no line of the part begins with the delimiter. -/
structure FormPart (D : Deps) (b : Bytes) (p : RawPart) (e : FieldHeaders × Bytes) : Prop where
  lines : ∀ h ∈ p.headers, HeaderName h.name ∧ HeaderText h.val
  quotes : (0x22 : Byte) ∉ e.1.name ∧ ∀ f, e.1.filename = some f → (0x22 : Byte) ∉ f
  disposition : ∃ cd, FirstHeader p.headers b!"Content-Disposition" cd ∧ cd.val = formValue e.1.name e.1.filename
  ctype : TypeIs D p.headers e.1.contentType
  noLine : Absent (crlf ++ dashes ++ b) (crlf ++ renderHeaders p.headers ++ p.data ++ crlf)
  data : e.2 = p.data

/-- A part that the server has room for: up to four header lines of bounded size together, and no delimiter in them or in the data. -/
structure FittingPart (b : Bytes) (p : RawPart) : Prop where
  lines : ∀ h ∈ p.headers, HeaderName h.name ∧ HeaderText h.val
  count : p.headers.length ≤ 4
  size : (renderHeaders p.headers).length + (dashes ++ b).length + 1 ≤ entryBuf (dashes ++ b)
  absent : Absent (dashes ++ b) (renderHeaders p.headers ++ p.data)

/-- A part that the server can read as the entry `e`: one of its headers, wherever it stands, says the names in any way the server understands. -/
structure ReadablePart (D : Deps) (b : Bytes) (p : RawPart) (e : FieldHeaders × Bytes) : Prop extends FittingPart b p where
  disposition : ∃ cd, FirstHeader p.headers b!"Content-Disposition" cd ∧ Says cd.val e.1.name e.1.filename
  ctype : TypeIs D p.headers e.1.contentType
  data : e.2 = p.data

/-- The header with this name is in both lists or in none, with the same value; upper and lower case do not matter. -/
def AgreeOn (n : Bytes) (hs hs' : List Header) : Prop :=
  (∀ h ∈ hs, SameName h.name n → ∃ h' ∈ hs', SameName h'.name n ∧ h'.val = h.val) ∧ (∀ h' ∈ hs', SameName h'.name n → ∃ h ∈ hs, SameName h.name n ∧ h.val = h'.val)

/-- No two headers have this name. -/
def Once (n : Bytes) (hs : List Header) : Prop := hs.Pairwise fun x y => ¬ (SameName x.name n ∧ SameName y.name n)

/-- Two lists of headers that say the same about a field: they may differ in the order of the headers, in the case of their names, and in other headers. -/
structure SameField (hs hs' : List Header) : Prop where
  disposition : AgreeOn b!"Content-Disposition" hs hs'
  ctype : AgreeOn b!"Content-Type" hs hs'
  once : Once b!"Content-Disposition" hs ∧ Once b!"Content-Type" hs
  once' : Once b!"Content-Disposition" hs' ∧ Once b!"Content-Type" hs'

end Multipart

import Verif.Spec.Header
import Verif.Spec.Stream
/-!
# What the error messages about headers should say
-/
namespace Multipart

/-- The type `form-data`, with white space around it. -/
def FormData (x : Bytes) : Prop := ∃ w1 w2, White w1 ∧ White w2 ∧ x = w1 ++ b!"form-data" ++ w2

/-- The message for headers that are not those of a field: what is missing or wrong, and the text where it is. -/
inductive Complaint (D : Deps) (hs : List Header) : Bytes → Prop
  /-- No `Content-Disposition`: all the headers are shown. -/
  | missing : (∀ x ∈ hs, ¬ SameName x.name b!"Content-Disposition") →
      Complaint D hs (b!"\"Content-Disposition\" header not found in field headers:\n" ++ (hs.map fun h => h.name ++ b!": " ++ h.val ++ b!"\n").flatten)
  /-- Nothing but a type: the value is shown. -/
  | typeOnly {cd : Header} : FirstHeader hs b!"Content-Disposition" cd → (0x3B : Byte) ∉ cd.val →
      Complaint D hs (b!"invalid \"Content-Disposition\" header: expected additional data after Content-Disposition type: " ++ cd.val)
  /-- Another type: it is shown. -/
  | otherType {cd : Header} {ty more : Bytes} : FirstHeader hs b!"Content-Disposition" cd → cd.val = ty ++ 0x3B :: more → (0x3B : Byte) ∉ ty → ¬ FormData ty →
      Complaint D hs (b!"invalid \"Content-Disposition\" header: unexpected Content-Disposition value: " ++ ty)
  /-- No name: what is behind the type is shown. -/
  | noName {cd : Header} {ty more : Bytes} : FirstHeader hs b!"Content-Disposition" cd → cd.val = ty ++ 0x3B :: more → (0x3B : Byte) ∉ ty → FormData ty → Absent b!"name=" more →
      Complaint D hs (b!"invalid \"Content-Disposition\" header: expected field name and maybe filename, got: ;" ++ more)
  /-- A content type that is none: it is shown. -/
  | contentType {cd ct : Header} : FirstHeader hs b!"Content-Disposition" cd → GoodDisposition cd.val → FirstHeader hs b!"Content-Type" ct → D.parseMime ct.val = none →
      Complaint D hs (b!"Failed to parse Content-Type: " ++ ct.val)

/-- `P` is a beginning of `rest` in which no delimiter begins. -/
def Before (d rest P : Bytes) : Prop := P <+: rest ∧ ∀ q, q < P.length → ¬ OccursAt d rest q

/-- `P` is all there is before the next delimiter (or the CRLF before it) or before the end of the body, up to the length of a delimiter line; or it is long: it fills the buffer of 1024 bytes, or of twice the delimiter,
up to such a line. -/
def WholeBlock (d rest P : Bytes) : Prop :=
  FirstAt d rest P.length ∨ FirstAt d rest (P.length + 2) ∨ rest.length ≤ P.length + d.length + 1 ∨ Nat.max 1024 (2 * d.length) ≤ P.length + d.length + 1

/-- The message when the headers of the part `rest` cannot be read from a body with these reads; `tok` is the text of the error of the tokenizer, `io` those of I/O errors. -/
inductive HeaderMessage (D : Deps) (d rest : Bytes) (evs : List Ev) (tok : Bytes) (io : IoErr → Bytes) : Bytes → Prop
  | rejected {P m : Bytes} {n : Nat} {hs : List Header} : Before d rest P → D.parseHeaders P = .complete n hs → (∀ h ∈ hs, IsUtf8 h.val) → Complaint D hs m →
      HeaderMessage D d rest evs tok io m
  | notText {P : Bytes} {n : Nat} {hs : List Header} {h : Header} : Before d rest P → D.parseHeaders P = .complete n hs → h ∈ hs → ¬ IsUtf8 h.val →
      HeaderMessage D d rest evs tok io (b!"an io error occurred while parsing the headers: " ++ io .invalidData)
  | noHeaders {P : Bytes} : Before d rest P → D.parseHeaders P = .error → HeaderMessage D d rest evs tok io (b!"an error occurred while parsing field headers: " ++ tok)
  | unfinished {P : Bytes} : Before d rest P → P = [] ∨ D.parseHeaders P = .partialHdrs → (NoStall evs → WholeBlock d rest P) →
      HeaderMessage D d rest evs tok io b!"field headers section ridiculously long or missing trailing CRLF-CRLF"
  | stream {e : IoErr} : Ev.err e ∈ evs → HeaderMessage D d rest evs tok io (b!"an io error occurred while parsing the headers: " ++ io e)

end Multipart

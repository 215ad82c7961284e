import Verif.Spec.Client
import Verif.Spec.Header
import Verif.Spec.Text
/-!
# What can be sent by the client and read back by the server
-/
namespace Multipart

/-- Text that may stand in a header value: no control characters but TAB, no blank at either end, valid UTF-8. -/
structure HeaderText (v : Bytes) : Prop where
  bytes : ∀ c ∈ v, c = 0x09 ∨ (0x20 ≤ c.toNat ∧ c.toNat ≠ 0x7F)
  head : v.head? ≠ some 0x20 ∧ v.head? ≠ some 0x09
  last : v.getLast? ≠ some 0x20 ∧ v.getLast? ≠ some 0x09
  utf8 : IsUtf8 v

/-- Header lines, and the empty line that ends them. -/
def renderHeaders : List Header → Bytes
  | [] => crlf
  | h :: hs => h.name ++ b!": " ++ h.val ++ crlf ++ renderHeaders hs

/-- Letters and dashes. -/
def HeaderName (n : Bytes) : Prop := n ≠ [] ∧ ∀ c ∈ n, c = 0x2D ∨ (0x41 ≤ c.toNat ∧ c.toNat ≤ 0x5A) ∨ (0x61 ≤ c.toNat ∧ c.toNat ≤ 0x7A)

/-- Assumption about the tokenizer of headers: up to four well-formed header lines are read as what they say. -/
def Deps.Tokenizes (D : Deps) : Prop := ∀ hs : List Header, hs ≠ [] → hs.length ≤ 4 → (∀ h ∈ hs, HeaderName h.name ∧ HeaderText h.val) →
  ∀ more, D.parseHeaders (renderHeaders hs ++ more) = .complete (renderHeaders hs).length hs

/-- Names and filenames that are representable: without `;` and control characters (other than TAB), not beginning or ending with a quote, valid UTF-8. -/
structure NameText (n : Bytes) : Prop where
  plain : Plain n
  bytes : ∀ c ∈ n, c = 0x09 ∨ (0x20 ≤ c.toNat ∧ c.toNat ≠ 0x7F)
  utf8 : IsUtf8 n

/-- A field that can be sent with boundary `b`: it has representable names and a type that parses as `ct`, its headers are not too large, and the delimiter does not
occur in what it consists of. -/
structure Sendable (D : Deps) (b : Bytes) (f : OutField) (ct : Option Mime) : Prop where
  name : NameText f.name
  filename : ∀ n, f.filename = some n → NameText n
  ctype : ∀ t, f.ctype = some t → HeaderText t
  mime : f.ctype.map D.parseMime = ct.map some
  size : f.headers.length + (dashes ++ b).length + 1 ≤ entryBuf (dashes ++ b)
  noDelim : Absent (dashes ++ b) f.name ∧ (∀ n, f.filename = some n → Absent (dashes ++ b) n) ∧ (∀ t, f.ctype = some t → Absent (dashes ++ b) t) ∧ Absent (dashes ++ b) f.data

/-- Letters and digits, as in generated boundaries (C29). -/
def SafeBoundary (b : Bytes) : Prop := b ≠ [] ∧ ∀ c ∈ b, (0x30 ≤ c.toNat ∧ c.toNat ≤ 0x39) ∨ (0x41 ≤ c.toNat ∧ c.toNat ≤ 0x5A) ∨ (0x61 ≤ c.toNat ∧ c.toNat ≤ 0x7A)

/-- What the server should find for a field. -/
def OutField.asRead (f : OutField) (ct : Option Mime) : FieldHeaders × Bytes := (⟨f.name, f.filename, ct⟩, f.data)

end Multipart

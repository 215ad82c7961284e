import Verif.Spec.RoundTrip
import Verif.Spec.Parts
import Verif.Spec.Client
/-!
# Sending on what was read
-/
namespace Multipart

/-- Assumption about the tokenizer of headers and the parser of MIME types: there are no control characters but TAB in the values of headers, and a type that was read from a header is printed as
text that can stand in a header, from which the same type is read. -/
def Deps.Clean (D : Deps) : Prop :=
  ∀ bs n hs, D.parseHeaders bs = .complete n hs → ∀ h ∈ hs, (∀ c ∈ h.val, c = 0x09 ∨ (0x20 ≤ c.toNat ∧ c.toNat ≠ 0x7F)) ∧
    (IsUtf8 h.val → ∀ m, D.parseMime h.val = some m → HeaderText m.src ∧ D.parseMime m.src = some m)

/-- Headers in which everything can be sent as it is. -/
structure CleanHeaders (D : Deps) (fh : FieldHeaders) : Prop where
  name : NameText fh.name
  filename : ∀ f, fh.filename = some f → NameText f
  ctype : ∀ m, fh.contentType = some m → HeaderText m.src ∧ D.parseMime m.src = some m

/-- A call of the client that sends on the entry, and what should be read on the other side: with a content type, the same; so for text without a type and without a filename; anything else
without a type can only be sent with the type `application/octet-stream`. -/
inductive Forwards : FieldHeaders × Bytes → ClientOp → FieldHeaders × Bytes → Prop
  | text {n dat : Bytes} : IsUtf8 dat → Forwards (⟨n, none, none⟩, dat) (.text n dat) (⟨n, none, none⟩, dat)
  | typed {n dat : Bytes} {f : Option Bytes} {m : Mime} {evs : List Ev} : Ev.upToEnd evs = dat → Forwards (⟨n, f, some m⟩, dat) (.stream n evs f (some m)) (⟨n, f, some m⟩, dat)
  | untyped {n dat : Bytes} {f : Option Bytes} {evs : List Ev} : Ev.upToEnd evs = dat → Forwards (⟨n, f, none⟩, dat) (.stream n evs f none) (⟨n, f, some octetStream⟩, dat)

/-- The same for all entries of a request. -/
inductive ForwardsAll : List (FieldHeaders × Bytes) → List ClientOp → List (FieldHeaders × Bytes) → Prop
  | nil : ForwardsAll [] [] []
  | cons {a e : FieldHeaders × Bytes} {o : ClientOp} {as es : List (FieldHeaders × Bytes)} {os : List ClientOp} : Forwards a o e → ForwardsAll as os es → ForwardsAll (a :: as) (o :: os) (e :: es)

/-- The order in which the lazy client sends entries: those without a type first, then the others backwards. -/
def typedLast (es : List (FieldHeaders × Bytes)) : List (FieldHeaders × Bytes) := es.filter (·.1.contentType.isNone) ++ (es.filter (·.1.contentType.isSome)).reverse

/-- The boundary `b` is not in the entry (as a delimiter), and its headers are not too long. -/
structure RoomFor (b : Bytes) (e : FieldHeaders × Bytes) : Prop where
  size : e.1.name.length + (e.1.filename.getD []).length + (e.1.contentType.elim 0 fun m => m.src.length) + b.length ≤ 949
  name : Absent (dashes ++ b) e.1.name
  filename : ∀ f, e.1.filename = some f → Absent (dashes ++ b) f
  ctype : ∀ m, e.1.contentType = some m → Absent (dashes ++ b) m.src
  data : Absent (dashes ++ b) e.2

end Multipart

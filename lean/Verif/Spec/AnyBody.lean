import Verif.Spec.Cut
namespace Multipart

/-! # Any body at all -/

/-- What is further assumed about the tokenizer where this is named: the bytes it says it used are some, and it finds the same in them alone. (`httparse` stops at the blank line, and this
belongs to the bytes used.) -/
def Deps.Blocks (D : Deps) : Prop := ∀ P n hs, D.parseHeaders P = .complete n hs → 0 < n ∧ D.parseHeaders (P.take n) = .complete n hs

/-- All header blocks in the body, with the delimiter and one byte, fit in the buffer. -/
def SmallHeaders (D : Deps) (d body : Bytes) : Prop :=
  ∀ gone rest H hs X, body = gone ++ d ++ crlf ++ rest → HeaderBlock D d rest H hs X → H.length + d.length + 1 ≤ entryBuf d

/-- The body `u` has the parts `es`, and then begins another one, with the headers `fh`, that has no end: `X` is all that is there of its data. -/
structure EndsInPart (D : Deps) (d u : Bytes) (es : List (FieldHeaders × Bytes)) (fh : FieldHeaders) (X : Bytes) : Prop where
  parts : ∃ w rest H hs, PartsTo D d u es w ∧ NextIs d w (.part rest) ∧ HeaderBlock D d rest H hs X ∧ FieldHeaders.parse D hs = .ok fh
  absent : Absent d X

end Multipart

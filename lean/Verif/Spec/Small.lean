import Verif.Spec.Parts
/-!
# Vocabulary for statements about small reads
-/
namespace Multipart

/-- The calls that take fewer than `m` bytes at a time: `read` with such a buffer (and looking at the data with `fill_buf`). -/
def FieldOp.below (m : Nat) : FieldOp → Prop
  | .read n => n < m
  | .fillBuf => True
  | _ => False

/-- A caller of `read_entry` who reads every field to its end, by reads of fewer than `m` bytes, got these entries and this end. -/
inductive ReadsBelow (D : Deps) (m : Nat) : BR → List (FieldHeaders × Bytes) → Ending → Prop
  | close {s t : BR} : s.readEntry D = (.ok none, t) → ReadsBelow D m s [] .closed
  | fail {s t : BR} {e : IoErr} : s.readEntry D = (.err e, t) → ReadsBelow D m s [] (.failed e)
  | entry {s t : BR} {fh : FieldHeaders} {os : List FieldOp} {es : List (FieldHeaders × Bytes)} {fin : Ending} :
      s.readEntry D = (.ok (some fh), t) → (∀ o ∈ os, o.below m) → (t.run os).2.AtEof → ReadsBelow D m (t.run os).2 es fin →
      ReadsBelow D m s ((fh, (t.run os).1) :: es) fin

end Multipart

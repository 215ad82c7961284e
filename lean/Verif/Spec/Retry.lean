import Verif.Spec.Parts
namespace Multipart

/-! # Callers that go on after an I/O error

`read_entry` reports two kinds of error of its own (server/boundary.rs:142-143, 179-180 and server/field.rs:437-440): "unexpected EOF" and "invalid data".
Every other kind comes from the underlying stream (for instance `Interrupted` or `WouldBlock`), and a caller may try again. -/

/-- The kinds of error `read_entry` makes itself. -/
def IoErr.Own (e : IoErr) : Prop := e = .unexpectedEof ∨ e = .invalidData

/-- The underlying stream does not fail with one of these two kinds. -/
def ForeignErrs (evs : List Ev) : Prop := ∀ e, Ev.err e ∈ evs → ¬ e.Own

/-- Like `Reads`, but the caller calls `read_entry` again whenever it fails with an error that can only come from the underlying stream. -/
inductive RetryReads (D : Deps) : BR → List (FieldHeaders × Bytes) → Ending → Prop
  | close {s t : BR} : s.readEntry D = (.ok none, t) → RetryReads D s [] .closed
  | fail {s t : BR} {e : IoErr} : s.readEntry D = (.err e, t) → e.Own → RetryReads D s [] (.failed e)
  | retry {s t : BR} {e : IoErr} {es : List (FieldHeaders × Bytes)} {fin : Ending} : s.readEntry D = (.err e, t) → ¬ e.Own →
      RetryReads D t es fin → RetryReads D s es fin
  | entry {s t : BR} {fh : FieldHeaders} {os : List FieldOp} {es : List (FieldHeaders × Bytes)} {fin : Ending} :
      s.readEntry D = (.ok (some fh), t) → (t.run os).2.AtEof → RetryReads D (t.run os).2 es fin →
      RetryReads D s ((fh, (t.run os).1) :: es) fin

end Multipart

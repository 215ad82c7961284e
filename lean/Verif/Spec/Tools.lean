import Verif.Model.Tools
import Verif.Spec.Parts
/-!
# What is expected of the fuzz target and of `read_file`
-/
namespace Multipart

/-- A read of the body ends directly behind the delimiter of a delimiter line, or between the two bytes that follow the delimiter there. -/
def CutLine (d : Bytes) (evs : List Ev) : Prop :=
  ∃ k tail, (tail = crlf ∨ tail = dashes) ∧ OccursAt (d ++ tail) (Ev.bytes evs) k ∧ (SplitAt evs (k + d.length) ∨ SplitAt evs (k + d.length + 1))

/-- How `read_file` ends for a body that ends so. -/
def Ending.main : Ending → Res Unit
  | .closed => .ok ()
  | .failed _ => .panic

/-- The full claim C97: for a file with a well-formed body, in whatever pieces it is read, `read_file` prints the names of all fields and then "All entries read!"; if the
body breaks off or is damaged behind some fields, the names of these, and then it panics. -/
def ReadsFiles (D : Deps) : Prop :=
  ∀ (evs : List Ev) (b : Bytes) (es : List (FieldHeaders × Bytes)) (fin : Ending), NoStall evs → NoErr evs → Parts D (dashes ++ b) (Ev.bytes evs) es fin →
    ∃ n, ∀ fuel, n ≤ fuel → readFile D fuel b evs = (fin.main, es.map (·.1.name))

end Multipart

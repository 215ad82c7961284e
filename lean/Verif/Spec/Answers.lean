import Verif.Model.Server
/-!
# The answers to a history of calls
-/
namespace Multipart

/-- What a call returns to its caller; `consume` and `set_min_buf_size` return nothing. -/
inductive CallAnswer where
  | entry (r : Res (Option FieldHeaders))
  | bytes (r : Res Bytes)
  | nothing
  deriving DecidableEq, Repr

/-- The answer to one call. -/
def BR.answer (D : Deps) (s : BR) : SOp → CallAnswer
  | .readEntry => .entry (s.readEntry D).1
  | .field .fillBuf => .bytes s.readToBoundary.1
  | .field (.read n) => .bytes (s.read n).1
  | .field (.consume _) => .nothing
  | .field (.setMin _) => .nothing

/-- The answers to a history of calls. -/
def BR.answers (D : Deps) (s : BR) : List SOp → List CallAnswer
  | [] => []
  | o :: os => s.answer D o :: BR.answers D (s.sop D o) os

end Multipart

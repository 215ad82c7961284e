import Verif.Spec.Whole
/-!
# Vocabulary for what a request occupies
-/
namespace Multipart

/-- The number of bytes in a file; 0 if there is none. -/
def World.fileSize (w : World) (p : Path) : Nat :=
  match w.files p with
  | some c => c.length
  | none => 0

/-- The number of bytes in these files. -/
def World.diskUse (w : World) (ps : List Path) : Nat := (ps.map w.fileSize).sum

/-- The number of bytes of these data that are kept in memory. -/
def memoryUse (ds : List SavedData) : Nat := (ds.map fun d => if d.isMemory then d.size else 0).sum

end Multipart

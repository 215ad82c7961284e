import Verif.Spec.Entries
import Verif.Spec.Dirs
/-!
# Vocabulary for the methods that save a whole request
-/
namespace Multipart

/-- The data of all fields. -/
def Entries.stored (e : Entries) : List SavedData := e.fields.flatMap fun kv => kv.2.map fun f => f.data

/-- All data in the result of saving a request, also that of the field that was being saved when it stopped. -/
def SaveRes.stored : SaveRes Entries PartialEntries → List SavedData
  | .full e => e.stored
  | .part { entries := e, part := some { dest := some d, .. } } _ => e.stored ++ [d]
  | .part { entries := e, .. } _ => e.stored
  | _ => []

/-- The directory that the result of saving a request holds. -/
def SaveRes.saveDir : SaveRes Entries PartialEntries → Option SaveDir
  | .full e => some e.saveDir
  | .part p _ => some p.entries.saveDir
  | _ => none

/-- `q` is a file directly in the directory `dir` with one of the random names. ([] is the name that the model gives when its list of random names is used up.) -/
def RandomIn (w : World) (dir q : Path) : Prop := ∃ name ∈ [] :: w.names, q = dir ++ [name]

end Multipart

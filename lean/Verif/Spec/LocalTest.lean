import Verif.Model.LocalTest
import Verif.Spec.Parts
import Verif.Spec.Owned
/-!
# Vocabulary for the crate's random tests
-/
namespace Multipart

/-- The texts among fields that were read, with their names. -/
def textsOf (l : List (FieldHeaders × Bytes)) : List (Bytes × Bytes) := l.filterMap fun e => if e.1.contentType = none then some (e.1.name, e.2) else none

/-- The files among fields that were read, with their names. -/
def filesOf (l : List (FieldHeaders × Bytes)) : List (Bytes × FileEntry) := l.filterMap fun e => e.1.contentType.map fun ct => (e.1.name, ⟨ct, e.1.filename, e.2⟩)

end Multipart

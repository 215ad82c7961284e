import Verif.Spec.RoundTrip
import Verif.Spec.Client
/-!
# Boundaries that occur in the data
-/
namespace Multipart

/-- The boundaries that can be generated (C29): 16 letters or digits. -/
def Generable (b : Bytes) : Prop := b.length = 16 ∧ ∀ c ∈ b, isAlnum c

/-- The number of bytes of a field that the caller chooses: name, file name, content type and contents. -/
def OutField.size (f : OutField) : Nat := f.name.length + (f.filename.getD []).length + (f.ctype.getD []).length + f.data.length

/-- A field that is `Sendable` unless the boundary occurs in it. -/
structure SendableOtherwise (D : Deps) (f : OutField) (ct : Option Mime) : Prop where
  name : NameText f.name
  filename : ∀ n, f.filename = some n → NameText n
  ctype : ∀ t, f.ctype = some t → HeaderText t
  mime : f.ctype.map D.parseMime = ct.map some
  size : f.headers.length ≤ 1005

end Multipart

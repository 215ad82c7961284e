import Verif.Spec.Client
/-!
# Random file names
-/
namespace Multipart

/-- `n` file names of 12 letters or digits each. -/
def FileNames (n : Nat) (names : List Bytes) : Prop := names.length = n ∧ ∀ name ∈ names, name.length = 12 ∧ ∀ c ∈ name, isAlnum c

/-- No two of the names are equal, and none is one of the names in `used`. -/
def NoClash (used names : List Bytes) : Prop := names.Nodup ∧ ∀ name ∈ names, name ∉ used

end Multipart

import Verif.Model.Client
/-!
# Random file names
-/
namespace Multipart

/-- save.rs:27-31 `rand_filename`; `none` if the random numbers do not suffice. -/
def randFilename (rs : List UInt32) : Option (Bytes × List UInt32) := randomAlphanumeric 12 rs

/-- The results of `n` calls of `rand_filename`, one after the other: what `World.names` lists. (Other users of the random numbers of the thread, between the calls, are left out.) -/
def randFilenames : Nat → List UInt32 → Option (List Bytes × List UInt32)
  | 0, rs => some ([], rs)
  | n + 1, rs =>
    match randFilename rs with
    | none => none
    | some (c, rs) => (randFilenames n rs).map fun r => (c :: r.1, r.2)

end Multipart

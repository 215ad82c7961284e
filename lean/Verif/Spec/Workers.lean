import Verif.Model.Workers
import Verif.Spec.Threads
import Verif.Spec.ExampleDisk
/-!
# Vocabulary for servers that handle requests at the same time
-/
namespace Multipart

/-- The requests with the threads that handle them. -/
abbrev Staff := List (Visit × Worker)

def Staff.start (vs : List Visit) : Staff := vs.map fun v => (v, .waiting)

/-- The threads run in the order of the list, which has their numbers. -/
def Staff.run (D : Deps) (fuel : Nat) : List Nat → Staff → World → Staff × World
  | [], c, w => (c, w)
  | i :: is, c, w =>
    match c[i]? with
    | some (v, k) => Staff.run D fuel is (c.set i (v, (k.step D fuel v w).1)) (k.step D fuel v w).2
    | none => Staff.run D fuel is c w

/-- The thread is saving its request, or has saved it. -/
def Worker.busy : Worker → Bool
  | .saving _ => true
  | _ => false

/-- The requests get different temporary directories, none within another. -/
def Visit.Apart (v v' : Visit) : Prop := ∀ dir dir', v.temp.tempdir b!"multipart-rs" = .ok dir → v'.temp.tempdir b!"multipart-rs" = .ok dir' → ∀ q, ¬ (Below dir q ∧ Below dir' q)

end Multipart

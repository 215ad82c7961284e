import Verif.Model.IronWorkers
import Verif.Spec.Threads
import Verif.Spec.Iron
/-!
# Vocabulary for Iron servers that handle requests at the same time
-/
namespace Multipart

/-- The requests with the threads that handle them. -/
abbrev IronStaff := List (IronVisit × IronWorker)

def IronStaff.start (vs : List IronVisit) : IronStaff := vs.map fun v => (v, .waiting)

/-- The threads run in the order of the list, which has their numbers. -/
def IronStaff.run (D : Deps) (i : Intercept) (fuel : Nat) : List Nat → IronStaff → World → IronStaff × World
  | [], c, w => (c, w)
  | n :: ns, c, w =>
    match c[n]? with
    | some (v, k) => IronStaff.run D i fuel ns (c.set n (v, (k.step D i fuel v w).1)) (k.step D i fuel v w).2
    | none => IronStaff.run D i fuel ns c w

/-- The request has a temporary directory. -/
def IronWorker.busy : IronWorker → Bool
  | .saving _ => true
  | .handling _ => true
  | _ => false

/-- The entries that are there, while they are being saved or in the handler. -/
def IronWorker.entries : IronWorker → Option Entries
  | .saving th => th.entries
  | .handling e => some e
  | _ => none

/-- What follows if the middleware leaves these entries with the request: the handler has them, or there are none. -/
def IronWorker.after : Option Entries → IronWorker
  | some e => .handling e
  | none => .finished

/-- The requests get different temporary directories, none within another. -/
def IronVisit.Apart (v v' : IronVisit) : Prop := ∀ dir dir', v.made = .ok dir → v'.made = .ok dir' → ∀ q, ¬ (Below dir q ∧ Below dir' q)

/-- There are no files yet in the temporary directory. -/
def IronVisit.NewIn (v : IronVisit) (w : World) : Prop := ∀ dir, v.made = .ok dir → ∀ q, Below dir q → w.files q = none

end Multipart

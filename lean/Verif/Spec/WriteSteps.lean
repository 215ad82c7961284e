import Verif.Model.WriteSteps
import Verif.Spec.Threads
/-!
# Vocabulary for files that grow while other threads run
-/
namespace Multipart

/-- The requests with the threads that save them. -/
abbrev FineCrew := List (Job × FineThread)

def FineCrew.start (D : Deps) (js : List Job) : FineCrew := js.map fun j => (j, .at (Thread.start D (Entries.new j.dir) (withBody j.up.evs j.up.b)))

/-- The entries a thread holds, also if it has stopped early. -/
def FineThread.entries : FineThread → Option Entries
  | .at th => th.entries
  | .copying e _ _ _ _ _ _ => some e

/-- The files that a thread holds: those of its entries, the one it has open, and that of the field that was being saved when it stopped. -/
def FineThread.files : FineThread → List Path
  | .at th => th.files
  | .copying e _ name _ _ _ _ => pathsOf e.stored ++ [e.saveDir.asPath ++ [name]]

/-- The files that the threads hold. -/
def FineCrew.files (c : FineCrew) : List Path := c.flatMap fun x => x.2.files

/-- The file that the thread is writing. -/
def FineThread.growing : FineThread → Option Path
  | .at _ => none
  | .copying e _ name _ _ _ _ => some (e.saveDir.asPath ++ [name])

/-- The threads run in any order, one step of one thread after the other, and each step has at most one call of `write`. Anything else may happen on the disk in between, but the files that the threads hold are left alone. -/
inductive FineRuns (D : Deps) (fuel : Nat) (c0 : FineCrew) (w0 : World) : FineCrew → World → Prop
  | start : FineRuns D fuel c0 w0 c0 w0
  | turn {c1 c2 : FineCrew} {j : Job} {ft : FineThread} {w : World} : FineRuns D fuel c0 w0 (c1 ++ (j, ft) :: c2) w →
      FineRuns D fuel c0 w0 (c1 ++ (j, (ft.step D j.cfg fuel w).1) :: c2) (ft.step D j.cfg fuel w).2
  | other {c : FineCrew} {w w' : World} : FineRuns D fuel c0 w0 c w → (∀ p ∈ c.files, w'.files p = w.files p) → FineRuns D fuel c0 w0 c w'

/-- Only the threads run, in the order of the list, which has their numbers. -/
def FineCrew.run (D : Deps) (fuel : Nat) : List Nat → FineCrew → World → FineCrew × World
  | [], c, w => (c, w)
  | i :: is, c, w =>
    match c[i]? with
    | some (j, ft) => FineCrew.run D fuel is (c.set i (j, (ft.step D j.cfg fuel w).1)) (ft.step D j.cfg fuel w).2
    | none => FineCrew.run D fuel is c w

/-- The thread is at this place, apart from how far it has written its file. -/
def FineThread.Is : FineThread → Thread → Prop
  | .at th, th' => th' = th
  | .copying e h name old _ _ _, th' => ∃ bytes s, th' = .writing e h name old bytes s

/-- The settings of a request: limits that the types allow, with a limit for the size, and files are new. -/
def Job.Bounded (j : Job) : Prop := j.cfg.countLimit ≤ u32Max ∧ j.cfg.sizeLimit < u64Max ∧ j.cfg.openOpts.createNew = true

end Multipart

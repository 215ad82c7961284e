import Verif.Model.Threads
import Verif.Spec.ServerLife
/-!
# Vocabulary for requests that are saved at the same time
-/
namespace Multipart

/-- A request to save with these settings in this directory. -/
structure Job where
  cfg : Settings
  dir : SaveDir
  up : Upload

/-- The requests with the threads that save them. -/
abbrev Crew := List (Job × Thread)

def Crew.start (D : Deps) (js : List Job) : Crew := js.map fun j => (j, Thread.start D (Entries.new j.dir) (withBody j.up.evs j.up.b))

/-- The entries a thread holds, also if it has stopped early. -/
def Thread.entries : Thread → Option Entries
  | .running _ e _ => some e
  | .making e _ _ _ _ => some e
  | .opening e _ _ _ _ => some e
  | .writing e _ _ _ _ _ => some e
  | .done (.full e) _ => some e
  | .done (.part p _) _ => some p.entries
  | .done _ _ => none

/-- The files among some data. -/
def pathsOf (ds : List SavedData) : List Path := ds.filterMap fun
  | .file p _ => some p
  | _ => none

/-- The files that a thread holds: those of its entries, the one it has open, and that of the field that was being saved when it stopped. -/
def Thread.files : Thread → List Path
  | .running _ e _ => pathsOf e.stored
  | .making e _ _ _ _ => pathsOf e.stored
  | .opening e _ _ _ _ => pathsOf e.stored
  | .writing e _ name _ _ _ => pathsOf e.stored ++ [e.saveDir.asPath ++ [name]]
  | .done r _ => pathsOf r.stored

/-- The files that the threads hold. -/
def Crew.files (c : Crew) : List Path := c.flatMap fun x => x.2.files

/-- The threads run in any order, one step of one thread after the other. Anything else may happen on the disk in between, but the files that the threads hold are left alone. `fuel` bounds the loops within a step. -/
inductive Runs (D : Deps) (fuel : Nat) (c0 : Crew) (w0 : World) : Crew → World → Prop
  | start : Runs D fuel c0 w0 c0 w0
  | turn {c1 c2 : Crew} {j : Job} {th : Thread} {w : World} : Runs D fuel c0 w0 (c1 ++ (j, th) :: c2) w →
      Runs D fuel c0 w0 (c1 ++ (j, (th.step D j.cfg fuel w).1) :: c2) (th.step D j.cfg fuel w).2
  | other {c : Crew} {w w' : World} : Runs D fuel c0 w0 c w → (∀ p ∈ c.files, w'.files p = w.files p) → Runs D fuel c0 w0 c w'

/-- Only the threads run, in the order of the list, which has their numbers. -/
def Crew.run (D : Deps) (fuel : Nat) : List Nat → Crew → World → Crew × World
  | [], c, w => (c, w)
  | i :: is, c, w =>
    match c[i]? with
    | some (j, th) => Crew.run D fuel is (c.set i (j, (th.step D j.cfg fuel w).1)) (th.step D j.cfg fuel w).2
    | none => Crew.run D fuel is c w

end Multipart

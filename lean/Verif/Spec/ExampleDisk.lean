import Verif.Model.ExampleDisk
import Verif.Spec.DiskUse
/-!
# Vocabulary for what the example servers leave on the disk
-/
namespace Multipart

/-- The servers handle these requests one after the other, each with the temporary directory that it is given; all deletions work. `During w reqs x`: the disk has the state `x` at some time meanwhile, at the end of
saving a request or before it, or when it is answered. `After` is the disk at the end. -/
def After (D : Deps) (fuel : Nat) : World → List (ExampleReq × TempEnv) → World
  | w, [] => w
  | w, (req, T) :: reqs => After D fuel (req.answered D fuel T none w) reqs

inductive During (D : Deps) (fuel : Nat) : World → List (ExampleReq × TempEnv) → World → Prop
  | saving {w : World} {req : ExampleReq} {T : TempEnv} {reqs : List (ExampleReq × TempEnv)} {n : Nat} : n ≤ fuel → During D fuel w ((req, T) :: reqs) (req.saved D n T w)
  | later {w x : World} {req : ExampleReq} {T : TempEnv} {reqs : List (ExampleReq × TempEnv)} : During D fuel (req.answered D fuel T none w) reqs x → During D fuel w ((req, T) :: reqs) x

/-- There is no file in the temporary directory that is created for a request. -/
def TempEnv.NewIn (T : TempEnv) (w : World) : Prop := ∀ dir, T.tempdir b!"multipart-rs" = .ok dir → ∀ q, Below dir q → w.files q = none

end Multipart

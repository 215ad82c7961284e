import Verif.Model.Iron
/-!
# Vocabulary for C90: calls of setters
-/
namespace Multipart

/-- A call of a setter of `SaveBuilder`. -/
inductive SetCall where
  | sizeLimit (limit : Option Nat)
  | countLimit (limit : Option Nat)
  | memoryThreshold (n : Nat)
  | tryText
  | forceText
  | ignoreText
  | modOpenOpts (f : OpenOpts → OpenOpts)

def SetCall.run (b : Settings) : SetCall → Settings
  | .sizeLimit l => b.setSizeLimit l
  | .countLimit l => b.setCountLimit l
  | .memoryThreshold n => b.setMemoryThreshold n
  | .tryText => b.setTextPolicy .try_
  | .forceText => b.setTextPolicy .force
  | .ignoreText => b.setTextPolicy .ignore
  | .modOpenOpts f => b.modOpenOpts f

/-- A call of a setter of `Intercept`. -/
inductive InterceptCall where
  | tempDirPath (p : Path)
  | fileSizeLimit (n : Nat)
  | fileCountLimit (n : Nat)
  | limitBehavior (b : LimitBehavior)

def InterceptCall.run (i : Intercept) : InterceptCall → Intercept
  | .tempDirPath p => i.setTempDirPath p
  | .fileSizeLimit n => i.setFileSizeLimit n
  | .fileCountLimit n => i.setFileCountLimit n
  | .limitBehavior b => i.setLimitBehavior b

/-- `v` is what the last of the calls says that `f` is defined for, and `dflt` if there is none. -/
def LastSays {α β : Type} (f : α → Option β) (calls : List α) (dflt v : β) : Prop :=
  (v = dflt ∧ ∀ c ∈ calls, f c = none) ∨ ∃ before c after, calls = before ++ c :: after ∧ f c = some v ∧ ∀ c' ∈ after, f c' = none

end Multipart

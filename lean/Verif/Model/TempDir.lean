import Verif.Model.Iron
/-!
# Where temporary directories are made

`tempfile::Builder` is outside the crate; this is what its documentation promises: the directory is made directly in the given directory (by default in that of the system), with a name that
begins with the prefix and goes on with random characters, and if the given directory does not exist, `NotFound` is returned.
-/
namespace Multipart

/-- The surroundings of `tempfile`: the directory for temporary files of the system, the directories that exist, the random characters of the name, and a failure for other reasons. -/
structure TempEnv where
  os : Path
  present : Path → Bool
  rand : Bytes
  fail : Option IoErr

/-- `tempfile::Builder::new().prefix(prefix).tempdir_in(parent)` -/
def TempEnv.tempdirIn (T : TempEnv) (pre : Bytes) (parent : Path) : Except IoErr Path :=
  match T.fail with
  | some e => .error e
  | none => if T.present parent then .ok (parent ++ [pre ++ T.rand]) else .error .notFound

/-- `tempfile::Builder::new().prefix(prefix).tempdir()` -/
def TempEnv.tempdir (T : TempEnv) (pre : Bytes) : Except IoErr Path := T.tempdirIn pre T.os

/-- save.rs:250-255 `temp_with_prefix` -/
def tempWithPrefix (D : Deps) (b : Settings) (fuel : Nat) (T : TempEnv) (pre : Bytes) (w : World) (s : BR) : SaveRes Entries PartialEntries × World × BR :=
  requestTemp D b fuel (T.tempdir pre) w s

/-- save.rs:237-239 `temp` -/
def tempSave (D : Deps) (b : Settings) (fuel : Nat) (T : TempEnv) (w : World) (s : BR) : SaveRes Entries PartialEntries × World × BR :=
  tempWithPrefix D b fuel T b!"multipart-rs" w s

/-- iron.rs:128-133: the temporary directory of `read_request` -/
def Intercept.tempdir (i : Intercept) (T : TempEnv) : Except IoErr Path :=
  match i.tempDirPath with
  | none => T.tempdir b!"multipart-iron"
  | some path => T.tempdirIn b!"multipart-iron" path

/-- iron.rs:200-207 `before`, with the temporary directory it makes. -/
def Intercept.beforeIn (D : Deps) (i : Intercept) (fuel : Nat) (T : TempEnv) (fail : Option (IoErr × (Path → Bool))) (w : World) (req : HyperReq) (ext : Option Entries) :
    Res (Except IronErr Unit) × Option Entries × World :=
  i.before D fuel (i.tempdir T) fail w req ext

end Multipart

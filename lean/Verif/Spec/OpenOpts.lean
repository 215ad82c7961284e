import Verif.Spec.Saving
/-!
# Files that are opened with other options than the default
-/
namespace Multipart

/-- What a file holds after `data` was saved to it, if it did not exist before (`none`) or held `old` (`some old`). -/
inductive FileAfter (o : OpenOpts) (data : Bytes) : Option Bytes → Bytes → Prop
  | new : FileAfter o data none data
  | truncated {old : Bytes} : o.truncate = true → FileAfter o data (some old) data
  | appended {old : Bytes} : o.truncate = false → o.append = true → FileAfter o data (some old) (old ++ data)
  /-- the old contents were not longer -/
  | covered {old : Bytes} : o.truncate = false → o.append = false → old.length ≤ data.length → FileAfter o data (some old) data
  /-- the old contents were longer: their end stays -/
  | tail {start rest : Bytes} : o.truncate = false → o.append = false → start.length = data.length → FileAfter o data (some (start ++ rest)) (data ++ rest)

end Multipart

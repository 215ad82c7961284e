import Verif.Model.Iron
import Verif.Spec.Entries
import Verif.Spec.Dirs
/-!
# Vocabulary for Iron's `Intercept`
-/
namespace Multipart

/-- The limits fit their types (`u64` and `u32`). -/
structure Intercept.Typed (i : Intercept) : Prop where
  size : i.fileSizeLimit ≤ u64Max
  count : i.fileCountLimit ≤ u32Max

/-- `n` entries can be read one after the other from `s`, with any calls on the data of each, which leads to `t`. -/
inductive Enters (D : Deps) : BR → Nat → BR → Prop
  | zero {s : BR} : Enters D s 0 s
  | entry {s s1 t : BR} {fh : FieldHeaders} {n : Nat} (os : List FieldOp) : s.readEntry D = (.ok (some fh), s1) → Enters D (s1.run os).2 n t → Enters D s (n + 1) t

/-- A saved field for the part `p` of the body: same headers, and the saved contents can be read back. They are the data (up to the CRLF of C01); or, if this is longer than
`limit`, the beginning of it. -/
def Kept (limit : Nat) (b : Bytes) (evs : List Ev) (w : World) (f : SavedField) (p : FieldHeaders × Bytes) : Prop :=
  f.headers = p.1 ∧ ∃ c dat, f.data.readable w = .ok c ∧ SavedOk (dashes ++ b) evs p.2 dat ∧ (c = dat ∨ (c <+: dat ∧ limit < dat.length))

end Multipart

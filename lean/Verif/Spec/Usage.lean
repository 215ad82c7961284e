import Verif.Spec.Entries
/-!
# How much memory and disk the saved fields take
-/
namespace Multipart

/-- The bytes kept in memory for saved data. -/
def SavedData.inMemory : SavedData → Nat
  | .text t => t.length
  | .bytes b => b.length
  | .file _ _ => 0

/-- The bytes kept in a file. -/
def SavedData.onDisk : SavedData → Nat
  | .file _ n => n
  | _ => 0

/-- The sum over all fields of a map. -/
def sumOver (g : SavedData → Nat) (m : List (Bytes × List SavedField)) : Nat := (m.map fun kv => (kv.2.map fun f => g f.data).sum).sum

/-- `e` is what a caller gets as entries from a result: those of a full save, or those of a partial one, with or without the field that was interrupted. -/
inductive ResultEntries : SaveRes Entries PartialEntries → Entries → Prop
  | full {e : Entries} : ResultEntries (.full e) e
  | part {p : PartialEntries} {r : Reason} : ResultEntries (.part p r) p.entries
  | keep {p : PartialEntries} {r : Reason} : ResultEntries (.part p r) p.keepPartial

/-- At most `n` files differ, and those that do hold at most `size` bytes. -/
def FewFiles (n size : Nat) (w w' : World) : Prop :=
  ∃ ps : List Path, ps.length ≤ n ∧ ∀ q, w'.files q = w.files q ∨ (q ∈ ps ∧ ∃ c, w'.files q = some c ∧ c.length ≤ size)

end Multipart

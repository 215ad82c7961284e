import Verif.Model.Entries
import Verif.Spec.Saving
import Verif.Spec.Parts
/-!
# Vocabulary for saving whole requests
-/
namespace Multipart

/-- The number of fields in a map of fields. -/
def total (m : List (Bytes × List SavedField)) : Nat := (m.map (fun kv => kv.2.length)).sum

/-- The map `m` holds the fields `fs`, grouped by name: no key twice, and the group of a name are the fields of that name, in order, and there
is no empty group. -/
structure GroupedByName (m : List (Bytes × List SavedField)) (fs : List SavedField) : Prop where
  keys : (m.map Prod.fst).Nodup
  groups : ∀ name group, (name, group) ∈ m ↔ group ≠ [] ∧ group = fs.filter (fun f => f.headers.name = name)

/-- `SavedSeq D b fuel dir w s fs w' t`: entries were read one after the other and saved fully to the directory `dir`, giving `fs`. For
fields that are not text no text is tried. -/
inductive SavedSeq (D : Deps) (b : Settings) (fuel : Nat) (dir : Path) : World → BR → List SavedField → World → BR → Prop
  | nil {w : World} {s : BR} : SavedSeq D b fuel dir w s [] w s
  | cons {w w1 w2 : World} {s s1 s2 t : BR} {h : FieldHeaders} {d : SavedData} {fs : List SavedField} : s.readEntry D = (.ok (some h), s1) →
      (Target.dir dir).save { b with textPolicy := if h.isText then b.textPolicy else .ignore } fuel w s1 = (.full d, w1, s2) →
      SavedSeq D b fuel dir w1 s2 fs w2 t → SavedSeq D b fuel dir w s ({ headers := h, data := d } :: fs) w2 t

end Multipart

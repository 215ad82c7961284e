import Verif.Model.Entries
/-!
# Uses of a `SaveDir`: calls through references, then one call that takes it
-/
namespace Multipart

/-- The calls that do not take the `SaveDir`. -/
inductive DirCall where
  | asPath
  | isTemporary
  | keep
  deriving DecidableEq, Repr

/-- What a call returns. -/
inductive DirRet where
  | path (p : Path)
  | bool (t : Bool)
  | unit
  deriving DecidableEq, Repr

/-- The ways in which a `SaveDir` can end. -/
inductive DirLast where
  | drop
  | intoPath
  | delete
  deriving DecidableEq, Repr

def SaveDir.call (d : SaveDir) : DirCall → DirRet × SaveDir
  | .asPath => (.path d.asPath, d)
  | .isTemporary => (.bool d.isTemporary, d)
  | .keep => (.unit, d.keep)

/-- The calls `cs` one after the other: their return values and the `SaveDir` after them. -/
def SaveDir.calls (d : SaveDir) : List DirCall → List DirRet × SaveDir
  | [] => ([], d)
  | c :: cs =>
    let r := d.call c
    let r' := r.2.calls cs
    (r.1 :: r'.1, r'.2)

/-- The last call. `fail` is the failure of `remove_dir_all` if one happens. -/
def SaveDir.last (d : SaveDir) (fail : Option (IoErr × (Path → Bool))) (w : World) : DirLast → World
  | .drop => d.drop fail w
  | .intoPath => w
  | .delete => (d.delete fail w).2

/-- `p` itself or something below it. -/
def Below (p q : Path) : Prop := ∃ r, q = p ++ r

end Multipart

import Verif.Spec.Whole
import Verif.Spec.Saving
/-!
# A server that handles one request after the other
-/
namespace Multipart

/-- What a server does with the disk: save a request in a directory or in a temporary directory (`made` is the result of creating it), or drop what holds a directory (`fail` is what goes wrong then). -/
inductive ServerStep where
  | withDir (cfg : Settings) (fuel : Nat) (dir : Path) (evs : List Ev) (b : Bytes)
  | temp (cfg : Settings) (fuel : Nat) (made : Except IoErr Path) (evs : List Ev) (b : Bytes)
  | drop (d : SaveDir) (fail : Option (IoErr × (Path → Bool)))

/-- One such step that returns, with any result. -/
inductive ServerStep.Does (D : Deps) (w : World) : ServerStep → World → Prop
  | withDir {cfg : Settings} {fuel : Nat} {dir : Path} {evs : List Ev} {b : Bytes} {r : SaveRes Entries PartialEntries} {w' : World} {t : BR} :
      requestWithDir D cfg fuel dir w (withBody evs b) = (r, w', t) → r ≠ .hang → r ≠ .panic → Does D w (.withDir cfg fuel dir evs b) w'
  | temp {cfg : Settings} {fuel : Nat} {made : Except IoErr Path} {evs : List Ev} {b : Bytes} {r : SaveRes Entries PartialEntries} {w' : World} {t : BR} :
      requestTemp D cfg fuel made w (withBody evs b) = (r, w', t) → r ≠ .hang → r ≠ .panic → Does D w (.temp cfg fuel made evs b) w'
  | drop {d : SaveDir} {fail : Option (IoErr × (Path → Bool))} : Does D w (.drop d fail) (d.drop fail w)

/-- Such steps one after the other. -/
inductive Serves (D : Deps) : World → List ServerStep → World → Prop
  | nil {w : World} : Serves D w [] w
  | cons {w w1 w2 : World} {x : ServerStep} {xs : List ServerStep} : x.Does D w w1 → Serves D w1 xs w2 → Serves D w (x :: xs) w2

/-- The step creates files only where there is none (the default), and does not remove the file `q`. -/
def ServerStep.Spares (q : Path) : ServerStep → Prop
  | .withDir cfg _ _ _ _ => cfg.openOpts.createNew = true
  | .temp cfg _ _ _ _ => cfg.openOpts.createNew = true
  | .drop (.temp p) _ => ¬ Below p q
  | .drop (.perm _) _ => True

/-- A request: how its body arrives, its boundary, and its parts. -/
structure Upload where
  evs : List Ev
  b : Bytes
  parts : List (FieldHeaders × Bytes)

/-- The request is complete and arrives without failures, and its fields are within the limits. -/
structure Upload.Within (D : Deps) (cfg : Settings) (u : Upload) : Prop where
  noStall : NoStall u.evs
  noErr : NoErr u.evs
  parts : Parts D (dashes ++ u.b) (Ev.bytes u.evs) u.parts .closed
  text : cfg.textPolicy = .force → ∀ p ∈ u.parts, p.1.isText = true → IsUtf8 p.2
  count : u.parts.length < cfg.countLimit
  sizes : ∀ p ∈ u.parts, p.2.length + 2 ≤ cfg.sizeLimit

/-- The requests are all saved fully, one after the other, in the same directory; `es` are the results. -/
inductive SavesAll (D : Deps) (cfg : Settings) (fuel : Nat) (dir : SaveDir) : World → List Upload → List Entries → World → Prop
  | nil {w : World} : SavesAll D cfg fuel dir w [] [] w
  | cons {w w1 w2 : World} {u : Upload} {us : List Upload} {e : Entries} {es : List Entries} {t : BR} :
      withEntries D cfg fuel (Entries.new dir) w (withBody u.evs u.b) = (.full e, w1, t) → SavesAll D cfg fuel dir w1 us es w2 → SavesAll D cfg fuel dir w (u :: us) (e :: es) w2

end Multipart

import Verif.Spec.Retry
import Verif.Model.Entries
namespace Multipart

/-! # Callers that resume a save

The documentation of `with_entries` (server/save.rs:279-281): "Commence the save operation using the existing `Entries` instance. May be used to resume a saving operation after handling an error." -/

/-- A caller saves a request with `with_entries`, and calls it again with the entries of the partial result whenever this was for an error that can only come from the underlying stream and
no field had been begun. In the end it has the result `r`, and the world is `w'`. -/
inductive ResumedSave (D : Deps) (cfg : Settings) : Entries → World → BR → SaveRes Entries PartialEntries → World → Prop
  | done {e : Entries} {w w' : World} {s t : BR} {r : SaveRes Entries PartialEntries} {fuel : Nat} : withEntries D cfg fuel e w s = (r, w', t) →
      (∀ p er, r = .part p (.io er) → er.Own ∨ p.part ≠ none) → ResumedSave D cfg e w s r w'
  | again {e e1 : Entries} {w w1 w' : World} {s t1 : BR} {r : SaveRes Entries PartialEntries} {fuel : Nat} {er : IoErr} :
      withEntries D cfg fuel e w s = (.part { entries := e1, part := none } (.io er), w1, t1) → ¬ er.Own → ResumedSave D cfg e1 w1 t1 r w' → ResumedSave D cfg e w s r w'

/-- A caller saves a request with `with_entries`, and calls it again with the entries of the partial result whenever this names a field that was begun and not finished. These are the
headers `hs` of the fields given up. In the end it has the result `r`, and the world is `w'`. The settings may be others for each call, all with `ok`. -/
inductive GoesOn (D : Deps) (ok : Settings → Prop) : Entries → World → BR → List FieldHeaders → SaveRes Entries PartialEntries → World → Prop
  | stop {e : Entries} {w w' : World} {s t : BR} {r : SaveRes Entries PartialEntries} {cfg : Settings} {fuel : Nat} : ok cfg → withEntries D cfg fuel e w s = (r, w', t) →
      GoesOn D ok e w s [] r w'
  | on {e : Entries} {w w1 w' : World} {s t1 : BR} {p : PartialEntries} {pf : PartialField} {reason : Reason} {r : SaveRes Entries PartialEntries} {hs : List FieldHeaders} {cfg : Settings}
      {fuel : Nat} : ok cfg → withEntries D cfg fuel e w s = (.part p reason, w1, t1) → p.part = some pf → GoesOn D ok p.entries w1 t1 hs r w' → GoesOn D ok e w s (pf.headers :: hs) r w'

/-- `ks` are the parts `es` without some of them, which have the headers `hs`; all in order. -/
inductive Without : List (FieldHeaders × Bytes) → List FieldHeaders → List (FieldHeaders × Bytes) → Prop
  | nil : Without [] [] []
  | keep {e : FieldHeaders × Bytes} {es ks : List (FieldHeaders × Bytes)} {hs : List FieldHeaders} : Without es hs ks → Without (e :: es) hs (e :: ks)
  | drop {fh : FieldHeaders} {dat : Bytes} {es ks : List (FieldHeaders × Bytes)} {hs : List FieldHeaders} : Without es hs ks → Without ((fh, dat) :: es) (fh :: hs) ks

end Multipart

import Verif.Model.Owned
import Verif.Spec.Parts
/-!
# Vocabulary for the owned entry API
-/
namespace Multipart

/-- The loop a user of the owned API writes: read each field to its end with `read_to_end` (`sz` gives the sizes of its buffers, different each time), then
go on with `next_entry`; stop at the first error. The list are the fields read. -/
inductive OwnedReads (D : Deps) (sz : BR → Nat → Nat) : Owned → List (FieldHeaders × Bytes) → Ending → Prop
  | fin {m : BR} : OwnedReads D sz (.fin m) [] .closed
  | error {m : BR} {e : IoErr} : OwnedReads D sz (.error m e) [] (.failed e)
  | entry {fh : FieldHeaders} {s t : BR} {dat : Bytes} {es : List (FieldHeaders × Bytes)} {fin : Ending} :
      s.readToEnd (sz s) = (.ok (), dat, t) → OwnedReads D sz (EntryHandle.nextEntry D { headers := fh, inner := some t }) es fin →
      OwnedReads D sz (.entry { headers := fh, inner := some s }) ((fh, dat) :: es) fin
  | broken {fh : FieldHeaders} {s t : BR} {dat : Bytes} {e : IoErr} :
      s.readToEnd (sz s) = (.err e, dat, t) → OwnedReads D sz (.entry { headers := fh, inner := some s }) [] (.failed e)

end Multipart

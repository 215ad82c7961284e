import Verif.Model.LazyHyper
import Verif.Spec.Lazy
/-!
# What a lazy Hyper request brings to the server
-/
namespace Multipart

/-- Where a body reads from. -/
def HyperBody.fields : HyperBody → Prepared
  | .sized p _ => p
  | .chunked p => p

/-- What a server gets of this body, by the rules of HTTP: if a length was announced, this many bytes; otherwise everything. `ns` are the sizes of the buffers with which Hyper reads. -/
inductive OnWire (ns : List Nat) : HyperBody → Bytes → Prop
  | sized {p : Prepared} {u : Bytes} (len : Nat) : ReadsOut p ns u → OnWire ns (.sized p len) (u.take len)
  | chunked {p : Prepared} {u : Bytes} : ReadsOut p ns u → OnWire ns (.chunked p) u

end Multipart

import Verif.Model.Mock
/-!
# Words for the properties of `src/mock.rs`
-/
namespace Multipart

/-- Everything written with success through a `StdoutTee` (by `write_all`) arrives exactly once in the inner writer and on standard output. -/
def TeeFaithful : Prop := ∀ (t t' : Tee) (bufs : List Bytes), Tee.writeEach bufs t = (.ok (), t') →
  t'.inner.got = t.inner.got ++ bufs.flatten ∧ t'.stdout.got = t.stdout.got ++ bufs.flatten

/-- The bytes of `buf`, followed by any number of repetitions of its ends. -/
def Repeats (buf x : Bytes) : Prop := ∃ ends : List Bytes, x = buf ++ ends.flatten ∧ ∀ e ∈ ends, e <:+ buf

end Multipart

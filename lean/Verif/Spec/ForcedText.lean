import Verif.Spec.Text
/-!
# Data that is text up to some place
-/
namespace Multipart

/-- `dat` consists of the text `v`, as long as possible, and of `y`, which is not text from its first byte on. -/
structure TextThen (dat v y : Bytes) : Prop where
  split : dat = v ++ y
  text : IsUtf8 v
  rest : ∀ z, z ≠ [] → z <+: y → ¬ IsUtf8 z

end Multipart

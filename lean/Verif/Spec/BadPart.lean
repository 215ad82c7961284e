import Verif.Spec.OtherClients
import Verif.Spec.Cut
/-!
# Parts whose headers are refused
-/
namespace Multipart

/-- Assumption about the tokenizer of headers: it was given room for four headers (field.rs:58 and 74), and reports an error if there are more. -/
def Deps.OnlyFour (D : Deps) : Prop := ∀ hs : List Header, 4 < hs.length → (∀ h ∈ hs, HeaderName h.name ∧ HeaderText h.val) → ∀ more, D.parseHeaders (renderHeaders hs ++ more) = .error

end Multipart

import Verif.Model.Adapters
import Verif.Spec.Header
/-!
# Content-Type headers as RFC 7231 allows them
-/
namespace Multipart

/-- A character of a token (RFC 7230, 3.2.6). -/
def TokenChar (c : Byte) : Prop := c ∈ b!"!#$%&'*+-.^_`|~" ∨ (0x30 ≤ c ∧ c ≤ 0x39) ∨ (0x41 ≤ c ∧ c ≤ 0x5A) ∨ (0x61 ≤ c ∧ c ≤ 0x7A)

instance (c : Byte) : Decidable (TokenChar c) := by unfold TokenChar; infer_instance

/-- A parameter of a media type as it is written in a header (RFC 7231, 3.1.1.1): white space, `;`, white space, a name, `=`, and a value, as a token or in quotes. -/
structure CtParam where
  before : Bytes
  after : Bytes
  name : Bytes
  value : Bytes
  quoted : Bool

def CtParam.raw (p : CtParam) : Bytes := if p.quoted then 0x22 :: (p.value ++ [0x22]) else p.value

def CtParam.text (p : CtParam) : Bytes := p.before ++ b!";" ++ p.after ++ p.name ++ b!"=" ++ p.raw

structure CtParam.Legal (p : CtParam) : Prop where
  before : ∀ c ∈ p.before, c = 0x20 ∨ c = 0x09
  after : ∀ c ∈ p.after, c = 0x20 ∨ c = 0x09
  name : ∀ c ∈ p.name, TokenChar c
  token : p.quoted = false → p.value ≠ [] ∧ ∀ c ∈ p.value, TokenChar c
  inQuotes : p.quoted = true → ∀ c ∈ p.value, c ≠ 0x22 ∧ c ≠ 0x5C

/-- The header value `v` says `multipart/form-data` (in any case) and has the parameters `ps`, then `p`, then `qs`, of which `p` is the first with the name `boundary` (in any case). -/
structure Announces (v : Bytes) (ps : List CtParam) (p : CtParam) (qs : List CtParam) : Prop where
  text : ∃ t, SameName t b!"multipart/form-data" ∧ v = t ++ (ps ++ p :: qs).flatMap CtParam.text
  legal : ∀ q ∈ ps ++ p :: qs, q.Legal
  name : SameName p.name b!"boundary"
  first : ∀ q ∈ ps, ¬ SameName q.name b!"boundary"

/-- The text `boundary=` does not occur in this parameter: its name does not end with this word (in these letters), and a value in quotes does not contain it. -/
def CtParam.NoDecoy (p : CtParam) : Prop := ¬ b!"boundary" <:+ p.name ∧ (p.quoted = true → Absent b!"boundary=" p.value)

/-- White space between a parameter and the next `;`. -/
def spaceBehind : List CtParam → Bytes
  | [] => []
  | q :: _ => q.before

end Multipart

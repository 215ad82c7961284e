import Verif.Model.Adapters
import Verif.Spec.Header
/-!
# Vocabulary for the HTTP library adapters
-/
namespace Multipart

/-- A parsed value: the parser of `mime` represents the texts it has a variant for by this variant. -/
structure HMime.Parsed (m : HMime) : Prop where
  top : m.top ≠ .ext b!"multipart"
  sub : m.sub ≠ .ext b!"form-data"
  attr : ∀ p ∈ m.params, p.1 ≠ .ext b!"boundary"
  val : ∀ p ∈ m.params, p.2 ≠ .ext b!"utf-8"

/-- The media type is `multipart/form-data`. -/
def HMime.IsFormData (m : HMime) : Prop := m.top.asStr = b!"multipart" ∧ m.sub.asStr = b!"form-data"

/-- The first parameter called `boundary` has the value `b`. -/
def HMime.HasBoundary (m : HMime) (b : Bytes) : Prop :=
  ∃ pre a v post, m.params = pre ++ (a, v) :: post ∧ a.asStr = b!"boundary" ∧ v.asStr = b ∧ ∀ p ∈ pre, p.1.asStr ≠ b!"boundary"

/-- What the other side parses when `m` is sent as a header, for values that need no quoting: the same texts. -/
def HMime.SentAs (m m' : HMime) : Prop :=
  m'.Parsed ∧ m'.top.asStr = m.top.asStr ∧ m'.sub.asStr = m.sub.asStr ∧
    m'.params.map (fun p => (p.1.asStr, p.2.asStr)) = m.params.map (fun p => (p.1.asStr, p.2.asStr))

end Multipart

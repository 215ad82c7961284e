import Verif.Spec.Parts
import Verif.Spec.RoundTrip
namespace Multipart

/-! # Bodies that are cut off -/

/-- What is further assumed about the tokenizer where this is named: a complete block of headers stays complete whatever follows it. (`httparse` stops reading at the
blank line.) -/
def Deps.Incremental (D : Deps) : Prop := ∀ P n hs, D.parseHeaders P = .complete n hs → ∀ more, D.parseHeaders (P ++ more) = .complete n hs

/-- `PartsTo D d u es w`: the body `u` begins with the parts `es`, each with a delimiter behind it; `w` is the rest, from the data of the last of these parts on. -/
inductive PartsTo (D : Deps) (d : Bytes) : Bytes → List (FieldHeaders × Bytes) → Bytes → Prop
  | nil {u : Bytes} : PartsTo D d u [] u
  | part {u rest X w dat : Bytes} {fh : FieldHeaders} {es : List (FieldHeaders × Bytes)} :
      NextIs d u (.part rest) → WellFormedPart D d rest fh dat X → PartsTo D d X es w → PartsTo D d u ((fh, dat) :: es) w

/-- No further part of `w` is complete: there is no complete delimiter line, or a delimiter line that introduces a part, but no delimiter behind this part. -/
inductive LastPart (d w : Bytes) : Prop
  | truncated : NextIs d w .truncated → LastPart d w
  | unfinished {rest : Bytes} : NextIs d w (.part rest) → Absent d rest → LastPart d w

/-- What the client writes for these fields, up to and with the delimiter behind the last of them, but without what makes it a delimiter line. -/
def upToDelim (b : Bytes) : List OutField → Bytes
  | [] => dashes ++ b
  | f :: fs => dashes ++ b ++ crlf ++ f.headers ++ f.data ++ crlf ++ upToDelim b fs

end Multipart

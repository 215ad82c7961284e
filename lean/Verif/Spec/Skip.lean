import Verif.Spec.Parts
/-!
# Long fields, and a caller who does not read the fields
-/
namespace Multipart

/-- The data of a field, the CRLF and the delimiter behind them and one byte more fill the buffer. -/
def LongField (d dat : Bytes) : Prop := entryBuf d ≤ dat.length + d.length + 3

/-- `Skips D s fhs t`: calling `read_entry` repeatedly, without reading any of the fields, gives entries with the headers `fhs`, and leads from `s` to `t`. -/
inductive Skips (D : Deps) : BR → List FieldHeaders → BR → Prop
  | nil {s : BR} : Skips D s [] s
  | cons {s t u : BR} {fh : FieldHeaders} {fhs : List FieldHeaders} : s.readEntry D = (.ok (some fh), t) → Skips D t fhs u → Skips D s (fh :: fhs) u

/-- `BadHeaders D y left`: the headers of the part `y` are refused, and `left` of it is left then. They are not valid or not complete, a value is not UTF-8; or (and only then they are gone)
they are not the headers of a field. -/
inductive BadHeaders (D : Deps) (y : Bytes) : Bytes → Prop
  | malformed : D.parseHeaders y = .error → BadHeaders D y y
  | unfinished : D.parseHeaders y = .partialHdrs → BadHeaders D y y
  | notText {n : Nat} {hs : List Header} : D.parseHeaders y = .complete n hs → (∃ h ∈ hs, ¬ IsUtf8 h.val) → BadHeaders D y y
  | refused {n : Nat} {hs : List Header} {e : HdrErr} : D.parseHeaders y = .complete n hs → (∀ h ∈ hs, IsUtf8 h.val) → FieldHeaders.parse D hs = .error e → BadHeaders D y (y.drop n)

end Multipart

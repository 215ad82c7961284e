import Verif.Spec.Parts
/-!
# Bodies put together from pieces of other bodies
-/
namespace Multipart

/-- Assumption on the tokenizer (httparse): a complete header block ends with LF. -/
def Deps.Lines (D : Deps) : Prop := ∀ P n hs, D.parseHeaders P = .complete n hs → [0x0A] <:+ P.take n

/-- Reading the body `evs` entry by entry, every field to its end by any sequence of calls, gives exactly these entries and this end; and there is such a reading. -/
def GivesExactly (D : Deps) (b : Bytes) (evs : List Ev) (es : List (FieldHeaders × Bytes)) (fin : Ending) : Prop :=
  (∃ got fin', Reads D (withBody evs b) got fin') ∧ ∀ got fin', Reads D (withBody evs b) got fin' → got = es ∧ fin' = fin

/-- The body `u` arrives, in any number of reads, without errors, and no read ends between the CR and the LF before a delimiter (unless another delimiter is near). -/
structure ArrivesAs (b : Bytes) (u : Bytes) (evs : List Ev) : Prop where
  bytes : Ev.bytes evs = u
  noStall : NoStall evs
  noErr : NoErr evs
  clean : CleanSplit (dashes ++ b) evs

end Multipart

import Verif.Spec.Stream
/-!
# The parts of a body, and what reading them means

`Parts` says what the entries of a body are, by looking at the bytes only. `Reads` says what a caller sees who calls
`read_entry` and reads every field to its end, with any calls.
-/
namespace Multipart

instance (d xs : Bytes) (p : Nat) : Decidable (OccursAt d xs p) := by unfold OccursAt; infer_instance
instance (d xs : Bytes) (p : Nat) : Decidable (FirstAt d xs p) := by unfold FirstAt; infer_instance
instance (evs : List Ev) : Decidable (NoStall evs) := by unfold NoStall; infer_instance
instance (s : BR) : Decidable s.AtEof := by unfold BR.AtEof; infer_instance

/-- Two lists of the same length, related element by element. -/
inductive All2 {α β : Type} (R : α → β → Prop) : List α → List β → Prop
  | nil : All2 R [] []
  | cons {a : α} {b : β} {as : List α} {bs : List β} : R a b → All2 R as bs → All2 R (a :: as) (b :: bs)

/-- How a sequence of entries ends. -/
inductive Ending where
  | closed
  | failed (e : IoErr)
  deriving DecidableEq, Repr

/-- The same as the result of a call. -/
def Ending.result : Ending → Res Unit
  | .closed => .ok ()
  | .failed e => .err e

/-- The largest header block `read_entry` is sure to accept is a little smaller than this buffer. -/
def entryBuf (d : Bytes) : Nat := Nat.max 1024 (2 * d.length)

/-- `WellFormedPart D d rest fh dat X`: what follows the delimiter line, `rest`, is a header block of bounded size that parses as
`fh`, then `X`, which begins with the data `dat` and the next delimiter. -/
structure WellFormedPart (D : Deps) (d rest : Bytes) (fh : FieldHeaders) (dat X : Bytes) : Prop where
  headers : ∃ H hs, HeaderBlock D d rest H hs X ∧ FieldHeaders.parse D hs = .ok fh ∧
    H.length + d.length + 1 ≤ entryBuf d ∧
    -- the CRLF that ends the header block is not directly followed by the delimiter
    (FirstAt d X dat.length → ¬ crlf <:+ H ++ dat)
  data : FieldData d X dat

/-- `Shown d rest P`: `P` may be all that is to be seen of the part `rest` at some time. It is a beginning of `rest` that does not reach beyond the start of the next delimiter; and if CRLF is in front of this delimiter,
which is not far away, it does not reach beyond the start of this CRLF either. -/
structure Shown (d rest P : Bytes) : Prop where
  start : P <+: rest
  none : ∀ q, q < P.length → ¬ OccursAt d rest q
  near : ∀ p, FirstAt d rest (p + 2) → OccursAt crlf rest p → p + 2 ≤ entryBuf d → P.length ≤ p

/-- However much is seen of the part `rest`, up to the next delimiter, it does not begin with the headers of a field: they are not valid, not complete, not text, or lack something. -/
def NoFieldHeaders (D : Deps) (d rest : Bytes) : Prop :=
  ∀ P n hs, Shown d rest P → D.parseHeaders P = .complete n hs → (∀ h ∈ hs, IsUtf8 h.val) → ∀ fh, FieldHeaders.parse D hs ≠ .ok fh

/-- The entries of the body `u`, up to its end or up to the first part that has none: `d` is the delimiter. -/
inductive Parts (D : Deps) (d : Bytes) : Bytes → List (FieldHeaders × Bytes) → Ending → Prop
  | close {u rest : Bytes} : NextIs d u (.close rest) → Parts D d u [] .closed
  | damaged {u : Bytes} : NextIs d u .damaged → Parts D d u [] (.failed .invalidData)
  | truncated {u : Bytes} : NextIs d u .truncated → Parts D d u [] (.failed .unexpectedEof)
  | refused {u rest : Bytes} : NextIs d u (.part rest) → NoFieldHeaders D d rest → Parts D d u [] (.failed .invalidData)
  | part {u rest X dat : Bytes} {fh : FieldHeaders} {es : List (FieldHeaders × Bytes)} {fin : Ending} :
      NextIs d u (.part rest) → WellFormedPart D d rest fh dat X → Parts D d X es fin → Parts D d u ((fh, dat) :: es) fin

/-- A caller of `read_entry` who reads every field to its end, by any sequence of calls, got these entries and this end. -/
inductive Reads (D : Deps) : BR → List (FieldHeaders × Bytes) → Ending → Prop
  | close {s t : BR} : s.readEntry D = (.ok none, t) → Reads D s [] .closed
  | fail {s t : BR} {e : IoErr} : s.readEntry D = (.err e, t) → Reads D s [] (.failed e)
  | entry {s t : BR} {fh : FieldHeaders} {os : List FieldOp} {es : List (FieldHeaders × Bytes)} {fin : Ending} :
      s.readEntry D = (.ok (some fh), t) → (t.run os).2.AtEof → Reads D (t.run os).2 es fin →
      Reads D s ((fh, (t.run os).1) :: es) fin

/-- In front of position `p` of the body are at least `entryBuf` bytes without a delimiter. -/
def FarBehind (d body : Bytes) (p : Nat) : Prop := entryBuf d < p ∧ ∀ q, q < p → p ≤ q + entryBuf d → ¬ OccursAt d body q

/-- No `read` of the underlying stream ends between the CR and the LF that precede a delimiter, unless there is another delimiter in the `entryBuf` bytes before it. -/
def CleanSplit (d : Bytes) (evs : List Ev) : Prop := ∀ k, SplitAt evs (k + 1) → OccursAt (crlf ++ d) (Ev.bytes evs) k → ¬ FarBehind d (Ev.bytes evs) (k + 2)

/-- What may come out for the data `dat` of a field: `dat` itself, or with the CRLF of the delimiter line, but this only if
the stream was split inside such a CRLF behind a long part. -/
def DataOk (d : Bytes) (evs : List Ev) (dat got : Bytes) : Prop := got = dat ∨ (got = dat ++ crlf ∧ ¬ CleanSplit d evs)

/-- As `DataOk` for callers that do not change the buffer size, such as all that save a field: the CRLF is possible only if the data with it do not fit in the buffer. -/
def SavedOk (d : Bytes) (evs : List Ev) (dat got : Bytes) : Prop := got = dat ∨ (got = dat ++ crlf ∧ ¬ CleanSplit d evs ∧ entryBuf d < dat.length + 2)

end Multipart

import Verif.Model.Server
import Verif.Spec.Text
/-!
# Vocabulary for statements about byte streams

Independent of how the code searches: where a delimiter occurs in a byte string.
-/
namespace Multipart

/-- `d` stands in `xs` at offset `p`. -/
def OccursAt (d xs : Bytes) (p : Nat) : Prop := d <+: xs.drop p

/-- `p` is the offset of the first occurrence of `d` in `xs`. -/
def FirstAt (d xs : Bytes) (p : Nat) : Prop := OccursAt d xs p ∧ ∀ q, q < p → ¬ OccursAt d xs q

/-- `d` does not occur in `xs`. -/
def Absent (d xs : Bytes) : Prop := ∀ q, ¬ OccursAt d xs q

/-- The unread stream of a reader: the bytes buffered, then the bytes still to arrive. -/
def BR.unread (s : BR) : Bytes := s.buf ++ Ev.bytes s.evs

/-- One `read` of the body ends, and the next begins, at offset `k` of the body. -/
def SplitAt (evs : List Ev) (k : Nat) : Prop := ∃ a b, evs = a ++ b ∧ (Ev.bytes a).length = k

/-- No read of the underlying stream fails. -/
def NoErr (evs : List Ev) : Prop := ∀ e, Ev.err e ∉ evs

/-- No read of the underlying stream returns `Ok(0)` before its end. -/
def NoStall (evs : List Ev) : Prop := Ev.data [] ∉ evs

/-- The reader is at the end of the current field: `fill_buf` returns an empty slice. -/
def BR.AtEof (s : BR) : Prop := s.readToBoundary.1 = .ok []

/-- `FieldData d X D`: in the stream `X` of a field (from behind its headers on), `D` is the field's data: everything
up to the CRLF that precedes the first delimiter, or up to the delimiter if no CRLF precedes it. -/
inductive FieldData (d X D : Bytes) : Prop
  | crlf : FirstAt d X (D.length + 2) → (D ++ crlf) <+: X → FieldData d X D
  | bare : FirstAt d X D.length → D <+: X → ¬ crlf <:+ D → FieldData d X D

/-- The states a `Multipart` over the body `evs` with boundary `b` can be in: any history of calls. -/
def Reachable (D : Deps) (evs : List Ev) (b : Bytes) (s : BR) : Prop := ∃ os, s = (withBody evs b).session D os

/-- What follows next in an unread stream `u` with delimiter `d`: a part (whose headers, data and all the rest are
`rest`), the closing delimiter, a delimiter followed by something else, or no complete delimiter line. -/
inductive Verdict where
  | part (rest : Bytes)
  | close (rest : Bytes)
  | damaged
  | truncated
  deriving DecidableEq, Repr

/-- `NextIs d u v`: what comes next in `u` is `v`, decided by the first occurrence of the delimiter alone. -/
inductive NextIs (d u : Bytes) : Verdict → Prop
  | part {p : Nat} {rest : Bytes} : FirstAt d u p → u.drop (p + d.length) = crlf ++ rest → NextIs d u (.part rest)
  | close {p : Nat} {rest : Bytes} : FirstAt d u p → u.drop (p + d.length) = dashes ++ rest → NextIs d u (.close rest)
  | damaged {p : Nat} : FirstAt d u p → p + d.length + 2 ≤ u.length →
      ¬ crlf <+: u.drop (p + d.length) → ¬ dashes <+: u.drop (p + d.length) → NextIs d u .damaged
  | cut {p : Nat} : FirstAt d u p → u.length < p + d.length + 2 → NextIs d u .truncated
  | none : Absent d u → NextIs d u .truncated

end Multipart

namespace Multipart

/-- `HeaderBlock D d rest H hs X`: the part `rest` consists of the header block `H`, tokenized as `hs` whatever follows it,
and `X`, and no delimiter starts within `H`. -/
structure HeaderBlock (D : Deps) (d rest H : Bytes) (hs : List Header) (X : Bytes) : Prop where
  split : rest = H ++ X
  nonempty : H ≠ []
  parses : ∀ more, D.parseHeaders (H ++ more) = .complete H.length hs
  utf8 : ∀ h ∈ hs, IsUtf8 h.val
  noDelim : ∀ q, q < H.length → ¬ OccursAt d rest q

end Multipart

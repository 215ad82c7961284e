import Verif.Spec.Tools
/-!
# A caller who goes on after parts with bad headers
-/
namespace Multipart

/-- All the parts of the body `u`, in their order: `some` headers and data, or `none` for a part whose headers are refused. The next part after the latter is
looked for behind its delimiter line. -/
inductive MixedParts (D : Deps) (d : Bytes) : Bytes → List (Option (FieldHeaders × Bytes)) → Ending → Prop
  | close {u rest : Bytes} : NextIs d u (.close rest) → MixedParts D d u [] .closed
  | truncated {u : Bytes} : NextIs d u .truncated → MixedParts D d u [] (.failed .unexpectedEof)
  | bad {u rest : Bytes} {es : List (Option (FieldHeaders × Bytes))} {fin : Ending} :
      NextIs d u (.part rest) → NoFieldHeaders D d rest → MixedParts D d rest es fin → MixedParts D d u (none :: es) fin
  | part {u rest X dat : Bytes} {fh : FieldHeaders} {es : List (Option (FieldHeaders × Bytes))} {fin : Ending} :
      NextIs d u (.part rest) → WellFormedPart D d rest fh dat X → MixedParts D d X es fin → MixedParts D d u (some (fh, dat) :: es) fin

/-- A caller of `read_entry` who reads every field to its end, by any sequence of calls, and calls again after `InvalidData`, got these entries (`none` for `InvalidData`) and this end. -/
inductive TolerantReads (D : Deps) : BR → List (Option (FieldHeaders × Bytes)) → Ending → Prop
  | close {s t : BR} : s.readEntry D = (.ok none, t) → TolerantReads D s [] .closed
  | fail {s t : BR} {e : IoErr} : s.readEntry D = (.err e, t) → e ≠ .invalidData → TolerantReads D s [] (.failed e)
  | bad {s t : BR} {es : List (Option (FieldHeaders × Bytes))} {fin : Ending} : s.readEntry D = (.err .invalidData, t) → TolerantReads D t es fin → TolerantReads D s (none :: es) fin
  | entry {s t : BR} {fh : FieldHeaders} {os : List FieldOp} {es : List (Option (FieldHeaders × Bytes))} {fin : Ending} :
      s.readEntry D = (.ok (some fh), t) → (t.run os).2.AtEof → TolerantReads D (t.run os).2 es fin → TolerantReads D s (some (fh, (t.run os).1) :: es) fin

/-- Every part of the body whose headers are refused fits, up to the end of the next delimiter line, in the buffer. -/
def ShortBadParts (D : Deps) (d body : Bytes) : Prop :=
  ∀ gone rest, body = gone ++ d ++ crlf ++ rest → NoFieldHeaders D d rest → ∀ p, FirstAt d rest p → p + d.length + 2 ≤ entryBuf d

/-- What a caller got for a part: nothing for a part with bad headers, and headers and data for any other. -/
inductive GotPart (d : Bytes) (evs : List Ev) : Option (FieldHeaders × Bytes) → Option (FieldHeaders × Bytes) → Prop
  | bad : GotPart d evs none none
  | part {fh : FieldHeaders} {dat x : Bytes} : DataOk d evs dat x → GotPart d evs (some (fh, x)) (some (fh, dat))

end Multipart

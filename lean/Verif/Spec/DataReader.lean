import Verif.Model.DataReader
import Verif.Spec.Client
import Verif.Spec.Lazy
/-!
# Vocabulary for reading saved data
-/
namespace Multipart

/-- The saved data consists of the bytes `c`: in memory, or in a file that can be opened and delivers them in any pieces, maybe with errors in between. -/
inductive Contents (opens : Path → Except IoErr (List Ev)) : SavedData → Bytes → Prop
  | text (t : Bytes) : Contents opens (.text t) t
  | bytes (b : Bytes) : Contents opens (.bytes b) b
  | file {p : Path} {n : Nat} {evs : List Ev} : opens p = .ok evs → NoStall evs → Contents opens (.file p n) (Ev.bytes evs)

/-- What a user of a `DataReader` does: `read` with a buffer of `n` bytes; or `fill_buf`, of which up to `k` bytes are used and then consumed. -/
inductive DataOp where
  | read (n : Nat)
  | use (k : Nat)
  deriving DecidableEq, Repr

/-- The number of bytes asked for. -/
def DataOp.asks : DataOp → Nat
  | .read n => n
  | .use k => k

/-- The bytes the user got. -/
def DataReader.op (r : DataReader) : DataOp → Res Bytes × DataReader
  | .read n => r.read n
  | .use k =>
    match r.fillBuf with
    | (.ok bs, r) =>
      match r.consume (bs.take k).length with
      | (.ok (), r) => (.ok (bs.take k), r)
      | (_, r) => (.panic, r)
    | (e, r) => (e, r)

/-- Several such calls. -/
def DataReader.ops (r : DataReader) : List DataOp → List (Res Bytes) × DataReader
  | [] => ([], r)
  | o :: os => ((r.op o).1 :: ((r.op o).2.ops os).1, ((r.op o).2.ops os).2)

/-- The saved data is in a file that cannot be opened, or not be read without an error (other than interruptions): `e`. -/
def Unreadable (opens : Path → Except IoErr (List Ev)) (d : SavedData) (e : IoErr) : Prop :=
  ∃ p n, d = .file p n ∧ (opens p = .error e ∨ ∃ evs, opens p = .ok evs ∧ .err e ∈ evs ∧ e ≠ .interrupted)

/-- At most `k + 1` decimal digits of `n`, the last first in the recursion. -/
def digitsAux : Nat → Nat → Bytes
  | 0, n => [UInt8.ofNat (48 + n % 10)]
  | k + 1, n => if n < 10 then [UInt8.ofNat (48 + n)] else digitsAux k (n / 10) ++ [UInt8.ofNat (48 + n % 10)]

/-- A number in decimal. -/
def digits (n : Nat) : Bytes := digitsAux n n

/-- What `write_debug` is to write for the fields of one name, if the data of each field is given by `c`. -/
def debugFieldsText (F : DebugFmt) (c : SavedField → Bytes) : Nat → List SavedField → Bytes
  | _, [] => []
  | idx, f :: fs => digits idx ++ b!": " ++ (F.filename f.headers.filename).flatten ++ b!" (" ++ (F.ctype f.headers.contentType).flatten ++ b!"):\n" ++ c f ++ debugFieldsText F c (idx + 1) fs

/-- What `write_debug` is to write. -/
def debugText (F : DebugFmt) (c : SavedField → Bytes) : List (Bytes × List SavedField) → Bytes
  | [] => []
  | (name, fs) :: r => b!"Field " ++ (F.name name).flatten ++ b!" has " ++ digits fs.length ++ b!" entries:\n" ++ debugFieldsText F c 0 fs ++ debugText F c r

end Multipart

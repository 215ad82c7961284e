import Verif.Model.Entries
import Verif.Model.Lazy
/-!
# Model of `src/server/save.rs`: reading saved data, and `write_debug`
-/
namespace Multipart

/-- `buf_redux::BufReader` with its default policy (save.rs:9, 519), which reads as that of std, over a file with the given script of reads: the bytes in its buffer that were not consumed. Simplification: of the buffer only
these are kept. -/
structure BufFile where
  buf : Bytes
  file : List Ev
  deriving DecidableEq, Repr

/-- The capacity of `BufReader::new`, and the size of the buffer of `io::copy`. -/
def bufCap : Nat := 8192

/-- `BufReader::fill_buf`: reads only if the buffer is empty. -/
def BufFile.fillBuf (f : BufFile) : Res Bytes × BufFile :=
  if f.buf = [] then
    match readEv bufCap f.file with
    | (.ok bs, r) => (.ok bs, { buf := bs, file := r })
    | (e, r) => (e, { buf := [], file := r })
  else (.ok f.buf, f)

/-- `BufReader::consume`: at most what is in the buffer. -/
def BufFile.consume (f : BufFile) (amt : Nat) : BufFile := { f with buf := f.buf.drop (Nat.min amt f.buf.length) }

/-- `BufReader::read` with a buffer of `n` bytes: large reads go directly to the file if nothing is buffered. -/
def BufFile.read (f : BufFile) (n : Nat) : Res Bytes × BufFile :=
  if f.buf = [] ∧ bufCap ≤ n then ((readEv n f.file).1, { buf := [], file := (readEv n f.file).2 })
  else
    match f.fillBuf with
    | (.ok bs, f) => (.ok (bs.take n), f.consume (bs.take n).length)
    | r => r

/-- save.rs:570-575 `DataReader` -/
inductive DataReader where
  | bytes (bs : Bytes)
  | file (f : BufFile)
  deriving DecidableEq, Repr

/-- save.rs:513-521 `readable`; `opens` tells what `File::open` returns: a script of the reads on the file, or an error. -/
def SavedData.reader (opens : Path → Except IoErr (List Ev)) : SavedData → Except IoErr DataReader
  | .text t => .ok (.bytes t)
  | .bytes b => .ok (.bytes b)
  | .file p _ =>
    match opens p with
    | .ok evs => .ok (.file { buf := [], file := evs })
    | .error e => .error e

/-- save.rs:578-585 `read`; `&[u8]` copies as much as there is room for. -/
def DataReader.read (n : Nat) : DataReader → Res Bytes × DataReader
  | .bytes bs => (.ok (bs.take n), .bytes (bs.drop n))
  | .file f => ((f.read n).1, .file (f.read n).2)

/-- save.rs:589-596 `fill_buf`; for `&[u8]` this is all the rest. -/
def DataReader.fillBuf : DataReader → Res Bytes × DataReader
  | .bytes bs => (.ok bs, .bytes bs)
  | .file f => (f.fillBuf.1, .file f.fillBuf.2)

/-- save.rs:598-605 `consume`; `&[u8]` panics if there is less. -/
def DataReader.consume (amt : Nat) : DataReader → Res Unit × DataReader
  | .bytes bs => if bs.length < amt then (.panic, .bytes bs) else (.ok (), .bytes (bs.drop amt))
  | .file f => (.ok (), .file (f.consume amt))

/-- `std::io::copy` from a `DataReader`: interrupted reads are repeated. First argument: fuel. -/
def DataReader.copyLoop : Nat → DataReader → Sink → Res Unit × Sink
  | 0, _, k => (.hang, k)
  | n + 1, r, k =>
    match r.read bufCap with
    | (.ok [], _) => (.ok (), k)
    | (.ok (x :: xs), r) =>
      match k.writeAll (x :: xs) with
      | (.ok (), k) => DataReader.copyLoop n r k
      | (e, k) => (e, k)
    | (.err .interrupted, r) => DataReader.copyLoop n r k
    | (.err e, _) => (.err e, k)
    | (.panic, _) => (.panic, k)
    | (.hang, _) => (.hang, k)

/-- More than the number of reads that can be made. -/
def DataReader.todo : DataReader → Nat
  | .bytes bs => bs.length
  | .file f => f.buf.length + (Ev.bytes f.file).length + f.file.length

/-- `io::copy` -/
def DataReader.copy (r : DataReader) (k : Sink) : Res Unit × Sink := DataReader.copyLoop (r.todo + 1) r k

/-- The `Debug` texts of names, filenames and content types, in the pieces in which they are written (not modelled, any function). -/
structure DebugFmt where
  name : Bytes → List Bytes
  filename : Option Bytes → List Bytes
  ctype : Option Mime → List Bytes

/-- A number as it is printed. -/
def decimal (n : Nat) : Bytes := (Nat.toDigits 10 n).map fun c => UInt8.ofNat c.toNat

/-- save.rs:686-691: the loop over the fields of one name, from index `idx` on. -/
def debugFields (F : DebugFmt) (opens : Path → Except IoErr (List Ev)) : Nat → List SavedField → Sink → Res Unit × Sink
  | _, [], k => (.ok (), k)
  | idx, f :: fs, k =>
    match f.data.reader opens with
    | .error e => (.err e, k)
    | .ok r =>
      match k.writeFmt ([decimal idx, b!": "] ++ F.filename f.headers.filename ++ [b!" ("] ++ F.ctype f.headers.contentType ++ [b!"):\n"]) with
      | (.ok (), k) =>
        match r.copy k with
        | (.ok (), k) => debugFields F opens (idx + 1) fs k
        | r => r
      | r => r

/-- save.rs:682-695 `write_debug`: the loop over the map, in the order in which its iterator visits it (any order). -/
def debugMap (F : DebugFmt) (opens : Path → Except IoErr (List Ev)) : List (Bytes × List SavedField) → Sink → Res Unit × Sink
  | [], k => (.ok (), k)
  | (name, fs) :: r, k =>
    match k.writeFmt ([b!"Field "] ++ F.name name ++ [b!" has ", decimal fs.length, b!" entries:\n"]) with
    | (.ok (), k) =>
      match debugFields F opens 0 fs k with
      | (.ok (), k) => debugMap F opens r k
      | r => r
    | r => r

end Multipart

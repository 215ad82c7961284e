import Verif.Model.Save
/-!
# Model of `src/client/mod.rs` and `src/client/sized.rs`

Error types: `R::Error` and `S::Error` are all represented by `IoErr`; the conversions between them are the identity.
-/
namespace Multipart

/-- `std::io::Write::write_all`: arguments: the bytes still to write, what the destination has got, its script. -/
def writeAllAux (buf got : Bytes) : List WEv → Res Unit × Sink
  | [] => (.ok (), { script := [], got := got ++ buf })
  | ev :: script =>
    if buf = [] then (.ok (), { script := ev :: script, got := got })
    else
      match ev with
      | .err .interrupted => writeAllAux buf got script
      | .err e => (.err e, { script := script, got := got })
      | .accept n =>
        if Nat.min n buf.length = 0 then (.err .writeZero, { script := script, got := got })
        else writeAllAux (buf.drop (Nat.min n buf.length)) (got ++ buf.take (Nat.min n buf.length)) script

/-- `write_all` -/
def Sink.writeAll (buf : Bytes) (k : Sink) : Res Unit × Sink := writeAllAux buf k.got k.script

/-- `std::io::Write::write_fmt` (`write!`): one `write_all` for each literal piece and each argument. -/
def Sink.writeFmt : List Bytes → Sink → Res Unit × Sink
  | [], k => (.ok (), k)
  | p :: ps, k =>
    match k.writeAll p with
    | (.ok (), k) => k.writeFmt ps
    | (r, k) => (r, k)

/-- `std::io::copy` from a reader with script `evs`: interrupted reads are repeated. Simplification: the number of bytes, which no caller
looks at, is not returned. -/
def copyTo : List Ev → Sink → Res Unit × Sink
  | [], k => (.ok (), k)
  | .data [] :: _, k => (.ok (), k)
  | .data (x :: xs) :: r, k =>
    match k.writeAll (x :: xs) with
    | (.ok (), k) => copyTo r k
    | (e, k) => (e, k)
  | .err .interrupted :: r, k => copyTo r k
  | .err e :: _, k => (.err e, k)

/-- client/mod.rs:222-226 `MultipartWriter` -/
structure MWriter where
  inner : Sink
  boundary : Bytes
  dataWritten : Bool
  deriving DecidableEq, Repr

/-- client/mod.rs:229-235 `MultipartWriter::new` -/
def MWriter.new (inner : Sink) (boundary : Bytes) : MWriter := { inner := inner, boundary := boundary, dataWritten := false }

/-- A call on the inner writer. -/
def MWriter.onInner (w : MWriter) (f : Sink → Res Unit × Sink) : Res Unit × MWriter := ((f w.inner).1, { w with inner := (f w.inner).2 })

/-- `Result::and_then` (`?` and `chain_result!`, lib.rs:100-107): go on only after `Ok`. -/
def andThen (r : Res Unit × MWriter) (f : MWriter → Res Unit × MWriter) : Res Unit × MWriter :=
  match r with
  | (.ok (), w) => f w
  | r => r

/-- client/mod.rs:237-243 `write_boundary` -/
def MWriter.writeBoundary (w : MWriter) : Res Unit × MWriter :=
  andThen (if w.dataWritten then w.onInner (·.writeAll crlf) else (.ok (), w)) fun w =>
    w.onInner (·.writeFmt [dashes, w.boundary, crlf])

/-- client/mod.rs:275-292 `write_field_headers`; a `Mime` is written as its text. -/
def MWriter.writeFieldHeaders (w : MWriter) (name : Bytes) (filename : Option Bytes) (contentType : Option Mime) : Res Unit × MWriter :=
  andThen w.writeBoundary fun w =>
  andThen (.ok (), { w with dataWritten := true }) fun w =>
  andThen (w.onInner (·.writeFmt [b!"Content-Disposition: form-data; name=\"", name, b!"\""])) fun w =>
  andThen (match filename with
    | some f => w.onInner (·.writeFmt [b!"; filename=\"", f, b!"\""])
    | none => (.ok (), w)) fun w =>
  andThen (match contentType with
    | some m => w.onInner (·.writeFmt [b!"\r\nContent-Type: ", m.src])
    | none => (.ok (), w)) fun w =>
  w.onInner (·.writeAll b!"\r\n\r\n")

/-- client/mod.rs:245-250 `write_text` -/
def MWriter.writeText (w : MWriter) (name text : Bytes) : Res Unit × MWriter :=
  andThen (w.writeFieldHeaders name none none) fun w => w.onInner (·.writeAll text)

/-- `mime::APPLICATION_OCTET_STREAM` -/
def octetStream : Mime := { src := b!"application/octet-stream", type_ := b!"application" }

/-- client/mod.rs:258-273 `write_stream` -/
def MWriter.writeStream (w : MWriter) (stream : List Ev) (name : Bytes) (filename : Option Bytes) (contentType : Option Mime) : Res Unit × MWriter :=
  andThen (w.writeFieldHeaders name filename (some (contentType.getD octetStream))) fun w => w.onInner (copyTo stream)

/-- Where files and their types come from: `File::open` (a script of the reads on the file, or an error), and `mime_guess::from_path`. -/
structure FileEnv where
  open_ : Path → Except IoErr (List Ev)
  guess : Path → Mime

/-- `Path::file_name`: the last component, unless it is `..`. -/
def Path.fileName (p : Path) : Option Bytes := p.getLast?.bind fun n => if n = b!".." then none else some n

/-- client/mod.rs:313-315 `opt_filename`; `OsStr::to_str` is `None` if it is not UTF-8. -/
def optFilename (p : Path) : Option Bytes := (Path.fileName p).bind fun n => if utf8Valid n then some n else none

/-- client/mod.rs:307-311 `mime_filename` -/
def mimeFilename (env : FileEnv) (p : Path) : Mime × Option Bytes := (env.guess p, optFilename p)

/-- client/mod.rs:252-256 `write_file` -/
def MWriter.writeFile (w : MWriter) (env : FileEnv) (name : Bytes) (path : Path) : Res Unit × MWriter :=
  match env.open_ path with
  | .error e => (.err e, w)
  | .ok file => w.writeStream file name (mimeFilename env path).2 (some (mimeFilename env path).1)

/-- client/mod.rs:294-304 `finish` -/
def MWriter.finish (w : MWriter) : Res Unit × MWriter :=
  andThen (if w.dataWritten then w.onInner (·.writeAll crlf) else (.ok (), w)) fun w =>
    w.onInner (·.writeFmt [dashes, w.boundary, b!"--\r\n"])

/-- client/mod.rs:154-171 `HttpRequest`: `accepts` is what `apply_headers` returns; the calls of it are logged in `applied`. `openErr` is the result of
`open_stream` if it fails; `script`, `finishErr` belong to the stream it opens. -/
structure ClientReq where
  accepts : Bytes → Option Nat → Bool
  applied : List (Bytes × Option Nat)
  openErr : Option IoErr
  script : List WEv
  finishErr : Option IoErr

/-- The request's `apply_headers`. -/
def ClientReq.applyHeaders (req : ClientReq) (boundary : Bytes) (len : Option Nat) : Bool × ClientReq :=
  (req.accepts boundary len, { req with applied := req.applied ++ [(boundary, len)] })

/-- client/mod.rs:174-185 `HttpStream`, with the headers that were applied to its request. -/
structure ClientStream where
  applied : List (Bytes × Option Nat)
  sink : Sink
  finishErr : Option IoErr
  deriving DecidableEq, Repr

/-- The request's `open_stream`. -/
def ClientReq.openStream (req : ClientReq) : Except IoErr ClientStream :=
  match req.openErr with
  | some e => .error e
  | none => .ok { applied := req.applied, sink := { script := req.script, got := [] }, finishErr := req.finishErr }

/-- The stream's `finish`; the response is not represented. -/
def ClientStream.finish (s : ClientStream) : Res Unit :=
  match s.finishErr with
  | some e => .err e
  | none => .ok ()

/-- client/mod.rs:213-220 `open_stream` (the result of `apply_headers` is ignored); `boundary` is the generated one. -/
def openStream (req : ClientReq) (boundary : Bytes) (len : Option Nat) : Except IoErr ClientStream :=
  (req.applyHeaders boundary len).2.openStream

/-- The write calls of `Multipart` (client/mod.rs:62-132). -/
inductive ClientOp where
  | text (name val : Bytes)
  | file (name : Bytes) (path : Path)
  | stream (name : Bytes) (data : List Ev) (filename : Option Bytes) (contentType : Option Mime)
  deriving DecidableEq, Repr

/-- client/mod.rs:62-132: one such call. -/
def MWriter.op (env : FileEnv) (w : MWriter) : ClientOp → Res Unit × MWriter
  | .text name val => w.writeText name val
  | .file name path => w.writeFile env name path
  | .stream name data filename ct => w.writeStream data name filename ct

/-- Calls one after the other, whatever they return: their results. -/
def MWriter.ops (env : FileEnv) (w : MWriter) : List ClientOp → List (Res Unit) × MWriter
  | [] => ([], w)
  | o :: os =>
    let r := w.op env o
    let r' := r.2.ops env os
    (r.1 :: r'.1, r'.2)

/-- Chained calls: `m.write_text(..)?.write_file(..)?...`, stopping at the first error. -/
def MWriter.chain (env : FileEnv) (w : MWriter) : List ClientOp → Res Unit × MWriter
  | [] => (.ok (), w)
  | o :: os => andThen (w.op env o) fun w => w.chain env os

/-- client/mod.rs:134-140 `send`: what the stream has got then, and the result. -/
def sendPlain (s : ClientStream) (w : MWriter) : Res Unit × ClientStream :=
  match w.finish with
  | (.ok (), w) => ({ s with sink := w.inner }.finish, { s with sink := w.inner })
  | (r, w) => (r, { s with sink := w.inner })

/-- A whole request with chained calls: client/mod.rs:53-59 `from_request`, the calls, `send`. Returns the stream as it is left. -/
def plainRequest (env : FileEnv) (req : ClientReq) (boundary : Bytes) (os : List ClientOp) : Res Unit × Option ClientStream :=
  match openStream req boundary none with
  | .error e => (.err e, none)
  | .ok s =>
    match (MWriter.new s.sink boundary).chain env os with
    | (.ok (), w) => let r := sendPlain s w; (r.1, some r.2)
    | (r, w) => (r, some { s with sink := w.inner })

/-- sized.rs:27-31 `SizedRequest`; the buffer is a `Vec<u8>`, to which all writes succeed (44-50). -/
structure SizedReq where
  inner : ClientReq
  buffer : Bytes
  boundary : Bytes

/-- sized.rs:35-41 `from_request` -/
def SizedReq.fromRequest (req : ClientReq) : SizedReq := { inner := req, buffer := [], boundary := [] }

/-- sized.rs:58-62 `apply_headers` -/
def SizedReq.applyHeaders (r : SizedReq) (boundary : Bytes) (_len : Option Nat) : Bool × SizedReq := (true, { r with boundary := boundary })

/-- sized.rs:64-67 `open_stream` -/
def SizedReq.openStream (r : SizedReq) : SizedReq := { r with buffer := [] }

/-- sized.rs:76-89 `finish`; the second component is the wrapped request's log of headers, and its stream if it was opened. `io::copy` from a slice: one `write_all` (where it
copies in pieces, it is the same with a destination that accepts no more than a piece at once). -/
def SizedReq.finish (r : SizedReq) : Res Unit × List (Bytes × Option Nat) × Option ClientStream :=
  match r.inner.applyHeaders r.boundary (some r.buffer.length) with
  | (false, inner) => (.err (.other 0), inner.applied, none)
  | (true, inner) =>
    match inner.openStream with
    | .error e => (.err e, inner.applied, none)
    | .ok s =>
      match copyTo [.data r.buffer] s.sink with
      | (.ok (), k) => ({ s with sink := k }.finish, inner.applied, some { s with sink := k })
      | (e, k) => (e, inner.applied, some { s with sink := k })

/-- A whole sized request with chained calls: client/mod.rs:148-150 `from_request_sized`, the calls, `send`. -/
def sizedRequest (env : FileEnv) (req : ClientReq) (boundary : Bytes) (os : List ClientOp) : Res Unit × List (Bytes × Option Nat) × Option ClientStream :=
  let r := ((SizedReq.fromRequest req).applyHeaders boundary none).2.openStream
  match (MWriter.new { script := [], got := r.buffer } boundary).chain env os with
  | (.ok (), w) =>
    match w.finish with
    | (.ok (), w) => { r with buffer := w.inner.got }.finish
    | (e, _) => (e, r.inner.applied, none)
  | (e, _) => (e, r.inner.applied, none)

/-! ## Random boundaries -/

/-- `rand::distributions::Alphanumeric` (rand 0.8): 26 upper case letters, 26 lower case letters, 10 digits. -/
def alnumTable : Bytes := b!"ABCDEFGHIJKLMNOPQRSTUVWXYZabcdefghijklmnopqrstuvwxyz0123456789"

/-- `Alphanumeric::sample`: draw 6 random bits until they are an index of the table. Argument: the random `u32`s to come. -/
def sampleAlnum : List UInt32 → Option (Byte × List UInt32)
  | [] => none
  | r :: rs =>
    match alnumTable[(r >>> 26).toNat]? with
    | some c => some (c, rs)
    | none => sampleAlnum rs

/-- lib.rs:120-126 `random_alphanumeric`; `none` if the random numbers do not suffice. -/
def randomAlphanumeric : Nat → List UInt32 → Option (Bytes × List UInt32)
  | 0, rs => some ([], rs)
  | n + 1, rs =>
    match sampleAlnum rs with
    | none => none
    | some (c, rs) => (randomAlphanumeric n rs).map fun r => (c :: r.1, r.2)

/-- client/mod.rs:28, 209-211 `gen_boundary` -/
def genBoundary (rs : List UInt32) : Option (Bytes × List UInt32) := randomAlphanumeric 16 rs

end Multipart

import Verif.Model.Client
/-!
# Model of `src/client/lazy.rs`

Simplification: sums of lengths are natural numbers; the code adds `u64`s (which overflows only for requests of more than 2^64 bytes).
-/
namespace Multipart

/-- `std::io::Cursor` over bytes. -/
structure Cursor where
  data : Bytes
  pos : Nat
  deriving DecidableEq, Repr

/-- `Cursor::new` -/
def Cursor.new (data : Bytes) : Cursor := { data := data, pos := 0 }

/-- `Cursor`'s `Read::read` with a buffer of `n` bytes. -/
def Cursor.read (c : Cursor) (n : Nat) : Bytes × Cursor :=
  ((c.data.drop c.pos).take n, { c with pos := c.pos + ((c.data.drop c.pos).take n).length })

/-- lazy.rs:481-483 `cursor_at_end` -/
def Cursor.atEnd (c : Cursor) : Bool := c.pos = c.data.length

/-- `Read::read` with a buffer of `n` bytes on a stream with script `evs`: of longer data the rest is left for the next read. -/
def readEv (n : Nat) : List Ev → Res Bytes × List Ev
  | [] => (.ok [], [])
  | .err e :: r => (.err e, r)
  | .data bs :: r => if bs.length ≤ n then (.ok bs, r) else (.ok (bs.take n), .data (bs.drop n) :: r)

/-- lazy.rs:38-46 `LazyError` -/
structure LazyErr where
  field : Option Bytes
  error : IoErr
  deriving DecidableEq, Repr

/-- lazy.rs:49-63 `without_field`, `with_field` -/
def LazyErr.withoutField (e : IoErr) : LazyErr := { field := none, error := e }
def LazyErr.withField (name : Bytes) (e : IoErr) : LazyErr := { field := some name, error := e }

/-- lazy.rs:104-118 `Display`; `quoted` is `{:?}` of a string, `shown` the text of the inner error. -/
def LazyErr.display (quoted : Bytes → Bytes) (shown : IoErr → Bytes) (e : LazyErr) : Bytes :=
  match e.field with
  | some name => b!"Error writing field " ++ quoted name ++ b!": " ++ shown e.error
  | none => b!"Error opening or flushing stream: " ++ shown e.error

/-- lazy.rs:91-102 `Debug`; `shown` is `{:?}` of the inner error. -/
def LazyErr.debug (quoted : Bytes → Bytes) (shown : IoErr → Bytes) (e : LazyErr) : Bytes :=
  match e.field with
  | some name => b!"LazyError (on field " ++ quoted name ++ b!"): " ++ shown e.error
  | none => b!"LazyError (misc): " ++ shown e.error

/-- lazy.rs:245-249 `Stream` and 229-233 `Data` -/
inductive LazyData where
  | text (text : Bytes)
  | file (path : Path)
  | stream (filename : Option Bytes) (contentType : Mime) (stream : List Ev)
  deriving DecidableEq, Repr

/-- lazy.rs:224-227 `Field` -/
structure LazyField where
  name : Bytes
  data : LazyData
  deriving DecidableEq, Repr

/-- lazy.rs:128-130 `Multipart`: its fields. -/
abbrev LazyMp := List LazyField

/-- lazy.rs:139-192 `add_text`, `add_file`, `add_stream` -/
def LazyMp.add (m : LazyMp) : ClientOp → LazyMp
  | .text name val => m ++ [{ name := name, data := .text val }]
  | .file name path => m ++ [{ name := name, data := .file path }]
  | .stream name data filename ct => m ++ [{ name := name, data := .stream filename (ct.getD octetStream) data }]

/-- lazy.rs:134-192: `new` and a sequence of such calls. -/
def LazyMp.build (os : List ClientOp) : LazyMp := os.foldl LazyMp.add []

/-- The files: also `File::metadata`, of which only `len()` is used. -/
structure LazyEnv extends FileEnv where
  size : Path → Except IoErr Nat

/-- lazy.rs:371-374 `PreparedField` -/
structure PField where
  header : Cursor
  stream : List Ev
  deriving DecidableEq, Repr

/-- lazy.rs:394-420 `from_stream`; writes to a `Vec` do not fail. -/
def PField.fromStream (name boundary : Bytes) (contentType : Mime) (filename : Option Bytes) (stream : List Ev) : PField :=
  { header := .new (boundary ++ b!"\r\nContent-Disposition: form-data; name=\"" ++ name ++ b!"\"" ++
      (match filename with
        | some f => b!"; filename=\"" ++ f ++ b!"\""
        | none => []) ++
      b!"\r\nContent-Type: " ++ contentType.src ++ b!"\r\n\r\n"),
    stream := stream }

/-- lazy.rs:377-392 `from_path` -/
def PField.fromPath (env : LazyEnv) (name : Bytes) (path : Path) (boundary : Bytes) : Except LazyErr (PField × Nat) :=
  match env.open_ path with
  | .error e => .error (.withField name e)
  | .ok file =>
    match env.size path with
    | .error e => .error (.withField name e)
    | .ok len =>
      let stream := PField.fromStream name boundary (mimeFilename env.toFileEnv path).1 (mimeFilename env.toFileEnv path).2 file
      .ok (stream, len + stream.header.data.length)

/-- lazy.rs:423-433 `PreparedField`'s `read` -/
def PField.read (f : PField) (n : Nat) : Res Bytes × PField :=
  if !f.header.atEnd then (.ok (f.header.read n).1, { f with header := (f.header.read n).2 })
  else ((readEv n f.stream).1, { f with stream := (readEv n f.stream).2 })

/-- lazy.rs:260-265 `PreparedFields` -/
structure Prepared where
  text : Cursor
  streams : List PField
  endBoundary : Cursor
  contentLen : Option Nat
  deriving DecidableEq, Repr

/-- lazy.rs:275-278: the variables of `from_fields`. -/
structure PrepState where
  text : Bytes
  streams : List PField
  contentLen : Nat
  useLen : Bool

/-- lazy.rs:280-306: the loop over the fields. -/
def prepLoop (env : LazyEnv) (boundary : Bytes) (s : PrepState) : List LazyField → Except LazyErr PrepState
  | [] => .ok s
  | f :: fs =>
    match f.data with
    | .text text =>
      prepLoop env boundary { s with text := s.text ++ (boundary ++ b!"\r\nContent-Disposition: form-data; name=\"" ++ f.name ++ b!"\"\r\n\r\n" ++ text) } fs
    | .file path =>
      match PField.fromPath env f.name path boundary with
      | .error e => .error e
      | .ok (stream, len) => prepLoop env boundary { s with contentLen := s.contentLen + len, streams := s.streams ++ [stream] } fs
    | .stream filename ct stream =>
      prepLoop env boundary { s with useLen := false, streams := s.streams ++ [PField.fromStream f.name boundary ct filename stream] } fs

/-- lazy.rs:268-323 `from_fields`; `b` is the generated boundary. -/
def Prepared.fromFields (env : LazyEnv) (b : Bytes) (fields : List LazyField) : Except LazyErr Prepared :=
  let boundary := b!"\r\n--" ++ b
  match prepLoop env boundary { text := [], streams := [], contentLen := 0, useLen := true } fields with
  | .error e => .error e
  | .ok s =>
    let boundary := if s.text.isEmpty && s.streams.isEmpty then [] else boundary ++ b!"--"
    .ok { text := .new s.text, streams := s.streams, endBoundary := .new boundary,
          contentLen := if s.useLen then some (s.contentLen + boundary.length) else none }

/-- lazy.rs:218-220 `prepare`: the second component is the request as it is left; `drain` empties it in any case. -/
def LazyMp.prepare (env : LazyEnv) (b : Bytes) (m : LazyMp) : Except LazyErr Prepared × LazyMp := (Prepared.fromFields env b m, [])

/-- lazy.rs:332-337 `boundary`: the slice panics if the string is too short (also `boundary.len() - 2`, which overflows or yields a number that is out of range). -/
def Prepared.boundary (p : Prepared) : Res Bytes :=
  if p.endBoundary.data.length < 6 then .panic else .ok ((p.endBoundary.data.take (p.endBoundary.data.length - 2)).drop 4)

/-- lazy.rs:349-367: the loop of `read`; `got` is what is in the buffer already, `n` the length of the buffer. `streams` is a stack whose top is its end. First argument:
fuel. -/
def Prepared.readLoop : Nat → Nat → Bytes → Prepared → Res Bytes × Prepared
  | 0, _, _, p => (.hang, p)
  | fuel + 1, n, got, p =>
    if got.length < n ∧ !p.endBoundary.atEnd then
      if !p.text.atEnd then
        readLoop fuel n (got ++ (p.text.read (n - got.length)).1) { p with text := (p.text.read (n - got.length)).2 }
      else
        match p.streams.getLast? with
        | some field =>
          match field.read (n - got.length) with
          | (.ok [], _) => readLoop fuel n got { p with streams := p.streams.dropLast }
          | (.ok bs, field) => readLoop fuel n (got ++ bs) { p with streams := p.streams.dropLast ++ [field] }
          | (r, field) => (r, { p with streams := p.streams.dropLast ++ [field] })
        | none => readLoop fuel n (got ++ (p.endBoundary.read (n - got.length)).1) { p with endBoundary := (p.endBoundary.read (n - got.length)).2 }
    else (.ok got, p)

/-- lazy.rs:340-369 `PreparedFields`'s `read` with a buffer of `n` bytes: the bytes reported as read. (On an error, nothing is reported.) -/
def Prepared.read (p : Prepared) (n : Nat) : Res Bytes × Prepared :=
  if n = 0 then (.ok [], p) else p.readLoop (n + p.streams.length + 1) n []

/-- `std::io::copy` from a prepared request, with a buffer of `n` bytes: interrupted reads are repeated. First argument: fuel. -/
def Prepared.copy (n : Nat) : Nat → Prepared → Sink → Res Unit × Prepared × Sink
  | 0, p, k => (.hang, p, k)
  | fuel + 1, p, k =>
    match p.read n with
    | (.ok [], p) => (.ok (), p, k)
    | (.ok bs, p) =>
      match k.writeAll bs with
      | (.ok (), k) => copy n fuel p k
      | (r, k) => (r, p, k)
    | (.err .interrupted, p) => copy n fuel p k
    | (.err e, p) => (.err e, p, k)
    | (.panic, p) => (.panic, p, k)
    | (.hang, p) => (.hang, p, k)

/-- Enough fuel for `copy`: the bytes and events there are. -/
def Prepared.fuel (p : Prepared) : Nat :=
  p.text.data.length + p.endBoundary.data.length + (p.streams.map fun f => f.header.data.length + (Ev.bytes f.stream).length + f.stream.length + 1).sum + 1

/-- What `send` returns: a response (not represented), a `LazyError`, or it panics. -/
inductive SendRes where
  | ok
  | err (e : LazyErr)
  | panic
  | hang
  deriving DecidableEq, Repr

/-- Last part of `send`. -/
def SendRes.ofRes : Res Unit → SendRes
  | .ok () => .ok
  | .err e => .err (.withoutField e)
  | .panic => .panic
  | .hang => .hang

/-- lazy.rs:198-212 `send`; `b` is the generated boundary, `n` the size of `io::copy`'s buffer. Returns the result, the request as it is left and the stream, if one was
opened. -/
def LazyMp.send (env : LazyEnv) (b : Bytes) (n : Nat) (m : LazyMp) (req : ClientReq) : SendRes × LazyMp × Option ClientStream :=
  match m.prepare env b with
  | (.error e, m) => (.err e, m, none)
  | (.ok p, m) =>
    match p.boundary with
    | .ok bound =>
      match (req.applyHeaders bound p.contentLen).2.openStream with
      | .error e => (.err (.withoutField e), m, none)
      | .ok s =>
        match p.copy n p.fuel s.sink with
        | (.ok (), _, k) => (.ofRes { s with sink := k }.finish, m, some { s with sink := k })
        | (r, _, k) => (.ofRes r, m, some { s with sink := k })
    | _ => (.panic, m, none)

end Multipart

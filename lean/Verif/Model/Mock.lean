import Verif.Model.Client
/-!
# Model of `src/mock.rs`
-/
namespace Multipart

/-- `rng.gen_range(1..=n)` for `n > 0`: any number from 1 to `n`. The argument is the list of random numbers to come; `r` stands for `min (r + 1) n`, and when the list has run
out the result is `n`. -/
def genRange (rng : List Nat) (n : Nat) : Nat × List Nat :=
  match rng with
  | [] => (n, [])
  | r :: rs => (Nat.min (r + 1) n, rs)

/-- mock.rs:48-56 `HttpBuffer` -/
structure HttpBuffer where
  buf : Bytes
  boundary : Bytes
  contentLen : Option Nat
  rng : List Nat
  deriving DecidableEq, Repr

/-- mock.rs:17-21 `ClientRequest`, with the random numbers of the buffer to be opened. -/
structure MockClient where
  boundary : Option Bytes
  contentLen : Option Nat
  rng : List Nat
  deriving DecidableEq, Repr

/-- mock.rs:28-32 `apply_headers` -/
def MockClient.applyHeaders (c : MockClient) (boundary : Bytes) (len : Option Nat) : Bool × MockClient := (true, { c with boundary := some boundary, contentLen := len })

/-- mock.rs:60-72 `HttpBuffer::new_empty` and `with_buf` -/
def HttpBuffer.withBuf (buf boundary : Bytes) (len : Option Nat) (rng : List Nat) : HttpBuffer := { buf := buf, boundary := boundary, contentLen := len, rng := rng }

/-- mock.rs:36-41 `open_stream` -/
def MockClient.openStream (c : MockClient) : Res HttpBuffer :=
  match c.boundary with
  | none => .panic
  | some b => .ok (HttpBuffer.withBuf [] b c.contentLen c.rng)

/-- mock.rs:88-98 `HttpBuffer::write`; the write to the `Vec` takes everything. -/
def HttpBuffer.write (h : HttpBuffer) (buf : Bytes) : Nat × HttpBuffer :=
  if buf = [] then (0, h)
  else
    let r := genRange h.rng buf.length
    (r.1, { h with buf := h.buf ++ buf.take r.1, rng := r.2 })

/-- `Write::write_all` on an `HttpBuffer`. First argument: fuel. -/
def HttpBuffer.writeAllLoop : Nat → Bytes → HttpBuffer → Res Unit × HttpBuffer
  | 0, _, h => (.hang, h)
  | n + 1, buf, h =>
    if buf = [] then (.ok (), h)
    else
      let r := h.write buf
      if r.1 = 0 then (.err .writeZero, r.2) else HttpBuffer.writeAllLoop n (buf.drop r.1) r.2

/-- `write_all` -/
def HttpBuffer.writeAll (buf : Bytes) (h : HttpBuffer) : Res Unit × HttpBuffer := HttpBuffer.writeAllLoop (buf.length + 1) buf h

/-- The buffer as a destination of the client model (theorem `C63_is_sink`: it behaves the same). -/
def HttpBuffer.sink (h : HttpBuffer) : Sink := { script := h.rng.map fun r => .accept (r + 1), got := h.buf }

/-- mock.rs:23-42, 105-113: the mock request as a request of the client model: `apply_headers` accepts everything, `open_stream` (called after it) and `finish` always succeed. -/
def mockReq (rng : List Nat) : ClientReq :=
  { accepts := fun _ _ => true, applied := [], openErr := none, script := rng.map fun r => .accept (r + 1), finishErr := none }

/-- A plain request sent to a mock `ClientRequest`, and the buffer that `send` returns: it has the boundary and length that were applied last. -/
def mockRequest (env : FileEnv) (rng : List Nat) (boundary : Bytes) (os : List ClientOp) : Res HttpBuffer :=
  match plainRequest env (mockReq rng) boundary os with
  | (.ok (), some s) =>
    match s.applied.getLast? with
    | some h => .ok (HttpBuffer.withBuf s.sink.got h.1 h.2 [])
    | none => .panic
  | (.ok (), none) => .panic
  | (.err e, _) => .err e
  | (.panic, _) => .panic
  | (.hang, _) => .hang

/-- mock.rs:128-136 `ServerRequest` -/
structure MockServer where
  data : Bytes
  boundary : Bytes
  contentLen : Option Nat
  rng : List Nat
  deriving DecidableEq, Repr

/-- mock.rs:75-82 `for_server` -/
def HttpBuffer.forServer (h : HttpBuffer) (rng : List Nat) : MockServer := { data := h.buf, boundary := h.boundary, contentLen := h.contentLen, rng := rng }

/-- mock.rs:155-164 `ServerRequest::read` with an output buffer of `n` bytes: the bytes copied to it. `self.data` is a slice, whose `read` copies as much as there is room for. -/
def MockServer.read (s : MockServer) (n : Nat) : Bytes × MockServer :=
  if n = 0 then ([], s)
  else
    let r := genRange s.rng n
    (s.data.take r.1, { s with data := s.data.drop r.1, rng := r.2 })

/-- Several reads one after the other. -/
def MockServer.reads (s : MockServer) : List Nat → List Bytes × MockServer
  | [] => ([], s)
  | n :: ns =>
    let r := s.read n
    let r' := r.2.reads ns
    (r.1 :: r'.1, r'.2)

/-- The read script that a reader of the request sees who asks for `ns` bytes. Behind the end of the script every read returns 0 bytes; this end is not written down. -/
def MockServer.script (s : MockServer) (ns : List Nat) : List Ev := ((s.reads ns).1.filter (· ≠ [])).map Ev.data

/-- mock.rs:168-176: the request has the boundary it was made with, and is its own body. The body as a read script, for a reader that asks for `ns` bytes. -/
def mockHttp (ns : List Nat) : HttpRequest MockServer := { multipartBoundary := fun s => some s.boundary, body := fun s => s.script ns }

/-- One `write` on a sink. -/
def Sink.write (buf : Bytes) (k : Sink) : Res Nat × Sink :=
  match k.script with
  | [] => (.ok buf.length, { k with got := k.got ++ buf })
  | .accept n :: r => (.ok (Nat.min n buf.length), { script := r, got := k.got ++ buf.take (Nat.min n buf.length) })
  | .err e :: r => (.err e, { script := r, got := k.got })

/-- mock.rs:179-182 `StdoutTee` -/
structure Tee where
  inner : Sink
  stdout : Sink
  deriving DecidableEq, Repr

/-- mock.rs:194-197 `StdoutTee::write` -/
def Tee.write (buf : Bytes) (t : Tee) : Res Nat × Tee :=
  match t.inner.writeAll buf with
  | (.ok (), i) => ((t.stdout.write buf).1, { inner := i, stdout := (t.stdout.write buf).2 })
  | (.err e, i) => (.err e, { t with inner := i })
  | (.panic, i) => (.panic, { t with inner := i })
  | (.hang, i) => (.hang, { t with inner := i })

/-- `Write::write_all` on a `StdoutTee`. First argument: fuel. -/
def Tee.writeAllLoop : Nat → Bytes → Tee → Res Unit × Tee
  | 0, _, t => (.hang, t)
  | n + 1, buf, t =>
    if buf = [] then (.ok (), t)
    else
      match t.write buf with
      | (.ok k, t) => if k = 0 then (.err .writeZero, t) else Tee.writeAllLoop n (buf.drop k) t
      | (.err .interrupted, t) => Tee.writeAllLoop n buf t
      | (.err e, t) => (.err e, t)
      | (.panic, t) => (.panic, t)
      | (.hang, t) => (.hang, t)

/-- `write_all`; every iteration but the last two uses up an entry of the script of `stdout`. -/
def Tee.writeAll (buf : Bytes) (t : Tee) : Res Unit × Tee := Tee.writeAllLoop (t.stdout.script.length + 2) buf t

/-- `write_all` for several buffers, until one fails. -/
def Tee.writeEach : List Bytes → Tee → Res Unit × Tee
  | [], t => (.ok (), t)
  | b :: bs, t =>
    match t.writeAll b with
    | (.ok (), t) => Tee.writeEach bs t
    | (r, t) => (r, t)

end Multipart

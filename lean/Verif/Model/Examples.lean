import Verif.Model.TempDir
import Verif.Model.DataReader
/-!
# Model of the example servers: `examples/{tiny_http,iron,nickel,hyper_server,rocket}.rs`

`iron_intercept.rs` is `Intercept::default()` (`Model/Iron.lean`) with a handler that prints the entries. What is printed to the standard output only is left out. What
is left on the disk is in `Model/ExampleDisk.lean`.
-/
namespace Multipart

/-- A response: its status code and its body. -/
structure Answer where
  status : Nat
  body : Bytes
  deriving DecidableEq, Repr

/-- The surroundings of the examples, any functions: `entries` is `Entries::write_debug` to a `StdoutTee` of the response (what was written to the response, and the error
if there was one; see C80 and C64), the others are the texts of errors, of reasons (`Debug`) and of headers (`Debug`). `connected`: whether the rest of the response can be written. -/
structure Surroundings where
  entries : World → Entries → Bytes × Option IoErr
  error : IoErr → Bytes
  reason : Reason → Bytes
  headers : FieldHeaders → Bytes
  connected : Bool

/-- tiny_http.rs:56-68 and rocket.rs:73-81 `process_entries`, with what they write to a `Vec`; `writeln!` to a `Vec` does not fail. -/
def Surroundings.print (S : Surroundings) (w : World) (e : Entries) : Except IoErr Bytes :=
  match S.entries w e with
  | (x, none) => .ok (x ++ b!"Entries processed\n")
  | (_, some er) => .error er

/-- tiny_http.rs:33-52 `process_request` -/
def tinyProcess (D : Deps) (fuel : Nat) (T : TempEnv) (S : Surroundings) (w : World) (req : TinyReq) : Res (Except IoErr Answer) :=
  match fromRequest tinyHttp req with
  | .error _ => .ok (.ok ⟨400, b!"The request is not multipart"⟩)
  | .ok m =>
    match tempSave D .default fuel T w m with
    | (.full e, w, _) =>
      match S.print w e with
      | .ok x => .ok (.ok ⟨200, x⟩)
      | .error er => .ok (.error er)
    | (.part p r, w, _) =>
      match S.print w p.keepPartial with
      | .error er => .ok (.error er)
      | .ok _ =>
        match r.unwrapErr with
        | .ok er => .ok (.error er)
        | .err er => .err er
        | .panic => .panic
        | .hang => .hang
    | (.error er, _, _) => .ok (.error er)
    | (.panic, _, _) => .panic
    | (.hang, _, _) => .hang

/-- tiny_http.rs:13-26: one iteration of the loop of `main`, up to the response. A panic ends the server. -/
def tinyAnswer (D : Deps) (fuel : Nat) (T : TempEnv) (S : Surroundings) (w : World) (req : TinyReq) : Res Answer :=
  match tinyProcess D fuel T S w req with
  | .ok (.ok a) => .ok a
  | .ok (.error _) => .ok ⟨500, b!"The received data was not correctly proccessed on the server"⟩
  | .err er => .err er
  | .panic => .panic
  | .hang => .hang

/-- iron.rs:49-66 `process_entries`; Iron sends the response of an `IronError`. The result of the last `writeln!` is ignored. -/
def ironEntries (S : Surroundings) (w : World) (e : Entries) : Except Answer Answer :=
  match S.entries w e with
  | (x, none) => .ok ⟨200, x ++ b!"Entries processed\n"⟩
  | (_, some _) => .error ⟨500, b!"Error printing request fields"⟩

/-- iron.rs:19-45 `process_request` -/
def ironAnswer (D : Deps) (fuel : Nat) (T : TempEnv) (S : Surroundings) (w : World) (req : HyperReq) : Res Answer :=
  match fromRequest ironHttp req with
  | .error _ => .ok ⟨400, b!"The request is not multipart"⟩
  | .ok m =>
    match tempSave D .default fuel T w m with
    | (.full e, w, _) =>
      match ironEntries S w e with
      | .ok a => .ok a
      | .error a => .ok a
    | (.part p r, w, _) =>
      match ironEntries S w p.keepPartial with
      | .error a => .ok a
      | .ok _ =>
        match r.unwrapErr with
        | .ok er => .ok ⟨400, b!"error reading request: " ++ S.error er⟩
        | .err er => .err er
        | .panic => .panic
        | .hang => .hang
    | (.error er, _, _) => .ok ⟨400, b!"error reading request: " ++ S.error er⟩
    | (.panic, _, _) => .panic
    | (.hang, _, _) => .hang

/-- nickel.rs:39-47 `process_entries`; that `start()` fails is left out. -/
def nickelEntries (S : Surroundings) (w : World) (e : Entries) : Res Answer :=
  match S.entries w e with
  | (x, none) => .ok ⟨200, x⟩
  | (x, some er) => if S.connected then .ok ⟨200, x ++ b!"Error while reading entries: " ++ S.error er ++ b!"\n"⟩ else .panic

/-- nickel.rs:12-35 `handle_multipart`; of the text for an error (`Debug`) only that there is one. -/
def nickelAnswer (D : Deps) (fuel : Nat) (T : TempEnv) (S : Surroundings) (w : World) (req : HyperReq) : Res Answer :=
  match multipartBody req with
  | some m =>
    match tempSave D .default fuel T w m with
    | (.full e, w, _) => nickelEntries S w e
    | (.part p _, w, _) => nickelEntries S w p.keepPartial
    | (.error er, _, _) => .ok ⟨500, b!"Server could not handle multipart POST! " ++ S.error er⟩
    | (.panic, _, _) => .panic
    | (.hang, _, _) => .hang
  | none => .ok ⟨400, b!"Request seems not was a multipart request"⟩

/-- hyper_server.rs:14-17: `send(..).unwrap()` -/
def hyperSend (S : Surroundings) (a : Answer) : Res Answer := if S.connected then .ok a else .panic

/-- hyper_server.rs:37-42 `process_entries` and the `unwrap` of its result in 24 and 27; that `start()` fails is left out. -/
def hyperEntries (S : Surroundings) (w : World) (e : Entries) : Res Answer :=
  match S.entries w e with
  | (x, none) => .ok ⟨200, x⟩
  | (_, some _) => .panic

/-- hyper_server.rs:22-34 `handle_multipart` -/
def hyperMultipart (D : Deps) (fuel : Nat) (T : TempEnv) (S : Surroundings) (w : World) (m : BR) : Res Answer :=
  match tempSave D .default fuel T w m with
  | (.full e, w, _) => hyperEntries S w e
  | (.part p _, w, _) => hyperEntries S w p.into
  | (.error er, _, _) => hyperSend S ⟨200, b!"An error occurred " ++ S.error er⟩
  | (.panic, _, _) => .panic
  | (.hang, _, _) => .hang

/-- hyper_server.rs:12-18, 44-51: the server -/
def hyperAnswer (D : Deps) (fuel : Nat) (T : TempEnv) (S : Surroundings) (w : World) (req : HyperReq) : Res Answer :=
  switchHandle (fun _ => hyperSend S ⟨418, b!"Please send a multipart req :(\n"⟩) (hyperMultipart D fuel T S w) req

/-- A request to Rocket: whether its content type is `multipart/form-data`, the parameters of the content type, the body. -/
structure RocketReq where
  isFormData : Bool
  params : List (Bytes × Bytes)
  body : List Ev
  deriving DecidableEq, Repr

/-- rocket.rs:49-69 `process_upload` -/
def rocketProcess (D : Deps) (fuel : Nat) (T : TempEnv) (S : Surroundings) (w : World) (boundary : Bytes) (data : List Ev) : Res (Except IoErr Bytes) :=
  match tempSave D .default fuel T w (withBody data boundary) with
  | (.full e, w, _) => .ok (S.print w e)
  | (.part p r, w, _) =>
    match S.print w p.entries with
    | .ok x =>
      .ok (.ok (b!"Request partially processed: " ++ S.reason r ++ b!"\n" ++
        (match p.part with
        | some f => b!"Stopped on field: " ++ S.headers f.headers ++ b!"\n"
        | none => []) ++ x))
    | .error er => .ok (.error er)
  | (.error er, _, _) => .ok (.error er)
  | (.panic, _, _) => .panic
  | (.hang, _, _) => .hang

/-- rocket.rs:26-47 `multipart_upload` -/
def rocketAnswer (D : Deps) (fuel : Nat) (T : TempEnv) (S : Surroundings) (w : World) (req : RocketReq) : Res Answer :=
  if req.isFormData then
    match req.params.find? fun p => p.1 = b!"boundary" with
    | none => .ok ⟨400, b!"`Content-Type: multipart/form-data` boundary param not provided"⟩
    | some (_, boundary) =>
      match rocketProcess D fuel T S w boundary req.body with
      | .ok (.ok x) => .ok ⟨200, x⟩
      | .ok (.error er) => .ok ⟨500, S.error er⟩
      | .err er => .err er
      | .panic => .panic
      | .hang => .hang
  else .ok ⟨400, b!"Content-Type not multipart/form-data"⟩

end Multipart

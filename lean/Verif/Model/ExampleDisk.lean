import Verif.Model.Examples
/-!
# What the example servers leave on the disk: `examples/{tiny_http,iron,nickel,hyper_server,rocket}.rs`

The entries are dropped, and with them the temporary directory, when the function that was called with them returns, whatever it returns. `fail` is the failure of the deletion if one happens (see
`SaveDir.drop`).
-/
namespace Multipart

/-- A request to one of the example servers. -/
inductive ExampleReq where
  | tiny (req : TinyReq)
  | iron (req : HyperReq)
  | nickel (req : HyperReq)
  | hyper (req : HyperReq)
  | rocket (req : RocketReq)

/-- tiny_http.rs:35-40, iron.rs:21-25, nickel.rs:13-16, hyper_server.rs:23 (after `Switch::handle`), rocket.rs:29-44 and 55: the `Multipart` that the server saves, if there is one. -/
def ExampleReq.multipart : ExampleReq → Option BR
  | .tiny req => match fromRequest tinyHttp req with
    | .ok m => some m
    | .error _ => none
  | .iron req => match fromRequest ironHttp req with
    | .ok m => some m
    | .error _ => none
  | .nickel req => multipartBody req
  | .hyper req => switchHandle (fun _ => none) some req
  | .rocket req =>
    if req.isFormData then
      match req.params.find? fun p => p.1 = b!"boundary" with
      | none => none
      | some (_, boundary) => some (withBody req.body boundary)
    else none

/-- The entries that are dropped if the save is partial: `keep_partial` in tiny_http.rs:43, iron.rs:35 and nickel.rs:21, `into` in hyper_server.rs:27, `partial.entries` in rocket.rs:63. -/
def ExampleReq.kept (p : PartialEntries) : ExampleReq → Entries
  | .tiny _ => p.keepPartial
  | .iron _ => p.keepPartial
  | .nickel _ => p.keepPartial
  | .hyper _ => p.into
  | .rocket _ => p.entries

/-- The disk when the request is saved (or, with less fuel, before that). -/
def ExampleReq.saved (D : Deps) (fuel : Nat) (T : TempEnv) (w : World) (req : ExampleReq) : World :=
  match req.multipart with
  | none => w
  | some m => (tempSave D .default fuel T w m).2.1

/-- The disk when the request is answered. -/
def ExampleReq.answered (D : Deps) (fuel : Nat) (T : TempEnv) (fail : Option (IoErr × (Path → Bool))) (w : World) (req : ExampleReq) : World :=
  match req.multipart with
  | none => w
  | some m =>
    match tempSave D .default fuel T w m with
    | (.full e, w, _) => e.saveDir.drop fail w
    | (.part p _, w, _) => (req.kept p).saveDir.drop fail w
    | (_, w, _) => w

end Multipart

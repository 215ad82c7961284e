import Verif.Model.Examples
import Verif.Model.DataReader
/-!
# Model of the example `examples/iron_intercept.rs`, and of the responses of `Intercept`
-/
namespace Multipart

/-- `iron::Response`, as far as it is used: a response made `with` a text has no status. -/
structure IronResponse where
  status : Option Nat
  body : Bytes
  deriving DecidableEq, Repr

/-- What Iron sends: "404 Not Found" if no status was set (`Response::write_back` of Iron). -/
def IronResponse.sent (r : IronResponse) : Answer := ⟨r.status.getD 404, r.body⟩

/-- The texts of the errors: iron.rs:242-249 and 269-273 (`Display`) and the messages for `io_to_iron` (133, 147, 157, 166, 168, 176, 178). -/
def IronErr.text : IronErr → Bytes
  | .io .tempdir _ => b!"Error opening temporary directory for request."
  | .io .midway _ => b!"Error midway through request"
  | .io .start _ => b!"Error at start of request"
  | .count limit => b!"File count limit reached for request. Limit: " ++ decimal limit
  | .size field =>
    match field.filename with
    | some filename => b!"File size limit reached for field \"" ++ field.name ++ b!"\" (filename: \"" ++ filename ++ b!"\")"
    | none => b!"File size limit reached for field \"" ++ field.name ++ b!"\" (no filename)"

/-- iron.rs:251-256, 275-280, 282-284: the `IronError` has the response `with` the text. -/
def IronErr.response (e : IronErr) : IronResponse := ⟨none, e.text⟩

/-- iron_intercept.rs:11-17: the handler. `debug`: the text of `{:?}` for entries. -/
def interceptHandler (debug : Entries → Bytes) (ext : Option Entries) : IronResponse :=
  match ext with
  | some entries => ⟨none, debug entries⟩
  | none => ⟨none, b!"Not a multipart request"⟩

/-- iron_intercept.rs:11-22: the chain of `Intercept::default()` and the handler, for one request. If the middleware fails, Iron sends the response of the error. The extensions are dropped with the
request, and with them the temporary directory; `fail` is the failure of the deletion if one happens (see `SaveDir.drop`). -/
def interceptExample (D : Deps) (fuel : Nat) (T : TempEnv) (fail : Option (IoErr × (Path → Bool))) (debug : Entries → Bytes) (w : World) (req : HyperReq) : Res Answer × World :=
  match Intercept.default.beforeIn D fuel T fail w req none with
  | (.ok (.ok ()), some e, w) => (.ok (interceptHandler debug (some e)).sent, e.saveDir.drop fail w)
  | (.ok (.ok ()), none, w) => (.ok (interceptHandler debug none).sent, w)
  | (.ok (.error er), _, w) => (.ok er.response.sent, w)
  | (.err e, _, w) => (.err e, w)
  | (.panic, _, w) => (.panic, w)
  | (.hang, _, w) => (.hang, w)

end Multipart

import Verif.Model.Threads
import Verif.Model.ExampleDisk
/-!
# The example servers that handle requests in several threads: `examples/{iron,nickel,hyper_server,rocket}.rs`

The threads share the disk. Handling a request is cut into steps, between which other threads run: the creation of the temporary directory, the steps of `Model/Threads.lean`, and the deletion of the directory
when the entries are dropped, which works here (see `ExampleReq.answered` for failures). What is written to the response is in `Model/Examples.lean`.
-/
namespace Multipart

/-- A request with what `tempdir` finds when it is called for it. -/
structure Visit where
  req : ExampleReq
  temp : TempEnv

/-- The thread that handles a request: before `save().temp()`, in it, or after the entries are dropped. -/
inductive Worker where
  | waiting
  | saving (th : Thread)
  | finished

/-- One step: iron.rs:21-28, nickel.rs:13-18, hyper_server.rs:23 and rocket.rs:55 with save.rs:250-262 (`temp_with_prefix`); a step of `with_entries`; or the drop of the entries. -/
def Worker.step (D : Deps) (fuel : Nat) (v : Visit) (k : Worker) (w : World) : Worker × World :=
  match k with
  | .waiting =>
    match v.req.multipart with
    | none => (.finished, w)
    | some m =>
      match v.temp.tempdir b!"multipart-rs" with
      | .error _ => (.finished, w)
      | .ok dir => (.saving (Thread.start D (Entries.new (.temp dir)) m), { w with dirs := w.dirs ++ [dir] })
  | .saving th =>
    match th with
    | .done (.full e) _ => (.finished, e.saveDir.drop none w)
    | .done (.part p _) _ => (.finished, (v.req.kept p).saveDir.drop none w)
    | th => (.saving (th.step D .default fuel w).1, (th.step D .default fuel w).2)
  | .finished => (.finished, w)

end Multipart

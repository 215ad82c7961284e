import Verif.Model.Threads
import Verif.Model.Iron
/-!
# Iron's middleware in several threads: `src/server/iron.rs`

Iron handles requests in several threads, which share the middleware and the disk. Handling a request is cut into steps, between which other threads run: the creation of the temporary directory, the steps of `Model/Threads.lean`,
the end of `before`, and the drop of the request, with its entries, when the handler has returned. Deleting a temporary directory works here (see `Intercept.before` for failures).
-/
namespace Multipart

/-- A request to Iron, with the result of creating a temporary directory for it. -/
structure IronVisit where
  req : HyperReq
  made : Except IoErr Path

/-- The thread that handles a request: before `before`, in it, in the handler with the entries that the middleware has added to the request, or after all this. -/
inductive IronWorker where
  | waiting
  | saving (th : Thread)
  | handling (e : Entries)
  | finished

/-- One step: iron.rs:122-136 (`read_request`); a step of `with_temp_dir` (iron.rs:142-144, 162-164) or `with_entries` (171-174); its result (iron.rs:144-158, 164-169, 174-179, and 200-207 `before`), after which a lenient middleware
may go on with `with_entries`; or the drop of the request. -/
def IronWorker.step (D : Deps) (i : Intercept) (fuel : Nat) (v : IronVisit) (k : IronWorker) (w : World) : IronWorker × World :=
  match k with
  | .waiting =>
    match fromRequest ironHttp v.req with
    | .error _ => (.finished, w)
    | .ok m =>
      match v.made with
      | .error _ => (.finished, w)
      | .ok dir => (.saving (Thread.start D (Entries.new (.temp dir)) m), { w with dirs := w.dirs ++ [dir] })
  | .saving th =>
    match th with
    | .done (.full e) _ => (.handling e, w)
    | .done (.part p (.io _)) _ => (.finished, p.entries.saveDir.drop none w)
    | .done (.part p _) s =>
      match i.limitBehavior with
      | .throwError => (.finished, p.entries.saveDir.drop none w)
      | .continue_ => (.saving (Thread.start D p.keepPartial s), w)
    | th => (.saving (th.step D i.settings fuel w).1, (th.step D i.settings fuel w).2)
  | .handling e => (.finished, e.saveDir.drop none w)
  | .finished => (.finished, w)

end Multipart

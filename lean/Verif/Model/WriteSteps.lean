import Verif.Model.Threads
/-!
# The writes of `with_path` of `src/server/save.rs` in threads that share a disk

`Model/Threads.lean` takes all writes to one file for one step. Here every single call of `write` is a step, and between them other threads run and see the file as far as it is written.
-/
namespace Multipart

/-- save.rs:1024-1044: one round of the loop of `try_write_all`, with the bytes still to write and `total_copied`. It is done then, or these have changed. -/
def writeOnce (rest : Bytes) (total : Nat) (k : Sink) : (SaveRes Nat Nat ⊕ Bytes × Nat) × Sink :=
  if rest = [] then (.inl (.full total), k)
  else
    match k.script with
    | [] => (.inr ([], total + rest.length), { script := [], got := k.got ++ rest })
    | .err .interrupted :: script => (.inr (rest, total), { script := script, got := k.got })
    | .err e :: script => (.inl (if total = 0 then .error e else .part total (.io e)), { script := script, got := k.got })
    | .accept n :: script =>
      if Nat.min n rest.length = 0 then (.inl (if total = 0 then .error .writeZero else .part total (.io .writeZero)), { script := script, got := k.got })
      else (.inr (rest.drop (Nat.min n rest.length), total + Nat.min n rest.length), { script := script, got := k.got ++ rest.take (Nat.min n rest.length) })

/-- A thread within save.rs:420-425, after the file was opened: in line 420, writing the bytes that were read to memory; in 423 before a round of the loop of `try_read_buf` (save.rs:985-1014), with the result of line 420, the
fuel, `total_copied` and the `copied` of `try_copy_limited`; or within the round, writing a buffer, with the bytes still to write and the `total_copied` of `try_write_all`. -/
inductive Copying where
  | first (rest : Bytes) (total : Nat)
  | loop (size n total copied : Nat)
  | chunk (size n total copied : Nat) (rest : Bytes) (c : Nat)

/-- save.rs:420-425 with 435-441 `write_to`, 972-981 `try_copy_limited`, 983-1017 `try_read_buf`, 1019-1046 `try_write_all`: a step, with at most one call of `write`. `with_path` is done with the file then, or goes on. -/
def Copying.step (b : Settings) (fuel : Nat) (p : Path) (c : Copying) (k : Sink) (s : BR) : (SaveRes SavedData SavedData ⊕ Copying) × Sink × BR :=
  match c with
  | .first rest total =>
    match writeOnce rest total k with
    | (.inr (rest, total), k) => (.inr (.first rest total), k, s)
    | (.inl (.full size), k) => (.inr (.loop size fuel 0 0), k, s)
    | (.inl r, k) => (.inl (r.map (fun size => SavedData.file p size)), k, s)
  | .loop _ 0 _ _ => (.inl .hang, k, s)
  | .loop size (n + 1) total copied =>
    match s.readToBoundary with
    | (.err .interrupted, s) => (.inr (.loop size n total copied), k, s)
    | (.err e, s) => (.inl (if total = 0 then .error e else .part ((SavedData.file p size).addSize total) (.io e)), k, s)
    | (.panic, s) => (.inl .panic, k, s)
    | (.hang, s) => (.inl .hang, k, s)
    | (.ok buf, s) =>
      if buf = [] then (.inl (.full ((SavedData.file p size).addSize total)), k, s)
      else if b.sizeLimit < u64Max ∧ b.sizeLimit < Nat.min (copied + buf.length) u64Max then (.inl (.part ((SavedData.file p size).addSize total) .sizeLimit), k, s.consume 0)
      else (.inr (.chunk size n total (Nat.min (copied + buf.length) u64Max) buf 0), k, s)
  | .chunk size n total copied rest c =>
    match writeOnce rest c k with
    | (.inr (rest, c), k) => (.inr (.chunk size n total copied rest c), k, s)
    | (.inl (.full c), k) => (.inr (.loop size n (total + c) copied), k, s.consume c)
    | (.inl (.part c r), k) => (.inl (.part ((SavedData.file p size).addSize (total + c)) r), k, s.consume c)
    | (.inl (.error e), k) => (.inl (.part ((SavedData.file p size).addSize total) (.io e)), k, s)
    | (.inl .panic, k) => (.inl .panic, k, s)
    | (.inl .hang, k) => (.inl .hang, k, s)

/-- A thread that saves a request, at a place that `Thread` has, or while it writes a file, which had the contents `old` when it was opened and was given the bytes `got` since. -/
inductive FineThread where
  | at (th : Thread)
  | copying (e : Entries) (h : FieldHeaders) (name old : Bytes) (c : Copying) (got : Bytes) (s : BR)

/-- One step: that of `Thread.step`, but with at most one call of `write` (see `Copying.step`). Simplification: what somebody else writes to the same file meanwhile is lost (with `create_new` nobody does, by C148_own_files, nor with
directories apart, by C148_result). -/
def FineThread.step (D : Deps) (b : Settings) (fuel : Nat) (ft : FineThread) (w : World) : FineThread × World :=
  match ft with
  | .at (.writing e h name old bytes s) => (.copying e h name old (.first bytes 0) [] s, w)
  | .at th => (.at (th.step D b fuel w).1, (th.step D b fuel w).2)
  | .copying e h name old c got s =>
    match c.step (fieldPolicy b h) fuel (e.saveDir.asPath ++ [name]) { script := w.writes, got := got } s with
    | (.inl r, k, s) => (.at (Thread.saved D e h r s), { w with writes := k.script }.setFile (e.saveDir.asPath ++ [name]) (overlay b.openOpts old k.got))
    | (.inr c, k, s) => (.copying e h name old c k.got s, { w with writes := k.script }.setFile (e.saveDir.asPath ++ [name]) (overlay b.openOpts old k.got))

end Multipart

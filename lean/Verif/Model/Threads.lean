import Verif.Model.Entries
/-!
# `with_entries` of `src/server/save.rs` in threads that share a disk

The library starts no threads, but a server handles its requests in several, and what they save goes to the same disk. Here the saving of a request is cut into steps, between which other threads run: choosing a
name, creating the directories, creating the file, writing it. Simplification: all writes to one file are one step; they change only this file (`Model/WriteSteps.lean` has them one by one).
-/
namespace Multipart

/-- save.rs:406-411: what `with_path` does after `save_text`, before it touches the disk. It is done then, or the file is to begin with these bytes. -/
def saveBytesInMemory (b : Settings) (fuel : Nat) (bytes : Bytes) (s : BR) : (SaveRes SavedData SavedData ⊕ Bytes) × BR :=
  match saveMem b fuel bytes s with
  | (.full bytes, s) => (.inl (.full (.bytes bytes)), s)
  | (.error e, s) => (.inl (.error e), s)
  | (.panic, s) => (.inl .panic, s)
  | (.hang, s) => (.inl .hang, s)
  | (.part bytes reason, s) =>
    if reason = .sizeLimit ∧ b.cmpSizeLimit bytes.length = false then (.inr bytes, s) else (.inl (.part (.bytes bytes) reason), s)

/-- save.rs:395-411: what `with_path` does before it touches the disk. -/
def saveInMemory (b : Settings) (fuel : Nat) (s : BR) : (SaveRes SavedData SavedData ⊕ Bytes) × BR :=
  if b.textPolicy ≠ .ignore then
    match saveText b fuel s with
    | (.full text, s) => (.inl (.full (.text text)), s)
    | (.error e, s) => (.inl (.error e), s)
    | (.panic, s) => (.inl .panic, s)
    | (.hang, s) => (.inl .hang, s)
    | (.part text reason, s) =>
      if (reason = .sizeLimit ∧ b.cmpSizeLimit text.length = false) ∨ (reason = .utf8 ∧ b.textPolicy ≠ .force) then saveBytesInMemory b fuel text s
      else (.inl (.part (.text text) reason), s)
  else saveBytesInMemory b fuel [] s

/-- save.rs:420-425: what `with_path` does with the open file, which had the contents `old` when it was opened. -/
def writeFile (b : Settings) (fuel : Nat) (p : Path) (old bytes : Bytes) (w : World) (s : BR) : SaveRes SavedData SavedData × World × BR :=
  match tryWriteAll bytes { script := w.writes, got := [] } with
  | (.full size, k) =>
    match writeTo b fuel k s with
    | (r, k, s) => (r.map (fun written => (SavedData.file p size).addSize written), { w with writes := k.script }.setFile p (overlay b.openOpts old k.got), s)
  | (r, k) => (r.map (fun size => SavedData.file p size), { w with writes := k.script }.setFile p (overlay b.openOpts old k.got), s)

/-- A thread that saves a request: before a round of the loop of `with_entries`, with the result of the last `read_entry`; within a round, with the headers of the field, the random name of its file and the bytes with
which the file is to begin; or when `with_entries` has returned. -/
inductive Thread where
  | running (res : Res (Option FieldHeaders)) (e : Entries) (s : BR)
  | making (e : Entries) (h : FieldHeaders) (name bytes : Bytes) (s : BR)
  | opening (e : Entries) (h : FieldHeaders) (name bytes : Bytes) (s : BR)
  | writing (e : Entries) (h : FieldHeaders) (name old bytes : Bytes) (s : BR)
  | done (r : SaveRes Entries PartialEntries) (s : BR)

/-- save.rs:288-307: `with_entries` before its loop. -/
def Thread.start (D : Deps) (e : Entries) (s : BR) : Thread := .running (s.readEntry D).1 e.recountFields (s.readEntry D).2

/-- save.rs:322-342: what `with_entries` does with the result of saving a field. -/
def Thread.saved (D : Deps) (e : Entries) (h : FieldHeaders) (r : SaveRes SavedData SavedData) (s : BR) : Thread :=
  match r with
  | .full d => .running (s.readEntry D).1 (e.pushField h d) (s.readEntry D).2
  | .part d r => .done (.part { entries := e, part := some { headers := h, dest := some d } } r) s
  | .error er => .done (.part { entries := e, part := some { headers := h, dest := none } } (.io er)) s
  | .panic => .done .panic s
  | .hang => .done .hang s

/-- One step: save.rs:309-320 with 380-411 (the name is chosen, and the field is read as far as it goes to memory), 415 `create_dir_all`, 415 `open` (after which the file is there), or the rest of the round. -/
def Thread.step (D : Deps) (b : Settings) (fuel : Nat) (th : Thread) (w : World) : Thread × World :=
  match th with
  | .running res e s =>
    if e.fieldsCount < b.countLimit then
      match res with
      | .ok (some h) =>
        match saveInMemory (fieldPolicy b h) fuel s with
        | (.inl r, s) => (Thread.saved D e h r s, w.randName.2)
        | (.inr bytes, s) => (.making e h w.randName.1 bytes s, w.randName.2)
      | .ok none => (.done (.full e) s, w)
      | .err er => (.done (.part { entries := e, part := none } (.io er)) s, w)
      | .panic => (.done .panic s, w)
      | .hang => (.done .hang s, w)
    else (.done (.part { entries := e, part := none } .countLimit) s, w)
  | .making e h name bytes s =>
    match w.createDirAll (e.saveDir.asPath ++ [name]) with
    | (some er, w) => (Thread.saved D e h (.error er) s, w)
    | (none, w) => (.opening e h name bytes s, w)
  | .opening e h name bytes s =>
    match w.openFile b.openOpts (e.saveDir.asPath ++ [name]) with
    | (.error er, w) => (Thread.saved D e h (.error er) s, w)
    | (.ok old, w) => (.writing e h name old bytes s, w.setFile (e.saveDir.asPath ++ [name]) old)
  | .writing e h name old bytes s =>
    match writeFile (fieldPolicy b h) fuel (e.saveDir.asPath ++ [name]) old bytes w s with
    | (r, w, s) => (Thread.saved D e h r s, w)
  | .done r s => (.done r s, w)

end Multipart

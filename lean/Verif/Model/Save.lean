import Verif.Model.Server
/-!
# Model of `src/server/save.rs`: saving one field

The `BufRead` that is saved is always a field's `MultipartData`, which delegates to the `BoundaryReader` (field.rs:328-345).
-/
namespace Multipart

/-- save.rs:783-797 `PartialReason`; the contents of a `Utf8Error` are dropped. -/
inductive Reason where
  | countLimit
  | sizeLimit
  | io (e : IoErr)
  | utf8
  deriving DecidableEq, Repr

/-- save.rs:879-889 `SaveResult`, with `panic` and `hang` (see `Res`). -/
inductive SaveRes (α β : Type) where
  | full (a : α)
  | part (b : β) (r : Reason)
  | error (e : IoErr)
  | panic
  | hang
  deriving DecidableEq, Repr

/-- save.rs:918-924 `SaveResult::map`, for `P = S` (`partial.into()` is the identity). -/
def SaveRes.map {α τ : Type} (f : α → τ) : SaveRes α α → SaveRes τ τ
  | .full a => .full (f a)
  | .part b r => .part (f b) r
  | .error e => .error e
  | .panic => .panic
  | .hang => .hang

/-- A `Write` destination: the results of the `write` calls to come (see `WEv`), and all bytes received so far. -/
structure Sink where
  script : List WEv
  got : Bytes
  deriving DecidableEq, Repr

/-- save.rs:1019-1046 `try_write_all`; arguments: the bytes still to write, `total_copied`, what the destination has got, its script.
The loop ends because every iteration but the last uses up a script entry. -/
def tryWriteAllAux (buf : Bytes) (total : Nat) (got : Bytes) : List WEv → SaveRes Nat Nat × Sink
  | [] => (.full (total + buf.length), { script := [], got := got ++ buf })
  | ev :: script =>
    if buf = [] then (.full total, { script := ev :: script, got := got })
    else
      match ev with
      | .err .interrupted => tryWriteAllAux buf total got script
      | .err e => (if total = 0 then .error e else .part total (.io e), { script := script, got := got })
      | .accept n =>
        if Nat.min n buf.length = 0 then
          (if total = 0 then .error .writeZero else .part total (.io .writeZero), { script := script, got := got })
        else tryWriteAllAux (buf.drop (Nat.min n buf.length)) (total + Nat.min n buf.length) (got ++ buf.take (Nat.min n buf.length)) script

/-- save.rs:1019-1046 `try_write_all` -/
def tryWriteAll (buf : Bytes) (w : Sink) : SaveRes Nat Nat × Sink := tryWriteAllAux buf 0 w.got w.script

/-- save.rs:983-1017 `try_read_buf`; the closure `with_buf` has state `σ`. First argument: fuel; second: `total_copied`
(whose overflow at 2^64 is not modelled). -/
def tryReadBuf {σ : Type} (f : σ → Bytes → SaveRes Nat Nat × σ) : Nat → Nat → σ → BR → SaveRes Nat Nat × σ × BR
  | 0, _, st, s => (.hang, st, s)
  | n + 1, total, st, s =>
    match s.readToBoundary with
    | (.err .interrupted, s) => tryReadBuf f n total st s
    | (.err e, s) => (if total = 0 then .error e else .part total (.io e), st, s)
    | (.panic, s) => (.panic, st, s)
    | (.hang, s) => (.hang, st, s)
    | (.ok buf, s) =>
      if buf = [] then (.full total, st, s)
      else
        match f st buf with
        | (.full c, st) => tryReadBuf f n (total + c) st (s.consume c)
        | (.part c r, st) => (.part (total + c) r, st, s.consume c)
        | (.error e, st) => (.part total (.io e), st, s)
        | (.panic, st) => (.panic, st, s)
        | (.hang, st) => (.hang, st, s)

/-- save.rs:974-980: the closure inside `try_copy_limited`; its state is `copied` and the state of `with_buf`. -/
def limited {σ : Type} (f : σ → Bytes → SaveRes Nat Nat × σ) (limit : Nat) (st : Nat × σ) (buf : Bytes) : SaveRes Nat Nat × Nat × σ :=
  let newCopied := Nat.min (st.1 + buf.length) u64Max
  if limit < newCopied then (.part 0 .sizeLimit, st)
  else
    let r := f st.2 buf
    (r.1, newCopied, r.2)

/-- save.rs:972-981 `try_copy_limited` -/
def tryCopyLimited {σ : Type} (f : σ → Bytes → SaveRes Nat Nat × σ) (fuel limit : Nat) (st : σ) (s : BR) : SaveRes Nat Nat × σ × BR :=
  let r := tryReadBuf (limited f limit) fuel 0 (0, st) s
  (r.1, r.2.1.2, r.2.2)

/-- save.rs:61-69 `TextPolicy` -/
inductive TextPolicy where
  | try_
  | force
  | ignore
  deriving DecidableEq, Repr

/-- `std::fs::OpenOptions`, without `read`, which plays no role where `write` is set. -/
structure OpenOpts where
  write : Bool
  append : Bool
  truncate : Bool
  create : Bool
  createNew : Bool
  deriving DecidableEq, Repr

/-- save.rs:132-140 `SaveBuilder`, without `savable`. -/
structure Settings where
  openOpts : OpenOpts
  sizeLimit : Nat
  countLimit : Nat
  memoryThreshold : Nat
  textPolicy : TextPolicy
  deriving DecidableEq, Repr

/-- save.rs:146-163 `SaveBuilder::new` -/
def Settings.default : Settings :=
  { openOpts := { write := true, append := false, truncate := false, create := false, createNew := true }
    sizeLimit := 8 * 1024 * 1024
    countLimit := 256
    memoryThreshold := 10 * 1024
    textPolicy := .try_ }

/-- The values of the Rust fields fit their types; the options for opening files allow writing (C90: they always do). -/
structure Settings.Typed (b : Settings) : Prop where
  size : b.sizeLimit ≤ u64Max
  mem : b.memoryThreshold ≤ u64Max
  count : b.countLimit ≤ u32Max
  write : b.openOpts.write = true

/-- save.rs:167-170 `size_limit` -/
def Settings.setSizeLimit (b : Settings) (limit : Option Nat) : Settings := { b with sizeLimit := limit.getD u64Max }

/-- save.rs:223-226 `count_limit` -/
def Settings.setCountLimit (b : Settings) (limit : Option Nat) : Settings := { b with countLimit := limit.getD u32Max }

/-- save.rs:176-180 `mod_open_opts` -/
def Settings.modOpenOpts (b : Settings) (f : OpenOpts → OpenOpts) : Settings := { b with openOpts := { f b.openOpts with write := true } }

/-- save.rs:187-189 `memory_threshold` -/
def Settings.setMemoryThreshold (b : Settings) (n : Nat) : Settings := { b with memoryThreshold := n }

/-- save.rs:198-215 `try_text`, `force_text`, `ignore_text` -/
def Settings.setTextPolicy (b : Settings) (p : TextPolicy) : Settings := { b with textPolicy := p }

/-- A path: its components below some fixed directory. -/
abbrev Path := List Bytes

/-- The outside world of the save functions. `dirs` logs the directories that `fs::create_dir_all` was asked to create (whether it succeeds
or not); `mkdirs` and `opens` are the failures of `create_dir_all` and `open` for other reasons than those represented (no
entry: no such failure); `writes` are the results of the `write` calls on files; `names` are the random file names. -/
structure World where
  files : Path → Option Bytes
  dirs : List Path
  mkdirs : List (Option IoErr)
  opens : List (Option IoErr)
  writes : List WEv
  names : List Bytes

/-- save.rs:29-31 `rand_filename`: the next random name. (When the list is used up the name is empty; the theorems hold for every list.) -/
def World.randName (w : World) : Bytes × World := (w.names.headD [], { w with names := w.names.tail })

/-- save.rs:962-970 `create_dir_all`: creates the directories above the path. -/
def World.createDirAll (w : World) (p : Path) : Option IoErr × World :=
  if p = [] then (none, w)
  else (w.mkdirs.headD none, { w with dirs := w.dirs ++ [p.dropLast], mkdirs := w.mkdirs.tail })

/-- `OpenOptions::open` for writing: the contents the file has then, or an error. (That `write` or `append` is
set, and that a file that need not be new is not both truncated and appended to, is checked by the standard library, which returns EINVAL; opening a
file only for reading is not modelled.) -/
def World.openFile (w : World) (o : OpenOpts) (p : Path) : Except IoErr Bytes × World :=
  if !o.write && !o.append || o.append && o.truncate && !o.createNew then (.error (.other 22), w)
  else match w.opens with
  | some e :: r => (.error e, { w with opens := r })
  | r =>
    let w := { w with opens := r.tail }
    match w.files p with
    | some old =>
      if o.createNew then (.error .alreadyExists, w)
      else (.ok (if o.truncate then [] else old), w)
    | none =>
      if o.createNew ∨ o.create then (.ok [], w) else (.error .notFound, w)

/-- The contents of a file that had contents `old` when it was opened, after the bytes `bs` were written to it: at the start, or (option
`append`) at the end. -/
def overlay (o : OpenOpts) (old bs : Bytes) : Bytes := if o.append then old ++ bs else bs ++ old.drop bs.length

/-- Set the contents of one file. -/
def World.setFile (w : World) (p : Path) (c : Bytes) : World := { w with files := fun q => if q = p then some c else w.files q }

/-- save.rs:499-507 `SavedData` -/
inductive SavedData where
  | text (s : Bytes)
  | bytes (b : Bytes)
  | file (p : Path) (size : Nat)
  deriving DecidableEq, Repr

/-- save.rs:547-554 `add_size` -/
def SavedData.addSize (add : Nat) : SavedData → SavedData
  | .file p size => .file p (Nat.min (size + add) u64Max)
  | other => other

/-- save.rs:435-441 `write_to` -/
def writeTo (b : Settings) (fuel : Nat) (w : Sink) (s : BR) : SaveRes Nat Nat × Sink × BR :=
  if b.sizeLimit < u64Max then tryCopyLimited (fun w buf => tryWriteAll buf w) fuel b.sizeLimit w s
  else tryReadBuf (fun w buf => tryWriteAll buf w) fuel 0 w s

/-- save.rs:484-486 `cmp_size_limit` -/
def Settings.cmpSizeLimit (b : Settings) (size : Nat) : Bool := b.sizeLimit ≤ size

/-- save.rs:479-480: the limit used by `read_mem`. -/
def Settings.memLimit (b : Settings) (preRead : Nat) : Nat := Nat.min b.sizeLimit b.memoryThreshold - preRead

/-- save.rs:445: the closure of `save_mem` -/
def memStep (acc buf : Bytes) : SaveRes Nat Nat × Bytes := (.full buf.length, acc ++ buf)

/-- save.rs:443-452 `save_mem` with 478-482 `read_mem` -/
def saveMem (b : Settings) (fuel : Nat) (bytes : Bytes) (s : BR) : SaveRes Bytes Bytes × BR :=
  match tryCopyLimited memStep fuel (b.memLimit bytes.length) bytes s with
  | (.full _, acc, s) => (.full acc, s)
  | (.part _ r, acc, s) => (.part acc r, s)
  | (.error e, acc, s) => (if acc ≠ [] then .part acc (.io e) else .error e, s)
  | (.panic, _, s) => (.panic, s)
  | (.hang, _, s) => (.hang, s)

/-- save.rs:458-469: the closure of `save_text` -/
def textStep (acc buf : Bytes) : SaveRes Nat Nat × Bytes :=
  if utf8Valid buf then (.full buf.length, acc ++ buf)
  else if buf.length < 4 then (.part 0 .utf8, acc)
  else (.full (validUpTo buf), acc ++ buf.take (validUpTo buf))

/-- save.rs:454-476 `save_text` with 478-482 `read_mem` -/
def saveText (b : Settings) (fuel : Nat) (s : BR) : SaveRes Bytes Bytes × BR :=
  match tryCopyLimited textStep fuel (b.memLimit 0) [] s with
  | (.full _, acc, s) => (.full acc, s)
  | (.part _ r, acc, s) => (.part acc r, s)
  | (.error e, _, s) => (.error e, s)
  | (.panic, _, s) => (.panic, s)
  | (.hang, _, s) => (.hang, s)

/-- save.rs:413-426: the second half of `with_path`, from the opening of the file. The bytes go through a `Sink`, and the
contents of the file are set at the end: nobody looks at the file in between. -/
def saveFile (b : Settings) (fuel : Nat) (p : Path) (bytes : Bytes) (w : World) (s : BR) : SaveRes SavedData SavedData × World × BR :=
  match w.createDirAll p with
  | (some e, w) => (.error e, w, s)
  | (none, w) =>
    match w.openFile b.openOpts p with
    | (.error e, w) => (.error e, w, s)
    | (.ok old, w) =>
      match tryWriteAll bytes { script := w.writes, got := [] } with
      | (.full size, k) =>
        match writeTo b fuel k s with
        | (r, k, s) => (r.map (fun written => (SavedData.file p size).addSize written),
            { w with writes := k.script }.setFile p (overlay b.openOpts old k.got), s)
      | (r, k) => (r.map (fun size => SavedData.file p size), { w with writes := k.script }.setFile p (overlay b.openOpts old k.got), s)

/-- save.rs:406-411: after `save_text` -/
def withPathMem (b : Settings) (fuel : Nat) (p : Path) (bytes : Bytes) (w : World) (s : BR) : SaveRes SavedData SavedData × World × BR :=
  match saveMem b fuel bytes s with
  | (.full bytes, s) => (.full (.bytes bytes), w, s)
  | (.error e, s) => (.error e, w, s)
  | (.panic, s) => (.panic, w, s)
  | (.hang, s) => (.hang, w, s)
  | (.part bytes reason, s) =>
    if reason = .sizeLimit ∧ b.cmpSizeLimit bytes.length = false then saveFile b fuel p bytes w s
    else (.part (.bytes bytes) reason, w, s)

/-- save.rs:394-427 `with_path` -/
def withPath (b : Settings) (fuel : Nat) (p : Path) (w : World) (s : BR) : SaveRes SavedData SavedData × World × BR :=
  if b.textPolicy ≠ .ignore then
    match saveText b fuel s with
    | (.full text, s) => (.full (.text text), w, s)
    | (.error e, s) => (.error e, w, s)
    | (.panic, s) => (.panic, w, s)
    | (.hang, s) => (.hang, w, s)
    | (.part text reason, s) =>
      if (reason = .sizeLimit ∧ b.cmpSizeLimit text.length = false) ∨ (reason = .utf8 ∧ b.textPolicy ≠ .force) then
        withPathMem b fuel p text w s
      else (.part (.text text) reason, w, s)
  else withPathMem b fuel p [] w s

/-- save.rs:380-383 `with_dir` (of a field) -/
def withDir (b : Settings) (fuel : Nat) (dir : Path) (w : World) (s : BR) : SaveRes SavedData SavedData × World × BR :=
  let r := w.randName
  withPath b fuel (dir ++ [r.1]) r.2 s

/-- save.rs:360-363 `temp` (of a field); `tempDir` is `env::temp_dir()`. -/
def saveTemp (b : Settings) (fuel : Nat) (tempDir : Path) (w : World) (s : BR) : SaveRes SavedData SavedData × World × BR :=
  withDir b fuel tempDir w s

/-- `PathBuf::set_file_name` with a plain name: replaces the last component, or adds one if there is none. -/
def setFileName (p : Path) (name : Bytes) : Path := p.dropLast ++ [name]

/-- save.rs:369-374 `with_filename` -/
def withFilename (b : Settings) (fuel : Nat) (tempDir : Path) (name : Bytes) (w : World) (s : BR) : SaveRes SavedData SavedData × World × BR :=
  withPath b fuel (setFileName tempDir name) w s

/-- save.rs:527-535 `size` -/
def SavedData.size : SavedData → Nat
  | .text t => t.length
  | .bytes b => b.length
  | .file _ n => n

/-- save.rs:538-545 `is_memory` -/
def SavedData.isMemory : SavedData → Bool
  | .text _ => true
  | .bytes _ => true
  | .file _ _ => false

/-- save.rs:513-521 `readable`, and reading the result to its end: the bytes, or `NotFound` if the file is gone. -/
def SavedData.readable (w : World) : SavedData → Except IoErr Bytes
  | .text t => .ok t
  | .bytes b => .ok b
  | .file p _ => match w.files p with
    | some c => .ok c
    | none => .error .notFound

end Multipart

import Verif.Model.Save
/-!
# Model of `src/server/save.rs`: saving a whole request
-/
namespace Multipart

/-- save.rs:700-709 `SaveDir`; a `TempDir` is its path. -/
inductive SaveDir where
  | temp (p : Path)
  | perm (p : Path)
  deriving DecidableEq, Repr

/-- save.rs:713-719 `as_path` -/
def SaveDir.asPath : SaveDir → Path
  | .temp p => p
  | .perm p => p

/-- save.rs:722-728 `is_temporary` -/
def SaveDir.isTemporary : SaveDir → Bool
  | .temp _ => true
  | .perm _ => false

/-- save.rs:732-739 `into_path`: `TempDir::into_path` only returns the path and prevents the deletion. -/
def SaveDir.intoPath : SaveDir → Path
  | .temp p => p
  | .perm p => p

/-- save.rs:751-757 `keep` -/
def SaveDir.keep : SaveDir → SaveDir
  | .temp p => .perm p
  | old => old

/-- `fs::remove_dir_all`: no file and no directory at or below `p` is left; or it fails with `fail = some (e, gone)`, and then only the files
in `gone` were removed. -/
def World.removeDirAll (w : World) (fail : Option (IoErr × (Path → Bool))) (p : Path) : Except IoErr Unit × World :=
  match fail with
  | some (e, gone) => (.error e, { w with files := fun q => if p.isPrefixOf q && gone q then none else w.files q })
  | none => (.ok (), { w with files := fun q => if p.isPrefixOf q then none else w.files q, dirs := w.dirs.filter (fun q => !p.isPrefixOf q) })

/-- save.rs:767-773 `delete`: `TempDir::close` removes the directory like `remove_dir_all`. -/
def SaveDir.delete (d : SaveDir) (fail : Option (IoErr × (Path → Bool))) (w : World) : Except IoErr Unit × World :=
  match d with
  | .temp p => w.removeDirAll fail p
  | .perm p => w.removeDirAll fail p

/-- Dropping a `SaveDir`: `TempDir::drop` removes the directory and ignores errors; a `PathBuf` does nothing. -/
def SaveDir.drop (d : SaveDir) (fail : Option (IoErr × (Path → Bool))) (w : World) : World :=
  match d with
  | .temp p => (w.removeDirAll fail p).2
  | .perm _ => w

/-- save.rs:491-496 `SavedField` -/
structure SavedField where
  headers : FieldHeaders
  data : SavedData
  deriving DecidableEq, Repr

/-- save.rs:610-624 `Entries`. The `HashMap` is the list of its key-value pairs, in the order in which the keys were inserted (the order of a
`HashMap` is unspecified, and the code does not look at it). -/
structure Entries where
  fields : List (Bytes × List SavedField)
  saveDir : SaveDir
  fieldsCount : Nat
  deriving DecidableEq, Repr

/-- save.rs:627-633 `Entries::new` -/
def Entries.new (d : SaveDir) : Entries := { fields := [], saveDir := d, fieldsCount := 0 }

/-- save.rs:636-638 `is_empty` -/
def Entries.isEmpty (e : Entries) : Bool := e.fields.isEmpty

/-- save.rs:652-657 `recount_fields`; the sum of `usize` lengths cannot overflow. -/
def Entries.recountFields (e : Entries) : Entries :=
  { e with fieldsCount := Nat.min u32Max (e.fields.map (fun kv => kv.2.length)).sum }

/-- save.rs:659-671, `HashMap::entry` and what is done with it. In the occupied case the name in the headers is replaced by the key. -/
def pushInto (f : SavedField) : List (Bytes × List SavedField) → List (Bytes × List SavedField)
  | [] => [(f.headers.name, [f])]
  | (k, v) :: r =>
    if k = f.headers.name then (k, v ++ [{ f with headers := { f.headers with name := k } }]) :: r
    else (k, v) :: pushInto f r

/-- save.rs:659-672 `push_field` -/
def Entries.pushField (e : Entries) (h : FieldHeaders) (d : SavedData) : Entries :=
  { e with fields := pushInto { headers := h, data := d } e.fields, fieldsCount := Nat.min (e.fieldsCount + 1) u32Max }

/-- save.rs:831-838 `PartialSavedField`; of `source` only the headers, its data is the reader (see `withEntries`). -/
structure PartialField where
  headers : FieldHeaders
  dest : Option SavedData
  deriving DecidableEq, Repr

/-- save.rs:846-852 `PartialEntries` -/
structure PartialEntries where
  entries : Entries
  part : Option PartialField
  deriving DecidableEq, Repr

/-- save.rs:866-874 `keep_partial` -/
def PartialEntries.keepPartial (p : PartialEntries) : Entries :=
  match p.part with
  | some { headers := h, dest := some d } => p.entries.pushField h d
  | _ => p.entries

/-- save.rs:855-859 `Into<Entries> for PartialEntries` -/
def PartialEntries.into (p : PartialEntries) : Entries := p.entries

/-- save.rs:298-307: the `SaveBuilder` for one field -/
def fieldPolicy (b : Settings) (h : FieldHeaders) : Settings := { b with textPolicy := if h.isText then b.textPolicy else .ignore }

/-- save.rs:309-350: the loop of `with_entries`. First argument: fuel; `res` is the result of the `read_entry` before. -/
def entriesLoop (D : Deps) (b : Settings) (fuel : Nat) : Nat → Res (Option FieldHeaders) → Entries → World → BR → SaveRes Entries PartialEntries × World × BR
  | 0, _, _, w, s => (.hang, w, s)
  | n + 1, res, e, w, s =>
    if e.fieldsCount < b.countLimit then
      match res with
      | .ok (some h) =>
        match withDir (fieldPolicy b h) fuel e.saveDir.asPath w s with
        | (.full d, w, s) =>
          let r := s.readEntry D
          entriesLoop D b fuel n r.1 (e.pushField h d) w r.2
        | (.part d r, w, s) => (.part { entries := e, part := some { headers := h, dest := some d } } r, w, s)
        | (.error er, w, s) => (.part { entries := e, part := some { headers := h, dest := none } } (.io er), w, s)
        | (.panic, w, s) => (.panic, w, s)
        | (.hang, w, s) => (.hang, w, s)
      | .ok none => (.full e, w, s)
      | .err er => (.part { entries := e, part := none } (.io er), w, s)
      | .panic => (.panic, w, s)
      | .hang => (.hang, w, s)
    else (.part { entries := e, part := none } .countLimit, w, s)

/-- save.rs:288-352 `with_entries`; `fuel` bounds each of the loops. -/
def withEntries (D : Deps) (b : Settings) (fuel : Nat) (e : Entries) (w : World) (s : BR) : SaveRes Entries PartialEntries × World × BR :=
  let r := s.readEntry D
  entriesLoop D b fuel fuel r.1 e.recountFields w r.2

/-- save.rs:262-264 `with_temp_dir` -/
def withTempDir (D : Deps) (b : Settings) (fuel : Nat) (dir : Path) (w : World) (s : BR) : SaveRes Entries PartialEntries × World × BR :=
  withEntries D b fuel (Entries.new (.temp dir)) w s

/-- save.rs:237-239 `temp` and 250-255 `temp_with_prefix`; `made` is the result of creating the temporary directory (`tempfile`): its path. -/
def requestTemp (D : Deps) (b : Settings) (fuel : Nat) (made : Except IoErr Path) (w : World) (s : BR) : SaveRes Entries PartialEntries × World × BR :=
  match made with
  | .ok dir => withTempDir D b fuel dir { w with dirs := w.dirs ++ [dir] } s
  | .error e => (.error e, w, s)

/-- save.rs:271-277 `with_dir` (of a request) -/
def requestWithDir (D : Deps) (b : Settings) (fuel : Nat) (dir : Path) (w : World) (s : BR) : SaveRes Entries PartialEntries × World × BR :=
  match w.createDirAll dir with
  | (some e, w) => (.error e, w, s)
  | (none, w) => withEntries D b fuel (Entries.new (.perm dir)) w s

/-! ## `SaveResult` conversions -/

/-- save.rs:902-907 `into_entries` -/
def SaveRes.intoEntries : SaveRes Entries PartialEntries → Option Entries
  | .full e => some e
  | .part p _ => some p.entries
  | _ => none

/-- save.rs:927-934 `into_opt_both`; `into` is the conversion `P: Into<S>`. -/
def SaveRes.intoOptBoth {α β : Type} (into : β → α) : SaveRes α β → Option α × Option IoErr
  | .full a => (some a, none)
  | .part b (.io e) => (some (into b), some e)
  | .part b _ => (some (into b), none)
  | .error e => (none, some e)
  | .panic => (none, none)
  | .hang => (none, none)

/-- save.rs:912-914 `okish` -/
def SaveRes.okish {α β : Type} (into : β → α) (r : SaveRes α β) : Option α := (r.intoOptBoth into).1

/-- save.rs:937-943 `into_result` -/
def SaveRes.intoResult {α β : Type} (into : β → α) : SaveRes α β → Res α
  | .full a => .ok a
  | .part b _ => .ok (into b)
  | .error e => .err e
  | .panic => .panic
  | .hang => .hang

/-- save.rs:953-959 `into_result_strict` -/
def SaveRes.intoResultStrict {α β : Type} (into : β → α) : SaveRes α β → Res α
  | .full a => .ok a
  | .part b r => match r with
    | .io e => .err e
    | _ => .ok (into b)
  | .error e => .err e
  | .panic => .panic
  | .hang => .hang

/-- save.rs:812-824 `PartialReason::unwrap_err` and `expect_err` -/
def Reason.unwrapErr : Reason → Res IoErr
  | .io e => .ok e
  | _ => .panic

end Multipart

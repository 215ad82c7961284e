import Verif.Model.Entries
import Verif.Model.Adapters
/-!
# Model of `src/server/iron.rs`: `Intercept`
-/
namespace Multipart

/-- iron.rs:216-226 `LimitBehavior` -/
inductive LimitBehavior where
  | throwError
  | continue_
  deriving DecidableEq, Repr

/-- iron.rs:75-99 `Intercept` -/
structure Intercept where
  tempDirPath : Option Path
  fileSizeLimit : Nat
  fileCountLimit : Nat
  limitBehavior : LimitBehavior
  deriving DecidableEq, Repr

/-- iron.rs:38, 41, 189-198 `Default` -/
def Intercept.default : Intercept := { tempDirPath := none, fileSizeLimit := 2 * 1024 * 1024, fileCountLimit := 16, limitBehavior := .throwError }

/-- iron.rs:102-104 `temp_dir_path` -/
def Intercept.setTempDirPath (i : Intercept) (path : Path) : Intercept := { i with tempDirPath := some path }

/-- iron.rs:107-109 `file_size_limit` -/
def Intercept.setFileSizeLimit (i : Intercept) (limit : Nat) : Intercept := { i with fileSizeLimit := limit }

/-- iron.rs:112-114 `file_count_limit` -/
def Intercept.setFileCountLimit (i : Intercept) (limit : Nat) : Intercept := { i with fileCountLimit := limit }

/-- iron.rs:117-119 `limit_behavior` -/
def Intercept.setLimitBehavior (i : Intercept) (behavior : LimitBehavior) : Intercept := { i with limitBehavior := behavior }

/-- iron.rs:142-143, 162-163, 172-173: the settings of `save()`, with the limits (plain numbers become `Some` by `Into`). -/
def Intercept.settings (i : Intercept) : Settings := (Settings.default.setSizeLimit (some i.fileSizeLimit)).setCountLimit (some i.fileCountLimit)

/-- iron.rs:133, 147, 157, 166, 168, 176, 178: what was going on when an I/O error happened; the message given to `io_to_iron`. -/
inductive IronSite where
  | tempdir
  | midway
  | start
  deriving DecidableEq, Repr

/-- The `IronError`s of this module: an I/O error (`io_to_iron`, 282-284), `FileCountLimitError` (261), `FileSizeLimitError` (231-234). For the texts see `IronErr.text`. -/
inductive IronErr where
  | io (site : IronSite) (e : IoErr)
  | count (limit : Nat)
  | size (field : FieldHeaders)
  deriving DecidableEq, Repr

/-- iron.rs:141-159 `read_request_strict`. What is not returned is dropped, and with it the temporary directory; `fail` is the failure of the deletion if one happens (see `SaveDir.drop`). -/
def Intercept.readRequestStrict (D : Deps) (i : Intercept) (fuel : Nat) (fail : Option (IoErr × (Path → Bool))) (dir : Path) (w : World) (s : BR) :
    Res (Except IronErr (Option Entries)) × World × BR :=
  match withTempDir D i.settings fuel dir w s with
  | (.full e, w, s) => (.ok (.ok (some e)), w, s)
  | (.part p .utf8, w, s) => (.panic, p.entries.saveDir.drop fail w, s)
  | (.part p (.io er), w, s) => (.ok (.error (.io .midway er)), p.entries.saveDir.drop fail w, s)
  | (.part p .countLimit, w, s) => (.ok (.error (.count i.fileCountLimit)), p.entries.saveDir.drop fail w, s)
  | (.part p .sizeLimit, w, s) =>
    match p.part with
    | some f => (.ok (.error (.size f.headers)), p.entries.saveDir.drop fail w, s)
    | none => (.panic, p.entries.saveDir.drop fail w, s)
  | (.error er, w, s) => (.ok (.error (.io .start er)), (SaveDir.temp dir).drop fail w, s)
  | (.panic, w, s) => (.panic, w, s)
  | (.hang, w, s) => (.hang, w, s)

/-- iron.rs:171-180: the loop of `read_request_lenient`. First argument: fuel. -/
def Intercept.lenientLoop (D : Deps) (i : Intercept) (fuel : Nat) (fail : Option (IoErr × (Path → Bool))) : Nat → Entries → World → BR →
    Res (Except IronErr (Option Entries)) × World × BR
  | 0, _, w, s => (.hang, w, s)
  | n + 1, e, w, s =>
    match withEntries D i.settings fuel e w s with
    | (.full e, w, s) => (.ok (.ok (some e)), w, s)
    | (.part p (.io er), w, s) => (.ok (.error (.io .midway er)), p.entries.saveDir.drop fail w, s)
    | (.part p _, w, s) => Intercept.lenientLoop D i fuel fail n p.keepPartial w s
    | (.error er, w, s) => (.ok (.error (.io .start er)), e.saveDir.drop fail w, s)
    | (.panic, w, s) => (.panic, w, s)
    | (.hang, w, s) => (.hang, w, s)

/-- iron.rs:161-181 `read_request_lenient` -/
def Intercept.readRequestLenient (D : Deps) (i : Intercept) (fuel : Nat) (fail : Option (IoErr × (Path → Bool))) (dir : Path) (w : World) (s : BR) :
    Res (Except IronErr (Option Entries)) × World × BR :=
  match withTempDir D i.settings fuel dir w s with
  | (.full e, w, s) => (.ok (.ok (some e)), w, s)
  | (.part p (.io er), w, s) => (.ok (.error (.io .midway er)), p.entries.saveDir.drop fail w, s)
  | (.part p _, w, s) => Intercept.lenientLoop D i fuel fail fuel p.keepPartial w s
  | (.error er, w, s) => (.ok (.error (.io .start er)), (SaveDir.temp dir).drop fail w, s)
  | (.panic, w, s) => (.panic, w, s)
  | (.hang, w, s) => (.hang, w, s)

/-- iron.rs:122-139 `read_request`; `made` is the result of creating the temporary directory in `temp_dir_path` or in the directory of the system (`tempfile`): its path. -/
def Intercept.readRequest (D : Deps) (i : Intercept) (fuel : Nat) (made : Except IoErr Path) (fail : Option (IoErr × (Path → Bool))) (w : World) (req : HyperReq) :
    Res (Except IronErr (Option Entries)) × World :=
  match fromRequest ironHttp req with
  | .error _ => (.ok (.ok none), w)
  | .ok s =>
    match made with
    | .error e => (.ok (.error (.io .tempdir e)), w)
    | .ok dir =>
      let w := { w with dirs := w.dirs ++ [dir] }
      let r := match i.limitBehavior with
        | .throwError => i.readRequestStrict D fuel fail dir w s
        | .continue_ => i.readRequestLenient D fuel fail dir w s
      (r.1, r.2.1)

/-- iron.rs:200-207 `before`; `ext` is the `Entries` among the extensions of the request. -/
def Intercept.before (D : Deps) (i : Intercept) (fuel : Nat) (made : Except IoErr Path) (fail : Option (IoErr × (Path → Bool))) (w : World) (req : HyperReq) (ext : Option Entries) :
    Res (Except IronErr Unit) × Option Entries × World :=
  match i.readRequest D fuel made fail w req with
  | (.ok (.ok (some e)), w) => (.ok (.ok ()), some e, w)
  | (.ok (.ok none), w) => (.ok (.ok ()), ext, w)
  | (.ok (.error er), w) => (.ok (.error er), ext, w)
  | (.err e, w) => (.err e, ext, w)
  | (.panic, w) => (.panic, ext, w)
  | (.hang, w) => (.hang, ext, w)

end Multipart

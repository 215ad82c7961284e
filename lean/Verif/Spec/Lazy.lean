import Verif.Model.Lazy
import Verif.Spec.Client
/-!
# What a lazily prepared body looks like
-/
namespace Multipart

/-- A field as the lazy client writes it: the delimiter line with a CRLF in front, the headers, the data. -/
def lazyPart (b : Bytes) (f : OutField) : Bytes := crlf ++ dashes ++ b ++ crlf ++ f.headers ++ f.data

/-- The body of a lazy request: the fields, and the closing delimiter with a CRLF in front, but none behind. Without fields it is empty. -/
def encodeLazy (b : Bytes) (fs : List OutField) : Bytes := if fs = [] then [] else fs.flatMap (lazyPart b) ++ crlf ++ dashes ++ b ++ dashes

/-- Text fields first, then the others backwards. Only text fields have no content type. -/
def lazyOrder (fs : List OutField) : List OutField := fs.filter (·.ctype.isNone) ++ (fs.filter (·.ctype.isSome)).reverse

/-- Cut a byte string into pieces of the given sizes (as far as it suffices). -/
def cuts (u : Bytes) : List Nat → List Bytes
  | [] => []
  | n :: ns => u.take n :: cuts (u.drop n) ns

/-- `read` calls with buffers of the given sizes, whatever they return. -/
def Prepared.reads (p : Prepared) : List Nat → List (Res Bytes) × Prepared
  | [] => ([], p)
  | n :: ns => ((p.read n).1 :: ((p.read n).2.reads ns).1, ((p.read n).2.reads ns).2)

/-- The bytes that calls reported as read. -/
def okBytes : List (Res Bytes) → Bytes
  | [] => []
  | .ok bs :: rs => bs ++ okBytes rs
  | _ :: rs => okBytes rs

/-- Read calls with buffers of sizes `ns`, none of them empty, the last of which reported the end, reported the bytes `u`. -/
def ReadsOut (p : Prepared) (ns : List Nat) (u : Bytes) : Prop := (∀ n ∈ ns, n ≠ 0) ∧ (p.reads ns).1.getLast? = some (.ok []) ∧ okBytes (p.reads ns).1 = u

/-- A lazy request to which fields were added by these calls was prepared, with boundary `b`. -/
def PreparedFrom (env : LazyEnv) (b : Bytes) (os : List ClientOp) (p : Prepared) : Prop := ((LazyMp.build os).prepare env b).1 = .ok p

/-- No stream or file of the request fails. -/
def NoReadErr (env : FileEnv) (os : List ClientOp) : Prop := ∀ o ∈ os, ∀ evs, o.reads env evs → NoErr evs

/-- The same stream without its failures. -/
def Ev.dropErrs : List Ev → List Ev
  | [] => []
  | .data bs :: r => .data bs :: Ev.dropErrs r
  | .err _ :: r => Ev.dropErrs r

/-- The same files without read failures. -/
def FileEnv.dropErrs (env : FileEnv) : FileEnv := { env with open_ := fun p => (env.open_ p).map Ev.dropErrs }

/-- The same call with a stream without failures. -/
def ClientOp.dropErrs : ClientOp → ClientOp
  | .stream name evs filename ct => .stream name (Ev.dropErrs evs) filename ct
  | o => o

/-- A call adds a file, under this name, that cannot be opened or measured. -/
def FileFails (env : LazyEnv) (o : ClientOp) (name : Bytes) (e : IoErr) : Prop :=
  ∃ path, o = .file name path ∧ (env.open_ path = .error e ∨ (∃ evs, env.open_ path = .ok evs ∧ env.size path = .error e))

/-- The sizes of files are what is read from them. -/
def TrueSizes (env : LazyEnv) (os : List ClientOp) : Prop := ∀ name path evs, .file name path ∈ os → env.open_ path = .ok evs → env.size path = .ok (Ev.upToEnd evs).length

/-- A text field is added. -/
def ClientOp.isText : ClientOp → Bool
  | .text _ _ => true
  | _ => false

/-- A stream is added. -/
def ClientOp.isStream : ClientOp → Bool
  | .stream _ _ _ _ => true
  | _ => false

end Multipart

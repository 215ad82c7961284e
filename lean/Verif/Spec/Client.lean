import Verif.Model.Client
import Verif.Spec.Parts
import Verif.Spec.Saving
import Verif.Spec.Text
/-!
# What a multipart body looks like, and what the client is given to send

Independent of how the client writes: the grammar of a body, and the fields that calls stand for.
-/
namespace Multipart

/-- A field to send: `ctype` is the text of its content type. -/
structure OutField where
  name : Bytes
  filename : Option Bytes
  ctype : Option Bytes
  data : Bytes
  deriving DecidableEq, Repr

/-- The value of the field's `Content-Disposition` header. -/
def OutField.disposition (f : OutField) : Bytes :=
  b!"form-data; name=\"" ++ f.name ++ b!"\"" ++ match f.filename with
    | some n => b!"; filename=\"" ++ n ++ b!"\""
    | none => []

/-- The header block of a field, with the empty line. -/
def OutField.headers (f : OutField) : Bytes :=
  b!"Content-Disposition: " ++ f.disposition ++ crlf ++ (match f.ctype with
    | some t => b!"Content-Type: " ++ t ++ crlf
    | none => []) ++ crlf

/-- A multipart body with boundary `b`: for each field a delimiter line, the headers, the data and a CRLF; then the closing line. -/
def encode (b : Bytes) : List OutField → Bytes
  | [] => dashes ++ b ++ dashes ++ crlf
  | f :: fs => dashes ++ b ++ crlf ++ f.headers ++ f.data ++ crlf ++ encode b fs

/-- All bytes a reader delivers up to its end or its first error; interruptions do not count. -/
def Ev.upToEnd : List Ev → Bytes
  | [] => []
  | .data [] :: _ => []
  | .data (x :: xs) :: r => (x :: xs) ++ Ev.upToEnd r
  | .err .interrupted :: r => Ev.upToEnd r
  | .err _ :: _ => []

/-- The reader is read to its end without an error (other than interruptions). -/
inductive ReadsFine : List Ev → Prop
  | nil : ReadsFine []
  | eof {r : List Ev} : ReadsFine (.data [] :: r)
  | data {bs : Bytes} {r : List Ev} : ReadsFine r → ReadsFine (.data bs :: r)
  | interrupted {r : List Ev} : ReadsFine r → ReadsFine (.err .interrupted :: r)

/-- The last component of a path is a name that can be sent: it is text and does not stand for the parent directory. -/
def IsFileName (fname : Bytes) : Prop := IsUtf8 fname ∧ fname ≠ b!".."

/-- The field a call of the client stands for. -/
inductive StandsFor (env : FileEnv) : ClientOp → OutField → Prop
  | text (name val : Bytes) : StandsFor env (.text name val) ⟨name, none, none, val⟩
  | stream (name : Bytes) (evs : List Ev) (filename : Option Bytes) (ct : Mime) :
      StandsFor env (.stream name evs filename (some ct)) ⟨name, filename, some ct.src, Ev.upToEnd evs⟩
  | octets (name : Bytes) (evs : List Ev) (filename : Option Bytes) :
      StandsFor env (.stream name evs filename none) ⟨name, filename, some b!"application/octet-stream", Ev.upToEnd evs⟩
  | file (name : Bytes) (dir : Path) (fname : Bytes) (evs : List Ev) : env.open_ (dir ++ [fname]) = .ok evs → IsFileName fname →
      StandsFor env (.file name (dir ++ [fname])) ⟨name, some fname, some (env.guess (dir ++ [fname])).src, Ev.upToEnd evs⟩
  | fileUnnamed (name : Bytes) (path : Path) (evs : List Ev) : env.open_ path = .ok evs → (∀ dir fname, path = dir ++ [fname] → ¬ IsFileName fname) →
      StandsFor env (.file name path) ⟨name, none, some (env.guess path).src, Ev.upToEnd evs⟩

/-- The streams of a call. -/
def ClientOp.reads (env : FileEnv) : ClientOp → List Ev → Prop
  | .text _ _, _ => False
  | .file _ p, evs => env.open_ p = .ok evs
  | .stream _ evs _ _, evs' => evs' = evs

/-- The reader fails with `e`, behind data and interruptions only. -/
inductive ReadFails (e : IoErr) : List Ev → Prop
  | here {r : List Ev} : e ≠ .interrupted → ReadFails e (.err e :: r)
  | data {x : Byte} {xs : Bytes} {r : List Ev} : ReadFails e r → ReadFails e (.data (x :: xs) :: r)
  | interrupted {r : List Ev} : ReadFails e r → ReadFails e (.err .interrupted :: r)

/-- A call fails with `e` for another reason than the destination: its stream fails, or its file cannot be opened. -/
def OpFails (env : FileEnv) (o : ClientOp) (e : IoErr) : Prop := (∃ evs, o.reads env evs ∧ ReadFails e evs) ∨ (∃ n p, o = .file n p ∧ env.open_ p = .error e)

/-- An ASCII letter or digit. -/
def isAlnum (c : Byte) : Prop := (0x30 ≤ c ∧ c ≤ 0x39) ∨ (0x41 ≤ c ∧ c ≤ 0x5A) ∨ (0x61 ≤ c ∧ c ≤ 0x7A)

end Multipart

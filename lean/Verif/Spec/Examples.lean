import Verif.Model.Examples
import Verif.Spec.DataReader
/-!
# What is expected of the example servers
-/
namespace Multipart

/-- Nothing goes wrong in writing responses. -/
structure Surroundings.Works (S : Surroundings) : Prop where
  entries : ∀ w e, (S.entries w e).2 = none
  connected : S.connected = true

/-- The files of `w`, as they are read back. -/
def World.opening (w : World) (p : Path) : Except IoErr (List Ev) :=
  match w.files p with
  | some c => .ok (if c = [] then [] else [.data c])
  | none => .error .notFound

/-- `entries` is `write_debug` (with the texts of `F`) to a response and a standard output that take everything. -/
def Surroundings.Shows (S : Surroundings) (F : DebugFmt) : Prop :=
  ∀ w e, S.entries w e = match debugMap F w.opening e.fields ⟨[], []⟩ with
    | (.err er, k) => (k.got, some er)
    | (_, k) => (k.got, none)

/-- From some amount of fuel on, there is an answer. -/
def Answers (f : Nat → Res Answer) : Prop := ∃ n, ∀ fuel, n ≤ fuel → ∃ a, f fuel = .ok a

/-- The full claim C95: each of the example servers answers every request. -/
def ExamplesAnswer (D : Deps) : Prop :=
  ∀ (T : TempEnv) (S : Surroundings) (w : World), S.Works →
    (∀ req, Answers fun fuel => tinyAnswer D fuel T S w req) ∧ (∀ req, Answers fun fuel => ironAnswer D fuel T S w req) ∧ (∀ req, Answers fun fuel => nickelAnswer D fuel T S w req) ∧
    (∀ req, Answers fun fuel => hyperAnswer D fuel T S w req) ∧ (∀ req, Answers fun fuel => rocketAnswer D fuel T S w req)

/-- The bytes of a saved field, in the file system `w`. -/
def SavedField.contents (w : World) (f : SavedField) : Bytes :=
  match f.data with
  | .text t => t
  | .bytes b => b
  | .file p _ => (w.files p).getD []

end Multipart

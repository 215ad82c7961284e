import Verif.Model.ExampleClients
import Verif.Spec.Examples
import Verif.Spec.LazyHyper
import Verif.Spec.RoundTrip
import Verif.Spec.Adapters
import Verif.Spec.Entries
/-!
# What is expected of the example clients
-/
namespace Multipart

/-- The fields both examples send: a text, the file `lorem_ipsum.txt` (with its guessed type), and some bytes. -/
def helloText : OutField := ⟨b!"text", none, none, b!"Hello, world!"⟩
def loremFile (type contents : Bytes) : OutField := ⟨b!"file", some b!"lorem_ipsum.txt", some type, contents⟩
def helloBytes (bytes : Bytes) : OutField := ⟨b!"binary", none, some b!"application/octet-stream", bytes⟩

/-- The file is there, can be read, is not too large for the examples, does not contain the delimiter, and its type is a type. -/
structure LoremOk (D : Deps) (env : FileEnv) (b : Bytes) (file : List Ev) (ct : Mime) : Prop where
  opens : env.open_ [b!"lorem_ipsum.txt"] = .ok file
  reads : NoErr file
  size : (Ev.upToEnd file).length + 2 ≤ 8 * 1024 * 1024
  noDelim : Absent (dashes ++ b) (Ev.upToEnd file)
  type : env.guess [b!"lorem_ipsum.txt"] = ct
  typeText : HeaderText ct.src ∧ Absent (dashes ++ b) ct.src ∧ ct.src.length ≤ 500
  parses : D.parseMime ct.src = some ct
  octets : D.parseMime b!"application/octet-stream" = some octetStream

/-- The examples for Hyper, Iron and Nickel answer a POST request with this header and body with status 200 and show these fields, with these contents. -/
def ServersShow (D : Deps) (T : TempEnv) (S : Surroundings) (F : DebugFmt) (w : World) (b : Bytes) (evs : List Ev) (m : HMime) (es : List (FieldHeaders × Bytes)) : Prop :=
  ∃ n, ∀ fuel, n ≤ fuel → ∃ g w' fs, GroupedByName g fs ∧ All2 (fun x p => x.headers = p.1 ∧ SavedOk (dashes ++ b) evs p.2 (x.contents w')) fs es ∧
    ∀ m', m.SentAs m' → hyperAnswer D fuel T S w ⟨.post, some m', evs⟩ = .ok ⟨200, debugText F (·.contents w') g⟩ ∧
      nickelAnswer D fuel T S w ⟨.post, some m', evs⟩ = .ok ⟨200, debugText F (·.contents w') g⟩ ∧
      ironAnswer D fuel T S w ⟨.post, some m', evs⟩ = .ok ⟨200, debugText F (·.contents w') g ++ b!"Entries processed\n"⟩

end Multipart

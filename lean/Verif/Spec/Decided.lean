import Verif.Model.ExampleDisk
import Verif.Spec.ReadSizes
/-!
# Specification: how many bytes of a request can matter
-/
namespace Multipart

/-- The minimum buffer of a reader with this boundary. -/
def minBuffer (b : Bytes) : Nat := Nat.max 1024 (2 * (b.length + 2))

/-- A number of bytes after which a save with these settings has ended, if the first delimiter is at `p` and reads bring at most `n` bytes: for each of `count_limit + 1` parts what may go to memory and to a file, its delimiter line,
and one buffer for its headers; and one buffer more. -/
def Settings.readBound (cfg : Settings) (b : Bytes) (n p : Nat) : Nat :=
  p + (cfg.countLimit + 1) * (Nat.min cfg.sizeLimit cfg.memoryThreshold + cfg.sizeLimit + (b.length + 6 + (minBuffer b + n))) + (minBuffer b + n)

/-- The same request with another body. -/
def ExampleReq.put (evs : List Ev) : ExampleReq → ExampleReq
  | .tiny req => .tiny { req with body := evs }
  | .iron req => .iron { req with body := evs }
  | .nickel req => .nickel { req with body := evs }
  | .hyper req => .hyper { req with body := evs }
  | .rocket req => .rocket { req with body := evs }

/-- What the example server answers. -/
def ExampleReq.answer (D : Deps) (fuel : Nat) (T : TempEnv) (S : Surroundings) (w : World) : ExampleReq → Res Answer
  | .tiny req => tinyAnswer D fuel T S w req
  | .iron req => ironAnswer D fuel T S w req
  | .nickel req => nickelAnswer D fuel T S w req
  | .hyper req => hyperAnswer D fuel T S w req
  | .rocket req => rocketAnswer D fuel T S w req

end Multipart

import Verif.Model.Lazy
/-!
# How far streams are read
-/
namespace Multipart

/-- Reads on the stream `s` gave the bytes `d` (and maybe errors), and `r` is left of it. -/
inductive Drew : List Ev → Bytes → List Ev → Prop
  | none {s : List Ev} : Drew s [] s
  | part {s r : List Ev} {x y d : Bytes} : Drew (.data y :: s) d r → Drew (.data (x ++ y) :: s) (x ++ d) r
  | next {s r : List Ev} {x d : Bytes} : Drew s d r → Drew (.data x :: s) (x ++ d) r
  | err {s r : List Ev} {e : IoErr} {d : Bytes} : Drew s d r → Drew (.err e :: s) d r

/-- Of the streams `ss` (the last one comes first) `n` bytes were read in all, and `left` is left: only the one whose turn it is has been read, and it was closed before the next one was read. -/
inductive Pulled (ss : List (List Ev)) : Nat → List (List Ev) → Prop
  | start : Pulled ss 0 ss
  | draw {n : Nat} {todo : List (List Ev)} {s r : List Ev} {d : Bytes} : Pulled ss n (todo ++ [s]) → Drew s d r → Pulled ss (n + d.length) (todo ++ [r])
  | close {n : Nat} {todo : List (List Ev)} {s : List Ev} : Pulled ss n (todo ++ [s]) → Pulled ss n todo

/-- The streams and files of a request. -/
def streamsOf (env : FileEnv) : List ClientOp → List (List Ev)
  | [] => []
  | .text _ _ :: os => streamsOf env os
  | .file _ p :: os => (match env.open_ p with | .ok s => [s] | .error _ => []) ++ streamsOf env os
  | .stream _ s _ _ :: os => s :: streamsOf env os

/-- The length of what a field has besides the contents of a stream or file: name, text, filename, type. -/
def opSize (env : FileEnv) : ClientOp → Nat
  | .text n v => n.length + v.length
  | .file n p => n.length + ((mimeFilename env p).2.getD []).length + (mimeFilename env p).1.src.length
  | .stream n _ f ct => n.length + (f.getD []).length + (ct.getD octetStream).src.length

/-- The bytes a prepared request keeps in memory. -/
def Prepared.memory (p : Prepared) : Nat := p.text.data.length + (p.streams.map fun f => f.header.data.length).sum + p.endBoundary.data.length

end Multipart

import Verif.Model.Owned
import Verif.Model.Tokenizer
/-!
# The crate's own unit tests, run on the model

Not proofs of anything general: they check that the model does what the authors of the code saw it do. The tests of `src/local_test.rs`, which are random, are C99.
-/
namespace Multipart.UnitTests

/-- boundary.rs:272 -/
def boundary : Bytes := b!"boundary"

/-- boundary.rs:273-277 `TEST_VAL` -/
def testVal : Bytes := b!"--boundary\r\ndashed-value-1\r\n--boundary\r\ndashed-value-2\r\n--boundary--"

/-- `read_to_string`, and what it gives if it succeeds. -/
def str (s : BR) : Option Bytes × BR :=
  match s.readToString (fun _ => 31) with
  | (.ok x, s) => (some x, s)
  | (_, s) => (none, s)

/-- `consume_boundary`, likewise. -/
def consume (s : BR) : Option Bool × BR :=
  match s.consumeBoundary with
  | (.ok x, s) => (some x, s)
  | (_, s) => (none, s)

/-- boundary.rs:343-373 `test_boundary_reader` -/
def boundaryReader (s : BR) : Bool :=
  let (a1, s) := str s
  let (c1, s) := consume s
  let (a2, s) := str s
  let (c2, s) := consume s
  let (a3, s) := str s
  let (c3, s) := consume s
  let (a4, _) := str s
  a1 == some [] && c1.isSome && a2 == some b!"dashed-value-1" && c2.isSome && a3 == some b!"dashed-value-2" && c3.isSome && a4 == some []

/-- boundary.rs:279-290 `test_boundary` -/
example : boundaryReader (BR.fromReader [.data testVal] boundary) = true := by decide +kernel

/-- boundary.rs:292-323 `SplitReader` -/
def split (data : Bytes) (at' : Nat) : List Ev := ([data.take at', data.drop at'].filter (· ≠ [])).map .data

/-- boundary.rs:325-341 `test_split_boundary` -/
example : (List.range testVal.length).all (fun at' => boundaryReader (BR.fromReader (split testVal at') boundary)) = true := by decide +kernel

/-- Calls of `consume_boundary` and `read_to_string` in turn, with their results. -/
def turns (s : BR) : Nat → List (Option Bool × Option Bytes)
  | 0 => []
  | n + 1 =>
    let (c, s) := consume s
    let (a, s) := str s
    (c, a) :: turns s n

/-- boundary.rs:375-395 `test_empty_body` -/
example : (turns (BR.fromReader [.data b!"--boundary--"] boundary) 2).map Prod.fst = [some false, some false] ∧
    ((turns (BR.fromReader [.data b!"--boundary--"] boundary) 1).map Prod.snd) = [some []] := by decide +kernel

/-- boundary.rs:397-423 `test_leading_crlf` -/
example : turns (BR.fromReader [.data b!"\r\n\r\n--boundary\r\nasdf1234\r\n\r\n--boundary--"] boundary) 2 = [(some true, some b!"asdf1234\r\n"), (some false, some [])] := by decide +kernel

/-- boundary.rs:446-450 and 489-493: two calls of `read_to_boundary` give the same. -/
def twice (s : BR) : Bool := (consume s).2.readToBoundary.1 == (consume s).2.readToBoundary.2.readToBoundary.1

/-- boundary.rs:425-466 `test_trailing_crlf` -/
def trailingCrlf : Bytes := b!"--boundary\r\nasdf1234\r\n\r\n--boundary\r\nhjkl5678\r\n--boundary--"
example : twice (BR.fromReader [.data trailingCrlf] boundary) = true := by decide +kernel
example : turns (BR.fromReader [.data trailingCrlf] boundary) 3 = [(some true, some b!"asdf1234\r\n"), (some true, some b!"hjkl5678"), (some false, some [])] := by decide +kernel

/-- boundary.rs:468-510 `test_trailing_lflf` -/
def trailingLflf : Bytes := b!"--boundary\r\nasdf1234\n\n\r\n--boundary\r\nhjkl5678\r\n--boundary--"
example : twice (BR.fromReader [.data trailingLflf] boundary) = true := by decide +kernel
example : turns (BR.fromReader [.data trailingLflf] boundary) 3 = [(some true, some b!"asdf1234\n\n"), (some true, some b!"hjkl5678"), (some false, some [])] := by decide +kernel

/-- boundary.rs:512-548 `test_unterminated_body` -/
def unterminated : Bytes := b!"--boundary\r\nasdf1234\n\n\r\n--boundary\r\nhjkl5678  "
example : twice (BR.fromReader [.data unterminated] boundary) = true := by decide +kernel
example : (turns (BR.fromReader [.data unterminated] boundary) 2) = [(some true, some b!"asdf1234\n\n"), (some true, some b!"hjkl5678  ")] ∧
    ((turns (BR.fromReader [.data unterminated] boundary) 3).map Prod.fst) = [some true, some true, none] := by decide +kernel

/-- boundary.rs:550-555 `test_lone_boundary` -/
example : (BR.fromReader [.data b!"--boundary"] boundary).consumeBoundary.1 = .err .unexpectedEof := by decide +kernel

/-- boundary.rs:557-562 `test_invalid_boundary` -/
example : (BR.fromReader [.data b!"--boundary\x00\x00"] boundary).consumeBoundary.1 = .err .invalidData := by decide +kernel

/-- boundary.rs:564-578 `test_skip_field` -/
def skipField : BR := BR.fromReader [.data b!"--boundary\r\nfield1\r\n--boundary\r\nfield2\r\n--boundary--"] boundary
example : (consume skipField).1 = some true ∧ (consume (consume skipField).2).1 = some true ∧ (str (consume (consume skipField).2).2).1 = some b!"field2" ∧
    (consume (str (consume (consume skipField).2).2).2).1 = some false := by decide +kernel

/-- field.rs:572-601 `test_find_header` -/
def headers : List Header := [⟨b!"Content-Type", b!"text/plain"⟩, ⟨b!"Content-disposition", b!"form-data"⟩, ⟨b!"content-transfer-encoding", b!"binary"⟩]
example : (findHeader headers b!"Content-Type").map (·.val) = some b!"text/plain" ∧ (findHeader headers b!"Content-Disposition").map (·.val) = some b!"form-data" ∧
    (findHeader headers b!"Content-Transfer-Encoding").map (·.val) = some b!"binary" := by decide +kernel

/-- A closure that does nothing. -/
def nothing : Visitor Unit := fun _ _ _ => ([], ())

/-- A closure that reads every field to its end, with calls of `fill_buf` and `consume`, but not `key1`. -/
def notKey1 : Visitor Unit := fun _ h s =>
  if h.name = b!"key1" then ([], ()) else
    match s.readToBoundary with
    | (.ok x, _) => ([.fillBuf, .consume x.length, .fillBuf], ())
    | _ => ([], ())

/-- server/mod.rs:201-220 `issue_104` -/
example : (foreachEntry refDeps nothing () (withBody [.data (b!"POST /test.html HTTP/1.1\r\nHost: example.org\r\nContent-Type: multipart/form-data;boundary=\"boundary\"\r\n\r\n" ++
    b!"Content-Disposition: form-data; name=\"field1\"\r\n\r\nvalue1\r\nContent-Disposition: form-data; name=\"field2\"; filename=\"example.txt\"\r\n\r\nvalue2 ")] boundary)).1 =
    .err .unexpectedEof := by decide +kernel

/-- server/mod.rs:222-288 `issue_114`: three calls of `foreach_entry` one after the other. -/
def issue114 : BR := withBody [.data (b!"--------------------------c616e5fded96a3c7\r\nContent-Disposition: form-data; name=\"key1\"\r\n\r\nv1,\r\n" ++
  b!"--------------------------c616e5fded96a3c7\r\nContent-Disposition: form-data; name=\"key2\"\r\n\r\nv2,\r\n" ++
  b!"--------------------------c616e5fded96a3c7\r\nContent-Disposition: form-data; name=\"key3\"\r\n\r\nv3\r\n--------------------------c616e5fded96a3c7--\r\n")]
  b!"------------------------c616e5fded96a3c7"

example : (foreachEntry refDeps nothing () issue114).1 = .ok () ∧ (foreachEntry refDeps notKey1 () (foreachEntry refDeps nothing () issue114).2.2).1 = .ok () ∧
    (foreachEntry refDeps nothing () (foreachEntry refDeps notKey1 () (foreachEntry refDeps nothing () issue114).2.2).2.2).1 = .ok () := by decide +kernel

/-- The second call of `issue_114` sees no entry, because the first has read them all; here it is made on a fresh reader. -/
example : (foreachEntry refDeps notKey1 () issue114).1 = .ok () := by decide +kernel

end Multipart.UnitTests

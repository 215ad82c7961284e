import Verif.Model.Mock
import Verif.Model.Lazy
import Verif.Model.Owned
/-!
# Model of `src/local_test.rs`, the crate's random tests of its clients against its server
-/
namespace Multipart

/-- local_test.rs:148-153, 204-225 `FileEntry`; `PrintHex` is only about printing. -/
structure FileEntry where
  contentType : Mime
  filename : Option Bytes
  data : Bytes
  deriving DecidableEq, Repr

/-- `HashMap<String, HashSet<T>>`: the keys and the elements in the order of iteration, which is arbitrary but stays the same. -/
abbrev SetMap (α : Type) := List (Bytes × List α)

/-- local_test.rs:65-69 `TestFields` -/
structure TestFields where
  texts : SetMap Bytes
  files : SetMap FileEntry
  deriving DecidableEq, Repr

/-- A letter or digit, which is what `rand::distributions::Alphanumeric` gives. -/
def IsLetterOrDigit (c : Byte) : Prop := (0x30 ≤ c.toNat ∧ c.toNat ≤ 0x39) ∨ (0x41 ≤ c.toNat ∧ c.toNat ≤ 0x5A) ∨ (0x61 ≤ c.toNat ∧ c.toNat ≤ 0x7A)

/-- local_test.rs:26-28, 323-340 `gen_string` (and `gen_bytes`, 342-344) may give this string: letters and digits, dashes, letters and digits. -/
def GenString (s : Bytes) : Prop :=
  ∃ x n y, s = x ++ List.replicate n 0x2D ++ y ∧ n ≤ 2 ∧ (2 ≤ x.length ∧ x.length ≤ 5) ∧ (2 ≤ y.length ∧ y.length ≤ 5) ∧ (∀ c ∈ x, IsLetterOrDigit c) ∧ ∀ c ∈ y, IsLetterOrDigit c

/-- local_test.rs:488-497: the types that `rand_mime` chooses from. -/
def testMimes : List Mime := [octetStream, ⟨b!"text/plain", b!"text"⟩, ⟨b!"image/png", b!"image"⟩]

/-- local_test.rs:181-197 `FileEntry::gen` may give this. -/
structure FileEntry.Generated (f : FileEntry) : Prop where
  contentType : f.contentType ∈ testMimes
  filename : ∀ n, f.filename = some n → GenString n
  data : GenString f.data

/-- local_test.rs:23-24, 30-34, 177-179: `collect_rand` may give this map of sets: it makes one or two keys with one or two elements each; equal ones fall together. -/
structure SetMap.Generated {α : Type} (P : α → Prop) (m : SetMap α) : Prop where
  keys : (m.map (·.1)).Nodup
  count : 1 ≤ m.length ∧ m.length ≤ 2
  sets : ∀ e ∈ m, GenString e.1 ∧ e.2.Nodup ∧ (1 ≤ e.2.length ∧ e.2.length ≤ 2) ∧ ∀ x ∈ e.2, P x

/-- local_test.rs:72-77 `TestFields::gen` may give this. -/
structure TestFields.Generated (t : TestFields) : Prop where
  texts : SetMap.Generated GenString t.texts
  files : SetMap.Generated FileEntry.Generated t.files

/-- The elements of all sets with their keys, in order: the `flat_map` of local_test.rs:351-359, 399-407. -/
def SetMap.flat {α : Type} (m : SetMap α) : List (Bytes × α) := m.flatMap fun e => e.2.map fun x => (e.1, x)

/-- The call for a file (local_test.rs:366-373, 410-417). -/
def fileOp (f : Bytes × FileEntry) : ClientOp := .stream f.1 [.data f.2.data] f.2.filename (some f.2.contentType)

/-- The call for a text (local_test.rs:376, 419). -/
def textOp (t : Bytes × Bytes) : ClientOp := .text t.1 t.2

/-- local_test.rs:363-389 and 409-429: the calls that both clients make: a file, if there is one, before each text, then the remaining files. -/
def testOps : List (Bytes × FileEntry) → List (Bytes × Bytes) → List ClientOp
  | fs, [] => fs.map fileOp
  | [], t :: ts => textOp t :: testOps [] ts
  | f :: fs, t :: ts => fileOp f :: textOp t :: testOps fs ts

/-- The calls for the fields of a test. -/
def TestFields.ops (t : TestFields) : List ClientOp := testOps t.files.flat t.texts.flat

/-- A result that is not a value. -/
def Res.cast {α β : Type} : Res α → Res β
  | .ok _ => .panic
  | .err _ => .panic
  | .panic => .panic
  | .hang => .hang

/-- local_test.rs:346-392 `test_client`; `b` is the generated boundary, `rng` are the random numbers of the mock request. `unwrap` panics for errors. No file is opened. -/
def testClient (env : FileEnv) (rng : List Nat) (b : Bytes) (t : TestFields) : Res HttpBuffer :=
  match mockRequest env rng b t.ops with
  | .ok h => .ok h
  | r => r.cast

/-- `Read::read_to_end` of std on a prepared request, as in `BR.readToEndLoop`. First argument: fuel. -/
def Prepared.readToEnd (sz : Nat → Nat) : Nat → Nat → Bytes → Prepared → Res Bytes
  | 0, _, _, _ => .hang
  | n + 1, i, acc, p =>
    match p.read (sz i + 1) with
    | (.ok [], _) => .ok acc
    | (.ok (x :: xs), p) => Prepared.readToEnd sz n (i + 1) (acc ++ x :: xs) p
    | (.err .interrupted, p) => Prepared.readToEnd sz n (i + 1) acc p
    | (.err e, _) => .err e
    | (.panic, _) => .panic
    | (.hang, _) => .hang

/-- local_test.rs:394-441 `test_client_lazy`; `sz` gives the sizes of `read_to_end`'s buffers. -/
def testClientLazy (env : LazyEnv) (sz : Nat → Nat) (b : Bytes) (t : TestFields) : Res HttpBuffer :=
  match ((LazyMp.build t.ops).prepare env b).1 with
  | .error _ => .panic
  | .ok p =>
    match p.boundary with
    | .ok boundary =>
      match p.readToEnd sz p.fuel 0 [] with
      | .ok buf => .ok (HttpBuffer.withBuf buf boundary p.contentLen [])
      | r => r.cast
    | r => r.cast

/-- `get_field` and `HashSet::remove`, with the removal of the key of an empty set (local_test.rs:55-63, 95-105, 119-129): `none` means that the key or the element is not
there (the tests panic then). -/
def SetMap.remove {α : Type} [DecidableEq α] (k : Bytes) (x : α) : SetMap α → Option (SetMap α)
  | [] => none
  | e :: m =>
    if e.1 = k then
      if x ∈ e.2 then some (if e.2.erase x = [] then m else (e.1, e.2.erase x) :: m) else none
    else (SetMap.remove k x m).map (e :: ·)

/-- local_test.rs:79-132 `check_field` (and `from_field`, 156-175) for a field with headers `fh` whose data is read from `m`; `sz` gives the sizes of the buffers of
`read_to_string` and `read_to_end`. Simplification: that the key is missing is noticed only after reading, which changes no more than when the test panics. -/
def TestFields.checkField (sz : BR → Nat → Nat) (t : TestFields) (fh : FieldHeaders) (m : BR) : Res (TestFields × BR) :=
  match fh.contentType with
  | none =>
    match m.readToString (sz m) with
    | (.ok text, m) =>
      match t.texts.remove fh.name text with
      | some texts => .ok ({ t with texts := texts }, m)
      | none => .panic
    | (r, _) => r.cast
  | some ct =>
    match m.readToEnd (sz m) with
    | (.ok (), data, m) =>
      match t.files.remove fh.name ⟨ct, fh.filename, data⟩ with
      | some files => .ok ({ t with files := files }, m)
      | none => .panic
    | (r, _, _) => r.cast

/-- local_test.rs:458-460: the loop of `test_server`, with `unwrap_opt`. First argument: fuel. -/
def testServerLoop (D : Deps) (sz : BR → Nat → Nat) : Nat → TestFields → BR → Res TestFields
  | 0, _, _ => .hang
  | n + 1, t, m =>
    match m.readEntry D with
    | (.ok (some fh), m) =>
      match t.checkField sz fh m with
      | .ok (t, m) => testServerLoop D sz n t m
      | r => r.cast
    | (.ok none, _) => .ok t
    | (r, _) => r.cast

/-- local_test.rs:443-461 `test_server`, for a reader that asks the mock request for `ns` bytes. -/
def testServer (D : Deps) (sz : BR → Nat → Nat) (ns rng : List Nat) (fuel : Nat) (buf : HttpBuffer) (t : TestFields) : Res TestFields :=
  let server := buf.forServer rng
  if server.contentLen = none ∨ server.contentLen = some server.data.length then
    match fromRequest (mockHttp ns) server with
    | .error _ => .panic
    | .ok m => testServerLoop D sz fuel t m
  else .panic

/-- `check_field` for an entry of the owned API. -/
def TestFields.checkEntry (sz : BR → Nat → Nat) (t : TestFields) (h : EntryHandle) : Res (TestFields × BR) :=
  match h.inner with
  | none => .panic
  | some m => t.checkField sz h.headers m

/-- local_test.rs:483-485: the loop of `test_server_entry_api`. First argument: fuel. -/
def testEntryLoop (D : Deps) (sz : BR → Nat → Nat) : Nat → TestFields → BR → Res TestFields
  | 0, _, _ => .hang
  | n + 1, t, m =>
    match (m.intoEntry D).unwrapOpt with
    | .ok (some h) =>
      match t.checkEntry sz h with
      | .ok (t, m) => testEntryLoop D sz n t m
      | r => r.cast
    | .ok none => .ok t
    | r => r.cast

/-- local_test.rs:463-486 `test_server_entry_api`; `expect_alt` is `Owned.unwrap`. -/
def testServerEntryApi (D : Deps) (sz : BR → Nat → Nat) (ns rng : List Nat) (fuel : Nat) (buf : HttpBuffer) (t : TestFields) : Res TestFields :=
  let server := buf.forServer rng
  if server.contentLen = none ∨ server.contentLen = some server.data.length then
    match fromRequest (mockHttp ns) server with
    | .error _ => .panic
    | .ok m =>
      match (m.intoEntry D).unwrap with
      | .ok h =>
        match t.checkEntry sz h with
        | .ok (t, m) => testEntryLoop D sz fuel t m
        | r => r.cast
      | r => r.cast
  else .panic

/-- local_test.rs:134-146, 227-249 `do_test!` without the generation of the fields (and without the log): `.ok ()` means that the test passes. -/
def doTest (client : TestFields → Res HttpBuffer) (server : HttpBuffer → TestFields → Res TestFields) (t : TestFields) : Res Unit :=
  match client t with
  | .ok buf =>
    match server buf t with
    | .ok t => if t.texts = [] ∧ t.files = [] then .ok () else .panic
    | r => r.cast
  | r => r.cast

end Multipart

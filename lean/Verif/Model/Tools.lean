import Verif.Model.Mock
import Verif.Model.Server
/-!
# Model of the fuzz target and of `read_file`

`fuzz/fuzzers/server_basic.rs` and `src/bin/read_file.rs`.
-/
namespace Multipart

/-- server_basic.rs:47-54: the loop over the data of one field. First argument: fuel. -/
def fuzzField : Nat → BR → Res Unit × BR
  | 0, s => (.hang, s)
  | n + 1, s =>
    match s.readToBoundary with
    | (.ok [], s) => (.ok (), s)
    | (.ok (x :: xs), s) => fuzzField n (s.consume (x :: xs).length)
    | (.err _, s) => (.panic, s)
    | (.panic, s) => (.panic, s)
    | (.hang, s) => (.hang, s)

/-- server_basic.rs:43-56: the loop over the entries. The target was written for an earlier version of the crate, in which text fields came as strings and only the others were read; which
fields are read is left open here (`isFile`). First arguments: fuel for fields, fuel for entries. -/
def fuzzEntries (D : Deps) (isFile : FieldHeaders → Bool) (fuel : Nat) : Nat → BR → Res Unit
  | 0, _ => .hang
  | n + 1, s =>
    match s.readEntry D with
    | (.ok (some fh), s) =>
      if isFile fh then
        match fuzzField fuel s with
        | (.ok (), s) => fuzzEntries D isFile fuel n s
        | (r, _) => r
      else fuzzEntries D isFile fuel n s
    | (.ok none, _) => .ok ()
    | (.err _, _) => .ok ()
    | (.panic, _) => .panic
    | (.hang, _) => .hang

/-- server_basic.rs:15 -/
def fuzzBoundary : Bytes := b!"--12--34--56"

/-- server_basic.rs:28-57 `do_fuzz`, for the random numbers `rng` of the mock request, of which `ns` bytes are asked. -/
def doFuzz (D : Deps) (isFile : FieldHeaders → Bool) (fuel : Nat) (rng ns : List Nat) (data : Bytes) : Res Unit :=
  if data.length < fuzzBoundary.length then .ok ()
  else
    match fromRequest (mockHttp ns) { data := data, boundary := fuzzBoundary, contentLen := none, rng := rng } with
    | .error _ => .panic
    | .ok m => fuzzEntries D isFile fuel fuel m

/-- read_file.rs:52-54: the loop of `main`, with the names that are printed. `unwrap` panics for an error. First argument: fuel. -/
def readFileLoop (D : Deps) : Nat → BR → Res Unit × List Bytes
  | 0, _ => (.hang, [])
  | n + 1, s =>
    match s.readEntry D with
    | (.ok (some fh), s) => ((readFileLoop D n s).1, fh.name :: (readFileLoop D n s).2)
    | (.ok none, _) => (.ok (), [])
    | (.err _, _) => (.panic, [])
    | (.panic, _) => (.panic, [])
    | (.hang, _) => (.hang, [])

/-- read_file.rs:45-57: the reading of the file, whose `RandomReader` (64-75, which asks the file for a random part of what it is asked for) delivers `evs`; `.ok` means that "All entries read!" is printed. -/
def readFile (D : Deps) (fuel : Nat) (boundary : Bytes) (evs : List Ev) : Res Unit × List Bytes := readFileLoop D fuel (withBody evs boundary)

end Multipart

import Verif.Model.Server
import Verif.Model.Utf8
/-!
# Model of the owned entry API (`src/server/field.rs`) and of reading a field to its end
-/
namespace Multipart

/-- `Read::read_to_end` of std on a field's data (`MultipartData`: field.rs:328-332): calls `read` with buffers of sizes of its choice, never empty
(`sz i + 1` bytes in the `i`-th call), until it returns `Ok(0)`; calls again when interrupted. The first argument is fuel; `acc` are the
bytes appended so far. -/
def BR.readToEndLoop (sz : Nat → Nat) : Nat → Nat → Bytes → BR → Res Unit × Bytes × BR
  | 0, _, acc, s => (.hang, acc, s)
  | n + 1, i, acc, s =>
    match s.read (sz i + 1) with
    | (.ok [], s) => (.ok (), acc, s)
    | (.ok (x :: xs), s) => BR.readToEndLoop sz n (i + 1) (acc ++ x :: xs) s
    | (.err .interrupted, s) => BR.readToEndLoop sz n (i + 1) acc s
    | (.err e, s) => (.err e, acc, s)
    | (.panic, s) => (.panic, acc, s)
    | (.hang, s) => (.hang, acc, s)

/-- `read_to_end`; the fuel exceeds the number of calls possible. -/
def BR.readToEnd (sz : Nat → Nat) (s : BR) : Res Unit × Bytes × BR :=
  BR.readToEndLoop sz (s.pending + s.evs.length + 1) 0 [] s

/-- field.rs:442-449 `PrivReadEntry::read_to_string`, and `Read::read_to_string` of std on an empty string: `read_to_end`, then `InvalidData` if the
bytes are not UTF-8. -/
def BR.readToString (sz : Nat → Nat) (s : BR) : Res Bytes × BR :=
  match s.readToEnd sz with
  | (.ok (), bs, s) => if utf8Valid bs then (.ok bs, s) else (.err .invalidData, s)
  | (.err e, _, s) => (.err e, s)
  | (.panic, _, s) => (.panic, s)
  | (.hang, _, s) => (.hang, s)

/-- field.rs:470-477 `ReadEntryResult` with an owned `Multipart`; or a panic, or no return. -/
inductive Owned where
  | entry (h : EntryHandle)
  | fin (m : BR)
  | error (m : BR) (e : IoErr)
  | panic
  | hang
  deriving DecidableEq, Repr

/-- server/mod.rs:130-132 `into_entry`, which is `ReadEntry::read_entry` (field.rs:386-415) by value. `BR.readEntry` is the
same with the reader beside the result. -/
def BR.intoEntry (D : Deps) (s : BR) : Owned :=
  match s.readEntry D with
  | (.ok (some fh), m) => .entry { headers := fh, inner := some m }
  | (.ok none, m) => .fin m
  | (.err e, m) => .error m e
  | (.panic, _) => .panic
  | (.hang, _) => .hang

/-- field.rs:246-248 `next_entry`: `into_inner` (field.rs:301-303) panics when the reader was taken. -/
def EntryHandle.nextEntry (D : Deps) (h : EntryHandle) : Owned :=
  match h.inner with
  | none => .panic
  | some m => m.intoEntry D

/-- field.rs:485-491 `into_result` -/
def Owned.intoResult : Owned → Res (Option EntryHandle)
  | .entry h => .ok (some h)
  | .fin _ => .ok none
  | .error _ e => .err e
  | .panic => .panic
  | .hang => .hang

/-- field.rs:494-516 `unwrap`, `expect` and `expect_alt` (they differ in the text of the panic). -/
def Owned.unwrap : Owned → Res EntryHandle
  | .entry h => .ok h
  | .fin _ => .panic
  | .error _ _ => .panic
  | .panic => .panic
  | .hang => .hang

/-- field.rs:519-531 `unwrap_opt` and `expect_opt` -/
def Owned.unwrapOpt : Owned → Res (Option EntryHandle)
  | .entry h => .ok (some h)
  | .fin _ => .ok none
  | .error _ _ => .panic
  | .panic => .panic
  | .hang => .hang

end Multipart

import Verif.Model.Basic
/-!
# Model of `src/server/boundary.rs`
-/
namespace Multipart

/-- boundary.rs:24 `MIN_BUF_SIZE` -/
def minBufSize : Nat := 1024

/-- boundary.rs:26-31 `enum State` -/
inductive BState where
  | searching
  | boundaryRead
  | atEnd
  deriving DecidableEq, Repr

/-- boundary.rs:33-40 `struct BoundaryReader<R>`.
`source: BufReader<R, MinBuffered>` is represented by the buffered unread bytes `buf`, the script `evs` of the results
of all future `read` calls on `R`, and the policy value `min` (`source.policy_mut().0`). Simplification: the capacity
of the buffer is not represented (see DESIGN.md, contract of `buf_redux`). -/
structure BR where
  buf : Bytes
  evs : List Ev
  min : Nat
  /-- `boundary`, i.e. `--` followed by the boundary parameter -/
  delim : Bytes
  /-- `search_idx` -/
  idx : Nat
  st : BState
  deriving DecidableEq, Repr

/-- `BufReader::fill_buf` of `buf_redux` with policy `MinBuffered(min)` (called at boundary.rs:58, 135): read until
`min` bytes are buffered, a `read` returns 0 bytes, or fails. Returns the error if any, the buffer and the rest of the
script. -/
def fill (min : Nat) (buf : Bytes) : List Ev → Option IoErr × Bytes × List Ev
  | [] => (none, buf, [])
  | .data [] :: r => if min ≤ buf.length then (none, buf, .data [] :: r) else (none, buf, r)
  | .data (b :: bs) :: r =>
      if min ≤ buf.length then (none, buf, .data (b :: bs) :: r) else fill min (buf ++ (b :: bs)) r
  | .err e :: r => if min ≤ buf.length then (none, buf, .err e :: r) else (some e, buf, r)

/-- boundary.rs:44-55 `BoundaryReader::from_reader`; line 46 prepends `--` to the boundary. -/
def BR.fromReader (evs : List Ev) (boundary : Bytes) : BR :=
  { buf := [], evs := evs, min := minBufSize, delim := dashes ++ boundary, idx := 0, st := .searching }

/-- `twoway::find_bytes(buf, boundary)` (called at boundary.rs:201): index of the first occurrence. -/
def findSub (d : Bytes) : Bytes → Option Nat
  | [] => if d.isPrefixOf [] then some 0 else none
  | x :: xs => if d.isPrefixOf (x :: xs) then some 0 else (findSub d xs).map (· + 1)

/-- boundary.rs:208-212: the loop `for i in search_start .. buf.len()`; `n` is the number of iterations left, `i` the
current index. -/
def fragLoop (d buf : Bytes) : Nat → Nat → Option Nat
  | 0, _ => none
  | n + 1, i => if (buf.drop i).isPrefixOf d then some i else fragLoop d buf n (i + 1)

/-- boundary.rs:200-215 `find_boundary`: `ok i` is `Ok(i)` (found at `i`), `error n` is `Err(n)` (safe to yield `n` bytes). -/
def findBoundary (buf d : Bytes) : Except Nat Nat :=
  match findSub d buf with
  | some i => .ok i
  | none =>
    let searchStart := buf.length - d.length
    match fragLoop d buf (buf.length - searchStart) searchStart with
    | some i => .error i
    | none => .error buf.length

/-- boundary.rs:69-82: look for the delimiter behind the cursor and move the cursor. -/
def BR.search (s : BR) : BR :=
  if s.idx < s.buf.length then
    match findBoundary (s.buf.drop s.idx) s.delim with
    | .ok found => { s with idx := s.idx + found, st := .boundaryRead }
    | .error yieldLen => { s with idx := s.idx + yieldLen }
  else s

/-- boundary.rs:87-98: back up the cursor to before the delimiter's preceding CRLF if we haven't already. -/
def BR.backUp (s : BR) : BR :=
  if 2 ≤ s.idx ∧ ¬ crlf.isPrefixOf (s.buf.drop s.idx) then
    if (s.buf.drop (s.idx - 2)).take 2 = crlf then { s with idx := s.idx - 2 } else s
  else s

/-- `&buf[..self.search_idx]` (boundary.rs:66, 100): panics if the cursor is behind the end of the buffer. -/
def BR.yielded (s : BR) : Res Bytes × BR :=
  if s.idx ≤ s.buf.length then (.ok (s.buf.take s.idx), s) else (.panic, s)

/-- boundary.rs:57-105 `read_to_boundary`, also `BufRead::fill_buf` (251-253). -/
def BR.readToBoundary (s : BR) : Res Bytes × BR :=
  match fill s.min s.buf s.evs with
  | (some e, buf, evs) => (.err e, { s with buf := buf, evs := evs })
  | (none, buf, evs) =>
    let s := { s with buf := buf, evs := evs }
    if s.st = .boundaryRead ∨ s.st = .atEnd then s.yielded
    else
      let s := s.search
      -- line 88 slices `buf[self.search_idx..]` when `search_idx >= 2`
      if 2 ≤ s.idx ∧ s.buf.length < s.idx then (.panic, s)
      else s.backUp.yielded

/-- boundary.rs:107-112 `set_min_buf_size` -/
def BR.setMin (s : BR) (n : Nat) : BR :=
  { s with min := Nat.max (s.delim.length * 2) n }

/-- boundary.rs:255-262 `BufRead::consume` -/
def BR.consume (s : BR) (amt : Nat) : BR :=
  let t := Nat.min amt s.idx
  { s with buf := s.buf.drop t, idx := s.idx - t }

/-- boundary.rs:237-248 `Read::read` with an output buffer of `n` bytes; returns the bytes copied to it. -/
def BR.read (s : BR) (n : Nat) : Res Bytes × BR :=
  match s.readToBoundary with
  | (.ok b, s') => (.ok (b.take n), s'.consume (b.take n).length)
  | (r, s') => (r, s')

/-- boundary.rs:119-132: the `while self.state == Searching` loop of `consume_boundary`. The first argument is fuel. -/
def BR.searchLoop : Nat → BR → Res Unit × BR
  | 0, s => (.hang, s)
  | n + 1, s =>
    if s.st = .searching then
      match s.readToBoundary with
      | (.ok b, s') =>
        if b.length = 0 ∧ s'.st = .searching then (.err .unexpectedEof, s')
        else BR.searchLoop n (s'.consume b.length)
      | (.err e, s') => (.err e, s')
      | (.panic, s') => (.panic, s')
      | (.hang, s') => (.hang, s')
    else (.ok (), s)

/-- Number of bytes still buffered or to arrive; bounds the iterations of the loop above. -/
def BR.pending (s : BR) : Nat := s.buf.length + (Ev.bytes s.evs).length

/-- boundary.rs:134-195: verify and consume the delimiter at the cursor. The debug assertions of lines 148 and 151 (and the
slices in them) are modelled as panics. -/
def BR.verifyBoundary (s : BR) : Res Bool × BR :=
  match fill s.min s.buf s.evs with
  | (some e, buf, evs) => (.err e, { s with buf := buf, evs := evs })
  | (none, buf, evs) =>
    let s := { s with buf := buf, evs := evs }
    if buf.length < s.idx then (.panic, s)
    else
      let seg := buf.drop s.idx
      let pre := if crlf.isPrefixOf seg then 2 else 0
      if (seg.drop pre).take s.delim.length ≠ s.delim then (.panic, s)
      else
        let amt := s.idx + s.delim.length + pre + 2
        if buf.length < amt then (.err .unexpectedEof, s)
        else
          let lastTwo := (buf.drop (amt - 2)).take 2
          if lastTwo = crlf then
            (.ok true, { s with buf := buf.drop amt, idx := 0, st := .searching })
          else if lastTwo = dashes then
            (.ok false, { s with buf := buf.drop amt, idx := 0, st := .atEnd })
          else (.err .invalidData, { s with st := .searching })

/-- boundary.rs:114-196 `consume_boundary` -/
def BR.consumeBoundary (s : BR) : Res Bool × BR :=
  if s.st = .atEnd then (.ok false, s)
  else
    match BR.searchLoop (s.pending + 2) s with
    | (.ok (), s') => s'.verifyBoundary
    | (.err e, s') => (.err e, s')
    | (.panic, s') => (.panic, s')
    | (.hang, s') => (.hang, s')

end Multipart

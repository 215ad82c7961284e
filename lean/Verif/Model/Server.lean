import Verif.Model.Field
/-!
# Model of `src/server/mod.rs` and of the entry handles in `src/server/field.rs`
-/
namespace Multipart

/-- server/mod.rs:108-116 `Multipart::with_body`; `Multipart<R>` is its `BoundaryReader`. -/
def withBody (body : List Ev) (boundary : Bytes) : BR := BR.fromReader body boundary

/-- server/mod.rs:187-199 trait `HttpRequest`: a request type with a boundary (if it is multipart) and a body. -/
structure HttpRequest (ρ : Type) where
  multipartBoundary : ρ → Option Bytes
  body : ρ → List Ev

/-- server/mod.rs:87-95 `Multipart::from_request` -/
def fromRequest {ρ : Type} (H : HttpRequest ρ) (req : ρ) : Except ρ BR :=
  match H.multipartBoundary req with
  | some b => .ok (withBody (H.body req) b)
  | none => .error req

/-- The calls available on a field's data (`MultipartData`: field.rs:311, 328-345). -/
inductive FieldOp where
  | fillBuf
  | read (n : Nat)
  | consume (n : Nat)
  | setMin (n : Nat)
  deriving DecidableEq, Repr

/-- Effect of one call: the bytes it took out of the field (returned by `read`, or skipped by `consume`) and the new
state. -/
def BR.op (s : BR) : FieldOp → Bytes × BR
  | .fillBuf => ([], s.readToBoundary.2)
  | .read n => (match (s.read n).1 with | .ok b => b | _ => [], (s.read n).2)
  | .consume n => (s.buf.take (Nat.min n s.idx), s.consume n)
  | .setMin n => ([], s.setMin n)

/-- Effect of a history of calls: all bytes taken out of the field, and the final state. -/
def BR.run (s : BR) : List FieldOp → Bytes × BR
  | [] => ([], s)
  | o :: os => ((s.op o).1 ++ ((s.op o).2.run os).1, ((s.op o).2.run os).2)

/-- What a `foreach_entry` closure does with one entry: given its own state, the headers and (to let it adapt to
everything it could observe) the reader, it makes some calls on the data and updates its state. -/
abbrev Visitor (σ : Type) := σ → FieldHeaders → BR → List FieldOp × σ

/-- server/mod.rs:140-148 `foreach_entry`, with fuel. -/
def foreachLoop (D : Deps) {σ : Type} (f : Visitor σ) : Nat → σ → BR → Res Unit × σ × BR
  | 0, st, s => (.hang, st, s)
  | n + 1, st, s =>
    match s.readEntry D with
    | (.ok (some h), s) =>
      let r := f st h s
      foreachLoop D f n r.2 (s.run r.1).2
    | (.ok none, s) => (.ok (), st, s)
    | (.err e, s) => (.err e, st, s)
    | (.panic, s) => (.panic, st, s)
    | (.hang, s) => (.hang, st, s)

/-- `foreach_entry`; the fuel exceeds the number of entries possible. -/
def foreachEntry (D : Deps) {σ : Type} (f : Visitor σ) (st : σ) (s : BR) : Res Unit × σ × BR :=
  foreachLoop D f (s.pending + 1) st s

/-- field.rs:216-226, 281-283 `MultipartField` with its `MultipartData { inner: Option<M> }`. -/
structure EntryHandle where
  headers : FieldHeaders
  inner : Option BR
  deriving DecidableEq, Repr

/-- field.rs:254-274 `next_entry_inplace`: `ok true` is `Ok(Some(self))`, `ok false` is `Ok(None)`. `take_inner` panics when
the reader was taken before. -/
def EntryHandle.nextInplace (D : Deps) (h : EntryHandle) : Res Bool × EntryHandle :=
  match h.inner with
  | none => (.panic, h)
  | some m =>
    match m.readEntry D with
    | (.ok (some hd), m) => (.ok true, { headers := hd, inner := some m })
    | (.ok none, m) => (.ok false, { headers := h.headers, inner := some m })
    | (.err e, m) => (.err e, { headers := h.headers, inner := some m })
    | (.panic, _) => (.panic, { headers := h.headers, inner := none })
    | (.hang, _) => (.hang, { headers := h.headers, inner := none })

/-- Calls on the data of a handle: `inner_mut` (field.rs:315-317) panics when the reader was taken. -/
def EntryHandle.op (h : EntryHandle) (o : FieldOp) : Res Bytes × EntryHandle :=
  match h.inner with
  | none => (.panic, h)
  | some m => (.ok (m.op o).1, { h with inner := some (m.op o).2 })

/-- Calls on a `Multipart` and the field it last returned. -/
inductive SOp where
  | readEntry
  | field (o : FieldOp)
  deriving DecidableEq, Repr

/-- One call: its outcome class (only panics, hangs and errors of `read_entry` are of interest) and the new state. -/
def BR.sop (D : Deps) (s : BR) : SOp → BR
  | .readEntry => (s.readEntry D).2
  | .field o => (s.op o).2

/-- State after a history of calls. -/
def BR.session (D : Deps) (s : BR) : List SOp → BR
  | [] => s
  | o :: os => BR.session D (s.sop D o) os

end Multipart

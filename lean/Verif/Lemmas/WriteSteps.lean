import Verif.Model.WriteSteps
import Verif.Lemmas.Solo
/-!
# The single writes to a file do together what `with_path` does with it
-/
namespace Multipart

/-! ## What is still to come -/

/-- The rest of the loop of `try_read_buf` within `write_to`. -/
def copyRest (b : Settings) (n total copied : Nat) (k : Sink) (s : BR) : SaveRes Nat Nat × Sink × BR :=
  if b.sizeLimit < u64Max then
    let r := tryReadBuf (limited (fun w buf => tryWriteAll buf w) b.sizeLimit) n total (copied, k) s
    (r.1, r.2.1.2, r.2.2)
  else tryReadBuf (fun w buf => tryWriteAll buf w) n total k s

theorem copyRest_start (b : Settings) (fuel : Nat) (k : Sink) (s : BR) : copyRest b fuel 0 0 k s = writeTo b fuel k s := rfl

/-- All steps to come at once. -/
def Copying.finish (b : Settings) (fuel : Nat) (p : Path) (c : Copying) (k : Sink) (s : BR) : SaveRes SavedData SavedData × Sink × BR :=
  match c with
  | .first rest total =>
    match tryWriteAllAux rest total k.got k.script with
    | (.full size, k) => ((copyRest b fuel 0 0 k s).1.map (fun written => (SavedData.file p size).addSize written), (copyRest b fuel 0 0 k s).2)
    | (r, k) => (r.map (fun size => SavedData.file p size), k, s)
  | .loop size n total copied => ((copyRest b n total copied k s).1.map (fun written => (SavedData.file p size).addSize written), (copyRest b n total copied k s).2)
  | .chunk size n total copied rest c =>
    match tryWriteAllAux rest c k.got k.script with
    | (.full c, k) => ((copyRest b n (total + c) copied k (s.consume c)).1.map (fun written => (SavedData.file p size).addSize written), (copyRest b n (total + c) copied k (s.consume c)).2)
    | (.part c r, k) => (.part ((SavedData.file p size).addSize (total + c)) r, k, s.consume c)
    | (.error e, k) => (.part ((SavedData.file p size).addSize total) (.io e), k, s)
    | (.panic, k) => (.panic, k, s)
    | (.hang, k) => (.hang, k, s)

theorem writeOnce_aux (rest : Bytes) (total : Nat) (k : Sink) : tryWriteAllAux rest total k.got k.script = match writeOnce rest total k with
    | (.inl r, k) => (r, k)
    | (.inr (rest, total), k) => tryWriteAllAux rest total k.got k.script := by
  obtain ⟨script, got⟩ := k
  by_cases hr : rest = []
  · subst hr
    rw [tryWriteAllAux_nil]
    simp [writeOnce]
  · unfold writeOnce
    rw [if_neg hr]
    simp only
    cases script with
    | nil => simp only [tryWriteAllAux_nil]; rfl
    | cons ev script =>
      cases ev with
      | err e =>
        rw [tryWriteAllAux_err hr]
        cases e <;> rfl
      | accept n =>
        rw [tryWriteAllAux_accept hr]
        by_cases hn : Nat.min n rest.length = 0
        · simp only [if_pos hn]
        · simp only [if_neg hn]

theorem copyRest_zero (b : Settings) (total copied : Nat) (k : Sink) (s : BR) : copyRest b 0 total copied k s = (.hang, k, s) := by
  unfold copyRest tryReadBuf
  split <;> rfl

theorem copyRest_succ (b : Settings) (n total copied : Nat) (k : Sink) (s : BR) : copyRest b (n + 1) total copied k s = match s.readToBoundary with
    | (.err .interrupted, s) => copyRest b n total copied k s
    | (.err e, s) => (if total = 0 then .error e else .part total (.io e), k, s)
    | (.panic, s) => (.panic, k, s)
    | (.hang, s) => (.hang, k, s)
    | (.ok buf, s) =>
      if buf = [] then (.full total, k, s)
      else if b.sizeLimit < u64Max ∧ b.sizeLimit < Nat.min (copied + buf.length) u64Max then (.part total .sizeLimit, k, s.consume 0)
      else
        match tryWriteAll buf k with
        | (.full c, k) => copyRest b n (total + c) (Nat.min (copied + buf.length) u64Max) k (s.consume c)
        | (.part c r, k) => (.part (total + c) r, k, s.consume c)
        | (.error e, k) => (.part total (.io e), k, s)
        | (.panic, k) => (.panic, k, s)
        | (.hang, k) => (.hang, k, s) := by
  unfold copyRest
  by_cases hl : b.sizeLimit < u64Max
  · simp only [if_pos hl]
    rw [tryReadBuf]
    rcases s.readToBoundary with ⟨r, s1⟩
    cases r with
    | err e => cases e <;> rfl
    | panic => rfl
    | hang => rfl
    | ok buf =>
      simp only
      by_cases hb : buf = []
      · simp only [if_pos hb]
      · simp only [if_neg hb, limited, hl, true_and]
        by_cases hc : b.sizeLimit < Nat.min (copied + buf.length) u64Max
        · simp only [if_pos hc, Nat.add_zero]
        · simp only [if_neg hc]
          rcases tryWriteAll buf k with ⟨r, k'⟩
          cases r <;> rfl
  · simp only [if_neg hl]
    rw [tryReadBuf]
    rcases s.readToBoundary with ⟨r, s1⟩
    cases r with
    | err e => cases e <;> rfl
    | panic => rfl
    | hang => rfl
    | ok buf =>
      simp only
      by_cases hb : buf = []
      · simp only [if_pos hb]
      · simp only [if_neg hb, hl, false_and, if_false]
        rcases tryWriteAll buf k with ⟨r, k'⟩
        cases r <;> rfl

/-- One step, and then all others. -/
theorem Copying.finish_step (b : Settings) (fuel : Nat) (p : Path) (c : Copying) (k : Sink) (s : BR) : c.finish b fuel p k s = match c.step b fuel p k s with
    | (.inl r, k, s) => (r, k, s)
    | (.inr c, k, s) => c.finish b fuel p k s := by
  cases c with
  | first rest total =>
    have h := writeOnce_aux rest total k
    unfold Copying.step
    simp only
    unfold Copying.finish
    simp only
    rw [h]
    rcases writeOnce rest total k with ⟨r | ⟨rest', total'⟩, k'⟩
    · cases r <;> rfl
    · rfl
  | loop size n total copied =>
    cases n with
    | zero =>
      simp only [Copying.finish, Copying.step, copyRest_zero]
      rfl
    | succ n =>
      unfold Copying.step
      simp only
      rw [Copying.finish, copyRest_succ]
      rcases s.readToBoundary with ⟨r, s1⟩
      cases r with
      | err e =>
        cases e with
        | interrupted => rfl
        | _ =>
          simp only
          split <;> rfl
      | panic => rfl
      | hang => rfl
      | ok buf =>
        simp only
        by_cases hb : buf = []
        · simp only [if_pos hb]
          rfl
        · simp only [if_neg hb]
          by_cases hl : b.sizeLimit < u64Max ∧ b.sizeLimit < Nat.min (copied + buf.length) u64Max
          · simp only [if_pos hl]
            rfl
          · simp only [if_neg hl, Copying.finish, tryWriteAll]
            rcases tryWriteAllAux buf 0 k.got k.script with ⟨r, k'⟩
            cases r <;> rfl
  | chunk size n total copied rest c =>
    have h := writeOnce_aux rest c k
    unfold Copying.step
    simp only
    unfold Copying.finish
    simp only
    rw [h]
    rcases writeOnce rest c k with ⟨r | ⟨rest', total'⟩, k'⟩
    · cases r <;> rfl
    · rfl

/-! ## What the other threads do with the scripts -/

theorem writeOnce_local (rest : Bytes) (total : Nat) : SinkLocal (writeOnce rest total) := by
  intro k
  obtain ⟨script, got⟩ := k
  by_cases hr : rest = []
  · exact ⟨by simp [writeOnce, hr], [], by simp, fun sc => by simp [writeOnce, hr]⟩
  · have hpos : 0 < rest.length := List.length_pos_iff.mpr hr
    cases script with
    | nil =>
      refine ⟨by simp [writeOnce, hr], [.accept rest.length], fun x hx => .inr ⟨rest.length - 1, ?_⟩, fun sc => ?_⟩
      · rw [List.mem_singleton.mp hx]
        congr 1
        omega
      · have hm : Nat.min rest.length rest.length = rest.length := Nat.min_self _
        simp only [writeOnce, if_neg hr, List.cons_append, List.nil_append, hm, List.take_length, List.drop_length]
        rw [if_neg (by omega)]
    | cons ev script =>
      refine ⟨?_, [ev], fun x hx => .inl (by rw [List.mem_singleton.mp hx]; simp), fun sc => ?_⟩
      · simp only [writeOnce, if_neg hr]
        cases ev with
        | err e => cases e <;> exact List.subset_cons_self _ _
        | accept n => simp only; split <;> exact List.subset_cons_self _ _
      · simp only [writeOnce, if_neg hr, List.cons_append, List.nil_append]
        cases ev with
        | err e => cases e <;> rfl
        | accept n => simp only; split <;> rfl

theorem Copying.step_local (b : Settings) (fuel : Nat) (p : Path) (c : Copying) (s : BR) :
    SinkLocal fun k => (((c.step b fuel p k s).1, (c.step b fuel p k s).2.2), (c.step b fuel p k s).2.1) := by
  have hone : ∀ {α : Type} (rest : Bytes) (total : Nat) (f : Sink → α × Sink) (g : SaveRes Nat Nat ⊕ Bytes × Nat → α), (∀ k, f k = (g (writeOnce rest total k).1, (writeOnce rest total k).2)) → SinkLocal f := by
    intro α rest total f g h
    have := (writeOnce_local rest total).bind (g := fun x k => (g x, k)) fun x => .pure _
    rw [show f = fun k => (g (writeOnce rest total k).1, (writeOnce rest total k).2) from funext h]
    exact this
  have hpure : ∀ {α : Type} (f : Sink → α × Sink) (a : α), (∀ k, f k = (a, k)) → SinkLocal f := by
    intro α f a h
    rw [show f = fun k => (a, k) from funext h]
    exact .pure a
  cases c with
  | first rest total =>
    refine hone rest total _ (fun x => (match x with
      | .inr (rest, total) => .inr (.first rest total)
      | .inl (.full size) => .inr (.loop size fuel 0 0)
      | .inl r => .inl (r.map (fun size => SavedData.file p size)), s)) fun k => ?_
    unfold Copying.step
    simp only
    rcases writeOnce rest total k with ⟨r | ⟨rest', total'⟩, k'⟩
    · cases r <;> rfl
    · rfl
  | loop size n total copied =>
    cases n with
    | zero => exact hpure _ (.inl .hang, s) fun k => rfl
    | succ n =>
      rcases hrd : s.readToBoundary with ⟨r, s1⟩
      cases r with
      | err e =>
        cases e with
        | interrupted => exact hpure _ (.inr (.loop size n total copied), s1) fun k => by simp only [Copying.step, hrd]
        | _ => exact hpure _ (.inl (if total = 0 then .error _ else .part ((SavedData.file p size).addSize total) (.io _)), s1) fun k => by simp only [Copying.step, hrd]; rfl
      | panic => exact hpure _ (.inl .panic, s1) fun k => by simp only [Copying.step, hrd]
      | hang => exact hpure _ (.inl .hang, s1) fun k => by simp only [Copying.step, hrd]
      | ok buf =>
        by_cases hb : buf = []
        · exact hpure _ (.inl (.full ((SavedData.file p size).addSize total)), s1) fun k => by simp only [Copying.step, hrd, if_pos hb]
        · by_cases hl : b.sizeLimit < u64Max ∧ b.sizeLimit < Nat.min (copied + buf.length) u64Max
          · exact hpure _ (.inl (.part ((SavedData.file p size).addSize total) .sizeLimit), s1.consume 0) fun k => by simp only [Copying.step, hrd, if_neg hb, if_pos hl]
          · exact hpure _ (.inr (.chunk size n total (Nat.min (copied + buf.length) u64Max) buf 0), s1) fun k => by simp only [Copying.step, hrd, if_neg hb, if_neg hl]
  | chunk size n total copied rest c =>
    refine hone rest c _ (fun x => match x with
      | .inr (rest, c) => (.inr (.chunk size n total copied rest c), s)
      | .inl (.full c) => (.inr (.loop size n (total + c) copied), s.consume c)
      | .inl (.part c r) => (.inl (.part ((SavedData.file p size).addSize (total + c)) r), s.consume c)
      | .inl (.error e) => (.inl (.part ((SavedData.file p size).addSize total) (.io e)), s)
      | .inl .panic => (.inl .panic, s)
      | .inl .hang => (.inl .hang, s)) fun k => ?_
    unfold Copying.step
    simp only
    rcases writeOnce rest c k with ⟨r | ⟨rest', total'⟩, k'⟩
    · cases r <;> rfl
    · rfl

/-! ## The whole file -/

/-- The file was opened when it had the contents `old`, the bytes in memory were these, and the reader was `s0`; the steps since then got to `c`, `got` and `s`, and met these entries of the script. -/
def Copying.From (b : Settings) (fuel : Nat) (p : Path) (bytes : Bytes) (s0 : BR) (c : Copying) (got : Bytes) (s : BR) : Prop :=
  ∃ used : List WEv, ∀ rest, (Copying.first bytes 0).finish b fuel p { script := used ++ rest, got := [] } s0 = c.finish b fuel p { script := rest, got := got } s

theorem Copying.From.first (b : Settings) (fuel : Nat) (p : Path) (bytes : Bytes) (s0 : BR) : Copying.From b fuel p bytes s0 (.first bytes 0) [] s0 := ⟨[], fun _ => rfl⟩

theorem Copying.From.step {b : Settings} {fuel : Nat} {p : Path} {bytes : Bytes} {s0 s s' : BR} {c c' : Copying} {k k' : Sink} (h : Copying.From b fuel p bytes s0 c k.got s) (hs : c.step b fuel p k s = (.inr c', k', s')) :
    Copying.From b fuel p bytes s0 c' k'.got s' := by
  obtain ⟨used, h⟩ := h
  obtain ⟨-, u, -, hu⟩ := Copying.step_local b fuel p c s k
  refine ⟨used ++ u, fun rest => ?_⟩
  rw [List.append_assoc, h (u ++ rest), Copying.finish_step]
  have hu := hu rest
  simp only [hs, Prod.mk.injEq] at hu
  obtain ⟨⟨h1, h2⟩, h3⟩ := hu
  rw [show c.step b fuel p { script := u ++ rest, got := k.got } s = (.inr c', { script := rest, got := k'.got }, s') from Prod.ext h1 (Prod.ext h3 h2)]

theorem Copying.From.done {b : Settings} {fuel : Nat} {p : Path} {bytes : Bytes} {s0 s s' : BR} {c : Copying} {r : SaveRes SavedData SavedData} {k k' : Sink} (h : Copying.From b fuel p bytes s0 c k.got s)
    (hs : c.step b fuel p k s = (.inl r, k', s')) :
    ∃ used : List WEv, ∀ rest, (Copying.first bytes 0).finish b fuel p { script := used ++ rest, got := [] } s0 = (r, { script := rest, got := k'.got }, s') := by
  obtain ⟨used, h⟩ := h
  obtain ⟨-, u, -, hu⟩ := Copying.step_local b fuel p c s k
  refine ⟨used ++ u, fun rest => ?_⟩
  rw [List.append_assoc, h (u ++ rest), Copying.finish_step]
  have hu := hu rest
  simp only [hs, Prod.mk.injEq] at hu
  obtain ⟨⟨h1, h2⟩, h3⟩ := hu
  rw [show c.step b fuel p { script := u ++ rest, got := k.got } s = (.inl r, { script := rest, got := k'.got }, s') from Prod.ext h1 (Prod.ext h3 h2)]

/-- All steps together do what `with_path` does with the file. -/
theorem writeFile_finish (b : Settings) (fuel : Nat) (p : Path) (old bytes : Bytes) (w : World) (s : BR) : writeFile b fuel p old bytes w s =
    (((Copying.first bytes 0).finish b fuel p { script := w.writes, got := [] } s).1,
      { w with writes := ((Copying.first bytes 0).finish b fuel p { script := w.writes, got := [] } s).2.1.script }.setFile p (overlay b.openOpts old ((Copying.first bytes 0).finish b fuel p { script := w.writes, got := [] } s).2.1.got),
      ((Copying.first bytes 0).finish b fuel p { script := w.writes, got := [] } s).2.2) := by
  unfold writeFile Copying.finish tryWriteAll
  simp only
  rcases tryWriteAllAux bytes 0 [] w.writes with ⟨r, k⟩
  cases r <;> rfl

end Multipart

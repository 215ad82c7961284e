import Verif.Lemmas.Save
/-!
# What the save functions of one field do
-/
namespace Multipart

theorem TookAll.of {s s1 t : BR} {x : Bytes} (h : Took s x s1) (h' : s1.AtEof) (h'' : t = s1.readToBoundary.2) : TookAll s x t := by
  subst h''
  refine ⟨?_, s1, h, h', rfl⟩
  have := h.trans (Took.fill s1); rw [List.append_nil] at this; exact this

theorem TookAll.after {s t u : BR} {x y : Bytes} (h : Took s x t) (h' : TookAll t y u) : TookAll s (x ++ y) u :=
  let ⟨a, s1, b, c, d⟩ := h'
  ⟨h.trans a, s1, h.trans b, c, d⟩

/-- A stream error met while copying. -/
def StreamErr (s : BR) (e : IoErr) : Prop := Ev.err e ∈ s.evs ∧ e ≠ .interrupted

theorem StreamErr.after {s t : BR} {x : Bytes} {e : IoErr} (hi : s.Inv) (h : Took s x t) (h' : StreamErr t e) : StreamErr s e :=
  ⟨(h.evs hi).subset h'.1, h'.2⟩

/-! ## `save_mem` -/

inductive MemOut (s : BR) (acc0 : Bytes) (limit : Nat) (t : BR) : SaveRes Bytes Bytes → Prop
  | hang : MemOut s acc0 limit t .hang
  | full {taken : Bytes} : TookAll s taken t → Nat.min taken.length u64Max ≤ limit → MemOut s acc0 limit t (.full (acc0 ++ taken))
  | limit {taken more : Bytes} {t' : BR} : Took s taken t → Nat.min taken.length u64Max ≤ limit → Took s (taken ++ more) t' →
      limit < Nat.min (taken ++ more).length u64Max → MemOut s acc0 limit t (.part (acc0 ++ taken) .sizeLimit)
  | io {taken : Bytes} {e : IoErr} : Took s taken t → Nat.min taken.length u64Max ≤ limit → StreamErr s e → acc0 ++ taken ≠ [] →
      MemOut s acc0 limit t (.part (acc0 ++ taken) (.io e))
  | error {e : IoErr} : Took s [] t → acc0 = [] → StreamErr s e → MemOut s acc0 limit t (.error e)

theorem saveMem_spec (b : Settings) (fuel : Nat) (acc0 : Bytes) {s : BR} (hi : s.Inv) :
    MemOut s acc0 (b.memLimit acc0.length) (saveMem b fuel acc0 s).2 (saveMem b fuel acc0 s).1 := by
  have h := tryCopyLimited_exact (mem_stepOk acc0) (b.memLimit acc0.length) fuel (by intro st buf c h; simp [memStep] at h; exact h.symm) (st := acc0) (s := s) hi (by simp)
  unfold saveMem
  generalize tryCopyLimited memStep fuel (b.memLimit acc0.length) acc0 s = x at h ⊢
  rcases x with ⟨r, acc, t⟩
  simp only at h
  cases h with
  | hang => exact .hang
  | full h1 h2 h3 h4 h5 =>
    simp only; subst h4
    exact .full (TookAll.of h1 h2 h3) h5
  | @stop taken _ h1 h2 h3 h4 =>
    subst h2
    cases h4 with
    | limit g1 g2 g3 => exact .limit h1 h3 g2 g3
    | read g1 g2 g3 => exact .io h1 h3 ⟨g3, g2⟩ (by simp [g1])
    | error g1 g2 g3 =>
      subst g1
      simp only [List.append_nil]
      by_cases h0 : acc0 = []
      · simp only [h0, ne_eq, not_true, if_false]; exact .error h1 rfl ⟨g3, g2⟩
      · rw [if_pos h0]
        have := MemOut.io (acc0 := acc0) (limit := b.memLimit acc0.length) h1 h3 ⟨g3, g2⟩ (by simpa using h0)
        rw [List.append_nil] at this; exact this
    | stop g1 g2 g3 g4 g7 g5 g6 => simp [memStep] at g5
    | fail g1 g2 g3 g4 g5 => simp [memStep] at g5

/-! ## `save_text` -/

inductive TextOut (s : BR) (limit : Nat) (t : BR) : SaveRes Bytes Bytes → Prop
  | hang : TextOut s limit t .hang
  | full {taken : Bytes} : TookAll s taken t → IsUtf8 taken → Nat.min taken.length u64Max ≤ limit → TextOut s limit t (.full taken)
  | limit {taken : Bytes} : Took s taken t → IsUtf8 taken → Nat.min taken.length u64Max ≤ limit → (∃ more t', more ≠ [] ∧ Took s (taken ++ more) t') →
      TextOut s limit t (.part taken .sizeLimit)
  | utf8 {taken buf : Bytes} {t' : BR} : Took s taken t → IsUtf8 taken → Nat.min taken.length u64Max ≤ limit →
      Nat.min (taken ++ buf).length u64Max ≤ limit → ¬ IsUtf8 buf → buf.length < 4 →
      Took s (taken ++ buf) t' → TextOut s limit t (.part taken .utf8)
  | io {taken : Bytes} {e : IoErr} : Took s taken t → IsUtf8 taken → Nat.min taken.length u64Max ≤ limit → taken ≠ [] → StreamErr s e →
      TextOut s limit t (.part taken (.io e))
  | error {e : IoErr} : Took s [] t → StreamErr s e → TextOut s limit t (.error e)

theorem Took.shown {s s1 : BR} {x buf : Bytes} (hi : s.Inv) (h : Took s x s1) (h' : s1.readToBoundary.1 = .ok buf) : ∃ t, Took s (x ++ buf) t := by
  obtain ⟨buf', hb1, _, hb2⟩ := (BR.fill_cases (h.inv hi)).resolve_left (by rintro ⟨e, he, _⟩; rw [h'] at he; simp at he)
  rw [h'] at hb1
  simp only [Res.ok.injEq] at hb1
  subst hb1
  have := hb2 buf.length (Nat.le_refl _)
  rw [List.take_length] at this
  exact ⟨_, h.trans this⟩

theorem saveText_spec (b : Settings) (fuel : Nat) {s : BR} (hi : s.Inv) :
    TextOut s (b.memLimit 0) (saveText b fuel s).2 (saveText b fuel s).1 := by
  have h := tryCopyLimited_text text_stepOk (b.memLimit 0) fuel (st := []) (s := s) hi ⟨rfl, .nil⟩
  unfold saveText
  generalize tryCopyLimited textStep fuel (b.memLimit 0) [] s = x at h ⊢
  rcases x with ⟨r, acc, t⟩
  simp only at h
  cases h with
  | hang => exact .hang
  | full h1 h2 h3 h4 h5 =>
    simp only; obtain ⟨rfl, h4⟩ := h4
    exact .full (TookAll.of h1 h2 h3) h4 h5
  | @stop taken _ h1 h2 h3 h4 =>
    obtain ⟨rfl, h2⟩ := h2
    cases h4 with
    | limit g1 g2 g3 => exact .limit h1 h2 h3 ⟨_, _, g1, g2⟩
    | read g1 g2 g3 => exact .io h1 h2 h3 g1 ⟨g3, g2⟩
    | error g1 g2 g3 => subst g1; exact .error h1 ⟨g3, g2⟩
    | @stop taken1 buf st1 s1 c r g1 g2 g3 g4 g7 g5 g6 =>
      unfold textStep at g5
      split at g5
      · simp at g5
      · rename_i hv
        split at g5
        · rename_i hl
          simp only [Prod.mk.injEq, SaveRes.part.injEq] at g5
          obtain ⟨⟨rfl, rfl⟩, g5⟩ := g5
          rw [List.take_zero, List.append_nil] at g6
          subst g6
          obtain ⟨t', ht'⟩ := g2.shown hi g3
          exact .utf8 h1 h2 h3 g7 (fun h => hv ((utf8Valid_iff _).mpr h)) hl ht'
        · simp at g5
    | fail g1 g2 g3 g4 g5 =>
      unfold textStep at g5
      split at g5
      · simp at g5
      · split at g5 <;> simp at g5

/-! ## `write_to` -/

/-- A failure of the destination. -/
def SinkErr (w : Sink) (e : IoErr) : Prop := ∃ ev ∈ w.script, ev.FailsWith e

theorem fails_of_suffix {l l' : List WEv} (h : l <:+ l') {e : IoErr} : (∃ ev ∈ l, ev.FailsWith e) → ∃ ev ∈ l', ev.FailsWith e :=
  fun ⟨x, h1, h2⟩ => ⟨x, h.subset h1, h2⟩

inductive WriteOut (s : BR) (w : Sink) (limit : Nat) (w' : Sink) (t : BR) : SaveRes Nat Nat → Prop
  | hang : WriteOut s w limit w' t .hang
  | full {taken : Bytes} : TookAll s taken t → Received w w' taken → (limit < u64Max → taken.length ≤ limit) → WriteOut s w limit w' t (.full taken.length)
  | limit {taken : Bytes} : Took s taken t → Received w w' taken → taken.length ≤ limit → limit < u64Max → Beyond s taken limit →
      WriteOut s w limit w' t (.part taken.length .sizeLimit)
  | io {taken : Bytes} {e : IoErr} : Took s taken t → Received w w' taken → (limit < u64Max → taken.length ≤ limit) → (StreamErr s e ∨ SinkErr w e) →
      WriteOut s w limit w' t (.part taken.length (.io e))
  | error {e : IoErr} : Took s [] t → Received w w' [] → StreamErr s e → WriteOut s w limit w' t (.error e)

theorem writeTo_spec (b : Settings) (fuel : Nat) (w : Sink) {s : BR} (hi : s.Inv) :
    WriteOut s w b.sizeLimit (writeTo b fuel w s).2.1 (writeTo b fuel w s).2.2 (writeTo b fuel w s).1 := by
  have hR : Received w w [] := ⟨by simp, List.suffix_refl _⟩
  have part : ∀ {w1 w' : Sink} {taken1 buf : Bytes} {c : Nat} {r : Reason}, Received w w1 taken1 → tryWriteAll buf w1 = (.part c r, w') → ∃ e, r = .io e ∧ SinkErr w e := by
    intro w1 w' taken1 buf c r hR h
    obtain ⟨k, h1, h2, h3⟩ := tryWriteAll_spec buf w1
    rw [h] at h3
    simp only [SaveRes.part.injEq, reduceCtorEq, false_and, exists_false, or_false, false_or] at h3
    obtain ⟨e, ⟨rfl, rfl⟩, _, _, h3⟩ := h3
    exact ⟨e, rfl, fails_of_suffix hR.2 h3⟩
  have error : ∀ {w1 w' : Sink} {taken1 buf : Bytes} {e : IoErr}, Received w w1 taken1 → tryWriteAll buf w1 = (.error e, w') → SinkErr w e := by
    intro w1 w' taken1 buf e hR h
    obtain ⟨k, h1, h2, h3⟩ := tryWriteAll_spec buf w1
    rw [h] at h3
    simp only [SaveRes.error.injEq, reduceCtorEq, false_and, exists_false, false_or] at h3
    obtain ⟨e, rfl, _, _, h3⟩ := h3
    exact fails_of_suffix hR.2 h3
  unfold writeTo
  by_cases hl : b.sizeLimit < u64Max
  · rw [if_pos hl]
    have h := tryCopyLimited_exact (write_stepOk w) b.sizeLimit fuel (fun w buf c => write_exact w buf c) (st := w) (s := s) hi hR
    generalize tryCopyLimited (fun w buf => tryWriteAll buf w) fuel b.sizeLimit w s = x at h ⊢
    rcases x with ⟨r, w', t⟩
    simp only at h ⊢
    have hm : ∀ {n}, Nat.min n u64Max ≤ b.sizeLimit → n ≤ b.sizeLimit := by
      intro n h; simp only [Nat.min_def] at h; split at h <;> omega
    cases h with
    | hang => exact .hang
    | full h1 h2 h3 h4 h5 => exact .full (TookAll.of h1 h2 h3) h4 (fun _ => hm h5)
    | stop h1 h2 h3 h4 =>
      cases h4 with
      | limit g1 g2 g3 => exact .limit h1 h2 (hm h3) hl ⟨_, _, g2, Nat.lt_of_lt_of_le g3 (Nat.min_le_left _ _)⟩
      | read g1 g2 g3 => exact .io h1 h2 (fun _ => hm h3) (.inl ⟨g3, g2⟩)
      | error g1 g2 g3 => subst g1; exact .error h1 h2 ⟨g3, g2⟩
      | stop g1 g2 g3 g4 g7 g5 g6 => obtain ⟨e, rfl, he⟩ := part g4 g5; exact .io h1 h2 (fun _ => hm h3) (.inr he)
      | fail g1 g2 g3 g4 g5 => exact .io h1 h2 (fun _ => hm h3) (.inr (error g4 g5))
  · rw [if_neg hl]
    have h := tryReadBuf_spec (write_stepOk w) fuel [] w s hi hR
    rw [List.length_nil] at h
    generalize tryReadBuf (fun w buf => tryWriteAll buf w) fuel 0 w s = x at h ⊢
    rcases x with ⟨r, w', t⟩
    simp only at h ⊢
    cases h with
    | hang => exact .hang
    | full h1 h2 h3 h4 => exact .full (TookAll.of h1 h2 h3) h4 (fun h => absurd h hl)
    | stop h1 h2 h3 =>
      cases h3 with
      | error g1 g2 g3 => rw [List.nil_append] at g3; subst g3; exact .error h1 h2 ⟨g2, g1⟩
      | read g1 g2 g3 => exact .io h1 h2 (fun h => absurd h hl) (.inl ⟨g2, g1⟩)
      | stop g1 g2 g3 g4 g5 g6 => obtain ⟨e, rfl, he⟩ := part g2 g5; exact .io h1 h2 (fun h => absurd h hl) (.inr he)
      | fail g1 g2 g3 g4 g5 => exact .io h1 h2 (fun h => absurd h hl) (.inr (error g2 g5))

/-! ## The file part of `with_path` -/

theorem World.createDirAll_same (w : World) (p : Path) : (w.createDirAll p).2.files = w.files ∧ (w.createDirAll p).2.writes = w.writes ∧
    (w.createDirAll p).2.names = w.names := by
  unfold World.createDirAll; split <;> simp

theorem World.openFile_same (w : World) (o : OpenOpts) (p : Path) : (w.openFile o p).2.files = w.files ∧ (w.openFile o p).2.writes = w.writes ∧
    (w.openFile o p).2.names = w.names := by
  unfold World.openFile
  split
  · simp
  split
  · simp
  · simp only
    split <;> split <;> simp

theorem OpenOpts.valid_of (o : OpenOpts) (h : ¬ (!o.write && !o.append || o.append && o.truncate && !o.createNew) = true) : o.Valid := by
  obtain ⟨w, a, t, c, n⟩ := o
  revert h; unfold OpenOpts.Valid; cases w <;> cases a <;> cases t <;> cases n <;> simp

theorem OpenOpts.not_valid_of (o : OpenOpts) (h : (!o.write && !o.append || o.append && o.truncate && !o.createNew) = true) : ¬ o.Valid := by
  obtain ⟨w, a, t, c, n⟩ := o
  revert h; unfold OpenOpts.Valid; cases w <;> cases a <;> cases t <;> cases n <;> simp

/-- The file at `p` was opened and then had contents `old`. -/
inductive Opened (w : World) (o : OpenOpts) (p : Path) : Bytes → Prop
  | new : w.files p = none → o.createNew = true ∨ o.create = true → o.Valid → Opened w o p []
  | old {c : Bytes} : w.files p = some c → o.createNew = false → o.Valid → Opened w o p (if o.truncate then [] else c)

theorem World.openFile_opened {w w' : World} {o : OpenOpts} {p : Path} {old : Bytes} (h : w.openFile o p = (.ok old, w')) : Opened w o p old := by
  unfold World.openFile at h
  split at h
  · simp at h
  rename_i hv
  have hv := o.valid_of hv
  split at h
  · simp at h
  · simp only at h
    split at h
    · rename_i c hc
      split at h
      · simp at h
      · rename_i hn
        simp only [Prod.mk.injEq, Except.ok.injEq] at h
        rw [← h.1]
        exact .old hc (by simpa using hn) hv
    · rename_i hc
      split at h
      · rename_i hn
        simp only [Prod.mk.injEq, Except.ok.injEq] at h
        rw [← h.1]
        exact .new hc hn hv
      · simp at h

/-- The file `p` cannot be opened: `create_dir_all` or `open` fails, or the options do not allow it. -/
def OpenFails (w : World) (o : OpenOpts) (p : Path) (e : IoErr) : Prop := some e ∈ w.mkdirs ∨ some e ∈ w.opens ∨ OpenRefused w o p e

theorem World.openFile_error {w w' : World} {o : OpenOpts} {p : Path} {e : IoErr} (h : w.openFile o p = (.error e, w')) : OpenFails w o p e := by
  unfold World.openFile at h
  split at h
  · rename_i hv
    simp only [Prod.mk.injEq, Except.error.injEq] at h
    rw [← h.1]
    exact .inr (.inr (.invalid (o.not_valid_of hv)))
  rename_i hv
  have hv := o.valid_of hv
  split at h
  · rename_i e' r heq
    simp only [Prod.mk.injEq, Except.error.injEq] at h
    exact .inr (.inl (by rw [heq, ← h.1]; simp))
  · simp only at h
    split at h
    · rename_i c hc
      split at h
      · rename_i hn
        simp only [Prod.mk.injEq, Except.error.injEq] at h
        rw [← h.1]
        exact .inr (.inr (.exists hv (by rw [hc]; simp) hn))
      · simp at h
    · rename_i hc
      split at h
      · simp at h
      · rename_i hn
        simp only [not_or, Bool.not_eq_true] at hn
        simp only [Prod.mk.injEq, Except.error.injEq] at h
        rw [← h.1]
        exact .inr (.inr (.missing hv hc hn.1 hn.2))

theorem World.createDirAll_error {w w' : World} {p : Path} {e : IoErr} (h : w.createDirAll p = (some e, w')) : some e ∈ w.mkdirs := by
  unfold World.createDirAll at h
  split at h
  · simp at h
  · simp only [Prod.mk.injEq] at h
    cases hm : w.mkdirs with
    | nil => rw [hm] at h; simp at h
    | cons x r => rw [hm] at h; simp at h; rw [h.1]; simp

theorem World.createDirAll_opens (w : World) (p : Path) : (w.createDirAll p).2.opens = w.opens ∧ (w.createDirAll p).2.mkdirs <:+ w.mkdirs := by
  unfold World.createDirAll
  split
  · exact ⟨rfl, List.suffix_refl _⟩
  · exact ⟨rfl, List.tail_suffix _⟩

/-- The file `p` has the contents `c`, all others are as in `w`. -/
def OnlyFile (w w' : World) (p : Path) (c : Bytes) : Prop := w'.files = fun q => if q = p then some c else w.files q

inductive FileOut (b : Settings) (p : Path) (bytes : Bytes) (w : World) (s : BR) (w' : World) (t : BR) : SaveRes SavedData SavedData → Prop
  | hang {old c : Bytes} : Opened w b.openOpts p old → OnlyFile w w' p (overlay b.openOpts old c) → FileOut b p bytes w s w' t .hang
  /-- the file could not be created -/
  | noFile {e : IoErr} : t = s → w'.files = w.files → OpenFails w b.openOpts p e → FileOut b p bytes w s w' t (.error e)
  /-- what was in memory could not be written -/
  | cut {old : Bytes} {k : Nat} {e : IoErr} : t = s → Opened w b.openOpts p old → k < bytes.length → 0 < k → (∃ ev ∈ w.writes, ev.FailsWith e) →
      OnlyFile w w' p (overlay b.openOpts old (bytes.take k)) → FileOut b p bytes w s w' t (.part (.file p k) (.io e))
  | cut0 {old : Bytes} {e : IoErr} : t = s → Opened w b.openOpts p old → bytes ≠ [] → (∃ ev ∈ w.writes, ev.FailsWith e) →
      OnlyFile w w' p (overlay b.openOpts old []) → FileOut b p bytes w s w' t (.error e)
  | full {old taken : Bytes} : TookAll s taken t → Opened w b.openOpts p old → OnlyFile w w' p (overlay b.openOpts old (bytes ++ taken)) →
      (b.sizeLimit < u64Max → taken.length ≤ b.sizeLimit) →
      FileOut b p bytes w s w' t (.full (.file p (Nat.min (bytes ++ taken).length u64Max)))
  | part {old taken : Bytes} {r : Reason} : Took s taken t → Opened w b.openOpts p old → OnlyFile w w' p (overlay b.openOpts old (bytes ++ taken)) →
      (b.sizeLimit < u64Max → taken.length ≤ b.sizeLimit) →
      ((r = .sizeLimit ∧ Beyond s taken b.sizeLimit) ∨ ∃ e, r = .io e ∧ (StreamErr s e ∨ ∃ ev ∈ w.writes, ev.FailsWith e)) →
      FileOut b p bytes w s w' t (.part (.file p (Nat.min (bytes ++ taken).length u64Max)) r)
  /-- a read failed directly after what was in memory was written -/
  | error {old : Bytes} {e : IoErr} : Took s [] t → Opened w b.openOpts p old → OnlyFile w w' p (overlay b.openOpts old bytes) → StreamErr s e →
      FileOut b p bytes w s w' t (.error e)

theorem saveFile_spec (b : Settings) (fuel : Nat) (p : Path) (bytes : Bytes) (w : World) {s : BR} (hi : s.Inv) :
    FileOut b p bytes w s (saveFile b fuel p bytes w s).2.1 (saveFile b fuel p bytes w s).2.2 (saveFile b fuel p bytes w s).1 := by
  unfold saveFile
  have hd := w.createDirAll_same p
  have hdo := w.createDirAll_opens p
  have hde := fun e w' => World.createDirAll_error (w := w) (w' := w') (p := p) (e := e)
  generalize w.createDirAll p = x at hd hdo hde ⊢
  rcases x with ⟨_ | e, w1⟩
  · simp only at hd hdo ⊢
    have ho := w1.openFile_same b.openOpts p
    rcases hopen : w1.openFile b.openOpts p with ⟨e | old, w2⟩
    · rw [hopen] at ho
      refine .noFile rfl (ho.1.trans hd.1) ?_
      rcases World.openFile_error hopen with h | h | h
      · exact .inl (hdo.2.subset h)
      · exact .inr (.inl (hdo.1 ▸ h))
      · refine .inr (.inr ?_)
        cases h with
        | «exists» h1 h2 h3 => exact .exists h1 (hd.1 ▸ h2) h3
        | missing h1 h2 h3 h4 => exact .missing h1 (hd.1 ▸ h2) h3 h4
        | invalid h => exact .invalid h
    · have hop := World.openFile_opened hopen
      rw [hopen] at ho
      simp only at ho ⊢
      have hof : Opened w b.openOpts p old := by
        cases hop with
        | new h h' hv => exact .new (by rw [← hd.1]; exact h) h' hv
        | old h h' hv => exact .old (by rw [← hd.1]; exact h) h' hv
      have hw : w2.writes = w.writes := ho.2.1.trans hd.2.1
      have hfiles : ∀ (l : List WEv) (c : Bytes), OnlyFile w ({ w2 with writes := l }.setFile p c) p c := by
        intro l c; unfold OnlyFile World.setFile; simp only; rw [ho.1, hd.1]
      obtain ⟨k, k1, k2, k3⟩ := tryWriteAll_spec bytes { script := w2.writes, got := [] }
      have hks := tryWriteAll_script bytes { script := w2.writes, got := [] }
      rcases htw : tryWriteAll bytes { script := w2.writes, got := [] } with ⟨r, sk⟩
      rw [htw] at k2 k3 hks
      simp only [List.nil_append] at k2 k3 hks
      rcases k3 with ⟨rfl, rfl⟩ | ⟨e, rfl, h0, h1, h2⟩ | ⟨e, rfl, h0, h1, h2⟩
      · simp only
        rw [List.take_length] at k2
        have hwr := writeTo_spec b fuel sk hi
        generalize writeTo b fuel sk s = x at hwr ⊢
        rcases x with ⟨r, sk', t⟩
        simp only at hwr ⊢
        have hsz : ∀ n, (SavedData.file p bytes.length).addSize n = .file p (Nat.min (bytes.length + n) u64Max) := fun _ => rfl
        have hgot : ∀ {taken}, Received sk sk' taken → sk'.got = bytes ++ taken := by intro taken h; rw [h.1, k2]
        have hse : ∀ {e}, SinkErr sk e → ∃ ev ∈ w.writes, ev.FailsWith e := by
          intro e h; exact hw ▸ fails_of_suffix hks h
        cases hwr with
        | hang => exact .hang hof (hfiles _ _)
        | full h1 h2 h3 =>
          simp only [SaveRes.map, hsz]
          rw [hgot h2, ← List.length_append]
          exact .full h1 hof (hfiles _ _) h3
        | limit h1 h2 h3 h4 h5 =>
          simp only [SaveRes.map, hsz]
          rw [hgot h2, ← List.length_append]
          exact .part h1 hof (hfiles _ _) (fun _ => h3) (.inl ⟨rfl, h5⟩)
        | io h1 h2 h3 h4 =>
          simp only [SaveRes.map, hsz]
          rw [hgot h2, ← List.length_append]
          exact .part h1 hof (hfiles _ _) h3 (.inr ⟨_, rfl, h4.imp_right hse⟩)
        | error h1 h2 h3 =>
          simp only [SaveRes.map]
          rw [hgot h2, List.append_nil]
          exact .error h1 hof (hfiles _ _) h3
      · simp only [SaveRes.map]
        rw [k2]
        exact .cut rfl hof h1 h0 (hw ▸ h2) (hfiles _ _)
      · simp only [SaveRes.map]
        subst h0
        rw [k2, List.take_zero]
        exact .cut0 rfl hof (List.length_pos_iff.mp h1) (hw ▸ h2) (hfiles _ _)
  · exact .noFile rfl hd.1 (.inl (hde e w1 rfl))

/-! ## `with_path` -/

inductive PathOut (b : Settings) (p : Path) (w : World) (s : BR) (w' : World) (t : BR) : SaveRes SavedData SavedData → Prop
  | hang : w' = w → PathOut b p w s w' t .hang
  | text {taken : Bytes} : w' = w → TookAll s taken t → IsUtf8 taken → b.textPolicy ≠ .ignore → Nat.min taken.length u64Max ≤ b.memLimit 0 →
      PathOut b p w s w' t (.full (.text taken))
  | bytes {taken : Bytes} : w' = w → TookAll s taken t → Nat.min taken.length u64Max ≤ b.memLimit 0 → PathOut b p w s w' t (.full (.bytes taken))
  | partText {taken : Bytes} {r : Reason} : w' = w → Took s taken t → IsUtf8 taken → b.textPolicy ≠ .ignore → Nat.min taken.length u64Max ≤ b.memLimit 0 →
      ((r = .sizeLimit ∧ b.sizeLimit ≤ taken.length ∧ ∃ more t', more ≠ [] ∧ Took s (taken ++ more) t') ∨ (∃ e, r = .io e ∧ taken ≠ [] ∧ StreamErr s e) ∨
       (r = .utf8 ∧ b.textPolicy = .force ∧ ∃ buf t', Nat.min (taken ++ buf).length u64Max ≤ b.memLimit 0 ∧ ¬ IsUtf8 buf ∧ buf.length < 4 ∧ Took s (taken ++ buf) t')) →
      PathOut b p w s w' t (.part (.text taken) r)
  | partBytes {taken : Bytes} {r : Reason} : w' = w → Took s taken t → Nat.min taken.length u64Max ≤ b.memLimit 0 →
      ((r = .sizeLimit ∧ b.sizeLimit ≤ taken.length ∧ Beyond s taken (b.memLimit 0)) ∨ (∃ e, r = .io e ∧ taken ≠ [] ∧ StreamErr s e)) →
      PathOut b p w s w' t (.part (.bytes taken) r)
  | error {e : IoErr} : w' = w → Took s [] t → StreamErr s e → PathOut b p w s w' t (.error e)
  | file {bytes : Bytes} {s1 : BR} {r : SaveRes SavedData SavedData} : Took s bytes s1 → Nat.min bytes.length u64Max ≤ b.memLimit 0 →
      bytes.length < b.sizeLimit → Beyond s bytes (b.memLimit 0) → FileOut b p bytes w s1 w' t r → PathOut b p w s w' t r

theorem memLimit_sub (b : Settings) (n : Nat) : b.memLimit n = b.memLimit 0 - n := by simp [Settings.memLimit]

theorem withPathMem_spec (b : Settings) (fuel : Nat) (p : Path) (w : World) {s s0 : BR} {acc0 : Bytes} (hi : s0.Inv) (h0 : Took s0 acc0 s)
    (hb : Nat.min acc0.length u64Max ≤ b.memLimit 0) :
    PathOut b p w s0 (withPathMem b fuel p acc0 w s).2.1 (withPathMem b fuel p acc0 w s).2.2 (withPathMem b fuel p acc0 w s).1 := by
  have hm := saveMem_spec b fuel acc0 (h0.inv hi)
  rw [memLimit_sub] at hm
  unfold withPathMem
  generalize saveMem b fuel acc0 s = x at hm ⊢
  rcases x with ⟨r, t⟩
  simp only at hm ⊢
  have hle : ∀ {taken : Bytes}, Nat.min taken.length u64Max ≤ b.memLimit 0 - acc0.length → Nat.min (acc0 ++ taken).length u64Max ≤ b.memLimit 0 := by
    intro taken h
    rw [List.length_append]
    simp only [Nat.min_def] at hb h ⊢
    repeat' split at h
    all_goals repeat' split at hb
    all_goals split
    all_goals omega
  cases hm with
  | hang => exact .hang rfl
  | full h1 h2 => exact .bytes rfl (TookAll.after h0 h1) (hle h2)
  | @limit taken more t' h1 h2 h3 h4 =>
    simp only
    have hbey : Beyond s0 (acc0 ++ taken) (b.memLimit 0) := by
      refine ⟨more, _, by rw [List.append_assoc]; exact h0.trans h3, ?_⟩
      have : b.memLimit 0 - acc0.length < (taken ++ more).length := Nat.lt_of_lt_of_le h4 (Nat.min_le_left _ _)
      rw [List.append_assoc, List.length_append]; omega
    by_cases hc : b.cmpSizeLimit (acc0 ++ taken).length = false
    · rw [if_pos ⟨trivial, hc⟩]
      have ht := h0.trans h1
      refine .file ht (hle h2) ?_ hbey (saveFile_spec b fuel p (acc0 ++ taken) w (ht.inv hi))
      simpa [Settings.cmpSizeLimit] using hc
    · rw [if_neg (fun h => hc h.2)]
      refine .partBytes rfl (h0.trans h1) (hle h2) (.inl ⟨rfl, ?_, hbey⟩)
      simpa [Settings.cmpSizeLimit] using hc
  | io h1 h2 h3 h4 =>
    simp only
    rw [if_neg (by simp)]
    exact .partBytes rfl (h0.trans h1) (hle h2) (.inr ⟨_, rfl, h4, h3.after hi h0⟩)
  | error h1 h2 h3 =>
    subst h2
    exact .error rfl (h0.trans h1) (h3.after hi h0)

theorem withPath_spec (b : Settings) (fuel : Nat) (p : Path) (w : World) {s : BR} (hi : s.Inv) :
    PathOut b p w s (withPath b fuel p w s).2.1 (withPath b fuel p w s).2.2 (withPath b fuel p w s).1 := by
  unfold withPath
  by_cases hp : b.textPolicy ≠ .ignore
  · rw [if_pos hp]
    have ht := saveText_spec b fuel hi
    generalize saveText b fuel s = x at ht ⊢
    rcases x with ⟨r, t⟩
    simp only at ht ⊢
    cases ht with
    | hang => exact .hang rfl
    | full h1 h2 h3 => exact .text rfl h1 h2 hp h3
    | @limit taken h1 h2 h3 h4 =>
      simp only
      by_cases hc : b.cmpSizeLimit taken.length = false
      · rw [if_pos (.inl ⟨trivial, hc⟩)]
        exact withPathMem_spec b fuel p w hi h1 h3
      · rw [if_neg (by simp [hc])]
        exact .partText rfl h1 h2 hp h3 (.inl ⟨rfl, by simpa [Settings.cmpSizeLimit] using hc, h4⟩)
    | @utf8 taken _ _ h1 h2 h3 h7 h4 h5 h6 =>
      simp only
      by_cases hf : b.textPolicy ≠ .force
      · rw [if_pos (.inr ⟨trivial, hf⟩)]
        exact withPathMem_spec b fuel p w hi h1 h3
      · rw [if_neg (by simp [hf])]
        exact .partText rfl h1 h2 hp h3 (.inr (.inr ⟨rfl, Decidable.not_not.mp hf, _, _, h7, h4, h5, h6⟩))
    | io h1 h2 h3 h4 h5 =>
      simp only
      rw [if_neg (by simp)]
      exact .partText rfl h1 h2 hp h3 (.inr (.inl ⟨_, rfl, h4, h5⟩))
    | error h1 h2 => exact .error rfl h1 h2
  · rw [if_neg hp]
    exact withPathMem_spec b fuel p w hi (Took.refl s) (by simp)

/-! ## Termination -/

/-- The fuel that is always enough: bytes and events still to come, and `extra`. -/
def BR.enough (s : BR) (extra : Nat) : Nat := s.unread.length + s.evs.length + extra

theorem Took.enough {s t : BR} {x : Bytes} (hi : s.Inv) (h : Took s x t) (k : Nat) : t.enough k ≤ s.enough k := by
  have h1 := congrArg List.length (h.unread hi)
  have h2 := (h.evs hi).length_le
  rw [List.length_append] at h1
  unfold BR.enough; omega

theorem tryCopyLimited_ends {σ : Type} {f : σ → Bytes → SaveRes Nat Nat × σ} {s : BR} (hi : s.Inv) (hx : ∀ st buf c, (f st buf).1 = .full c → c = buf.length)
    (hh : ∀ st buf, (f st buf).1 ≠ .hang) {fuel limit : Nat} (st : σ) (hf : s.enough 0 < fuel) : (tryCopyLimited f fuel limit st s).1 ≠ .hang := by
  unfold tryCopyLimited
  refine tryReadBuf_ends (I := fun _ _ => True) (μ := fun _ => 0) hi ?_ fuel 0 [] (0, st) s (Took.refl s) trivial hf
  intro st taken buf s1 _ _ hb _
  unfold limited
  simp only
  split
  · simp
  · refine ⟨hh _ _, fun c h => ?_⟩
    have := hx _ _ _ h
    subst this
    exact ⟨Nat.le_refl _, trivial, .inr ⟨List.length_pos_iff.mpr hb, Nat.le_refl _⟩⟩

theorem saveMem_ends (b : Settings) {fuel : Nat} (acc : Bytes) {s : BR} (hi : s.Inv) (hf : s.enough 0 < fuel) : (saveMem b fuel acc s).1 ≠ .hang := by
  have h := tryCopyLimited_ends hi (f := memStep) (by intro st buf c h; simp [memStep] at h; exact h.symm) (by intro st buf; simp [memStep]) (limit := b.memLimit acc.length) acc hf
  unfold saveMem
  generalize tryCopyLimited memStep fuel (b.memLimit acc.length) acc s = x at h ⊢
  obtain ⟨_ | _ | _ | _ | _, acc', t⟩ := x <;> simp at h ⊢
  split <;> simp

theorem tryWriteAll_ne_hang (buf : Bytes) (w : Sink) : (tryWriteAll buf w).1 ≠ .hang ∧ (tryWriteAll buf w).1 ≠ .panic := by
  obtain ⟨k, h1, h2, ⟨h3, _⟩ | ⟨e, h3, _⟩ | ⟨e, h3, _⟩⟩ := tryWriteAll_spec buf w <;> rw [h3] <;> simp

theorem writeTo_ends (b : Settings) {fuel : Nat} (w : Sink) {s : BR} (hi : s.Inv) (hf : s.enough 0 < fuel) : (writeTo b fuel w s).1 ≠ .hang := by
  unfold writeTo
  split
  · exact tryCopyLimited_ends hi (fun w buf c => write_exact w buf c) (fun w buf => (tryWriteAll_ne_hang buf w).1) w hf
  · refine tryReadBuf_ends (I := fun _ _ => True) (μ := fun _ => 0) hi ?_ fuel 0 [] w s (Took.refl s) trivial hf
    intro st taken buf s1 _ _ hb _
    refine ⟨(tryWriteAll_ne_hang buf st).1, fun c h => ?_⟩
    have := write_exact _ _ _ h
    subst this
    exact ⟨Nat.le_refl _, trivial, .inr ⟨List.length_pos_iff.mpr hb, Nat.le_refl _⟩⟩

theorem saveFile_ends (b : Settings) {fuel : Nat} (p : Path) (bytes : Bytes) (w : World) {s : BR} (hi : s.Inv) (hf : s.enough 0 < fuel) :
    (saveFile b fuel p bytes w s).1 ≠ .hang := by
  unfold saveFile
  rcases w.createDirAll p with ⟨_ | e, w1⟩
  · simp only
    rcases w1.openFile b.openOpts p with ⟨e | old, w2⟩
    · simp
    · simp only
      have hw := tryWriteAll_ne_hang bytes { script := w2.writes, got := [] }
      generalize tryWriteAll bytes { script := w2.writes, got := [] } = x at hw ⊢
      obtain ⟨_ | _ | _ | _ | _, k⟩ := x <;> simp [SaveRes.map] at hw ⊢
      have hr := writeTo_ends b k hi hf
      generalize writeTo b fuel k s = y at hr ⊢
      obtain ⟨_ | _ | _ | _ | _, k', t⟩ := y <;> simp at hr ⊢
  · simp

theorem withPathMem_ends (b : Settings) {fuel : Nat} (p : Path) (acc : Bytes) (w : World) {s : BR} (hi : s.Inv) (hf : s.enough 0 < fuel) :
    (withPathMem b fuel p acc w s).1 ≠ .hang := by
  have h := saveMem_ends b acc hi hf
  have hs := saveMem_spec b fuel acc hi
  unfold withPathMem
  generalize saveMem b fuel acc s = x at h hs ⊢
  obtain ⟨r, t⟩ := x
  simp only at h hs ⊢
  cases hs with
  | hang => exact absurd rfl h
  | full _ _ => simp
  | limit h1 _ _ _ =>
    simp only
    split
    · exact saveFile_ends b p _ w (h1.inv hi) (Nat.lt_of_le_of_lt (h1.enough hi 0) hf)
    · simp
  | io _ _ _ _ => simp
  | error _ _ _ => simp

/-- `save_text` ends: because the limit is less than `u64::MAX`, or because the field is text. -/
theorem saveText_ends (b : Settings) {fuel : Nat} {s : BR} (hi : s.Inv) (hf : s.enough (b.memLimit 0) < fuel)
    (h : b.memLimit 0 < u64Max ∨ ∀ x y s1, Took s x s1 → IsUtf8 x → s1.readToBoundary.1 = .ok y → y ≠ [] → 0 < validUpTo y ∨ y.length < 4) :
    (saveText b fuel s).1 ≠ .hang := by
  have key : (tryCopyLimited textStep fuel (b.memLimit 0) [] s).1 ≠ .hang := by
    unfold tryCopyLimited
    refine tryReadBuf_ends (I := fun st taken => (st.1 ≤ b.memLimit 0 ∧ st.1 ≤ u64Max) ∧ st.2 = taken ∧ IsUtf8 taken) (μ := fun st => b.memLimit 0 - st.1) hi ?_ fuel 0 [] (0, []) s (Took.refl s)
      ⟨⟨Nat.zero_le _, Nat.zero_le _⟩, rfl, .nil⟩ hf
    intro st taken buf s1 h1 h2 hb ⟨hI, hP⟩
    have hpos := List.length_pos_iff.mpr hb
    unfold limited
    simp only
    split
    · simp
    · rename_i hl
      refine ⟨(text_stepOk.safe st.2 taken buf hb hP).2, fun c hc => ?_⟩
      simp only at hc ⊢
      obtain ⟨g1, g2⟩ := text_stepOk.full st.2 taken buf c hb hP hc
      refine ⟨g1, ⟨⟨by omega, Nat.min_le_right _ _⟩, g2⟩, ?_⟩
      rcases h with h | h
      · left
        simp only [Nat.min_def] at hl ⊢
        split at hl <;> split <;> omega
      · right
        refine ⟨?_, ?_⟩
        · unfold textStep at hc
          split at hc
          · simp at hc; omega
          · split at hc
            · simp at hc
            · simp at hc
              rcases h taken buf s1 h1 hP.2 h2 hb with h | h <;> omega
        · have : st.1 ≤ Nat.min (st.1 + buf.length) u64Max := by
            simp only [Nat.min_def]; split <;> omega
          omega
  unfold saveText
  generalize tryCopyLimited textStep fuel (b.memLimit 0) [] s = x at key ⊢
  obtain ⟨_ | _ | _ | _ | _, acc', t⟩ := x <;> simp at key ⊢

theorem withPath_ends (b : Settings) {fuel : Nat} (p : Path) (w : World) {s : BR} (hi : s.Inv) (hf : s.enough (b.memLimit 0) < fuel)
    (h : b.textPolicy = .ignore ∨ b.memLimit 0 < u64Max ∨
      ∀ x y s1, Took s x s1 → IsUtf8 x → s1.readToBoundary.1 = .ok y → y ≠ [] → 0 < validUpTo y ∨ y.length < 4) :
    (withPath b fuel p w s).1 ≠ .hang := by
  have hf0 : s.enough 0 < fuel := by unfold BR.enough at *; omega
  unfold withPath
  split
  · rename_i hp
    have hm := saveText_ends b hi hf (h.resolve_left hp)
    have hs := saveText_spec b fuel hi
    generalize saveText b fuel s = x at hm hs ⊢
    obtain ⟨r, t⟩ := x
    simp only at hm hs ⊢
    have step : ∀ {acc : Bytes}, Took s acc t → (withPathMem b fuel p acc w t).1 ≠ .hang := fun ht =>
      withPathMem_ends b p _ w (ht.inv hi) (Nat.lt_of_le_of_lt (ht.enough hi 0) hf0)
    cases hs with
    | hang => exact absurd rfl hm
    | full => simp
    | limit h1 _ _ _ => simp only; split; exact step h1; simp
    | utf8 h1 => simp only; split; exact step h1; simp
    | io h1 => simp only; split; exact step h1; simp
    | error => simp
  · exact withPathMem_ends b p _ w hi hf0

/-- A text of at least one character starts with a character of at most four bytes. -/
theorem validUpTo_pos {x y z : Bytes} (h : IsUtf8 (x ++ (y ++ z))) (hx : IsUtf8 x) (hy : y ≠ []) : 0 < validUpTo y ∨ y.length < 4 := by
  by_cases hl : y.length < 4
  · exact .inr hl
  · left
    obtain ⟨cs, hcs⟩ := h.of_append_left hx
    cases cs with
    | nil =>
      have : y ++ z = [] := hcs
      simp [hy] at this
    | cons c cs =>
      have he : encodeChars (c :: cs) = String.utf8EncodeChar c ++ encodeChars cs := by simp [encodeChars]
      rw [he] at hcs
      have h4 := encode_length_le c
      have hp := encode_length_pos c
      have ht : y.take (String.utf8EncodeChar c).length = String.utf8EncodeChar c := by
        have := congrArg (List.take (String.utf8EncodeChar c).length) hcs
        rw [List.take_append_of_le_length (by omega), List.take_left] at this
        exact this
      have := (validUpTo_spec y).2.2 (String.utf8EncodeChar c).length (by omega) (by rw [ht]; exact ⟨[c], by simp [encodeChars]⟩)
      omega

end Multipart

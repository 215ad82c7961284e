import Verif.Lemmas.Leak
import Verif.Lemmas.SaveField
/-!
# Saving a field whose CRLF arrives in two reads

What the save functions do to the reader is `fill_buf` and `consume`: what these keep is kept by saving.
-/
namespace Multipart

section
variable {σ : Type} {f : σ → Bytes → SaveRes Nat Nat × σ} {J : BR → Prop}

theorem tryReadBuf_keeps (h1 : ∀ s, J s → J s.readToBoundary.2)
    (h2 : ∀ s t buf st c, J s → s.readToBoundary = (.ok buf, t) → ((f st buf).1 = .full c ∨ ∃ r, (f st buf).1 = .part c r) → J (t.consume c)) :
    ∀ (n total : Nat) (st : σ) (s : BR), J s → J (tryReadBuf f n total st s).2.2 := by
  intro n
  induction n with
  | zero => intro _ _ _ h; exact h
  | succ n ih =>
    intro total st s h
    have hr := h1 s h
    have h2 := h2 s
    unfold tryReadBuf
    generalize s.readToBoundary = x at hr h2 ⊢
    rcases x with ⟨x, t⟩
    cases x with
    | err e => cases e <;> first | exact ih _ _ _ hr | exact hr
    | panic => exact hr
    | hang => exact hr
    | ok buf =>
      simp only at hr ⊢
      split
      · exact hr
      · have h3 := fun c => h2 t buf st c h rfl
        generalize f st buf = y at h3 ⊢
        rcases y with ⟨y, st'⟩
        cases y with
        | full c => exact ih _ _ _ (h3 c (.inl rfl))
        | part c r => exact h3 c (.inr ⟨r, rfl⟩)
        | _ => exact hr

/-- The same for steps that keep `J` only if they are successful. -/
theorem tryReadBuf_full_keeps (h1 : ∀ s, J s → J s.readToBoundary.2)
    (h2 : ∀ s t buf st c, J s → s.readToBoundary = (.ok buf, t) → (f st buf).1 = .full c → J (t.consume c)) :
    ∀ (n total : Nat) (st : σ) (s : BR) (m : Nat), J s → (tryReadBuf f n total st s).1 = .full m → J (tryReadBuf f n total st s).2.2 := by
  intro n
  induction n with
  | zero => intro _ _ _ _ h; exact fun _ => h
  | succ n ih =>
    intro total st s m h
    have hr := h1 s h
    have h2 := h2 s
    unfold tryReadBuf
    generalize s.readToBoundary = x at hr h2 ⊢
    rcases x with ⟨x, t⟩
    cases x with
    | err e => cases e <;> first | exact ih _ _ _ _ hr | exact fun _ => hr
    | panic => exact fun _ => hr
    | hang => exact fun _ => hr
    | ok buf =>
      simp only at hr ⊢
      split
      · exact fun _ => hr
      · have h3 := fun c => h2 t buf st c h rfl
        generalize f st buf = y at h3 ⊢
        rcases y with ⟨y, st'⟩
        cases y with
        | full c => exact ih _ _ _ _ (h3 c rfl)
        | part c r => intro hx; cases hx
        | _ => exact fun _ => hr

end

variable {J : BR → Prop} {cfg : Settings} {fuel : Nat} {w w' : World} {s t : BR} {d : SavedData}

theorem saveText_keeps (h1 : ∀ s, J s → J s.readToBoundary.2)
    (h2 : ∀ s t buf st c, J s → s.readToBoundary = (.ok buf, t) → ((limited textStep (cfg.memLimit 0) st buf).1 = .full c ∨ ∃ r, (limited textStep (cfg.memLimit 0) st buf).1 = .part c r) → J (t.consume c))
    (h : J s) : J (saveText cfg fuel s).2 := by
  have hk := tryReadBuf_keeps h1 h2 fuel 0 (0, []) s h
  unfold saveText tryCopyLimited
  generalize tryReadBuf (limited textStep (cfg.memLimit 0)) fuel 0 (0, []) s = x at hk ⊢
  rcases x with ⟨x, y, z⟩
  cases x <;> exact hk

theorem saveMem_keeps {bytes : Bytes} (h1 : ∀ s, J s → J s.readToBoundary.2)
    (h2 : ∀ s t buf st c, J s → s.readToBoundary = (.ok buf, t) → ((limited memStep (cfg.memLimit bytes.length) st buf).1 = .full c ∨ ∃ r, (limited memStep (cfg.memLimit bytes.length) st buf).1 = .part c r) → J (t.consume c))
    (h : J s) : J (saveMem cfg fuel bytes s).2 := by
  have hk := tryReadBuf_keeps h1 h2 fuel 0 (0, bytes) s h
  unfold saveMem tryCopyLimited
  generalize tryReadBuf (limited memStep (cfg.memLimit bytes.length)) fuel 0 (0, bytes) s = x at hk ⊢
  rcases x with ⟨x, y, z⟩
  cases x <;> exact hk

theorem writeTo_full_keeps {k : Sink} {m : Nat} (h1 : ∀ s, J s → J s.readToBoundary.2)
    (h2 : ∀ s t buf, J s → s.readToBoundary = (.ok buf, t) → J (t.consume buf.length))
    (h : J s) (hm : (writeTo cfg fuel k s).1 = .full m) : J (writeTo cfg fuel k s).2.2 := by
  unfold writeTo at hm ⊢
  split at hm
  · next hl =>
    rw [if_pos hl]
    refine tryReadBuf_full_keeps h1 ?_ fuel 0 (0, k) s m h hm
    intro s t buf st c hs hr hc
    unfold limited at hc
    simp only at hc
    split at hc
    · cases hc
    · rw [write_exact _ _ _ hc]; exact h2 _ _ _ hs hr
  · next hl =>
    rw [if_neg hl]
    refine tryReadBuf_full_keeps h1 ?_ fuel 0 k s m h hm
    intro s t buf st c hs hr hc
    rw [write_exact _ _ _ hc]; exact h2 _ _ _ hs hr

theorem saveFile_full_keeps {p : Path} {bytes : Bytes} (h1 : ∀ s, J s → J s.readToBoundary.2)
    (h2 : ∀ s t buf, J s → s.readToBoundary = (.ok buf, t) → J (t.consume buf.length))
    (h : J s) (hf : saveFile cfg fuel p bytes w s = (.full d, w', t)) : J t := by
  unfold saveFile at hf
  generalize w.createDirAll p = x at hf
  rcases x with ⟨_ | e, w1⟩
  · simp only at hf
    generalize w1.openFile cfg.openOpts p = x at hf
    rcases x with ⟨e | old, w2⟩
    · cases hf
    · simp only at hf
      generalize tryWriteAll bytes { script := w2.writes, got := [] } = x at hf
      rcases x with ⟨r, k⟩
      cases r with
      | full size =>
        simp only at hf
        have hk := fun m => writeTo_full_keeps (cfg := cfg) (fuel := fuel) (k := k) (m := m) h1 h2 h
        generalize writeTo cfg fuel k s = x at hf hk
        rcases x with ⟨r, k', u⟩
        simp only [Prod.mk.injEq] at hf
        obtain ⟨h3, -, rfl⟩ := hf
        cases r with
        | full m => exact hk m rfl
        | _ => cases h3
      | _ => cases hf
  · cases hf

/-- What is kept by `fill_buf` and by taking all or nothing of what it returned is kept by a successful save. While a text is read, all is taken only if it is UTF-8, otherwise what is UTF-8 of it: this is to keep `J1`. -/
theorem withPath_full_keeps {J1 : BR → Prop} {p : Path} (hJ : ∀ s, J1 s → J s) (h1 : ∀ s, J s → J s.readToBoundary.2) (h1' : ∀ s, J1 s → J1 s.readToBoundary.2)
    (h2 : ∀ s t buf, J s → s.readToBoundary = (.ok buf, t) → J (t.consume 0) ∧ J (t.consume buf.length))
    (h2' : cfg.textPolicy ≠ .ignore → ∀ s t buf, J1 s → s.readToBoundary = (.ok buf, t) →
      J1 (t.consume 0) ∧ (IsUtf8 buf → J1 (t.consume buf.length)) ∧ (∀ k, k ≤ buf.length → IsUtf8 (buf.take k) → ¬ IsUtf8 buf → J1 (t.consume k)))
    (h : J1 s) (hf : withPath cfg fuel p w s = (.full d, w', t)) : J t := by
  have hlim : ∀ {J : BR → Prop} {σ : Type} (f : σ → Bytes → SaveRes Nat Nat × σ) (lim : Nat), (∀ s t buf, J s → s.readToBoundary = (.ok buf, t) → J (t.consume 0)) →
      (∀ s t buf st c, J s → s.readToBoundary = (.ok buf, t) → ((f st buf).1 = .full c ∨ ∃ r, (f st buf).1 = .part c r) → J (t.consume c)) →
      ∀ s t buf st c, J s → s.readToBoundary = (.ok buf, t) → ((limited f lim st buf).1 = .full c ∨ ∃ r, (limited f lim st buf).1 = .part c r) → J (t.consume c) := by
    intro J σ f lim h0 hff s t buf st c hs hr hc
    unfold limited at hc
    simp only at hc
    split at hc
    · rcases hc with hc | ⟨r, hc⟩
      · cases hc
      · simp only [SaveRes.part.injEq] at hc
        rw [← hc.1]; exact h0 _ _ _ hs hr
    · exact hff _ _ _ _ _ hs hr hc
  have hmem : ∀ {bytes : Bytes} {u : BR}, J u → withPathMem cfg fuel p bytes w u = (.full d, w', t) → J t := by
    intro bytes u hu hm
    have hk := saveMem_keeps (cfg := cfg) (fuel := fuel) (bytes := bytes) h1 (hlim memStep _ (fun s t buf hs hr => (h2 s t buf hs hr).1) (by
      intro s t buf st c hs hr hc
      rcases hc with hc | ⟨r, hc⟩
      · simp only [memStep, SaveRes.full.injEq] at hc
        rw [← hc]; exact (h2 _ _ _ hs hr).2
      · cases hc)) hu
    unfold withPathMem at hm
    generalize saveMem cfg fuel bytes u = x at hm hk
    rcases x with ⟨r, v⟩
    cases r with
    | full x => simp only [Prod.mk.injEq] at hm; obtain ⟨-, -, rfl⟩ := hm; exact hk
    | part x r =>
      simp only at hm
      split at hm
      · exact saveFile_full_keeps h1 (fun s t buf hs hr => (h2 _ _ _ hs hr).2) hk hm
      · cases hm
    | _ => cases hm
  unfold withPath at hf
  split at hf
  · next hp =>
    have hk := saveText_keeps (cfg := cfg) (fuel := fuel) h1' (hlim textStep _ (fun s t buf hs hr => (h2' hp s t buf hs hr).1) (by
      intro s t buf st c hs hr hc
      obtain ⟨a0, a1, a2⟩ := h2' hp _ _ _ hs hr
      unfold textStep at hc
      split at hc
      · next hv =>
        rcases hc with hc | ⟨r, hc⟩
        · simp only [SaveRes.full.injEq] at hc; rw [← hc]; exact a1 ((utf8Valid_iff _).mp hv)
        · cases hc
      · next hv =>
        split at hc
        · rcases hc with hc | ⟨r, hc⟩
          · cases hc
          · simp only [SaveRes.part.injEq] at hc; rw [← hc.1]; exact a0
        · rcases hc with hc | ⟨r, hc⟩
          · simp only [SaveRes.full.injEq] at hc
            rw [← hc]
            obtain ⟨b1, b2, -⟩ := validUpTo_spec buf
            exact a2 _ b1 b2 fun h => hv ((utf8Valid_iff _).mpr h)
          · cases hc)) h
    generalize saveText cfg fuel s = x at hf hk
    rcases x with ⟨r, v⟩
    cases r with
    | full x => simp only [Prod.mk.injEq] at hf; obtain ⟨-, -, rfl⟩ := hf; exact hJ _ hk
    | part x r =>
      simp only at hf
      split at hf
      · exact hmem (hJ _ hk) hf
      · cases hf
    | _ => cases hf
  · exact hmem (hJ _ h) hf

variable {m N : Nat} {B : List Ev}

theorem BR.Leaking.save {p : Path} (h : s.Leaking m N (cfg.textPolicy ≠ .ignore) B) (hf : withPath cfg fuel p w s = (.full d, w', t)) : t.Leaking m N False B :=
  withPath_full_keeps (J1 := fun s => s.Leaking m N (cfg.textPolicy ≠ .ignore) B) (J := fun s => s.Leaking m N False B) (fun _ => BR.Leaking.weaken) (fun _ => BR.Leaking.readToBoundary)
    (fun _ => BR.Leaking.readToBoundary) (fun _ _ _ h1 h2 => ⟨(h1.consume h2).1, (h1.consume h2).2.1 False.elim _ (Nat.le_refl _)⟩)
    (fun hp _ _ _ h1 h2 => ⟨(h1.consume h2).1, fun hv => (h1.consume h2).2.1 (fun _ => hv) _ (Nat.le_refl _), (h1.consume h2).2.2 hp⟩) h hf

theorem BR.Late.withPath {p : Path} (hB : B ≠ []) (h : s.Late m B) (hf : Multipart.withPath cfg fuel p w s = (.full d, w', t)) : t.Late m B :=
  withPath_full_keeps (J1 := fun s => s.Late m B) (J := fun s => s.Late m B) (fun _ h => h) (fun _ => BR.Late.readToBoundary hB) (fun _ => BR.Late.readToBoundary hB)
    (fun s t buf h1 h2 => by have := h1.readToBoundary hB; rw [h2] at this; exact ⟨this.consume _, this.consume _⟩)
    (fun _ s t buf h1 h2 => by have := h1.readToBoundary hB; rw [h2] at this; exact ⟨this.consume _, fun _ => this.consume _, fun _ _ _ _ => this.consume _⟩) h hf

end Multipart

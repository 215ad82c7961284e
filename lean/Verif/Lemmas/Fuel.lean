import Verif.Model.Entries
import Verif.Model.Iron
/-!
# The fuel does not matter

Loops that need not end take a number (fuel) and result in `hang` when it is used up. A result other than `hang` is the same with any larger number.
-/
namespace Multipart

variable {D : Deps} {cfg : Settings} {n m fuel fuel' : Nat} {w : World} {s : BR}

theorem tryReadBuf_fuel {σ : Type} {f : σ → Bytes → SaveRes Nat Nat × σ} {total : Nat} {st : σ} (h : (tryReadBuf f n total st s).1 ≠ .hang) (hm : n ≤ m) :
    tryReadBuf f m total st s = tryReadBuf f n total st s := by
  induction n generalizing m total st s with
  | zero => exact absurd rfl h
  | succ n ih =>
    obtain ⟨m, rfl⟩ : ∃ k, m = k + 1 := ⟨m - 1, by omega⟩
    have hm : n ≤ m := by omega
    simp only [tryReadBuf] at h ⊢
    generalize s.readToBoundary = r at h ⊢
    obtain ⟨r, s⟩ := r
    cases r with
    | ok buf =>
      simp only at h ⊢
      by_cases hb : buf = []
      · simp only [hb, if_true]
      · rw [if_neg hb] at h
        rw [if_neg hb, if_neg hb]
        generalize f st buf = q at h ⊢
        obtain ⟨q, st⟩ := q
        cases q with
        | full c => exact ih h hm
        | _ => rfl
    | err e =>
      cases e with
      | interrupted => exact ih h hm
      | _ => rfl
    | panic => rfl
    | hang => rfl

theorem tryCopyLimited_fuel {σ : Type} {f : σ → Bytes → SaveRes Nat Nat × σ} {limit : Nat} {st : σ} (h : (tryCopyLimited f fuel limit st s).1 ≠ .hang) (hm : fuel ≤ fuel') :
    tryCopyLimited f fuel' limit st s = tryCopyLimited f fuel limit st s := by
  unfold tryCopyLimited at h ⊢
  simp only at h ⊢
  rw [tryReadBuf_fuel h hm]

theorem writeTo_fuel {k : Sink} (h : (writeTo cfg fuel k s).1 ≠ .hang) (hm : fuel ≤ fuel') : writeTo cfg fuel' k s = writeTo cfg fuel k s := by
  unfold writeTo at h ⊢
  by_cases hl : cfg.sizeLimit < u64Max
  · simp only [hl, if_true] at h ⊢; exact tryCopyLimited_fuel h hm
  · simp only [hl, if_false] at h ⊢; exact tryReadBuf_fuel h hm

theorem saveMem_fuel {x : Bytes} (h : (saveMem cfg fuel x s).1 ≠ .hang) (hm : fuel ≤ fuel') : saveMem cfg fuel' x s = saveMem cfg fuel x s := by
  have : (tryCopyLimited memStep fuel (cfg.memLimit x.length) x s).1 ≠ .hang := by
    intro h'
    rcases hc : tryCopyLimited memStep fuel (cfg.memLimit x.length) x s with ⟨r, a, t⟩
    rw [hc] at h'
    simp only at h'
    subst h'
    exact h (by unfold saveMem; rw [hc])
  unfold saveMem
  rw [tryCopyLimited_fuel this hm]

theorem saveText_fuel (h : (saveText cfg fuel s).1 ≠ .hang) (hm : fuel ≤ fuel') : saveText cfg fuel' s = saveText cfg fuel s := by
  have : (tryCopyLimited textStep fuel (cfg.memLimit 0) [] s).1 ≠ .hang := by
    intro h'
    rcases hc : tryCopyLimited textStep fuel (cfg.memLimit 0) [] s with ⟨r, a, t⟩
    rw [hc] at h'
    simp only at h'
    subst h'
    exact h (by unfold saveText; rw [hc])
  unfold saveText
  rw [tryCopyLimited_fuel this hm]

theorem saveFile_fuel {p : Path} {x : Bytes} (h : (saveFile cfg fuel p x w s).1 ≠ .hang) (hm : fuel ≤ fuel') : saveFile cfg fuel' p x w s = saveFile cfg fuel p x w s := by
  unfold saveFile at h ⊢
  generalize w.createDirAll p = r at h ⊢
  obtain ⟨_ | e, w⟩ := r
  · simp only at h ⊢
    generalize w.openFile cfg.openOpts p = r at h ⊢
    obtain ⟨e | old, w⟩ := r
    · rfl
    · simp only at h ⊢
      generalize tryWriteAll x { script := w.writes, got := [] } = r at h ⊢
      obtain ⟨r, k⟩ := r
      cases r with
      | full size =>
        simp only at h ⊢
        rw [writeTo_fuel (fuel := fuel) ?_ hm]
        intro h'
        rcases hc : writeTo cfg fuel k s with ⟨r, k, t⟩
        rw [hc] at h h'
        simp only at h'
        subst h'
        exact h rfl
      | _ => rfl
  · rfl

theorem withPathMem_fuel {p : Path} {x : Bytes} (h : (withPathMem cfg fuel p x w s).1 ≠ .hang) (hm : fuel ≤ fuel') : withPathMem cfg fuel' p x w s = withPathMem cfg fuel p x w s := by
  rcases hc : saveMem cfg fuel x s with ⟨r, t⟩
  have hne : r ≠ .hang := by
    rintro rfl
    exact h (by unfold withPathMem; rw [hc])
  have h1 := saveMem_fuel (cfg := cfg) (fuel := fuel) (x := x) (s := s) (by rw [hc]; exact hne) hm
  unfold withPathMem at h ⊢
  rw [h1, hc]
  rw [hc] at h
  cases r with
  | part y reason =>
    simp only at h ⊢
    by_cases hl : reason = .sizeLimit ∧ cfg.cmpSizeLimit y.length = false
    · simp only [hl, and_self, if_true] at h ⊢; exact saveFile_fuel h hm
    · rw [if_neg hl, if_neg hl]
  | _ => rfl

theorem withPath_fuel {p : Path} (h : (withPath cfg fuel p w s).1 ≠ .hang) (hm : fuel ≤ fuel') : withPath cfg fuel' p w s = withPath cfg fuel p w s := by
  unfold withPath at h ⊢
  by_cases ht : cfg.textPolicy ≠ .ignore
  · rw [if_pos ht] at h
    rw [if_pos ht, if_pos ht]
    rcases hc : saveText cfg fuel s with ⟨r, t⟩
    rw [hc] at h
    have hne : r ≠ .hang := by
      rintro rfl
      exact h rfl
    rw [saveText_fuel (cfg := cfg) (fuel := fuel) (s := s) (by rw [hc]; exact hne) hm, hc]
    cases r with
    | part y reason =>
      simp only at h ⊢
      split
      · next hl => rw [if_pos hl] at h; exact withPathMem_fuel h hm
      · rfl
    | _ => rfl
  · rw [if_neg ht] at h
    rw [if_neg ht, if_neg ht]
    exact withPathMem_fuel h hm

theorem withDir_fuel {dir : Path} (h : (withDir cfg fuel dir w s).1 ≠ .hang) (hm : fuel ≤ fuel') : withDir cfg fuel' dir w s = withDir cfg fuel dir w s :=
  withPath_fuel h hm

theorem entriesLoop_fuel {res : Res (Option FieldHeaders)} {e : Entries} (h : (entriesLoop D cfg fuel n res e w s).1 ≠ .hang) (hf : fuel ≤ fuel') (hm : n ≤ m) :
    entriesLoop D cfg fuel' m res e w s = entriesLoop D cfg fuel n res e w s := by
  induction n generalizing m res e w s with
  | zero => exact absurd rfl h
  | succ n ih =>
    obtain ⟨m, rfl⟩ : ∃ k, m = k + 1 := ⟨m - 1, by omega⟩
    have hm : n ≤ m := by omega
    simp only [entriesLoop] at h ⊢
    by_cases hc : e.fieldsCount < cfg.countLimit
    · rw [if_pos hc] at h
      rw [if_pos hc, if_pos hc]
      cases res with
      | ok o =>
        cases o with
        | none => rfl
        | some hd =>
          simp only at h ⊢
          rcases hw : withDir (fieldPolicy cfg hd) fuel e.saveDir.asPath w s with ⟨r, w1, t⟩
          rw [hw] at h
          have hne : r ≠ .hang := by
            rintro rfl
            exact h rfl
          rw [withDir_fuel (cfg := fieldPolicy cfg hd) (fuel := fuel) (by rw [hw]; exact hne) hf, hw]
          cases r with
          | full d => exact ih h hm
          | _ => rfl
      | _ => rfl
    · rw [if_neg hc, if_neg hc]

/-- Saving a whole request. -/
theorem withEntries_fuel {e : Entries} (h : (withEntries D cfg fuel e w s).1 ≠ .hang) (hm : fuel ≤ fuel') : withEntries D cfg fuel' e w s = withEntries D cfg fuel e w s :=
  entriesLoop_fuel h hm hm

theorem Intercept.strict_fuel {i : Intercept} {fail : Option (IoErr × (Path → Bool))} {dir : Path} (h : (i.readRequestStrict D fuel fail dir w s).1 ≠ .hang) (hm : fuel ≤ fuel') :
    i.readRequestStrict D fuel' fail dir w s = i.readRequestStrict D fuel fail dir w s := by
  unfold Intercept.readRequestStrict withTempDir at h ⊢
  rw [withEntries_fuel (fuel := fuel) ?_ hm]
  intro h'
  rcases hc : withEntries D i.settings fuel (Entries.new (.temp dir)) w s with ⟨r, w1, t⟩
  rw [hc] at h h'
  simp only at h'
  subst h'
  exact h rfl

theorem Intercept.lenientLoop_fuel {i : Intercept} {fail : Option (IoErr × (Path → Bool))} {e : Entries} (h : (i.lenientLoop D fuel fail n e w s).1 ≠ .hang) (hf : fuel ≤ fuel')
    (hm : n ≤ m) : i.lenientLoop D fuel' fail m e w s = i.lenientLoop D fuel fail n e w s := by
  induction n generalizing m e w s with
  | zero => exact absurd rfl h
  | succ n ih =>
    obtain ⟨m, rfl⟩ : ∃ k, m = k + 1 := ⟨m - 1, by omega⟩
    have hm : n ≤ m := by omega
    simp only [Intercept.lenientLoop] at h ⊢
    rcases hc : withEntries D i.settings fuel e w s with ⟨r, w1, t⟩
    rw [hc] at h
    have hne : r ≠ .hang := by
      rintro rfl
      exact h rfl
    rw [withEntries_fuel (fuel := fuel) (by rw [hc]; exact hne) hf, hc]
    cases r with
    | part p reason =>
      cases reason with
      | io er => rfl
      | _ => exact ih h hm
    | _ => rfl

theorem Intercept.lenient_eq {i : Intercept} {fail : Option (IoErr × (Path → Bool))} {dir : Path} :
    i.readRequestLenient D fuel fail dir w s = i.lenientLoop D fuel fail (fuel + 1) (Entries.new (.temp dir)) w s := rfl

theorem Intercept.lenient_fuel {i : Intercept} {fail : Option (IoErr × (Path → Bool))} {dir : Path} (h : (i.readRequestLenient D fuel fail dir w s).1 ≠ .hang) (hm : fuel ≤ fuel') :
    i.readRequestLenient D fuel' fail dir w s = i.readRequestLenient D fuel fail dir w s := by
  rw [Intercept.lenient_eq] at h
  rw [Intercept.lenient_eq, Intercept.lenient_eq]
  exact Intercept.lenientLoop_fuel h hm (by omega)

end Multipart

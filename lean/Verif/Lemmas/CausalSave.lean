import Verif.Lemmas.Causal
import Verif.Lemmas.Keeps
import Verif.Lemmas.Session
/-!
# Saving, and the reads of the stream that are not made by it
-/
namespace Multipart
variable {D : Deps} {cfg : Settings} {s t : BR} {B B' : List Ev} {n m fuel : Nat} {w : World}

/-- `Agree` for functions that have another result, and then the reader. -/
def Agree2 {α γ : Type} (B B' : List Ev) (x y : α × γ × BR) : Prop := x.1 = y.1 ∧ x.2.1 = y.2.1 ∧ ∃ u : BR, x.2.2 = u.cont B ∧ y.2.2 = u.cont B'

theorem Agree2.mk {α γ : Type} {r : α} {g : γ} {u : BR} : Agree2 B B' (r, g, u.cont B) (r, g, u.cont B') := ⟨rfl, rfl, u, rfl, rfl⟩

/-- Calls on a field make some of the reads. -/
theorem kept_evs (X : List Ev) : KeptByFields fun s : BR => s.evs <:+ X := by
  have hr : ∀ s : BR, s.readToBoundary.2.evs <:+ s.evs := fun s => by rw [BR.readToBoundary_evs]; exact (fill_spec s.min s.evs s.buf).suf
  refine ⟨fun s h => (hr s).trans h, fun s t buf n h h1 => ?_⟩
  have := (hr s).trans h
  rw [h1] at this
  exact this

theorem tryReadBuf_cont {σ : Type} {f : σ → Bytes → SaveRes Nat Nat × σ} (hB : B ≠ []) : ∀ (n total : Nat) (st : σ) (s : BR), (tryReadBuf f n total st (s.cont B)).2.2.Before B →
    Agree2 B B' (tryReadBuf f n total st (s.cont B)) (tryReadBuf f n total st (s.cont B')) := by
  intro n
  induction n with
  | zero => intro total st s _; exact .mk
  | succ n ih =>
    intro total st s hu
    simp only [tryReadBuf] at hu ⊢
    have hk := fun total st (t : BR) => (kept_evs t.evs).tryReadBuf (f := f) (n := n) (total := total) (st := st) (s := t) List.suffix_rfl
    have hb : (s.cont B).readToBoundary.2.Before B := by
      generalize (s.cont B).readToBoundary = r at hu ⊢
      obtain ⟨r, t⟩ := r
      cases r with
      | ok buf =>
        simp only at hu ⊢
        split at hu
        · exact hu
        · generalize f st buf = q at hu
          obtain ⟨q, st1⟩ := q
          cases q with
          | full c => exact hu.of_suffix (hk _ _ _)
          | _ => exact hu
      | err e =>
        cases e with
        | interrupted => exact hu.of_suffix (hk _ _ _)
        | _ => exact hu
      | panic => exact hu
      | hang => exact hu
    have ha := BR.readToBoundary_cont (B' := B') hB hb
    generalize (s.cont B).readToBoundary = r at hu ha ⊢
    generalize (s.cont B').readToBoundary = r' at ha ⊢
    obtain ⟨r, t⟩ := r
    obtain ⟨r', t'⟩ := r'
    obtain ⟨h1, u, h2, h3⟩ := ha
    simp only at h1 h2 h3
    subst h1 h2 h3
    cases r with
    | ok buf =>
      simp only at hu ⊢
      by_cases hz : buf = []
      · rw [if_pos hz, if_pos hz]; exact .mk
      · rw [if_neg hz] at hu
        rw [if_neg hz, if_neg hz]
        generalize f st buf = q at hu ⊢
        obtain ⟨q, st1⟩ := q
        cases q with
        | full c => exact ih _ _ (u.consume c) hu
        | part c r => exact .mk (u := u.consume c)
        | _ => exact .mk
    | err e =>
      cases e with
      | interrupted => exact ih _ _ u hu
      | _ => exact .mk
    | panic => exact .mk
    | hang => exact .mk

theorem tryCopyLimited_cont {σ : Type} {f : σ → Bytes → SaveRes Nat Nat × σ} {limit : Nat} {st : σ} (hB : B ≠ []) (hu : (tryCopyLimited f fuel limit st (s.cont B)).2.2.Before B) :
    Agree2 B B' (tryCopyLimited f fuel limit st (s.cont B)) (tryCopyLimited f fuel limit st (s.cont B')) := by
  unfold tryCopyLimited at hu ⊢
  obtain ⟨h1, h2, h3⟩ := tryReadBuf_cont (B' := B') hB _ _ _ _ hu
  exact ⟨h1, congrArg Prod.snd h2, h3⟩

theorem writeTo_cont {k : Sink} (hB : B ≠ []) (hu : (writeTo cfg fuel k (s.cont B)).2.2.Before B) : Agree2 B B' (writeTo cfg fuel k (s.cont B)) (writeTo cfg fuel k (s.cont B')) := by
  unfold writeTo at hu ⊢
  split
  · next h => rw [if_pos h] at hu; exact tryCopyLimited_cont hB hu
  · next h => rw [if_neg h] at hu; exact tryReadBuf_cont hB _ _ _ _ hu

theorem saveMem_cont {x : Bytes} (hB : B ≠ []) (hu : (saveMem cfg fuel x (s.cont B)).2.Before B) : Agree B B' (saveMem cfg fuel x (s.cont B)) (saveMem cfg fuel x (s.cont B')) := by
  have hb : (tryCopyLimited memStep fuel (cfg.memLimit x.length) x (s.cont B)).2.2.Before B := by
    unfold saveMem at hu
    generalize tryCopyLimited memStep fuel (cfg.memLimit x.length) x (s.cont B) = r at hu ⊢
    obtain ⟨r, a, t⟩ := r
    cases r <;> exact hu
  have ha := tryCopyLimited_cont (B' := B') hB hb
  unfold saveMem
  generalize tryCopyLimited memStep fuel (cfg.memLimit x.length) x (s.cont B) = r at ha ⊢
  generalize tryCopyLimited memStep fuel (cfg.memLimit x.length) x (s.cont B') = r' at ha ⊢
  obtain ⟨r, a, t⟩ := r
  obtain ⟨r', a', t'⟩ := r'
  obtain ⟨h1, h2, u, h3, h4⟩ := ha
  simp only at h1 h2 h3 h4
  subst h1 h2 h3 h4
  cases r <;> exact .mk

theorem saveText_cont (hB : B ≠ []) (hu : (saveText cfg fuel (s.cont B)).2.Before B) : Agree B B' (saveText cfg fuel (s.cont B)) (saveText cfg fuel (s.cont B')) := by
  have hb : (tryCopyLimited textStep fuel (cfg.memLimit 0) [] (s.cont B)).2.2.Before B := by
    unfold saveText at hu
    generalize tryCopyLimited textStep fuel (cfg.memLimit 0) [] (s.cont B) = r at hu ⊢
    obtain ⟨r, a, t⟩ := r
    cases r <;> exact hu
  have ha := tryCopyLimited_cont (B' := B') hB hb
  unfold saveText
  generalize tryCopyLimited textStep fuel (cfg.memLimit 0) [] (s.cont B) = r at ha ⊢
  generalize tryCopyLimited textStep fuel (cfg.memLimit 0) [] (s.cont B') = r' at ha ⊢
  obtain ⟨r, a, t⟩ := r
  obtain ⟨r', a', t'⟩ := r'
  obtain ⟨h1, h2, u, h3, h4⟩ := ha
  simp only at h1 h2 h3 h4
  subst h1 h2 h3 h4
  cases r <;> exact .mk

theorem saveFile_cont {p : Path} {x : Bytes} (hB : B ≠ []) (hu : (saveFile cfg fuel p x w (s.cont B)).2.2.Before B) :
    Agree2 B B' (saveFile cfg fuel p x w (s.cont B)) (saveFile cfg fuel p x w (s.cont B')) := by
  unfold saveFile at hu ⊢
  generalize w.createDirAll p = r at hu ⊢
  obtain ⟨_ | e, w⟩ := r
  · simp only at hu ⊢
    generalize w.openFile cfg.openOpts p = r at hu ⊢
    obtain ⟨e | old, w⟩ := r
    · exact .mk
    · simp only at hu ⊢
      generalize tryWriteAll x { script := w.writes, got := [] } = r at hu ⊢
      obtain ⟨r, k⟩ := r
      cases r with
      | full size =>
        simp only at hu ⊢
        have ha := writeTo_cont (B' := B') (cfg := cfg) (fuel := fuel) (k := k) (s := s) hB hu
        generalize writeTo cfg fuel k (s.cont B) = r at ha ⊢
        generalize writeTo cfg fuel k (s.cont B') = r' at ha ⊢
        obtain ⟨r, a, t⟩ := r
        obtain ⟨r', a', t'⟩ := r'
        obtain ⟨h1, h2, u, h3, h4⟩ := ha
        simp only at h1 h2 h3 h4
        subst h1 h2 h3 h4
        exact .mk
      | _ => exact .mk
  · exact .mk

theorem withPathMem_cont {p : Path} {x : Bytes} (hB : B ≠ []) (hu : (withPathMem cfg fuel p x w (s.cont B)).2.2.Before B) :
    Agree2 B B' (withPathMem cfg fuel p x w (s.cont B)) (withPathMem cfg fuel p x w (s.cont B')) := by
  unfold withPathMem at hu ⊢
  have hb : (saveMem cfg fuel x (s.cont B)).2.Before B := by
    generalize saveMem cfg fuel x (s.cont B) = r at hu ⊢
    obtain ⟨r, t⟩ := r
    cases r with
    | part y reason =>
      simp only at hu ⊢
      split at hu
      · exact hu.of_suffix ((kept_evs t.evs).saveFile List.suffix_rfl)
      · exact hu
    | _ => exact hu
  have ha := saveMem_cont (B' := B') hB hb
  generalize saveMem cfg fuel x (s.cont B) = r at hu ha ⊢
  generalize saveMem cfg fuel x (s.cont B') = r' at ha ⊢
  obtain ⟨r, t⟩ := r
  obtain ⟨r', t'⟩ := r'
  obtain ⟨h1, u, h2, h3⟩ := ha
  simp only at h1 h2 h3
  subst h1 h2 h3
  cases r with
  | part y reason =>
    simp only at hu ⊢
    split
    · next h => rw [if_pos h] at hu; exact saveFile_cont hB hu
    · exact .mk
  | _ => exact .mk

theorem withPath_cont {p : Path} (hB : B ≠ []) (hu : (withPath cfg fuel p w (s.cont B)).2.2.Before B) :
    Agree2 B B' (withPath cfg fuel p w (s.cont B)) (withPath cfg fuel p w (s.cont B')) := by
  unfold withPath at hu ⊢
  split
  · next ht =>
    rw [if_pos ht] at hu
    have hb : (saveText cfg fuel (s.cont B)).2.Before B := by
      generalize saveText cfg fuel (s.cont B) = r at hu ⊢
      obtain ⟨r, t⟩ := r
      cases r with
      | part y reason =>
        simp only at hu ⊢
        split at hu
        · exact hu.of_suffix ((kept_evs t.evs).withPathMem List.suffix_rfl)
        · exact hu
      | _ => exact hu
    have ha := saveText_cont (B' := B') hB hb
    generalize saveText cfg fuel (s.cont B) = r at hu ha ⊢
    generalize saveText cfg fuel (s.cont B') = r' at ha ⊢
    obtain ⟨r, t⟩ := r
    obtain ⟨r', t'⟩ := r'
    obtain ⟨h1, u, h2, h3⟩ := ha
    simp only at h1 h2 h3
    subst h1 h2 h3
    cases r with
    | part y reason =>
      simp only at hu ⊢
      split
      · next h => rw [if_pos h] at hu; exact withPathMem_cont hB hu
      · exact .mk
    | _ => exact .mk
  · next ht => rw [if_neg ht] at hu; exact withPathMem_cont hB hu

theorem withDir_cont {dir : Path} (hB : B ≠ []) (hu : (withDir cfg fuel dir w (s.cont B)).2.2.Before B) :
    Agree2 B B' (withDir cfg fuel dir w (s.cont B)) (withDir cfg fuel dir w (s.cont B')) := withPath_cont hB hu

/-- The same, with the invariant of the reader. -/
theorem kept_inv (X : List Ev) : KeptByFields fun s : BR => s.Inv ∧ s.evs <:+ X := by
  refine ⟨fun s h => ⟨BR.op_inv h.1 .fillBuf, (kept_evs X).read _ h.2⟩, fun s t buf n h h1 => ⟨?_, (kept_evs X).consume _ _ _ _ h.2 h1⟩⟩
  have := BR.op_inv h.1 .fillBuf
  simp only [BR.op, h1] at this
  exact BR.op_inv this (.consume n)

theorem entriesLoop_cont (hD : D.Sane) (hB : B ≠ []) : ∀ (m : Nat) (res : Res (Option FieldHeaders)) (e : Entries) (w : World) (s : BR), (s.cont B).Inv → (s.cont B').Inv →
    (entriesLoop D cfg fuel m res e w (s.cont B)).2.2.Before B →
    Agree2 B B' (entriesLoop D cfg fuel m res e w (s.cont B)) (entriesLoop D cfg fuel m res e w (s.cont B')) := by
  intro m
  induction m with
  | zero => intro res e w s _ _ _; exact .mk
  | succ m ih =>
    intro res e w s hi hi' hu
    simp only [entriesLoop] at hu ⊢
    split
    · next hc =>
      rw [if_pos hc] at hu
      cases res with
      | ok o =>
        cases o with
        | none => exact .mk
        | some fh =>
          simp only at hu ⊢
          have hk := (kept_inv (s.cont B).evs).withPath (cfg := fieldPolicy cfg fh) (fuel := fuel) (p := e.saveDir.asPath ++ [w.randName.1]) (w := w.randName.2) (s := s.cont B) ⟨hi, List.suffix_rfl⟩
          have hk' := (kept_inv (s.cont B').evs).withPath (cfg := fieldPolicy cfg fh) (fuel := fuel) (p := e.saveDir.asPath ++ [w.randName.1]) (w := w.randName.2) (s := s.cont B') ⟨hi', List.suffix_rfl⟩
          change (withDir (fieldPolicy cfg fh) fuel e.saveDir.asPath w (s.cont B)).2.2.Inv ∧ _ at hk
          change (withDir (fieldPolicy cfg fh) fuel e.saveDir.asPath w (s.cont B')).2.2.Inv ∧ _ at hk'
          have hb : (withDir (fieldPolicy cfg fh) fuel e.saveDir.asPath w (s.cont B)).2.2.Before B := by
            generalize withDir (fieldPolicy cfg fh) fuel e.saveDir.asPath w (s.cont B) = r at hu hk ⊢
            obtain ⟨r, w1, t⟩ := r
            cases r with
            | full d =>
              simp only at hu hk ⊢
              refine hu.of_suffix ?_
              exact ((kept_inv t.evs).entriesLoop (fun s h => ⟨BR.sop_inv hD h.1 .readEntry, (BR.readEntry_evs hD h.1).trans h.2⟩) ⟨BR.sop_inv hD hk.1 .readEntry, BR.readEntry_evs hD hk.1⟩).2
            | _ => exact hu
          have ha := withDir_cont (B' := B') hB hb
          generalize withDir (fieldPolicy cfg fh) fuel e.saveDir.asPath w (s.cont B) = r at hu hk ha ⊢
          generalize withDir (fieldPolicy cfg fh) fuel e.saveDir.asPath w (s.cont B') = r' at hk' ha ⊢
          obtain ⟨r, w1, t⟩ := r
          obtain ⟨r', w1', t'⟩ := r'
          obtain ⟨h1, h2, u, h3, h4⟩ := ha
          simp only at h1 h2 h3 h4 hk hk'
          subst h1 h2 h3 h4
          cases r with
          | full d =>
            simp only at hu ⊢
            have hi1 := BR.sop_inv hD hk.1 .readEntry
            have hi1' := BR.sop_inv hD hk'.1 .readEntry
            have hb : ((u.cont B).readEntry D).2.Before B :=
              hu.of_suffix ((kept_inv ((u.cont B).readEntry D).2.evs).entriesLoop (fun s h => ⟨BR.sop_inv hD h.1 .readEntry, (BR.readEntry_evs hD h.1).trans h.2⟩) ⟨hi1, List.suffix_rfl⟩).2
            have ha := BR.readEntry_cont (B' := B') hD hB hk.1 hk'.1 hb
            simp only [BR.sop] at hi1 hi1'
            generalize (u.cont B).readEntry D = r at hu hi1 ha ⊢
            generalize (u.cont B').readEntry D = r' at hi1' ha ⊢
            obtain ⟨r, t⟩ := r
            obtain ⟨r', t'⟩ := r'
            obtain ⟨h1, v, h3, h4⟩ := ha
            simp only at h1 h3 h4 hi1 hi1'
            subst h1 h3 h4
            exact ih _ _ _ v hi1 hi1' hu
          | _ => exact .mk
      | _ => exact .mk
    · exact .mk

theorem withEntries_cont {e : Entries} (hD : D.Sane) (hB : B ≠ []) (hi : (s.cont B).Inv) (hi' : (s.cont B').Inv) (hu : (withEntries D cfg fuel e w (s.cont B)).2.2.Before B) :
    Agree2 B B' (withEntries D cfg fuel e w (s.cont B)) (withEntries D cfg fuel e w (s.cont B')) := by
  unfold withEntries at hu ⊢
  simp only at hu ⊢
  have hi1 := BR.sop_inv hD hi .readEntry
  have hi1' := BR.sop_inv hD hi' .readEntry
  have hb : ((s.cont B).readEntry D).2.Before B :=
    hu.of_suffix ((kept_inv ((s.cont B).readEntry D).2.evs).entriesLoop (fun s h => ⟨BR.sop_inv hD h.1 .readEntry, (BR.readEntry_evs hD h.1).trans h.2⟩) ⟨hi1, List.suffix_rfl⟩).2
  have ha := BR.readEntry_cont (B' := B') hD hB hi hi' hb
  simp only [BR.sop] at hi1 hi1'
  generalize (s.cont B).readEntry D = r at hu hi1 ha ⊢
  generalize (s.cont B').readEntry D = r' at hi1' ha ⊢
  obtain ⟨r, t⟩ := r
  obtain ⟨r', t'⟩ := r'
  obtain ⟨h1, v, h3, h4⟩ := ha
  simp only at h1 h3 h4 hi1 hi1'
  subst h1 h3 h4
  exact entriesLoop_cont hD hB _ _ _ _ v hi1 hi1' hu

end Multipart

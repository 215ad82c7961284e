import Verif.Lemmas.LeakSave
import Verif.Model.Entries
import Verif.Spec.Saving
/-!
# What saving keeps

All that the save functions do to the reader is `fill_buf`, `consume` and `read_entry`: what these keep is kept by saving, whatever its result is.
-/
namespace Multipart
variable {J : BR → Prop} {cfg : Settings} {fuel : Nat} {w w' : World} {s t : BR}

/-- What `fill_buf` keeps, and `consume` behind a `fill_buf` that succeeded. -/
structure KeptByFields (J : BR → Prop) : Prop where
  read : ∀ s, J s → J s.readToBoundary.2
  consume : ∀ s t buf n, J s → s.readToBoundary = (.ok buf, t) → J (t.consume n)

theorem Took.keeps {x : Bytes} (h : Took s x t) (hJ : KeptByFields J) (hs : J s) : J t := by
  induction h with
  | start => exact hs
  | look _ ih => exact hJ.read _ ih
  | take _ h1 _ ih => exact hJ.consume _ _ _ _ ih h1

theorem KeptByFields.tryReadBuf (hJ : KeptByFields J) {σ : Type} {f : σ → Bytes → SaveRes Nat Nat × σ} {n total : Nat} {st : σ} (h : J s) : J (tryReadBuf f n total st s).2.2 :=
  tryReadBuf_keeps hJ.read (fun s t buf _ c hs hr _ => hJ.consume s t buf c hs hr) n total st s h

theorem KeptByFields.saveText (hJ : KeptByFields J) (h : J s) : J (saveText cfg fuel s).2 :=
  saveText_keeps hJ.read (fun s t buf _ c hs hr _ => hJ.consume s t buf c hs hr) h

theorem KeptByFields.saveMem (hJ : KeptByFields J) {bytes : Bytes} (h : J s) : J (saveMem cfg fuel bytes s).2 :=
  saveMem_keeps hJ.read (fun s t buf _ c hs hr _ => hJ.consume s t buf c hs hr) h

theorem KeptByFields.writeTo (hJ : KeptByFields J) {k : Sink} (h : J s) : J (writeTo cfg fuel k s).2.2 := by
  unfold Multipart.writeTo tryCopyLimited
  split
  · exact hJ.tryReadBuf h
  · exact hJ.tryReadBuf h

theorem KeptByFields.saveFile (hJ : KeptByFields J) {p : Path} {bytes : Bytes} (h : J s) : J (saveFile cfg fuel p bytes w s).2.2 := by
  unfold Multipart.saveFile
  generalize w.createDirAll p = x
  rcases x with ⟨_ | e, w1⟩
  · simp only
    generalize w1.openFile cfg.openOpts p = x
    rcases x with ⟨e | old, w2⟩
    · exact h
    · simp only
      generalize tryWriteAll bytes { script := w2.writes, got := [] } = x
      rcases x with ⟨r, k⟩
      cases r with
      | full size => exact hJ.writeTo h
      | _ => exact h
  · exact h

theorem KeptByFields.withPathMem (hJ : KeptByFields J) {p : Path} {bytes : Bytes} (h : J s) : J (withPathMem cfg fuel p bytes w s).2.2 := by
  have hk := hJ.saveMem (cfg := cfg) (fuel := fuel) (bytes := bytes) h
  unfold Multipart.withPathMem
  generalize Multipart.saveMem cfg fuel bytes s = x at hk ⊢
  rcases x with ⟨r, v⟩
  cases r with
  | part x r =>
    simp only at hk ⊢
    split
    · exact hJ.saveFile hk
    · exact hk
  | _ => exact hk

theorem KeptByFields.withPath (hJ : KeptByFields J) {p : Path} (h : J s) : J (withPath cfg fuel p w s).2.2 := by
  unfold Multipart.withPath
  split
  · have hk := hJ.saveText (cfg := cfg) (fuel := fuel) h
    generalize Multipart.saveText cfg fuel s = x at hk ⊢
    rcases x with ⟨r, v⟩
    cases r with
    | part x r =>
      simp only at hk ⊢
      split
      · exact hJ.withPathMem hk
      · exact hk
    | _ => exact hk
  · exact hJ.withPathMem h

theorem KeptByFields.save (hJ : KeptByFields J) {T : Target} (h : J s) : J (T.save cfg fuel w s).2.2 := by
  cases T with
  | path p => exact hJ.withPath h
  | dir d => exact hJ.withPath h
  | temp tmp => exact hJ.withPath h
  | filename tmp name => exact hJ.withPath h

theorem KeptByFields.entriesLoop {D : Deps} (hJ : KeptByFields J) (he : ∀ s, J s → J (s.readEntry D).2) :
    ∀ {n : Nat} {res : Res (Option FieldHeaders)} {e : Entries} {w : World} {s : BR}, J s → J (entriesLoop D cfg fuel n res e w s).2.2 := by
  intro n
  induction n with
  | zero => intro _ _ _ _ h; exact h
  | succ n ih =>
    intro res e w s h
    unfold Multipart.entriesLoop
    split
    · cases res with
      | ok o =>
        cases o with
        | none => exact h
        | some fh =>
          simp only
          have hk : J (withDir (fieldPolicy cfg fh) fuel e.saveDir.asPath w s).2.2 := hJ.withPath h
          generalize withDir (fieldPolicy cfg fh) fuel e.saveDir.asPath w s = x at hk ⊢
          rcases x with ⟨r, w1, s1⟩
          cases r with
          | full d => exact ih (he _ hk)
          | _ => exact hk
      | _ => exact h
    · exact h

theorem KeptByFields.withEntries {D : Deps} (hJ : KeptByFields J) (he : ∀ s, J s → J (s.readEntry D).2) {e : Entries} (h : J s) :
    J (withEntries D cfg fuel e w s).2.2 := hJ.entriesLoop he (he s h)

end Multipart

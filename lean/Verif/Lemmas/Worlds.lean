import Verif.Lemmas.SaveField
/-!
# What saving leaves of the scripts of the world
-/
namespace Multipart

variable {s t : BR} {cfg : Settings} {fuel : Nat} {w w' : World}

theorem tryReadBuf_state {σ : Type} {f : σ → Bytes → SaveRes Nat Nat × σ} {R : σ → σ → Prop} (hr : ∀ a, R a a) (ht : ∀ {a b c}, R a b → R b c → R a c)
    (hf : ∀ st buf, R st (f st buf).2) : ∀ (n total : Nat) (st : σ) (s : BR), R st (tryReadBuf f n total st s).2.1 := by
  intro n
  induction n with
  | zero => intro total st s; exact hr st
  | succ n ih =>
    intro total st s
    unfold tryReadBuf
    rcases s.readToBoundary with ⟨r, s1⟩
    cases r with
    | err e => cases e <;> first | exact ih _ _ _ | exact hr st
    | panic => exact hr st
    | hang => exact hr st
    | ok buf =>
      simp only
      split
      · exact hr st
      · have h1 := hf st buf
        generalize f st buf = x at h1 ⊢
        obtain ⟨r, st1⟩ := x
        cases r with
        | full c => exact ht h1 (ih _ _ _)
        | part c r => exact h1
        | error e => exact h1
        | panic => exact h1
        | hang => exact h1

theorem writeTo_script (k : Sink) : (writeTo cfg fuel k s).2.1.script <:+ k.script := by
  unfold writeTo
  split
  · unfold tryCopyLimited
    simp only
    exact tryReadBuf_state (R := fun (a b : Nat × Sink) => b.2.script <:+ a.2.script) (fun _ => List.suffix_rfl) (fun h h' => h'.trans h) (fun st buf => by
      unfold limited
      simp only
      split
      · exact List.suffix_rfl
      · exact tryWriteAll_script buf st.2) fuel 0 (0, k) s
  · exact tryReadBuf_state (R := fun (a b : Sink) => b.script <:+ a.script) (fun _ => List.suffix_rfl) (fun h h' => h'.trans h)
      (fun st buf => tryWriteAll_script buf st) fuel 0 k s

/-- From `w` to `w'` some entries of the scripts were used up, and no file except `p` was changed. -/
structure World.Later (p : Path) (w w' : World) : Prop where
  mkdirs : w'.mkdirs <:+ w.mkdirs
  opens : w'.opens <:+ w.opens
  writes : w'.writes <:+ w.writes
  names : w'.names = w.names
  files : ∀ q, q ≠ p → w'.files q = w.files q

theorem World.Later.refl (p : Path) (w : World) : World.Later p w w :=
  ⟨List.suffix_rfl, List.suffix_rfl, List.suffix_rfl, rfl, fun _ _ => rfl⟩

theorem World.Later.trans {p : Path} {w1 : World} (h : World.Later p w w1) (h' : World.Later p w1 w') : World.Later p w w' :=
  ⟨h'.mkdirs.trans h.mkdirs, h'.opens.trans h.opens, h'.writes.trans h.writes, h'.names.trans h.names, fun q hq => (h'.files q hq).trans (h.files q hq)⟩

theorem createDirAll_later (w : World) (p q : Path) : World.Later q w (w.createDirAll p).2 := by
  unfold World.createDirAll
  split
  · exact .refl _ _
  · exact ⟨List.tail_suffix _, List.suffix_rfl, List.suffix_rfl, rfl, fun _ _ => rfl⟩

theorem openFile_later (w : World) (o : OpenOpts) (p q : Path) : World.Later q w (w.openFile o p).2 := by
  unfold World.openFile
  split
  · exact .refl _ _
  split
  · rename_i e r h
    exact ⟨List.suffix_rfl, by rw [h]; exact List.suffix_cons _ _, List.suffix_rfl, rfl, fun _ _ => rfl⟩
  · have hl : World.Later q w { w with opens := w.opens.tail } := ⟨List.suffix_rfl, List.tail_suffix _, List.suffix_rfl, rfl, fun _ _ => rfl⟩
    simp only
    split
    · split <;> exact hl
    · split <;> exact hl

theorem setFile_later {p : Path} {c : Bytes} {k : Sink} (h : k.script <:+ w.writes) : World.Later p w ({ w with writes := k.script }.setFile p c) :=
  ⟨List.suffix_rfl, List.suffix_rfl, h, rfl, fun q hq => by simp [World.setFile, hq]⟩

theorem saveFile_later {p : Path} {x : Bytes} : World.Later p w (saveFile cfg fuel p x w s).2.1 := by
  unfold saveFile
  have h1 := createDirAll_later w p p
  generalize w.createDirAll p = r at h1 ⊢
  rcases r with ⟨_ | e, w1⟩
  · simp only at h1 ⊢
    have h2 := h1.trans (openFile_later w1 cfg.openOpts p p)
    generalize w1.openFile cfg.openOpts p = r at h2 ⊢
    rcases r with ⟨_ | old, w2⟩
    · exact h2
    · simp only at h2 ⊢
      have h3 := tryWriteAll_script x { script := w2.writes, got := [] }
      rcases hwr : tryWriteAll x { script := w2.writes, got := [] } with ⟨r, k⟩
      rw [hwr] at h3
      cases r with
      | full size =>
        simp only at h3 ⊢
        have h4 := writeTo_script (cfg := cfg) (fuel := fuel) (s := s) k
        rcases hwt : writeTo cfg fuel k s with ⟨r, k', s'⟩
        rw [hwt] at h4
        exact h2.trans (setFile_later (h4.trans h3))
      | part b r => exact h2.trans (setFile_later h3)
      | error e => exact h2.trans (setFile_later h3)
      | panic => exact h2.trans (setFile_later h3)
      | hang => exact h2.trans (setFile_later h3)
  · exact h1

theorem withPathMem_later {p : Path} {x : Bytes} : World.Later p w (withPathMem cfg fuel p x w s).2.1 := by
  unfold withPathMem
  rcases saveMem cfg fuel x s with ⟨r, s1⟩
  cases r with
  | part bytes reason =>
    simp only
    split
    · exact saveFile_later
    · exact .refl _ _
  | _ => exact .refl _ _

theorem withPath_later {p : Path} : World.Later p w (withPath cfg fuel p w s).2.1 := by
  unfold withPath
  split
  · rcases saveText cfg fuel s with ⟨r, s1⟩
    cases r with
    | part text reason =>
      simp only
      split
      · exact withPathMem_later
      · exact .refl _ _
    | _ => exact .refl _ _
  · exact withPathMem_later

/-- Saving a field to a directory uses up one random name, and leaves the disk ready for the other fields. -/
theorem DiskReady.saved {dir : Path} {n : Nat} (h : DiskReady w dir (n + 1)) {r : SaveRes SavedData SavedData} (hs : withDir cfg fuel dir w s = (r, w', t)) : DiskReady w' dir n := by
  have hl := withPath_later (cfg := cfg) (fuel := fuel) (p := dir ++ [w.randName.1]) (w := w.randName.2) (s := s)
  have hw : (withPath cfg fuel (dir ++ [w.randName.1]) w.randName.2 s).2.1 = w' := by
    have : withPath cfg fuel (dir ++ [w.randName.1]) w.randName.2 s = (r, w', t) := hs
    rw [this]
  rw [hw] at hl
  obtain ⟨h1, h2, h3, h4, h5, h6⟩ := h
  have hn : w'.names = w.names.tail := hl.names
  rcases hnm : w.names with _ | ⟨a, as⟩
  · rw [hnm] at h4; simp at h4
  have ha : w.randName.1 = a := by simp [World.randName, hnm]
  rw [hnm] at h4 h5 h6 hn
  rw [ha] at hl
  simp only [List.length_cons, List.take_succ_cons, List.nodup_cons, List.mem_cons, List.tail_cons] at h4 h5 h6 hn
  refine ⟨fun e he => h1 e (hl.mkdirs.subset he), fun e he => h2 e (hl.opens.subset he), fun ev he => h3 ev (hl.writes.subset he), by rw [hn]; omega, by rw [hn]; exact h5.2, ?_⟩
  intro name hm
  rw [hn] at hm
  have hne : dir ++ [name] ≠ dir ++ [a] := by
    intro hh
    simp at hh
    subst hh
    exact h5.1 hm
  rw [hl.files _ hne]
  exact h6 name (.inr hm)

end Multipart

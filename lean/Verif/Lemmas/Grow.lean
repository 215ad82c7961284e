import Verif.Model.Entries
import Verif.Spec.Saving
import Verif.Spec.DiskUse
/-!
# How much memory and files grow by a call

All of it holds for any reader and any fuel.
-/
namespace Multipart
variable {D : Deps} {cfg : Settings} {fuel : Nat} {w : World} {s : BR} {q : Path}

/-- A closure that takes no more than it is given, under `limited`. -/
theorem tryReadBuf_grow {σ : Type} {f : σ → Bytes → SaveRes Nat Nat × σ} {size : σ → Nat} {limit : Nat} (hl : limit < u64Max) (hf : ∀ st buf, size (f st buf).2 ≤ size st + buf.length) :
    ∀ {n total c : Nat} {st : σ} {s : BR}, c ≤ limit → size (tryReadBuf (limited f limit) n total (c, st) s).2.1.2 + c ≤ size st + limit := by
  intro n
  induction n with
  | zero => intro total c st s hc; simp only [tryReadBuf]; omega
  | succ n ih =>
    intro total c st s hc
    unfold tryReadBuf
    generalize s.readToBoundary = x
    rcases x with ⟨r, t⟩
    cases r with
    | err e => cases e <;> simp only <;> first | exact ih hc | omega
    | panic => simp only; omega
    | hang => simp only; omega
    | ok buf =>
      simp only
      split
      · simp only; omega
      · have hlim : limited f limit (c, st) buf = (.part 0 .sizeLimit, (c, st)) ∨
            (c + buf.length ≤ limit ∧ limited f limit (c, st) buf = ((f st buf).1, c + buf.length, (f st buf).2)) := by
          unfold limited
          simp only
          split
          · exact .inl rfl
          · rename_i hle
            have hnew : Nat.min (c + buf.length) u64Max = c + buf.length := by
              refine Nat.min_eq_left ?_
              change ¬ limit < Min.min (c + buf.length) u64Max at hle
              omega
            rw [hnew] at hle ⊢
            exact .inr ⟨by omega, rfl⟩
        rcases hlim with h | ⟨hle, h⟩
        · rw [h]; simp only; omega
        · rw [h]
          have hg := hf st buf
          generalize f st buf = y at hg ⊢
          rcases y with ⟨r, st'⟩
          simp only at hg
          cases r with
          | full k =>
            simp only
            have h1 := ih (total := total + k) (c := c + buf.length) (st := st') (s := t.consume k) hle
            omega
          | _ => simp only; omega

theorem tryCopyLimited_grow {σ : Type} {f : σ → Bytes → SaveRes Nat Nat × σ} {size : σ → Nat} {limit : Nat} (hl : limit < u64Max) (hf : ∀ st buf, size (f st buf).2 ≤ size st + buf.length) {st : σ} :
    size (tryCopyLimited f fuel limit st s).2.1 ≤ size st + limit := by
  have := tryReadBuf_grow (f := f) hl hf (n := fuel) (total := 0) (st := st) (s := s) (Nat.zero_le _)
  unfold tryCopyLimited
  simpa using this

theorem tryWriteAllAux_grow : ∀ {script : List WEv} {buf got : Bytes} {total : Nat}, (tryWriteAllAux buf total got script).2.got.length ≤ got.length + buf.length
  | [], buf, got, total => by simp [tryWriteAllAux]
  | ev :: script, buf, got, total => by
    unfold tryWriteAllAux
    split
    · simp
    · split
      · exact tryWriteAllAux_grow
      · simp
      · split
        · simp
        · rename_i n _
          have := tryWriteAllAux_grow (script := script) (buf := buf.drop (Nat.min n buf.length)) (got := got ++ buf.take (Nat.min n buf.length)) (total := total + Nat.min n buf.length)
          simp only [List.length_append, List.length_take, List.length_drop] at this
          have h1 : Nat.min n buf.length ≤ buf.length := Nat.min_le_right _ _
          generalize Nat.min n buf.length = m at this h1 ⊢
          omega

theorem memLimit_lt (hl : cfg.sizeLimit < u64Max) (n : Nat) : cfg.memLimit n < u64Max :=
  Nat.lt_of_le_of_lt (Nat.le_trans (Nat.sub_le _ _) (Nat.min_le_left _ _)) hl

/-- What `save_text` has in memory is within the limits. -/
def SaveRes.within (k : Nat) : SaveRes Bytes Bytes → Prop
  | .full x => x.length ≤ k
  | .part x _ => x.length ≤ k
  | _ => True

theorem saveText_grow (hl : cfg.sizeLimit < u64Max) : (saveText cfg fuel s).1.within (cfg.memLimit 0) := by
  have := tryCopyLimited_grow (f := textStep) (size := List.length) (fuel := fuel) (limit := cfg.memLimit 0) (st := []) (s := s) (memLimit_lt hl 0) (by
    intro st buf
    unfold textStep
    split
    · simp
    · split
      · simp
      · simp only [List.length_append, List.length_take]; omega)
  unfold saveText
  generalize tryCopyLimited textStep fuel (cfg.memLimit 0) [] s = y at this ⊢
  rcases y with ⟨r, acc, t⟩
  simp only [List.length_nil, Nat.zero_add] at this
  cases r <;> first | exact this | trivial

theorem saveMem_grow {x : Bytes} (hl : cfg.sizeLimit < u64Max) (hx : x.length ≤ cfg.memLimit 0) : (saveMem cfg fuel x s).1.within (cfg.memLimit 0) := by
  have := tryCopyLimited_grow (f := memStep) (size := List.length) (fuel := fuel) (limit := cfg.memLimit x.length) (st := x) (s := s) (memLimit_lt hl _) (by intro st buf; simp [memStep])
  unfold saveMem
  generalize tryCopyLimited memStep fuel (cfg.memLimit x.length) x s = y at this ⊢
  rcases y with ⟨r, acc, t⟩
  have hacc : acc.length ≤ cfg.memLimit 0 := by
    unfold Settings.memLimit at this hx ⊢
    simp only at this
    omega
  cases r with
  | error e => simp only; split <;> first | exact hacc | trivial
  | full _ => exact hacc
  | part _ _ => exact hacc
  | _ => trivial

theorem writeTo_grow {k : Sink} (hl : cfg.sizeLimit < u64Max) : (writeTo cfg fuel k s).2.1.got.length ≤ k.got.length + cfg.sizeLimit := by
  unfold writeTo
  rw [if_pos hl]
  exact tryCopyLimited_grow (size := fun k : Sink => k.got.length) hl (fun st buf => tryWriteAllAux_grow)

theorem overlay_length {o : OpenOpts} {old bs : Bytes} : (overlay o old bs).length ≤ old.length + bs.length := by
  unfold overlay
  split
  · simp
  · simp only [List.length_append, List.length_drop]; omega

/-- This file may have grown by `k`, no other has changed. -/
structure Grew (p : Path) (k : Nat) (w w' : World) : Prop where
  size : w'.fileSize p ≤ w.fileSize p + k
  others : ∀ q, q ≠ p → w'.files q = w.files q

theorem Grew.same {p : Path} {k : Nat} {w w' : World} (h : w'.files = w.files) : Grew p k w w' := ⟨by unfold World.fileSize; rw [h]; omega, fun _ _ => by rw [h]⟩

theorem createDirAll_files : (w.createDirAll q).2.files = w.files := by
  unfold World.createDirAll; split <;> rfl

theorem openFile_old {o : OpenOpts} : (w.openFile o q).2.files = w.files ∧ ∀ old, (w.openFile o q).1 = .ok old → old.length ≤ w.fileSize q := by
  unfold World.openFile World.fileSize
  split
  · exact ⟨rfl, fun _ h => by cases h⟩
  · split
    · exact ⟨rfl, fun _ h => by cases h⟩
    · simp only
      split
      · split
        · exact ⟨rfl, fun _ h => by cases h⟩
        · rename_i old0 h0 _
          have h0 : w.files q = some old0 := h0
          refine ⟨rfl, fun old h => ?_⟩
          cases h
          rw [h0]
          simp only
          split
          · exact Nat.zero_le _
          · exact Nat.le_refl _
      · split
        · refine ⟨rfl, fun old h => ?_⟩
          cases h
          simp
        · exact ⟨rfl, fun _ h => by cases h⟩

theorem saveFile_grow {x : Bytes} (hl : cfg.sizeLimit < u64Max) (hx : x.length ≤ cfg.memLimit 0) : Grew q (cfg.sizeLimit + cfg.memLimit 0) w (saveFile cfg fuel q x w s).2.1 := by
  unfold saveFile
  have hc := createDirAll_files (w := w) (q := q)
  generalize w.createDirAll q = y at hc ⊢
  rcases y with ⟨_ | e, w1⟩
  · simp only at hc ⊢
    have ho := openFile_old (w := w1) (q := q) (o := cfg.openOpts)
    generalize w1.openFile cfg.openOpts q = y at ho ⊢
    rcases y with ⟨e | old, w2⟩
    · exact .same (ho.1.trans hc)
    · simp only at ho ⊢
      have hold := ho.2 old rfl
      have hsz : w1.fileSize q = w.fileSize q := by unfold World.fileSize; rw [hc]
      have hw := tryWriteAllAux_grow (script := w2.writes) (buf := x) (got := []) (total := 0)
      have hset : ∀ (w3 : World) (c : Bytes), w3.files = w2.files → c.length ≤ cfg.sizeLimit + cfg.memLimit 0 → Grew q (cfg.sizeLimit + cfg.memLimit 0) w (w3.setFile q (overlay cfg.openOpts old c)) := by
        intro w3 c h3 hcl
        constructor
        · have : (w3.setFile q (overlay cfg.openOpts old c)).fileSize q = (overlay cfg.openOpts old c).length := by simp [World.fileSize, World.setFile]
          rw [this]
          have := overlay_length (o := cfg.openOpts) (old := old) (bs := c)
          omega
        · intro p hp
          simp only [World.setFile, if_neg hp]
          rw [h3, ho.1, hc]
      unfold tryWriteAll
      simp only [List.length_nil, Nat.zero_add] at hw
      generalize tryWriteAllAux x 0 [] w2.writes = y at hw ⊢
      rcases y with ⟨r, k⟩
      simp only at hw
      cases r with
      | full size =>
        simp only
        have := writeTo_grow (fuel := fuel) (s := s) (k := k) hl
        exact hset _ _ rfl (Nat.le_trans this (by omega))
      | _ => exact hset _ _ rfl (by omega)
  · exact .same hc

/-- Data that are kept in memory are no longer than `k`. -/
def SaveRes.light (k : Nat) : SaveRes SavedData SavedData → Prop
  | .full d => d.isMemory = true → d.size ≤ k
  | .part d _ => d.isMemory = true → d.size ≤ k
  | _ => True

theorem saveFile_light {x : Bytes} {k : Nat} : (saveFile cfg fuel q x w s).1.light k := by
  unfold saveFile
  generalize w.createDirAll q = y
  rcases y with ⟨_ | e, w1⟩
  · simp only
    generalize w1.openFile cfg.openOpts q = y
    rcases y with ⟨e | old, w2⟩
    · trivial
    · simp only
      generalize tryWriteAll x { script := w2.writes, got := [] } = y
      rcases y with ⟨r, j⟩
      cases r with
      | full size =>
        simp only
        generalize writeTo cfg fuel j s = y
        rcases y with ⟨r, j, t⟩
        cases r <;> first | trivial | (intro h; simp [SavedData.addSize, SavedData.isMemory] at h)
      | part a b => intro h; simp [SavedData.isMemory] at h
      | _ => trivial
  · trivial

theorem withPathMem_grow {x : Bytes} (hl : cfg.sizeLimit < u64Max) (hx : x.length ≤ cfg.memLimit 0) :
    Grew q (cfg.sizeLimit + cfg.memLimit 0) w (withPathMem cfg fuel q x w s).2.1 ∧ (withPathMem cfg fuel q x w s).1.light (cfg.memLimit 0) := by
  have hm := saveMem_grow (fuel := fuel) (s := s) hl hx
  unfold withPathMem
  generalize saveMem cfg fuel x s = y at hm ⊢
  rcases y with ⟨r, t⟩
  cases r with
  | part y r =>
    simp only
    split
    · exact ⟨saveFile_grow hl hm, saveFile_light⟩
    · exact ⟨.same rfl, fun _ => hm⟩
  | full y => exact ⟨.same rfl, fun _ => hm⟩
  | _ => exact ⟨.same rfl, trivial⟩

theorem withPath_grow (hl : cfg.sizeLimit < u64Max) :
    Grew q (cfg.sizeLimit + cfg.memLimit 0) w (withPath cfg fuel q w s).2.1 ∧ (withPath cfg fuel q w s).1.light (cfg.memLimit 0) := by
  unfold withPath
  split
  · have hm := saveText_grow (fuel := fuel) (s := s) hl
    generalize saveText cfg fuel s = y at hm ⊢
    rcases y with ⟨r, t⟩
    cases r with
    | part y r =>
      simp only
      split
      · exact withPathMem_grow hl hm
      · exact ⟨.same rfl, fun _ => hm⟩
    | full y => exact ⟨.same rfl, fun _ => hm⟩
    | _ => exact ⟨.same rfl, trivial⟩
  · exact withPathMem_grow hl (Nat.zero_le _)

theorem Target.save_grow {T : Target} (hl : cfg.sizeLimit < u64Max) :
    Grew (T.file w) (cfg.sizeLimit + cfg.memLimit 0) w (T.save cfg fuel w s).2.1 ∧ (T.save cfg fuel w s).1.light (cfg.memLimit 0) := by
  cases T with
  | path p => exact withPath_grow hl
  | filename tmp name => exact withPath_grow hl
  | dir d =>
    obtain ⟨h1, h2⟩ := withPath_grow (w := w.randName.2) (q := d ++ [w.names.headD []]) (fuel := fuel) (s := s) hl
    exact ⟨⟨h1.size, h1.others⟩, h2⟩
  | temp d =>
    obtain ⟨h1, h2⟩ := withPath_grow (w := w.randName.2) (q := d ++ [w.names.headD []]) (fuel := fuel) (s := s) hl
    exact ⟨⟨h1.size, h1.others⟩, h2⟩

end Multipart

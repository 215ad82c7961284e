import Verif.Lemmas.Worlds
import Verif.Spec.Entries
/-!
# Which directories and files saving creates
-/
namespace Multipart

variable {s t : BR} {cfg : Settings} {fuel : Nat} {w w' : World}

/-- The data in the result of saving a field. -/
def SaveRes.data : SaveRes SavedData SavedData → Option SavedData
  | .full d => some d
  | .part d _ => some d
  | _ => none

/-- What saving to the file `p` may do: create the directory it is in; and only then create or change the file. -/
structure MadeFile (p : Path) (w w' : World) (out : Option SavedData) : Prop where
  dirs : w'.dirs = w.dirs ∨ w'.dirs = w.dirs ++ [p.dropLast]
  names : w'.names = w.names
  others : ∀ q, q ≠ p → w'.files q = w.files q
  changed : w'.files p ≠ w.files p → w'.dirs = w.dirs ++ [p.dropLast]
  file : ∀ q n, out = some (.file q n) → q = p ∧ w'.dirs = w.dirs ++ [p.dropLast]

theorem MadeFile.none {p : Path} {out : Option SavedData} (h : ∀ q n, out ≠ some (.file q n)) : MadeFile p w w out :=
  ⟨.inl rfl, rfl, fun _ _ => rfl, fun h => absurd rfl h, fun q n hq => absurd hq (h q n)⟩

theorem MadeFile.made {p : Path} {out : Option SavedData} (hd : w'.dirs = w.dirs ++ [p.dropLast]) (hl : World.Later p w w') (h : ∀ q n, out = some (.file q n) → q = p) : MadeFile p w w' out :=
  ⟨.inr hd, hl.names, hl.files, fun _ => hd, fun q n hq => ⟨h q n hq, hd⟩⟩

theorem SaveRes.map_data {f : Nat → SavedData} {r : SaveRes Nat Nat} {p : Path} (hf : ∀ k, ∃ n, f k = .file p n) : ∀ q n, (r.map f).data = some (.file q n) → q = p := by
  intro q n h
  cases r with
  | full k => obtain ⟨n', h'⟩ := hf k; simp [SaveRes.map, SaveRes.data, h'] at h; exact h.1.symm
  | part k r => obtain ⟨n', h'⟩ := hf k; simp [SaveRes.map, SaveRes.data, h'] at h; exact h.1.symm
  | error e => simp [SaveRes.map, SaveRes.data] at h
  | panic => simp [SaveRes.map, SaveRes.data] at h
  | hang => simp [SaveRes.map, SaveRes.data] at h

theorem createDirAll_dirs {p : Path} (hp : p ≠ []) : (w.createDirAll p).2.dirs = w.dirs ++ [p.dropLast] := by
  unfold World.createDirAll
  rw [if_neg hp]

theorem openFile_dirs (o : OpenOpts) (p : Path) : (w.openFile o p).2.dirs = w.dirs := by
  unfold World.openFile
  split
  · rfl
  split
  · rfl
  · simp only
    split <;> split <;> rfl

theorem saveFile_made {p : Path} (hp : p ≠ []) {x : Bytes} : MadeFile p w (saveFile cfg fuel p x w s).2.1 (saveFile cfg fuel p x w s).1.data := by
  have hl := saveFile_later (cfg := cfg) (fuel := fuel) (p := p) (x := x) (w := w) (s := s)
  suffices h : (saveFile cfg fuel p x w s).2.1.dirs = w.dirs ++ [p.dropLast] ∧ ∀ q n, (saveFile cfg fuel p x w s).1.data = some (.file q n) → q = p from .made h.1 hl h.2
  clear hl
  unfold saveFile
  have h1 := createDirAll_dirs (w := w) hp
  generalize w.createDirAll p = r at h1 ⊢
  rcases r with ⟨_ | e, w1⟩
  · simp only at h1 ⊢
    have h2 := openFile_dirs (w := w1) cfg.openOpts p
    generalize w1.openFile cfg.openOpts p = r at h2 ⊢
    rcases r with ⟨_ | old, w2⟩
    · exact ⟨h2.trans h1, by simp [SaveRes.data]⟩
    · simp only at h2 ⊢
      rcases tryWriteAll x { script := w2.writes, got := [] } with ⟨r, k⟩
      cases r with
      | full size =>
        simp only
        rcases writeTo cfg fuel k s with ⟨r, k', s'⟩
        exact ⟨h2.trans h1, SaveRes.map_data fun k => ⟨_, rfl⟩⟩
      | part b r => simp only; exact ⟨h2.trans h1, SaveRes.map_data fun k => ⟨_, rfl⟩⟩
      | error e => simp only; exact ⟨h2.trans h1, SaveRes.map_data fun k => ⟨_, rfl⟩⟩
      | panic => simp only; exact ⟨h2.trans h1, SaveRes.map_data fun k => ⟨_, rfl⟩⟩
      | hang => simp only; exact ⟨h2.trans h1, SaveRes.map_data fun k => ⟨_, rfl⟩⟩
  · exact ⟨h1, by simp [SaveRes.data]⟩

theorem withPathMem_made {p : Path} (hp : p ≠ []) {x : Bytes} : MadeFile p w (withPathMem cfg fuel p x w s).2.1 (withPathMem cfg fuel p x w s).1.data := by
  unfold withPathMem
  rcases saveMem cfg fuel x s with ⟨r, s1⟩
  cases r with
  | part bytes reason =>
    simp only
    split
    · exact saveFile_made hp
    · exact .none (by simp [SaveRes.data])
  | _ => exact .none (by simp [SaveRes.data])

theorem withPath_made {p : Path} (hp : p ≠ []) : MadeFile p w (withPath cfg fuel p w s).2.1 (withPath cfg fuel p w s).1.data := by
  unfold withPath
  split
  · rcases saveText cfg fuel s with ⟨r, s1⟩
    cases r with
    | part text reason =>
      simp only
      split
      · exact withPathMem_made hp
      · exact .none (by simp [SaveRes.data])
    | _ => exact .none (by simp [SaveRes.data])
  · exact withPathMem_made hp

/-- What saving fields to a directory may do: create it; and only then create or change files in it, with random names. -/
structure MadeIn (dir : Path) (w w' : World) : Prop where
  kept : ∀ d ∈ w.dirs, d ∈ w'.dirs
  new : ∀ d ∈ w'.dirs, d ∈ w.dirs ∨ d = dir
  names : w'.names <:+ w.names
  files : ∀ q, w'.files q ≠ w.files q → (∃ name ∈ [] :: w.names, q = dir ++ [name]) ∧ dir ∈ w'.dirs

theorem MadeIn.refl (dir : Path) (w : World) : MadeIn dir w w := ⟨fun _ h => h, fun _ h => .inl h, List.suffix_rfl, fun _ h => absurd rfl h⟩

theorem names_suffix {l l' : List Bytes} {n : Bytes} (h : l <:+ l') (hn : n ∈ [] :: l) : n ∈ [] :: l' := by
  rcases List.mem_cons.mp hn with rfl | hn
  · simp
  · exact List.mem_cons_of_mem _ (h.subset hn)

theorem MadeIn.trans {dir : Path} {w1 : World} (h : MadeIn dir w w1) (h' : MadeIn dir w1 w') : MadeIn dir w w' := by
  refine ⟨fun d hd => h'.kept d (h.kept d hd), fun d hd => (h'.new d hd).elim (h.new d) .inr, h'.names.trans h.names, fun q hq => ?_⟩
  by_cases h1 : w1.files q = w.files q
  · obtain ⟨⟨name, h2, h3⟩, h4⟩ := h'.files q (by rw [h1]; exact hq)
    exact ⟨⟨name, names_suffix h.names h2, h3⟩, h4⟩
  · obtain ⟨h2, h3⟩ := h.files q h1
    exact ⟨h2, h'.kept dir h3⟩

theorem withDir_made {dir : Path} : MadeIn dir w (withDir cfg fuel dir w s).2.1 ∧
    ∀ p n, (withDir cfg fuel dir w s).1.data = some (.file p n) → (∃ name ∈ [] :: w.names, p = dir ++ [name]) ∧ dir ∈ (withDir cfg fuel dir w s).2.1.dirs := by
  unfold withDir World.randName
  simp only
  have h := withPath_made (cfg := cfg) (fuel := fuel) (s := s) (p := dir ++ [w.names.headD []]) (w := { w with names := w.names.tail }) (by simp)
  have hn : w.names.headD [] ∈ [] :: w.names := by cases w.names <;> simp
  have hdrop : (dir ++ [w.names.headD []]).dropLast = dir := by simp
  obtain ⟨hd, hns, ho, hc, hf⟩ := h
  rw [hdrop] at hd hc
  simp only at hd hns ho hc hf
  refine ⟨⟨?_, ?_, ?_, ?_⟩, ?_⟩
  · intro d hm
    rcases hd with hd | hd <;> rw [hd] <;> simp [hm]
  · intro d hm
    rcases hd with hd | hd <;> rw [hd] at hm
    · exact .inl hm
    · simpa using hm
  · rw [hns]; exact List.tail_suffix _
  · intro q hq
    by_cases hqp : q = dir ++ [w.names.headD []]
    · subst hqp
      exact ⟨⟨_, hn, rfl⟩, by rw [hc hq]; simp⟩
    · exact absurd (ho q hqp) hq
  · intro p n hp
    obtain ⟨h1, h2⟩ := hf p n hp
    rw [hdrop] at h2
    exact ⟨⟨_, hn, h1⟩, by rw [h2]; simp⟩

end Multipart

import Verif.Spec.Whole
import Verif.Lemmas.Dirs
import Verif.Props.Iron
/-!
# C88: the methods that save a whole request, and their directories

`requestWithDir` is `save().with_dir(dir)`, `requestTemp` is `save().temp()`. `World.dirs` lists the directories that were asked to be created (`fs::create_dir_all`, which creates those
above them as well).
-/
namespace Multipart

variable {D : Deps} {evs : List Ev} {b : Bytes} {s t : BR} {cfg : Settings} {fuel : Nat} {w w' : World} {e : Entries} {r : SaveRes Entries PartialEntries} {dir : Path}

theorem pushInto_stored {f : SavedField} {d : SavedData} (m : List (Bytes × List SavedField)) :
    d ∈ (pushInto f m).flatMap (fun kv => kv.2.map fun f => f.data) ↔ d = f.data ∨ d ∈ m.flatMap (fun kv => kv.2.map fun f => f.data) := by
  induction m with
  | nil => simp [pushInto]
  | cons kv m ih =>
    obtain ⟨k, v⟩ := kv
    unfold pushInto
    split
    · simp only [List.flatMap_cons, List.mem_append, List.map_append, List.map_cons, List.map_nil, List.mem_singleton]
      constructor
      · rintro ((h | h) | h)
        · exact .inr (.inl h)
        · exact .inl h
        · exact .inr (.inr h)
      · rintro (h | h | h)
        · exact .inl (.inr h)
        · exact .inl (.inl h)
        · exact .inr h
    · simp only [List.flatMap_cons, List.mem_append, ih]
      constructor
      · rintro (h | h | h)
        · exact .inr (.inl h)
        · exact .inl h
        · exact .inr (.inr h)
      · rintro (h | h | h)
        · exact .inr (.inl h)
        · exact .inl h
        · exact .inr (.inr h)

theorem Entries.pushAll_stored (fs : List SavedField) : ∀ (e : Entries) (d : SavedData), d ∈ (e.pushAll fs).stored → d ∈ e.stored ∨ ∃ f ∈ fs, f.data = d := by
  induction fs with
  | nil => intro e d h; exact .inl h
  | cons f fs ih =>
    intro e d h
    rcases ih _ d h with h | ⟨g, h1, h2⟩
    · rcases (pushInto_stored e.fields).mp h with rfl | h
      · exact .inr ⟨f, by simp, rfl⟩
      · exact .inl h
    · exact .inr ⟨g, by simp [h1], h2⟩

theorem save_made {rr : SaveRes SavedData SavedData} (h : (Target.dir dir).save cfg fuel w s = (rr, w', t)) :
    MadeIn dir w w' ∧ ∀ p n, rr.data = some (.file p n) → RandomIn w dir p ∧ dir ∈ w'.dirs := by
  have := withDir_made (cfg := cfg) (fuel := fuel) (w := w) (s := s) (dir := dir)
  have h : withDir cfg fuel dir w s = _ := h
  rw [h] at this
  exact this

theorem RandomIn.suffix {w1 : World} {q : Path} (h : w1.names <:+ w.names) (hq : RandomIn w1 dir q) : RandomIn w dir q := by
  obtain ⟨n, h1, h2⟩ := hq
  exact ⟨n, names_suffix h h1, h2⟩

theorem SavedSeq.made {fs : List SavedField} (h : SavedSeq D cfg fuel dir w s fs w' t) :
    MadeIn dir w w' ∧ ∀ f ∈ fs, ∀ p n, f.data = .file p n → RandomIn w dir p ∧ dir ∈ w'.dirs := by
  induction h with
  | nil => exact ⟨.refl _ _, by simp⟩
  | cons h1 h2 _ ih =>
    obtain ⟨h3, h4⟩ := save_made h2
    refine ⟨h3.trans ih.1, ?_⟩
    intro f hf p n hd
    rcases List.mem_cons.mp hf with rfl | hf
    · obtain ⟨h5, h6⟩ := h4 p n (by simp only at hd; rw [hd]; rfl)
      exact ⟨h5, ih.1.kept _ h6⟩
    · obtain ⟨h5, h6⟩ := ih.2 f hf p n hd
      exact ⟨h5.suffix h3.names, h6⟩

theorem withEntries_made (h : withEntries D cfg fuel e w s = (r, w', t)) (hh : r ≠ .hang) (hp : r ≠ .panic) :
    MadeIn e.saveDir.asPath w w' ∧ r.saveDir = some e.saveDir ∧
      ∀ p n, .file p n ∈ r.stored → .file p n ∈ e.stored ∨ (RandomIn w e.saveDir.asPath p ∧ e.saveDir.asPath ∈ w'.dirs) := by
  obtain ⟨fs, w1, s1, h1, h2, h3⟩ := withEntries_spec h
  obtain ⟨hm, hf⟩ := h1.made
  have hdir : (e.recountFields.pushAll fs).saveDir = e.saveDir := Entries.pushAll_dir _ _
  have hold : ∀ p n, .file p n ∈ (e.recountFields.pushAll fs).stored → .file p n ∈ e.stored ∨ (RandomIn w e.saveDir.asPath p ∧ e.saveDir.asPath ∈ w1.dirs) := by
    intro p n hd
    rcases Entries.pushAll_stored fs _ _ hd with hd | ⟨f, h4, h5⟩
    · exact .inl hd
    · exact .inr (hf f h4 p n h5)
  rcases h3 with h3 | ⟨h3, -⟩
  · cases h3 with
    | full => exact ⟨hm, congrArg some hdir, hold⟩
    | count => exact ⟨hm, congrArg some hdir, hold⟩
    | read => exact ⟨hm, congrArg some hdir, hold⟩
    | part h4 _ h5 =>
      rw [hdir] at h5
      obtain ⟨h6, h7⟩ := save_made h5
      refine ⟨hm.trans h6, congrArg some hdir, ?_⟩
      intro p n hd
      simp only [SaveRes.stored, List.mem_append, List.mem_singleton] at hd
      rcases hd with hd | hd
      · exact (hold p n hd).imp_right fun h => ⟨h.1, h6.kept _ h.2⟩
      · obtain ⟨h8, h9⟩ := h7 p n (by rw [← hd]; rfl)
        exact .inr ⟨h8.suffix hm.names, h9⟩
    | error h4 _ h5 =>
      rw [hdir] at h5
      obtain ⟨h6, h7⟩ := save_made h5
      exact ⟨hm.trans h6, congrArg some hdir, fun p n hd => (hold p n hd).imp_right fun h => ⟨h.1, h6.kept _ h.2⟩⟩
    | panic => exact absurd rfl hp
    | hang => exact absurd rfl hh
  · exact absurd h3 hh

/-- C88: `with_dir` creates no directories but the given one and those above it; all files it creates or changes are directly in the given directory and have random names, whatever
the client sent; and so are the files in its result, which holds the directory as a permanent one. Where there is such a file, the directory was asked to be created. -/
theorem C88_with_dir (h : requestWithDir D cfg fuel dir w s = (r, w', t)) (hh : r ≠ .hang) (hp : r ≠ .panic) :
    (∀ q, w'.files q ≠ w.files q → RandomIn w dir q ∧ dir ∈ w'.dirs) ∧ (∀ d ∈ w'.dirs, d ∈ w.dirs ∨ d = dir ∨ d = dir.dropLast) ∧
    (∀ p n, .file p n ∈ r.stored → RandomIn w dir p ∧ dir ∈ w'.dirs) ∧ (∀ d, r.saveDir = some d → d = .perm dir) := by
  unfold requestWithDir at h
  have hd : ∀ d ∈ (w.createDirAll dir).2.dirs, d ∈ w.dirs ∨ d = dir ∨ d = dir.dropLast := by
    intro d hm
    unfold World.createDirAll at hm
    split at hm
    · exact .inl hm
    · simp only [List.mem_append, List.mem_singleton] at hm
      exact hm.imp_right .inr
  have hl := createDirAll_later w dir []
  have hfiles : (w.createDirAll dir).2.files = w.files := (w.createDirAll_same dir).1
  generalize w.createDirAll dir = x at h hd hl hfiles
  obtain ⟨_ | er, w1⟩ := x
  · simp only at h hd hl hfiles
    obtain ⟨h1, h2, h3⟩ := withEntries_made h hh hp
    refine ⟨fun q hq => ?_, fun d hm => ?_, fun p n hm => ?_, fun d hm => ?_⟩
    · obtain ⟨h4, h5⟩ := h1.files q (by rw [hfiles]; exact hq)
      exact ⟨RandomIn.suffix (w1 := w1) (by rw [hl.names]; exact List.suffix_rfl) h4, h5⟩
    · exact (h1.new d hm).elim (hd d) fun h => .inr (.inl h)
    · rcases h3 p n hm with h4 | ⟨h4, h5⟩
      · simp [Entries.stored, Entries.new] at h4
      · exact ⟨h4.suffix (by rw [hl.names]; exact List.suffix_rfl), h5⟩
    · rw [h2] at hm
      exact (Option.some.inj hm).symm
  · simp only [Prod.mk.injEq] at h
    obtain ⟨rfl, rfl, rfl⟩ := h
    exact ⟨fun q hq => absurd (congrFun hfiles q) hq, hd, by simp [SaveRes.stored], by simp [SaveRes.saveDir]⟩

/-- A file that is too long for the memory, `with_dir`: it is in the directory, which was asked to be created after the one above it. -/
example : (requestWithDir refDeps { Settings.default with memoryThreshold := 1500 } 100 [b!"up", b!"load"] Sample.disk (withBody Sample.evsLong Sample.bnd)).1.stored =
      [.file [b!"up", b!"load", b!"rnd"] 3300] ∧
    (requestWithDir refDeps { Settings.default with memoryThreshold := 1500 } 100 [b!"up", b!"load"] Sample.disk (withBody Sample.evsLong Sample.bnd)).2.1.dirs =
      [[b!"up"], [b!"up", b!"load"]] := by decide +kernel

/-- C88: `temp` saves in the same way in the temporary directory it made. -/
theorem C88_temp (h : requestTemp D cfg fuel (.ok dir) w s = (r, w', t)) (hh : r ≠ .hang) (hp : r ≠ .panic) :
    (∀ q, w'.files q ≠ w.files q → RandomIn w dir q) ∧ (∀ d ∈ w'.dirs, d ∈ w.dirs ∨ d = dir) ∧ dir ∈ w'.dirs ∧
    (∀ p n, .file p n ∈ r.stored → RandomIn w dir p) ∧ (r.saveDir = some (.temp dir)) := by
  unfold requestTemp withTempDir at h
  simp only at h
  obtain ⟨h1, h2, h3⟩ := withEntries_made h hh hp
  refine ⟨fun q hq => (h1.files q hq).1, fun d hm => ?_, h1.kept dir (by simp), fun p n hm => ?_, h2⟩
  · rcases h1.new d hm with h | h
    · simpa using h
    · exact .inr h
  · rcases h3 p n hm with h4 | ⟨h4, h5⟩
    · simp [Entries.stored, Entries.new] at h4
    · exact h4

/-- C88: once the result of `temp` is dropped, whatever it was, no file system entry in the directory is left, and everything else is as it was. -/
theorem C88_temp_dropped (h : requestTemp D cfg fuel (.ok dir) w s = (r, w', t)) (hh : r ≠ .hang) (hp : r ≠ .panic) {d : SaveDir} (hd : r.saveDir = some d) :
    (∀ q, Below dir q → (d.drop none w').files q = none ∧ q ∉ (d.drop none w').dirs) ∧ (∀ q, ¬ Below dir q → (d.drop none w').files q = w.files q ∧ (q ∈ (d.drop none w').dirs → q ∈ w.dirs)) := by
  obtain ⟨h1, h2, -, -, h5⟩ := C88_temp h hh hp
  rw [h5] at hd
  obtain rfl := Option.some.inj hd
  obtain ⟨h6, h7⟩ := SaveDir.drop_temp (fail := none) (w := w') (dir := dir) (.temp dir) rfl
  refine ⟨fun q hq => h6 rfl q hq, fun q hq => ⟨?_, fun hm => ?_⟩⟩
  · rw [h7 q hq]
    by_cases hc : w'.files q = w.files q
    · exact hc
    · obtain ⟨n, -, rfl⟩ := h1 q hc
      exact absurd ⟨_, rfl⟩ hq
  · have hm : q ∈ w'.dirs := by
      simp only [SaveDir.drop, World.removeDirAll] at hm
      exact (List.mem_filter.mp hm).1
    rcases h2 q hm with h | rfl
    · exact h
    · exact absurd ⟨[], by simp⟩ hq

/-- The size limit ends the saving of a request while a file is written: the partial result holds the temporary directory and the file in it. The hypotheses of C88_temp are met. -/
example : (requestTemp refDeps { Settings.default with memoryThreshold := 1500, sizeLimit := 3000 } 100 (.ok [b!"tmp", b!"m1"]) Sample.disk (withBody Sample.evsLong Sample.bnd)).1.stored =
      [.file [b!"tmp", b!"m1", b!"rnd"] 3300] ∧
    (requestTemp refDeps { Settings.default with memoryThreshold := 1500, sizeLimit := 3000 } 100 (.ok [b!"tmp", b!"m1"]) Sample.disk (withBody Sample.evsLong Sample.bnd)).1.saveDir =
      some (.temp [b!"tmp", b!"m1"]) := by decide +kernel

/-- C88: if the directory cannot be created, the error is returned; nothing is read and no file is touched. -/
theorem C88_no_directory (er : IoErr) : requestTemp D cfg fuel (.error er) w s = (.error er, w, s) ∧
    (∀ rest, dir ≠ [] → w.mkdirs = some er :: rest → ∃ w', requestWithDir D cfg fuel dir w s = (.error er, w', s) ∧ w'.files = w.files) ∧
    (∀ er' w' t, requestWithDir D cfg fuel dir w s = (.error er', w', t) → some er' ∈ w.mkdirs) := by
  refine ⟨rfl, fun rest hd hm => ?_, fun er' w' t h => ?_⟩
  · unfold requestWithDir World.createDirAll
    rw [if_neg hd, hm]
    exact ⟨_, rfl, rfl⟩
  · unfold requestWithDir at h
    have he := fun e w' => World.createDirAll_error (w := w) (w' := w') (p := dir) (e := e)
    generalize w.createDirAll dir = x at h he
    obtain ⟨_ | e, w1⟩ := x
    · exact absurd h Intercept.no_error
    · simp only [Prod.mk.injEq, SaveRes.error.injEq] at h
      obtain ⟨rfl, -⟩ := h
      exact he _ _ rfl

example : { Sample.disk with mkdirs := [some (.other 13)] }.mkdirs = some (.other 13) :: [] ∧
    (requestWithDir refDeps .default 100 [b!"up", b!"load"] { Sample.disk with mkdirs := [some (.other 13)] } (withBody Sample.evs Sample.bnd)).1 = .error (.other 13) := by decide +kernel

/-- The full claim about `with_dir`: "any nonexistent directories in the path will be created". -/
def WithDirCreates (D : Deps) : Prop := ∀ (evs : List Ev) (b : Bytes) (s t : BR) (cfg : Settings) (fuel : Nat) (w w' : World) (dir : Path) (e : Entries),
  cfg.Typed → Reachable D evs b s → dir ≠ [] → requestWithDir D cfg fuel dir w s = (.full e, w', t) → dir ∈ w'.dirs

/-- C88, as far as it holds: the directory above the given one is created in any case, the given one if there is a file to be put into it. Missing for the full claim: requests of which
all fields fit in memory. -/
theorem C88_created_partial (hd : dir ≠ []) (h : requestWithDir D cfg fuel dir w s = (r, w', t)) (hh : r ≠ .hang) (hp : r ≠ .panic) (he : ∀ er, r ≠ .error er) :
    dir.dropLast ∈ w'.dirs ∧ (∀ d ∈ r.stored, d.isMemory = false → dir ∈ w'.dirs) := by
  constructor
  · unfold requestWithDir at h
    have hc := createDirAll_dirs (w := w) hd
    generalize w.createDirAll dir = x at h hc
    obtain ⟨_ | er, w1⟩ := x
    · exact (withEntries_made h hh hp).1.kept _ (by rw [hc]; simp)
    · simp only [Prod.mk.injEq] at h
      exact absurd h.1.symm (he er)
  · intro d hm hf
    cases d with
    | file p n => exact ((C88_with_dir h hh hp).2.2.1 p n hm).2
    | text x => simp [SavedData.isMemory] at hf
    | bytes x => simp [SavedData.isMemory] at hf

theorem Sample.dir_full : ∃ e w' t, requestWithDir refDeps .default 100 [b!"up", b!"load"] Sample.disk (withBody Sample.evs Sample.bnd) = (.full e, w', t) ∧ w'.dirs = [[b!"up"]] := by
  have h1 : (requestWithDir refDeps .default 100 [b!"up", b!"load"] Sample.disk (withBody Sample.evs Sample.bnd)).1 =
      .full ⟨[(Sample.fh.name, [⟨Sample.fh, .text b!"hello"⟩])], .perm [b!"up", b!"load"], 1⟩ := by decide +kernel
  have h2 : (requestWithDir refDeps .default 100 [b!"up", b!"load"] Sample.disk (withBody Sample.evs Sample.bnd)).2.1.dirs = [[b!"up"]] := by decide +kernel
  exact ⟨_, _, _, Prod.ext h1 rfl, h2⟩

/-- The hypotheses of C88_created_partial are met. -/
example : ∃ r w' t, requestWithDir refDeps .default 100 [b!"up", b!"load"] Sample.disk (withBody Sample.evs Sample.bnd) = (r, w', t) ∧ r ≠ .hang ∧ r ≠ .panic ∧ ∀ er, r ≠ .error er :=
  Sample.dir_full.elim fun _ ⟨_, _, h, _⟩ => ⟨_, _, _, h, by simp, by simp, by simp⟩

/-- C88 is false of the code: after a request whose only field fits in memory, the directory does not exist. -/
theorem C88_false : ¬ WithDirCreates refDeps := by
  intro h
  obtain ⟨e, w', t, h1, h2⟩ := Sample.dir_full
  have := h Sample.evs Sample.bnd _ _ .default 100 _ _ _ e ⟨by decide, by decide, by decide, rfl⟩ ⟨[], rfl⟩ (by simp) h1
  rw [h2] at this
  simp at this

end Multipart

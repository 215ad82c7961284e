import Verif.Spec.Threads
import Verif.Props.ServerLife
import Verif.Props.DiskUse
/-!
# C139: requests that are saved at the same time
-/
namespace Multipart

variable {D : Deps} {cfg : Settings} {fuel : Nat} {w w' : World} {s t : BR} {j : Job}

/-! ## One thread alone -/

theorem withPath_split (p : Path) : withPath cfg fuel p w s = match saveInMemory cfg fuel s with
    | (.inl r, s) => (r, w, s)
    | (.inr bytes, s) => saveFile cfg fuel p bytes w s := by
  have hmem : ∀ bytes s, withPathMem cfg fuel p bytes w s = match saveBytesInMemory cfg fuel bytes s with
    | (.inl r, s) => (r, w, s)
    | (.inr bytes, s) => saveFile cfg fuel p bytes w s := by
    intro bytes s
    unfold withPathMem saveBytesInMemory
    rcases saveMem cfg fuel bytes s with ⟨r, s1⟩
    cases r with
    | part x reason =>
      simp only
      split <;> rfl
    | full => rfl
    | error => rfl
    | panic => rfl
    | hang => rfl
  unfold withPath saveInMemory
  split
  · rcases saveText cfg fuel s with ⟨r, s1⟩
    cases r with
    | part x reason =>
      simp only
      split
      · exact hmem x s1
      · rfl
    | full => rfl
    | error => rfl
    | panic => rfl
    | hang => rfl
  · exact hmem [] s

theorem writeFile_set (p : Path) (old bytes x : Bytes) : writeFile cfg fuel p old bytes (w.setFile p x) s = writeFile cfg fuel p old bytes w s := by
  have hset : ∀ (ws : List WEv) (c : Bytes), { w.setFile p x with writes := ws }.setFile p c = { w with writes := ws }.setFile p c := by
    intro ws c
    unfold World.setFile
    congr 1
    funext q
    simp only
    split <;> simp_all
  unfold writeFile
  simp only [hset]
  rfl

/-- Some steps of one thread. -/
def Thread.steps (D : Deps) (b : Settings) (fuel : Nat) : Nat → Thread → World → Thread × World
  | 0, th, w => (th, w)
  | n + 1, th, w => Thread.steps D b fuel n (th.step D b fuel w).1 (th.step D b fuel w).2

theorem Crew.run_steps (n : Nat) (th : Thread) (w : World) :
    Crew.run D fuel (List.replicate n 0) [(j, th)] w = ([(j, (th.steps D j.cfg fuel n w).1)], (th.steps D j.cfg fuel n w).2) := by
  induction n generalizing th w with
  | zero => rfl
  | succ n ih =>
    rw [List.replicate_succ]
    unfold Crew.run Thread.steps
    exact ih _ _

theorem Thread.steps_add (n m : Nat) (th : Thread) (w : World) : th.steps D cfg fuel (n + m) w = (th.steps D cfg fuel n w).1.steps D cfg fuel m (th.steps D cfg fuel n w).2 := by
  induction n generalizing th w with
  | zero => rw [Nat.zero_add]; rfl
  | succ n ih => rw [Nat.succ_add]; exact ih _ _

theorem Thread.steps_done (n : Nat) {r : SaveRes Entries PartialEntries} : (Thread.done r s).steps D cfg fuel n w = (.done r s, w) := by
  induction n with
  | zero => rfl
  | succ n ih => exact ih

/-- The steps of a round do what the round does. -/
theorem Thread.steps_round {e : Entries} {h : FieldHeaders} (hc : e.fieldsCount < cfg.countLimit) {r : SaveRes SavedData SavedData} (hs : withDir (fieldPolicy cfg h) fuel e.saveDir.asPath w s = (r, w', t)) :
    ∃ k, 1 ≤ k ∧ k ≤ 4 ∧ (Thread.running (.ok (some h)) e s).steps D cfg fuel k w = (Thread.saved D e h r t, w') := by
  have hs : withPath (fieldPolicy cfg h) fuel (e.saveDir.asPath ++ [w.randName.1]) w.randName.2 s = (r, w', t) := hs
  rw [withPath_split] at hs
  rcases hm : saveInMemory (fieldPolicy cfg h) fuel s with ⟨x, s1⟩
  rw [hm] at hs
  cases x with
  | inl r' =>
    simp only [Prod.mk.injEq] at hs
    obtain ⟨rfl, rfl, rfl⟩ := hs
    refine ⟨1, by omega, by omega, ?_⟩
    simp [Thread.steps, Thread.step, hc, hm]
  | inr bytes =>
    simp only at hs
    unfold saveFile at hs
    rcases hd : w.randName.2.createDirAll (e.saveDir.asPath ++ [w.randName.1]) with ⟨_ | er, w1⟩
    · rw [hd] at hs
      simp only at hs
      rcases ho : w1.openFile (fieldPolicy cfg h).openOpts (e.saveDir.asPath ++ [w.randName.1]) with ⟨er | old, w2⟩
      · rw [ho] at hs
        simp only [Prod.mk.injEq] at hs
        obtain ⟨rfl, rfl, rfl⟩ := hs
        have ho' : w1.openFile cfg.openOpts (e.saveDir.asPath ++ [w.randName.1]) = (.error er, w2) := ho
        refine ⟨3, by omega, by omega, ?_⟩
        simp [Thread.steps, Thread.step, hc, hm, hd, ho']
      · rw [ho] at hs
        have hw : writeFile (fieldPolicy cfg h) fuel (e.saveDir.asPath ++ [w.randName.1]) old bytes w2 s1 = (r, w', t) := hs
        have ho' : w1.openFile cfg.openOpts (e.saveDir.asPath ++ [w.randName.1]) = (.ok old, w2) := ho
        refine ⟨4, by omega, by omega, ?_⟩
        simp [Thread.steps, Thread.step, hc, hm, hd, ho', writeFile_set, hw]
    · rw [hd] at hs
      simp only [Prod.mk.injEq] at hs
      obtain ⟨rfl, rfl, rfl⟩ := hs
      refine ⟨2, by omega, by omega, ?_⟩
      simp [Thread.steps, Thread.step, hc, hm, hd]

theorem Thread.steps_loop (n m : Nat) (hm : 4 * n ≤ m) (res : Res (Option FieldHeaders)) (e : Entries) (w : World) (s : BR) {r : SaveRes Entries PartialEntries}
    (h : entriesLoop D cfg fuel n res e w s = (r, w', t)) (hr : r ≠ .hang) : (Thread.running res e s).steps D cfg fuel m w = (.done r t, w') := by
  induction n generalizing m res e w s with
  | zero => cases h; exact absurd rfl hr
  | succ n ih =>
    obtain ⟨m, rfl⟩ : ∃ k, m = k + 1 := ⟨m - 1, by omega⟩
    unfold entriesLoop at h
    split at h
    · rename_i hc
      split at h
      · rename_i hd
        rcases hs : withDir (fieldPolicy cfg hd) fuel e.saveDir.asPath w s with ⟨r1, w1, s1⟩
        obtain ⟨k, h1, h2, h3⟩ := Thread.steps_round (D := D) hc hs
        obtain ⟨l, hl⟩ : ∃ l, m + 1 = k + l := ⟨m + 1 - k, by omega⟩
        rw [hl, Thread.steps_add, h3]
        rw [hs] at h
        cases r1 with
        | full d => exact ih l (by omega) _ _ _ _ h
        | part => cases h; exact Thread.steps_done _
        | error => cases h; exact Thread.steps_done _
        | panic => cases h; exact Thread.steps_done _
        | hang => cases h; exact Thread.steps_done _
      all_goals
        cases h
        simp only [Thread.steps, Thread.step, if_pos hc]
        exact Thread.steps_done _
    · rename_i hc
      cases h
      simp only [Thread.steps, Thread.step, if_neg hc]
      exact Thread.steps_done _

/-- C139: the threads do what `with_entries` does: if nothing else runs, a thread ends with its result, its disk and its reader. -/
theorem C139_alone {r : SaveRes Entries PartialEntries} (h : withEntries D j.cfg fuel (Entries.new j.dir) w (withBody j.up.evs j.up.b) = (r, w', t)) (hr : r ≠ .hang) :
    Crew.run D fuel (List.replicate (4 * fuel) 0) (Crew.start D [j]) w = ([(j, .done r t)], w') := by
  have := Thread.steps_loop fuel (4 * fuel) (Nat.le_refl _) _ _ _ _ h hr
  unfold Crew.start
  rw [List.map_cons, List.map_nil, Crew.run_steps]
  unfold Thread.start
  rw [this]

def Sample.job : Job := ⟨{ Settings.default with memoryThreshold := 0, sizeLimit := 5, countLimit := 3 }, .perm [b!"d"], ⟨Sample.evsTwo, Sample.bnd, [(Sample.fh, b!"one"), (Sample.fh, b!"two")]⟩⟩
def Sample.disk4 : World := { Sample.disk with names := [b!"x", b!"y", b!"z", b!"u"] }

example : ∃ r w' t, Crew.run refDeps 40 (List.replicate 160 0) (Crew.start refDeps [Sample.job]) Sample.disk4 = ([(Sample.job, .done r t)], w') :=
  ⟨_, _, _, C139_alone (triple_eq _) (SaveRes.returns_ne (by decide +kernel)).1⟩

/-! ## What one step does -/

theorem pathsOf_append (x y : List SavedData) : pathsOf (x ++ y) = pathsOf x ++ pathsOf y := by simp [pathsOf]

theorem Entries.stored_push (e : Entries) (h : FieldHeaders) (d : SavedData) : (e.pushField h d).stored.Perm (e.stored ++ [d]) := by
  have aux : ∀ (l : List (Bytes × List SavedField)) (f : SavedField), ((pushInto f l).flatMap fun kv => kv.2.map fun f => f.data).Perm ((l.flatMap fun kv => kv.2.map fun f => f.data) ++ [f.data]) := by
    intro l f
    induction l with
    | nil => simp [pushInto]
    | cons kv l ih =>
      obtain ⟨k, v⟩ := kv
      unfold pushInto
      split
      · simp only [List.flatMap_cons, List.map_append, List.map_cons, List.map_nil, List.append_assoc]
        exact List.Perm.append_left _ List.perm_append_comm
      · simp only [List.flatMap_cons, List.append_assoc]
        exact List.Perm.append_left _ ih
  exact aux e.fields { headers := h, data := d }

theorem mem_pathsOf {ds : List SavedData} {p : Path} : p ∈ pathsOf ds ↔ ∃ n, SavedData.file p n ∈ ds := by
  unfold pathsOf
  simp only [List.mem_filterMap]
  constructor
  · rintro ⟨d, h1, h2⟩
    cases d <;> simp at h2
    subst h2
    exact ⟨_, h1⟩
  · rintro ⟨n, h⟩
    exact ⟨_, h, rfl⟩

/-- A file that a save reports exists then, and did not before. -/
theorem Target.save_new (T : Target) {evs : List Ev} {b : Bytes} (hD : D.Sane) (hr : Reachable D evs b s) (ho : cfg.openOpts.createNew = true) {d : SavedData} {r : Reason}
    (h : T.save cfg fuel w s = (.full d, w', t) ∨ T.save cfg fuel w s = (.part d r, w', t)) : ∀ p ∈ pathsOf [d], w.files p = none ∧ w'.files p ≠ none := by
  intro p hp
  obtain ⟨n, hp⟩ := mem_pathsOf.mp hp
  simp only [List.mem_cons, List.not_mem_nil, or_false] at hp
  subst hp
  have hi := (hr.spec hD).1
  constructor
  · have h2 := (C46_no_overwrite (T := T) (fuel := fuel) (w := w) hD hr ho).2 p n
    cases hq : w.files p with
    | none => rfl
    | some c =>
      have := h2 (by rw [hq]; simp)
      rcases h with h | h
      · rw [h] at this; exact absurd rfl this.1
      · rw [h] at this; exact absurd rfl (this.2 r)
  · rcases h with h | h
    · cases Target.save_spec hi h with
      | file h1 h2 h3 h4 h5 =>
        cases h5 with
        | full g1 g2 g3 g4 => rw [g3.at]; simp
    · cases Target.save_spec hi h with
      | file h1 h2 h3 h4 h5 =>
        cases h5 with
        | cut g1 g2 g3 g4 g5 g6 => rw [g6.at]; simp
        | part g1 g2 g3 g4 g5 => rw [g3.at]; simp

theorem pathsOf_one (d : SavedData) : (pathsOf [d]).Nodup := by cases d <;> simp [pathsOf]

/-- The body of the request is known: it arrives without failures, and has these parts. -/
structure Job.Known (D : Deps) (j : Job) (fin : Ending) : Prop where
  noStall : NoStall j.up.evs
  noErr : NoErr j.up.evs
  parts : Parts D (dashes ++ j.up.b) (Ev.bytes j.up.evs) j.up.parts fin

/-- The fields `fs` are the first parts of the body. -/
def Job.First (j : Job) (w : World) (fs : List SavedField) : Prop := All2 (SavedAs j.up.b j.up.evs w) fs (j.up.parts.take fs.length) ∧ fs.length ≤ j.up.parts.length

def Job.after (j : Job) (fs : List SavedField) : Entries := (Entries.new j.dir).recountFields.pushAll fs

/-- A field with the headers `h` was read after the fields `fs`; the reader is at its data. -/
def Job.At (D : Deps) (j : Job) (w : World) (fs : List SavedField) (res : Res (Option FieldHeaders)) (s : BR) : Prop :=
  ∃ s0, Reachable D j.up.evs j.up.b s0 ∧ s0.readEntry D = (res, s) ∧ s0.enough (j.cfg.memLimit 0) ≤ (withBody j.up.evs j.up.b).enough (j.cfg.memLimit 0) ∧
    ∀ fin, j.Known D fin → j.First w fs ∧ s0.Drained ∧ AtParts D (dashes ++ j.up.b) j.up.evs s0 (j.up.parts.drop fs.length) fin

/-- This field goes to a file, which is to begin with these bytes. -/
def Job.Filing (D : Deps) (fuel : Nat) (j : Job) (w : World) (e : Entries) (h : FieldHeaders) (bytes : Bytes) (s : BR) : Prop :=
  ∃ fs s1, e = j.after fs ∧ j.At D w fs (.ok (some h)) s1 ∧ saveInMemory (fieldPolicy j.cfg h) fuel s1 = (.inr bytes, s)

/-- The invariant of a thread. -/
def Thread.Sound (D : Deps) (fuel : Nat) (j : Job) (w : World) : Thread → Prop
  | .running res e s => ∃ fs, e = j.after fs ∧ j.At D w fs res s
  | .making e h _ bytes s => j.Filing D fuel w e h bytes s
  | .opening e h _ bytes s => j.Filing D fuel w e h bytes s
  | .writing e h name old bytes s => j.Filing D fuel w e h bytes s ∧ ∃ w0 w1 : World, w0.openFile j.cfg.openOpts (e.saveDir.asPath ++ [name]) = (.ok old, w1)
  | .done (.full e) _ => ∃ fs, e = j.after fs ∧ ∀ fin, j.Known D fin → j.First w fs ∧ fs.length = j.up.parts.length ∧ fin = .closed
  | .done (.part p _) _ => ∃ fs, p.entries = j.after fs ∧ ∀ fin, j.Known D fin → j.First w fs
  | .done _ _ => True

theorem Job.after_grouped (j : Job) (fs : List SavedField) : GroupedByName (j.after fs).fields fs := by
  have := Entries.pushAll_grouped fs (Entries.new j.dir).recountFields [] .nil
  simpa [Job.after] using this

theorem Job.after_push (j : Job) (fs : List SavedField) (h : FieldHeaders) (d : SavedData) : (j.after fs).pushField h d = j.after (fs ++ [⟨h, d⟩]) := by
  unfold Job.after Entries.pushAll
  simp

theorem Job.after_dir (j : Job) (fs : List SavedField) : (j.after fs).saveDir = j.dir := by
  unfold Job.after; rw [Entries.pushAll_dir]; rfl

theorem GroupedByName.stored {e : Entries} {fs : List SavedField} (h : GroupedByName e.fields fs) {f : SavedField} (hf : f ∈ fs) : f.data ∈ e.stored := by
  have := (h.groups f.headers.name (fs.filter fun g => g.headers.name = f.headers.name)).mpr ⟨by
    intro h0
    have : f ∈ fs.filter fun g => g.headers.name = f.headers.name := List.mem_filter.mpr ⟨hf, by simp⟩
    rw [h0] at this
    simp at this, rfl⟩
  exact List.mem_flatMap.mpr ⟨_, this, List.mem_map.mpr ⟨f, List.mem_filter.mpr ⟨hf, by simp⟩, rfl⟩⟩

theorem All2.imp_mem {α β : Type} {R S : α → β → Prop} {as : List α} {bs : List β} (h : All2 R as bs) (hi : ∀ a b, a ∈ as → R a b → S a b) : All2 S as bs := by
  induction h with
  | nil => exact .nil
  | cons h1 _ ih => exact .cons (hi _ _ (List.mem_cons_self ..) h1) (ih fun a b ha => hi a b (List.mem_cons_of_mem _ ha))

theorem Job.First.mono {fs : List SavedField} (h : j.First w fs) {ds : List SavedData} (hd : ∀ f ∈ fs, f.data ∈ ds) (hk : ∀ p ∈ pathsOf ds, w'.files p = w.files p) : j.First w' fs := by
  refine ⟨h.1.imp_mem fun f p hf ⟨h1, c, h2, h3⟩ => ⟨h1, c, ?_, h3⟩, h.2⟩
  cases hx : f.data with
  | text => rw [hx] at h2; exact h2
  | bytes => rw [hx] at h2; exact h2
  | file q n =>
    rw [hx] at h2
    simp only [SavedData.readable] at h2 ⊢
    rw [hk q (mem_pathsOf.mpr ⟨n, by rw [← hx]; exact hd f hf⟩)]
    exact h2

theorem Job.At.mono {fs : List SavedField} {res : Res (Option FieldHeaders)} (h : j.At D w fs res s) (hk : ∀ p ∈ pathsOf (j.after fs).stored, w'.files p = w.files p) : j.At D w' fs res s := by
  obtain ⟨s0, h1, h2, h3, h4⟩ := h
  exact ⟨s0, h1, h2, h3, fun fin hkn => ⟨(h4 fin hkn).1.mono (fun f hf => (j.after_grouped fs).stored hf) hk, (h4 fin hkn).2⟩⟩

theorem Job.Filing.mono {e : Entries} {h : FieldHeaders} {bytes : Bytes} (hf : j.Filing D fuel w e h bytes s) (hk : ∀ p ∈ pathsOf e.stored, w'.files p = w.files p) : j.Filing D fuel w' e h bytes s := by
  obtain ⟨fs, s1, rfl, h1, h2⟩ := hf
  exact ⟨fs, s1, rfl, h1.mono hk, h2⟩

/-- The invariant stays if the files that the thread holds stay. -/
theorem Thread.Sound.mono {th : Thread} (h : th.Sound D fuel j w) (hk : ∀ p ∈ th.files, w'.files p = w.files p) : th.Sound D fuel j w' := by
  cases th with
  | running res e s =>
    obtain ⟨fs, rfl, h1⟩ := h
    exact ⟨fs, rfl, h1.mono hk⟩
  | making => exact Job.Filing.mono h hk
  | opening => exact Job.Filing.mono h hk
  | writing => exact ⟨Job.Filing.mono h.1 fun p hp => hk p (List.mem_append_left _ hp), h.2⟩
  | done r s =>
    cases r with
    | full e =>
      obtain ⟨fs, rfl, h4⟩ := h
      exact ⟨fs, rfl, fun fin hkn => ⟨(h4 fin hkn).1.mono (fun f hf => (j.after_grouped fs).stored hf) hk, (h4 fin hkn).2⟩⟩
    | part p r =>
      obtain ⟨fs, h1, h4⟩ := h
      refine ⟨fs, h1, fun fin hkn => (h4 fin hkn).mono (ds := p.entries.stored) (fun f hf => by rw [h1]; exact (j.after_grouped fs).stored hf) fun q hq => hk q ?_⟩
      obtain ⟨n, hq⟩ := mem_pathsOf.mp hq
      refine mem_pathsOf.mpr ⟨n, ?_⟩
      rcases p with ⟨e, _ | ⟨hd, _ | d⟩⟩
      · exact hq
      · exact hq
      · exact List.mem_append_left _ hq
    | error => trivial
    | panic => trivial
    | hang => trivial

theorem writeFile_later {p : Path} {old bytes : Bytes} : World.Later p w (writeFile cfg fuel p old bytes w s).2.1 ∧ (writeFile cfg fuel p old bytes w s).2.1.files p ≠ none := by
  unfold writeFile
  have h3 := tryWriteAll_script bytes { script := w.writes, got := [] }
  rcases hwr : tryWriteAll bytes { script := w.writes, got := [] } with ⟨r, k⟩
  rw [hwr] at h3
  cases r with
  | full size =>
    simp only at h3 ⊢
    have h4 := writeTo_script (cfg := cfg) (fuel := fuel) (s := s) k
    rcases hwt : writeTo cfg fuel k s with ⟨r, k', s'⟩
    rw [hwt] at h4
    exact ⟨setFile_later (h4.trans h3), by simp [World.setFile]⟩
  | part b r => exact ⟨setFile_later h3, by simp [World.setFile]⟩
  | error e => exact ⟨setFile_later h3, by simp [World.setFile]⟩
  | panic => exact ⟨setFile_later h3, by simp [World.setFile]⟩
  | hang => exact ⟨setFile_later h3, by simp [World.setFile]⟩

theorem openFile_new {o : OpenOpts} {p : Path} {old : Bytes} (h : w.openFile o p = (.ok old, w')) (ho : o.createNew = true) :
    old = [] ∧ w.files p = none ∧ w'.files = w.files ∧ (!o.write && !o.append || o.append && o.truncate && !o.createNew) = false := by
  unfold World.openFile at h
  split at h
  · simp at h
  · rename_i hv
    split at h
    · simp at h
    · simp only at h
      split at h
      · simp at h
      · rename_i hf
        simp only [ho, true_or, if_true, Prod.mk.injEq, Except.ok.injEq] at h
        obtain ⟨rfl, rfl⟩ := h
        exact ⟨rfl, hf, rfl, by simpa using hv⟩

/-- The disk as it would be if the file were not yet there and the next save were to go to it. -/
def World.before (w : World) (p : Path) (name : Bytes) : World :=
  { w with files := fun q => if q = p then none else w.files q, names := name :: w.names, mkdirs := none :: w.mkdirs, opens := none :: w.opens }

/-- What the write of a thread does, with whatever the other threads did since its file was opened, is what saving the field at once would do. -/
theorem writeFile_as_save {dir : Path} {name old bytes : Bytes} {r : SaveRes SavedData SavedData} {w0 w1 : World} {s1 : BR} (hop : w0.openFile cfg.openOpts (dir ++ [name]) = (.ok old, w1)) (ho : cfg.openOpts.createNew = true)
    (hm : saveInMemory cfg fuel s1 = (.inr bytes, s)) (hw : writeFile cfg fuel (dir ++ [name]) old bytes w s = (r, w', t)) :
    ∃ wb, (Target.dir dir).save cfg fuel (w.before (dir ++ [name]) name) s1 = (r, wb, t) ∧ wb.files = w'.files := by
  obtain ⟨rfl, -, -, hv⟩ := openFile_new hop ho
  rw [ho] at hv
  have key : ∀ wa : World, wa.writes = w.writes → (∀ q, q ≠ dir ++ [name] → wa.files q = w.files q) → ∃ wb, writeFile cfg fuel (dir ++ [name]) [] bytes wa s = (r, wb, t) ∧ wb.files = w'.files := by
    intro wa h1 h2
    have hfiles : ∀ (x y : List WEv) (c : Bytes), ({ wa with writes := x }.setFile (dir ++ [name]) c).files = ({ w with writes := y }.setFile (dir ++ [name]) c).files := by
      intro x y c
      unfold World.setFile
      funext q
      simp only
      split
      · rfl
      · rename_i hq; exact h2 q hq
    unfold writeFile at hw ⊢
    rw [h1]
    generalize tryWriteAll bytes { script := w.writes, got := [] } = y at hw ⊢
    rcases y with ⟨r1, k⟩
    cases r1 with
    | full size =>
      simp only at hw ⊢
      generalize writeTo cfg fuel k s = z at hw ⊢
      rcases z with ⟨r2, k', s'⟩
      cases hw
      exact ⟨_, rfl, hfiles _ _ _⟩
    | part => cases hw; exact ⟨_, rfl, hfiles _ _ _⟩
    | error => cases hw; exact ⟨_, rfl, hfiles _ _ _⟩
    | panic => cases hw; exact ⟨_, rfl, hfiles _ _ _⟩
    | hang => cases hw; exact ⟨_, rfl, hfiles _ _ _⟩
  have hsave : (Target.dir dir).save cfg fuel (w.before (dir ++ [name]) name) s1 = writeFile cfg fuel (dir ++ [name]) [] bytes
      { w with files := fun q => if q = dir ++ [name] then none else w.files q, dirs := w.dirs ++ [(dir ++ [name]).dropLast] } s := by
    show withPath cfg fuel (dir ++ [name]) { w with files := fun q => if q = dir ++ [name] then none else w.files q, mkdirs := none :: w.mkdirs, opens := none :: w.opens } s1 = _
    rw [withPath_split, hm]
    simp only
    unfold saveFile World.createDirAll World.openFile
    simp only [List.append_eq_nil_iff, List.cons_ne_nil, and_false, if_false, List.headD_cons, List.tail_cons, hv, ho, if_true, true_or, Bool.false_eq_true]
    rfl
  rw [hsave]
  exact key _ rfl (fun q hq => by simp [hq])

/-- The file in the result of saving a field. -/
def newIn : SaveRes SavedData SavedData → List Path
  | .full d => pathsOf [d]
  | .part d _ => pathsOf [d]
  | _ => []

theorem newIn_nodup (r : SaveRes SavedData SavedData) : (newIn r).Nodup := by
  cases r <;> first | exact pathsOf_one _ | exact List.nodup_nil

theorem Thread.saved_files (e : Entries) (h : FieldHeaders) (r : SaveRes SavedData SavedData) (s : BR) :
    (Thread.saved D e h r s).files = [] ∨ (Thread.saved D e h r s).files.Perm (pathsOf e.stored ++ newIn r) := by
  cases r with
  | full d =>
    right
    show (pathsOf (e.pushField h d).stored).Perm (pathsOf e.stored ++ pathsOf [d])
    rw [← pathsOf_append]
    exact (e.stored_push h d).filterMap _
  | part d r =>
    right
    show (pathsOf (e.stored ++ [d])).Perm (pathsOf e.stored ++ pathsOf [d])
    rw [pathsOf_append]
  | error er => right; show (pathsOf e.stored).Perm (pathsOf e.stored ++ []); rw [List.append_nil]
  | panic => exact .inl rfl
  | hang => exact .inl rfl

theorem Target.save_newIn (T : Target) {evs : List Ev} {b : Bytes} (hD : D.Sane) (hr : Reachable D evs b s) (ho : cfg.openOpts.createNew = true) {r : SaveRes SavedData SavedData}
    (h : T.save cfg fuel w s = (r, w', t)) : ∀ p ∈ newIn r, w.files p = none ∧ w'.files p ≠ none := by
  cases r with
  | full d => exact T.save_new (r := .utf8) hD hr ho (.inl h)
  | part d r => exact T.save_new hD hr ho (.inr h)
  | _ => intro p hp; simp [newIn] at hp

/-- The field is saved: the invariant holds again. -/
theorem Thread.saved_sound (hD : D.Sane) (ho : j.cfg.openOpts.createNew = true) {fs : List SavedField} {h : FieldHeaders} {s1 : BR} (hat : j.At D w fs (.ok (some h)) s1) {r : SaveRes SavedData SavedData} {wa wb : World}
    (hw : (Target.dir j.dir.asPath).save (fieldPolicy j.cfg h) fuel wa s1 = (r, wb, s)) (hf : wb.files = w'.files) (hk : ∀ p ∈ pathsOf (j.after fs).stored, w'.files p = w.files p) :
    (Thread.saved D (j.after fs) h r s).Sound D fuel j w' := by
  obtain ⟨s0, h1, h2, h3, h4⟩ := hat
  have hr1 := h1.entry h2
  have hi1 := (hr1.spec hD).1
  have ho' : (fieldPolicy j.cfg h).openOpts.createNew = true := ho
  have hfirst : ∀ fin, j.Known D fin → j.First w' fs := fun fin hkn => (h4 fin hkn).1.mono (fun f hf => (j.after_grouped fs).stored hf) hk
  cases r with
  | full d =>
    obtain ⟨x0, hx0⟩ := Target.save_took (.dir _) hi1 hw (by simp)
    refine ⟨fs ++ [⟨h, d⟩], j.after_push fs h d, s, hx0.reachable hr1, rfl,
      Nat.le_trans (hx0.enough hi1 _) (Nat.le_trans ((BR.readEntry_enough hD (h1.spec hD).1 h2).2.2 _) h3), fun fin hkn => ?_⟩
    obtain ⟨k1, k2, k3⟩ := h4 fin hkn
    have k1' := hfirst fin hkn
    obtain ⟨x, hx, heof, hread⟩ := Target.save_full (.dir _) hD hkn.noStall hr1 hw (.inl ho')
    have hread' : d.readable w' = .ok x := by
      cases d with
      | text => exact hread
      | bytes => exact hread
      | file => simp only [SavedData.readable] at hread ⊢; rw [← hf]; exact hread
    obtain ⟨dat, es', g1, g2, g3⟩ := k3.entry_data hD hkn.noStall hkn.noErr (.inl k2) h2
    have hr2 := hx.reachable hr1
    have hlt : fs.length < j.up.parts.length := by
      have := congrArg List.length g1
      rw [List.length_drop, List.length_cons] at this
      omega
    have htake : j.up.parts.take (fs ++ [(⟨h, d⟩ : SavedField)]).length = j.up.parts.take fs.length ++ [(h, dat)] := by
      rw [List.length_append, List.length_singleton, List.take_add, g1]; rfl
    have hdrop : j.up.parts.drop (fs ++ [(⟨h, d⟩ : SavedField)]).length = es' := by
      rw [List.length_append, List.length_singleton, ← List.drop_drop, g1]; rfl
    refine ⟨⟨?_, by simp; omega⟩, BR.AtEof.drained (hr2.spec hD).1 heof, ?_⟩
    · rw [htake]
      exact k1'.1.append (.cons ⟨rfl, x, hread', hx.savedOk hD hkn.noStall h1 h2 g3 heof⟩ .nil)
    · rw [hdrop]; exact g2.took hx
  | part d r => exact ⟨fs, rfl, hfirst⟩
  | error er => exact ⟨fs, rfl, hfirst⟩
  | panic => trivial
  | hang => trivial

/-- The file that a thread has open. -/
def Thread.opened : Thread → List Path
  | .writing e _ name _ _ _ => [e.saveDir.asPath ++ [name]]
  | _ => []

/-- One step: no file is removed, and none is changed but the one that the thread has open; a file that the thread holds afterwards is one that it held before, or is new. -/
structure Thread.Stepped (D : Deps) (fuel : Nat) (j : Job) (th : Thread) (w : World) (th' : Thread) (w' : World) : Prop where
  stays : ∀ q, w.files q ≠ none → w'.files q ≠ none
  keeps : ∀ q c, w.files q = some c → q ∉ th.opened → w'.files q = some c
  holds : ∃ kept new, th'.files.Perm (kept ++ new) ∧ kept.Sublist th.files ∧ new.Nodup ∧ ∀ p ∈ new, w.files p = none ∧ w'.files p ≠ none
  sound : th'.Sound D fuel j w'

theorem Thread.Stepped.quiet {th th' : Thread} (hw : w'.files = w.files) (h1 : th'.files.Sublist th.files) (h2 : th'.Sound D fuel j w') : Thread.Stepped D fuel j th w th' w' :=
  ⟨fun q h => by rw [hw]; exact h, fun q c h _ => by rw [hw]; exact h, ⟨th'.files, [], by simp, h1, List.nodup_nil, fun _ h => absurd h (by simp)⟩, h2⟩

theorem Job.At.first {fs : List SavedField} {res : Res (Option FieldHeaders)} (h : j.At D w fs res s) {fin : Ending} (hk : j.Known D fin) : j.First w fs := by
  obtain ⟨s0, -, -, -, h4⟩ := h
  exact (h4 fin hk).1

theorem Thread.step_spec (hD : D.Sane) (ho : j.cfg.openOpts.createNew = true) {th : Thread} (hs : th.Sound D fuel j w) (hex : ∀ p ∈ th.files, w.files p ≠ none) (hnd : th.files.Nodup) :
    Thread.Stepped D fuel j th w (th.step D j.cfg fuel w).1 (th.step D j.cfg fuel w).2 := by
  cases th with
  | done r s => exact .quiet rfl (List.Sublist.refl _) hs
  | running res e s =>
    obtain ⟨fs, rfl, hat⟩ := hs
    unfold Thread.step
    simp only
    split
    · split
      · rename_i h
        rcases hm : saveInMemory (fieldPolicy j.cfg h) fuel s with ⟨r | bytes, s'⟩
        · simp only
          have hw : (Target.dir j.dir.asPath).save (fieldPolicy j.cfg h) fuel w s = (r, w.randName.2, s') := by
            show withPath _ _ _ _ _ = _
            rw [withPath_split, hm]
          have hnew : newIn r = [] := by
            rw [List.eq_nil_iff_forall_not_mem]
            intro p hp
            obtain ⟨s0, h1, h2, -⟩ := hat
            obtain ⟨g1, g2⟩ := Target.save_newIn (.dir _) hD (h1.entry h2) (cfg := fieldPolicy j.cfg h) ho hw p hp
            exact g2 g1
          refine ⟨fun _ h => h, fun _ _ h _ => h, ?_, Thread.saved_sound hD ho hat hw rfl fun _ _ => rfl⟩
          rcases Thread.saved_files (D := D) (j.after fs) h r s' with g | g
          · exact ⟨[], [], by rw [g]; simp, List.nil_sublist _, List.nodup_nil, by simp⟩
          · rw [hnew] at g
            exact ⟨_, [], g, List.Sublist.refl _, List.nodup_nil, by simp⟩
        · exact .quiet rfl (List.Sublist.refl _) ⟨fs, s, rfl, hat, hm⟩
      · refine .quiet rfl (List.Sublist.refl _) ⟨fs, rfl, fun fin hk => ?_⟩
        obtain ⟨s0, h1, h2, h3, h4⟩ := hat
        obtain ⟨k1, k2, k3⟩ := h4 fin hk
        obtain ⟨g1, g2⟩ := k3.reads hD hk.noStall hk.noErr (.inl k2) (.close h2)
        refine ⟨k1, ?_, g1.symm⟩
        have g3 := g2.length
        rw [List.length_drop] at g3
        have := k1.2
        simp at g3
        omega
      · exact .quiet rfl (List.Sublist.refl _) ⟨fs, rfl, fun fin hk => hat.first hk⟩
      · exact .quiet rfl (List.nil_sublist _) trivial
      · exact .quiet rfl (List.nil_sublist _) trivial
    · exact .quiet rfl (List.Sublist.refl _) ⟨fs, rfl, fun fin hk => hat.first hk⟩
  | making e h name bytes s =>
    have hff : (w.createDirAll (e.saveDir.asPath ++ [name])).2.files = w.files := by
      unfold World.createDirAll; split <;> rfl
    unfold Thread.step
    simp only
    rcases hc : w.createDirAll (e.saveDir.asPath ++ [name]) with ⟨_ | er, w1⟩
    · rw [hc] at hff
      exact .quiet hff (List.Sublist.refl _) (Job.Filing.mono hs fun p _ => by rw [hff])
    · rw [hc] at hff
      obtain ⟨fs, s1, rfl, hat, hm⟩ := hs
      exact .quiet hff (List.Sublist.refl _) ⟨fs, rfl, fun fin hk => (hat.mono fun p _ => by rw [hff]).first hk⟩
  | opening e h name bytes s =>
    have hff : (w.openFile j.cfg.openOpts (e.saveDir.asPath ++ [name])).2.files = w.files := by
      funext q
      have hl := openFile_later w j.cfg.openOpts (e.saveDir.asPath ++ [name]) (q ++ [[]])
      exact hl.files q (by intro h; have := congrArg List.length h; simp at this)
    unfold Thread.step
    simp only
    rcases hc : w.openFile j.cfg.openOpts (e.saveDir.asPath ++ [name]) with ⟨er | old, w1⟩
    · rw [hc] at hff
      obtain ⟨fs, s1, rfl, hat, hm⟩ := hs
      exact .quiet hff (List.Sublist.refl _) ⟨fs, rfl, fun fin hk => (hat.mono fun p _ => by rw [hff]).first hk⟩
    · obtain ⟨rfl, hnone, hsame, -⟩ := openFile_new hc ho
      have hset : ∀ q c, w.files q = some c → (w1.setFile (e.saveDir.asPath ++ [name]) []).files q = some c := by
        intro q c hq
        have hne : q ≠ e.saveDir.asPath ++ [name] := by rintro rfl; rw [hnone] at hq; simp at hq
        simp [World.setFile, hne, hsame, hq]
      refine ⟨?_, fun q c hq _ => hset q c hq, ⟨pathsOf e.stored, [e.saveDir.asPath ++ [name]], List.Perm.refl _, List.Sublist.refl _, by simp, ?_⟩, ?_, ⟨_, _, hc⟩⟩
      · intro q hq
        cases hc' : w.files q with
        | none => exact absurd hc' hq
        | some c => simp only; rw [hset q c hc']; simp
      · intro p hp
        rw [List.mem_singleton] at hp
        subst hp
        exact ⟨hnone, by simp [World.setFile]⟩
      · refine Job.Filing.mono hs fun p hp => ?_
        cases hc' : w.files p with
        | none => exact absurd hc' (hex p hp)
        | some c => exact hset p c hc'
  | writing e h name old bytes s =>
    obtain ⟨⟨fs, s1, rfl, hat, hm⟩, w0, w1, hop⟩ := hs
    have hdir : (j.after fs).saveDir.asPath = j.dir.asPath := by rw [j.after_dir]
    simp only [Thread.files, hdir] at hnd hex
    unfold Thread.step
    simp only [hdir] at hop ⊢
    have hl := writeFile_later (cfg := fieldPolicy j.cfg h) (fuel := fuel) (p := j.dir.asPath ++ [name]) (old := old) (bytes := bytes) (w := w) (s := s)
    rcases hw : writeFile (fieldPolicy j.cfg h) fuel (j.dir.asPath ++ [name]) old bytes w s with ⟨r, w2, s2⟩
    rw [hw] at hl
    simp only at hl ⊢
    obtain ⟨hl, hthere⟩ := hl
    obtain ⟨wb, g1, g2⟩ := writeFile_as_save (cfg := fieldPolicy j.cfg h) hop ho hm hw
    have hnot : ∀ p ∈ pathsOf (j.after fs).stored, p ≠ j.dir.asPath ++ [name] := by
      rintro p hp rfl
      exact (List.nodup_append.mp hnd).2.2 _ hp _ (by simp) rfl
    have hnew : ∀ p ∈ newIn r, p = j.dir.asPath ++ [name] := by
      intro p hp
      obtain ⟨s0, h1, h2, -⟩ := hat
      obtain ⟨k1, k2⟩ := Target.save_newIn (.dir _) hD (h1.entry h2) (cfg := fieldPolicy j.cfg h) ho g1 p hp
      refine Classical.byContradiction fun hne => k2 ?_
      rw [g2, hl.files p hne]
      simpa [World.before, hne] using k1
    refine ⟨?_, ?_, ?_, Thread.saved_sound hD ho hat g1 g2 fun p hp => hl.files p (hnot p hp)⟩
    · intro q hq
      by_cases hqp : q = j.dir.asPath ++ [name]
      · rw [hqp]; exact hthere
      · rw [hl.files q hqp]; exact hq
    · intro q c hq hqo
      rw [hl.files q (by simpa [Thread.opened, hdir] using hqo)]
      exact hq
    · rcases Thread.saved_files (D := D) (j.after fs) h r s2 with g | g
      · exact ⟨[], [], by rw [g]; simp, List.nil_sublist _, List.nodup_nil, by simp⟩
      · refine ⟨pathsOf (j.after fs).stored ++ newIn r, [], by rw [List.append_nil]; exact g, ?_, List.nodup_nil, by simp⟩
        show (pathsOf (j.after fs).stored ++ newIn r).Sublist (pathsOf (j.after fs).stored ++ [(j.after fs).saveDir.asPath ++ [name]])
        rw [hdir]
        refine List.Sublist.append (List.Sublist.refl _) ?_
        have hn := newIn_nodup r
        match hr : newIn r with
        | [] => exact List.nil_sublist _
        | [a] => rw [hnew a (by rw [hr]; simp)]; exact List.Sublist.refl _
        | a :: b :: l =>
          rw [hr] at hn
          rw [hnew a (by rw [hr]; simp), hnew b (by rw [hr]; simp)] at hn
          simp at hn

/-! ## All threads -/

/-- The invariant of all threads. -/
structure Crew.Good (D : Deps) (fuel : Nat) (c : Crew) (w : World) : Prop where
  fresh : ∀ x ∈ c, x.1.cfg.openOpts.createNew = true
  sound : ∀ x ∈ c, x.2.Sound D fuel x.1 w
  exist : ∀ p ∈ c.files, w.files p ≠ none
  own : c.files.Nodup

theorem Crew.files_append (c1 c2 : Crew) : Crew.files (c1 ++ c2) = c1.files ++ c2.files := by simp [Crew.files]

theorem Crew.files_cons (x : Job × Thread) (c : Crew) : Crew.files (x :: c) = x.2.files ++ c.files := by simp [Crew.files]

theorem Thread.opened_files (th : Thread) : ∀ p ∈ th.opened, p ∈ th.files := by
  cases th <;> simp [Thread.opened, Thread.files]

theorem Crew.Good.turn (hD : D.Sane) {c1 c2 : Crew} {th : Thread} (h : Crew.Good D fuel (c1 ++ (j, th) :: c2) w) :
    Crew.Good D fuel (c1 ++ (j, (th.step D j.cfg fuel w).1) :: c2) (th.step D j.cfg fuel w).2 := by
  obtain ⟨h1, h2, h3, h4⟩ := h
  have hj := h1 (j, th) (by simp)
  rw [Crew.files_append, Crew.files_cons] at h3 h4
  have hperm : (c1.files ++ (th.files ++ c2.files)).Perm (th.files ++ (c1.files ++ c2.files)) := by
    rw [← List.append_assoc, ← List.append_assoc]
    exact List.Perm.append_right _ List.perm_append_comm
  have h4' := hperm.nodup_iff.mp h4
  obtain ⟨n1, n2, n3⟩ := List.nodup_append.mp h4'
  have hst := Thread.step_spec (j := j) (th := th) (fuel := fuel) hD hj (h2 (j, th) (by simp)) (fun p hp => h3 p (by simp [hp])) n1
  generalize (th.step D j.cfg fuel w).1 = th' at hst ⊢
  generalize (th.step D j.cfg fuel w).2 = w' at hst ⊢
  obtain ⟨k0, k1, ⟨kept, new, k2, k4, k5, k6⟩, k3⟩ := hst
  have hsame : ∀ p ∈ c1.files ++ c2.files, w'.files p = w.files p := by
    intro p hp
    have hpe : w.files p ≠ none := h3 p (by rcases List.mem_append.mp hp with hp | hp <;> simp [hp])
    cases hq : w.files p with
    | none => exact absurd hq hpe
    | some c => exact k1 p c hq fun ho => n3 p (th.opened_files p ho) p hp rfl
  have hother : ∀ x, x ∈ c1 ∨ x ∈ c2 → x.2.Sound D fuel x.1 w' := by
    intro x hx
    refine (h2 x (by rcases hx with hx | hx <;> simp [hx])).mono fun p hp => hsame p ?_
    rcases hx with hx | hx
    · exact List.mem_append_left _ (List.mem_flatMap.mpr ⟨x, hx, hp⟩)
    · exact List.mem_append_right _ (List.mem_flatMap.mpr ⟨x, hx, hp⟩)
  refine ⟨?_, ?_, ?_, ?_⟩
  · intro x hx
    rcases List.mem_append.mp hx with hx | hx
    · exact h1 x (by simp [hx])
    · rcases List.mem_cons.mp hx with rfl | hx
      · exact hj
      · exact h1 x (by simp [hx])
  · intro x hx
    rcases List.mem_append.mp hx with hx | hx
    · exact hother x (.inl hx)
    · rcases List.mem_cons.mp hx with rfl | hx
      · exact k3
      · exact hother x (.inr hx)
  · intro p hp
    rw [Crew.files_append, Crew.files_cons] at hp
    rcases List.mem_append.mp hp with hp | hp
    · exact k0 p (h3 p (by simp [hp]))
    · rcases List.mem_append.mp hp with hp | hp
      · rcases List.mem_append.mp (k2.mem_iff.mp hp) with hp | hp
        · exact k0 p (h3 p (by simp [k4.subset hp]))
        · exact (k6 p hp).2
      · exact k0 p (h3 p (by simp [hp]))
  · rw [Crew.files_append, Crew.files_cons]
    have hp : (c1.files ++ (th'.files ++ c2.files)).Perm ((kept ++ (c1.files ++ c2.files)) ++ new) := by
      refine (List.Perm.append_left _ (k2.append_right _)).trans ?_
      rw [← List.append_assoc]
      refine (List.perm_append_comm.append_right _).trans ?_
      rw [List.append_assoc, List.append_assoc, List.append_assoc]
      refine List.Perm.append_left _ (List.perm_append_comm.trans ?_)
      rw [List.append_assoc]
    refine hp.nodup_iff.mpr (List.nodup_append.mpr ⟨h4'.sublist (List.Sublist.append k4 (List.Sublist.refl _)), k5, fun a ha b hb hab => ?_⟩)
    subst hab
    refine h3 a ?_ (k6 a hb).1
    rcases List.mem_append.mp ha with ha | ha
    · simp [k4.subset ha]
    · rcases List.mem_append.mp ha with ha | ha <;> simp [ha]

theorem Crew.Good.start {js : List Job} (hjs : ∀ j ∈ js, j.cfg.openOpts.createNew = true) : Crew.Good D fuel (Crew.start D js) w := by
  have hf : (Crew.start D js).files = [] := by
    unfold Crew.files Crew.start
    rw [List.flatMap_eq_nil_iff]
    intro x hx
    obtain ⟨j, -, rfl⟩ := List.mem_map.mp hx
    rfl
  refine ⟨?_, ?_, by rw [hf]; simp, by rw [hf]; exact List.nodup_nil⟩
  · intro x hx
    obtain ⟨j, hj, rfl⟩ := List.mem_map.mp hx
    exact hjs j hj
  · intro x hx
    obtain ⟨j, hj, rfl⟩ := List.mem_map.mp hx
    exact ⟨[], rfl, withBody j.up.evs j.up.b, ⟨[], rfl⟩, rfl, Nat.le_refl _, fun fin hk => ⟨⟨.nil, Nat.zero_le _⟩, by intro h; simp [withBody, BR.fromReader] at h, .start hk.parts⟩⟩

theorem Runs.good (hD : D.Sane) {js : List Job} (hjs : ∀ j ∈ js, j.cfg.openOpts.createNew = true) {c : Crew} (h : Runs D fuel (Crew.start D js) w c w') : Crew.Good D fuel c w' := by
  induction h with
  | start => exact .start hjs
  | turn _ ih => exact ih.turn hD
  | other _ hk ih =>
    obtain ⟨h1, h2, h3, h4⟩ := ih
    exact ⟨h1, fun x hx => (h2 x hx).mono fun p hp => hk p (List.mem_flatMap.mpr ⟨x, hx, hp⟩), fun p hp => by rw [hk p hp]; exact h3 p hp, h4⟩

theorem set_split {α : Type} {l : List α} {i : Nat} {x : α} (h : l[i]? = some x) : ∃ l1 l2, l = l1 ++ x :: l2 ∧ ∀ y, l.set i y = l1 ++ y :: l2 := by
  induction l generalizing i with
  | nil => simp at h
  | cons a l ih =>
    cases i with
    | zero => simp at h; subst h; exact ⟨[], l, rfl, fun _ => rfl⟩
    | succ i =>
      obtain ⟨l1, l2, h1, h2⟩ := ih (by simpa using h)
      exact ⟨a :: l1, l2, by rw [h1]; rfl, fun y => by rw [List.set_cons_succ, h2]; rfl⟩

/-- The threads alone run as they do among other things. -/
theorem Crew.run_runs {c0 : Crew} {w0 : World} : ∀ (is : List Nat) {c : Crew} {w : World}, Runs D fuel c0 w0 c w → Runs D fuel c0 w0 (Crew.run D fuel is c w).1 (Crew.run D fuel is c w).2
  | [], _, _, h => h
  | i :: is, c, w, h => by
    unfold Crew.run
    split
    · rename_i j th hi
      obtain ⟨l1, l2, h1, h2⟩ := set_split hi
      rw [h2]
      rw [h1] at h
      exact Crew.run_runs is h.turn
    · exact Crew.run_runs is h

/-- What the invariant says of the entries of a thread. -/
theorem Thread.Sound.own {th : Thread} (hs : th.Sound D fuel j w') (hn : NoStall j.up.evs) (hne : NoErr j.up.evs) {fin : Ending} (hP : Parts D (dashes ++ j.up.b) (Ev.bytes j.up.evs) j.up.parts fin) {e : Entries} (he : th.entries = some e) :
    e.saveDir = j.dir ∧ ∃ fs k, GroupedByName e.fields fs ∧ All2 (SavedAs j.up.b j.up.evs w') fs (j.up.parts.take k) ∧ ∀ s, th = .done (.full e) s → k = j.up.parts.length ∧ fin = .closed := by
  have hk : j.Known D fin := ⟨hn, hne, hP⟩
  cases th with
  | running res e' s =>
    cases he
    obtain ⟨fs, rfl, h4⟩ := hs
    exact ⟨j.after_dir fs, fs, fs.length, j.after_grouped fs, (h4.first hk).1, fun s h => by cases h⟩
  | making =>
    cases he
    obtain ⟨fs, s1, rfl, h4, -⟩ := hs
    exact ⟨j.after_dir fs, fs, fs.length, j.after_grouped fs, (h4.first hk).1, fun s h => by cases h⟩
  | opening =>
    cases he
    obtain ⟨fs, s1, rfl, h4, -⟩ := hs
    exact ⟨j.after_dir fs, fs, fs.length, j.after_grouped fs, (h4.first hk).1, fun s h => by cases h⟩
  | writing =>
    cases he
    obtain ⟨⟨fs, s1, rfl, h4, -⟩, -⟩ := hs
    exact ⟨j.after_dir fs, fs, fs.length, j.after_grouped fs, (h4.first hk).1, fun s h => by cases h⟩
  | done r s =>
    cases r with
    | full e' =>
      cases he
      obtain ⟨fs, rfl, h4⟩ := hs
      exact ⟨j.after_dir fs, fs, fs.length, j.after_grouped fs, (h4 fin hk).1.1, fun _ _ => (h4 fin hk).2⟩
    | part p r =>
      cases he
      obtain ⟨fs, h1, h4⟩ := hs
      rw [h1]
      exact ⟨j.after_dir fs, fs, fs.length, j.after_grouped fs, (h4 fin hk).1, fun s h => by cases h⟩
    | error => cases he
    | panic => cases he
    | hang => cases he

/-- C139: whatever other requests are saved at the same time, in the same directories or not, and whatever they are: at any time the entries of a thread are the first parts of its own body, with their headers, and what
it has saved can be read back and is their data. If it has finished, they are all parts. (New files only, which is the default.) -/
theorem C139_own_parts (hD : D.Sane) {js : List Job} (hjs : ∀ j ∈ js, j.cfg.openOpts.createNew = true) {c : Crew} (h : Runs D fuel (Crew.start D js) w c w') {th : Thread} (hm : (j, th) ∈ c)
    (hn : NoStall j.up.evs) (hne : NoErr j.up.evs) {fin : Ending} (hP : Parts D (dashes ++ j.up.b) (Ev.bytes j.up.evs) j.up.parts fin) {e : Entries} (he : th.entries = some e) :
    e.saveDir = j.dir ∧ ∃ fs k, GroupedByName e.fields fs ∧ All2 (SavedAs j.up.b j.up.evs w') fs (j.up.parts.take k) ∧ ∀ s, th = .done (.full e) s → k = j.up.parts.length ∧ fin = .closed :=
  Thread.Sound.own ((h.good hD hjs).sound _ hm) hn hne hP he

/-- C139: no two fields, of the same request or of different ones, are saved to the same file, also while they are written or if they are cut off, and all these files exist. -/
theorem C139_own_files (hD : D.Sane) {js : List Job} (hjs : ∀ j ∈ js, j.cfg.openOpts.createNew = true) {c : Crew} (h : Runs D fuel (Crew.start D js) w c w') : c.files.Nodup ∧ ∀ p ∈ c.files, w'.files p ≠ none :=
  ⟨(h.good hD hjs).own, (h.good hD hjs).exist⟩

/-- Two threads save their first fields in turns, and the file of another program is removed (C139_own_parts, C139_own_files). -/
example : ∃ c w', Runs refDeps 40 (Crew.start refDeps [Sample.job, Sample.job]) Sample.disk4 c w' ∧ c.files = [[b!"d", b!"x"], [b!"d", b!"y"]] ∧ c.files.Nodup ∧
    ∃ th e, (Sample.job, th) ∈ c ∧ th.entries = some e ∧ e.fieldsCount = 1 ∧ ∃ fs k, GroupedByName e.fields fs ∧ All2 (SavedAs Sample.bnd Sample.evsTwo w') fs (Sample.job.up.parts.take k) := by
  have h1 := Crew.run_runs (D := refDeps) (fuel := 40) [0, 0, 1, 0, 1, 1, 0, 1] (Runs.start (c0 := Crew.start refDeps [Sample.job, Sample.job]) (w0 := Sample.disk4))
  have h2 := h1.other (w' := { (Crew.run refDeps 40 [0, 0, 1, 0, 1, 1, 0, 1] (Crew.start refDeps [Sample.job, Sample.job]) Sample.disk4).2 with
    files := fun q => if q = [b!"other"] then none else (Crew.run refDeps 40 [0, 0, 1, 0, 1, 1, 0, 1] (Crew.start refDeps [Sample.job, Sample.job]) Sample.disk4).2.files q }) (by
      intro p hp
      have : p ≠ [b!"other"] := by
        rintro rfl
        exact absurd hp (by decide +kernel)
      simp [this])
  rcases hc : (Crew.run refDeps 40 [0, 0, 1, 0, 1, 1, 0, 1] (Crew.start refDeps [Sample.job, Sample.job]) Sample.disk4).1[0]? with _ | ⟨j, th⟩
  · exact absurd hc (by decide +kernel)
  have hj : ((Crew.run refDeps 40 [0, 0, 1, 0, 1, 1, 0, 1] (Crew.start refDeps [Sample.job, Sample.job]) Sample.disk4).1[0]?).map (fun x => x.1) = some Sample.job := rfl
  have he : ((Crew.run refDeps 40 [0, 0, 1, 0, 1, 1, 0, 1] (Crew.start refDeps [Sample.job, Sample.job]) Sample.disk4).1[0]?).map (fun x => x.2.entries.map Entries.fieldsCount) = some (some 1) := by decide +kernel
  rw [hc] at hj he
  simp only [Option.map_some, Option.some.injEq] at hj he
  subst hj
  obtain ⟨e, he1, he2⟩ := Option.map_eq_some_iff.mp he
  have hm := List.mem_of_getElem? hc
  obtain ⟨-, fs, k, h3, h4, -⟩ := C139_own_parts refDeps_sane (by intro j hj; simp at hj; subst hj; rfl) h2 hm (by decide +kernel) (by intro e; simp [Sample.job, Sample.evsTwo]) Sample.partsTwo he1
  exact ⟨_, _, h2, by decide +kernel, (C139_own_files refDeps_sane (by intro j hj; simp at hj; subst hj; rfl) h2).1, th, e, hm, he1, he2, fs, k, h3, h4⟩

/-! ## All requests are saved -/

theorem DiskReady.less {dir : Path} {n k : Nat} (h : DiskReady w dir n) (hk : k ≤ n) : DiskReady w dir k :=
  ⟨h.mkdirs, h.opens, h.writes, Nat.le_trans hk h.names, h.distinct.sublist (List.take_sublist_take_left hk), fun m hm => h.fresh m (List.take_subset_take_left _ hk hm)⟩

/-- The request can be saved, if the disk works. -/
structure Job.Fine (D : Deps) (fuel : Nat) (j : Job) : Prop where
  typed : j.cfg.Typed
  fresh : j.cfg.openOpts.createNew = true
  mem : Nat.min j.cfg.sizeLimit j.cfg.memoryThreshold < u64Max ∨ j.cfg.textPolicy = .ignore
  within : j.up.Within D j.cfg
  rounds : (withBody j.up.evs j.up.b).enough (j.cfg.memLimit 0) < fuel

/-- The random names that are still to be chosen. -/
def Thread.need (j : Job) : Thread → Nat
  | .running _ e _ => j.up.parts.length - e.fieldsCount
  | .making e _ _ _ _ => j.up.parts.length - e.fieldsCount - 1
  | .opening e _ _ _ _ => j.up.parts.length - e.fieldsCount - 1
  | .writing e _ _ _ _ _ => j.up.parts.length - e.fieldsCount - 1
  | .done _ _ => 0

/-- The steps that are still to be run, at most. -/
def Thread.rounds (j : Job) : Thread → Nat
  | .running _ e _ => 4 * (j.up.parts.length - e.fieldsCount) + 1
  | .making e _ _ _ _ => 4 * (j.up.parts.length - e.fieldsCount - 1) + 4
  | .opening e _ _ _ _ => 4 * (j.up.parts.length - e.fieldsCount - 1) + 3
  | .writing e _ _ _ _ _ => 4 * (j.up.parts.length - e.fieldsCount - 1) + 2
  | .done _ _ => 0

/-- Nothing went wrong so far. -/
def Thread.Well : Thread → Prop
  | .done r _ => ∃ e, r = .full e
  | _ => True

/-- The name that was chosen for a file that is not there yet. -/
def Thread.chosen : Thread → List Bytes
  | .making _ _ name _ _ => [name]
  | .opening _ _ name _ _ => [name]
  | _ => []

theorem Job.after_count (hj : j.Fine D fuel) {fs : List SavedField} (h : fs.length ≤ j.up.parts.length) : (j.after fs).fieldsCount = fs.length := by
  have h1 := Entries.pushAll_count fs (Entries.new j.dir).recountFields (Entries.new j.dir).recount_count
  have h2 : total (Entries.new j.dir).recountFields.fields = 0 := rfl
  rw [h2, Nat.zero_add] at h1
  have h3 : (j.after fs).fieldsCount = min fs.length u32Max := h1
  have := hj.within.count
  have := hj.typed.count
  omega

theorem Job.At.fits (hD : D.Sane) (hj : j.Fine D fuel) {fs : List SavedField} {h : FieldHeaders} {s1 : BR} (hat : j.At D w fs (.ok (some h)) s1) :
    fs.length < j.up.parts.length ∧ (j.after fs).fieldsCount = fs.length ∧ ∀ d, ((j.after fs).pushField h d).fieldsCount = fs.length + 1 := by
  obtain ⟨s0, h1, h2, h3, h4⟩ := hat
  have hin := hj.within
  obtain ⟨⟨k0, k1⟩, k2, k3⟩ := h4 .closed ⟨hin.noStall, hin.noErr, hin.parts⟩
  obtain ⟨dat, es', g1, -, g2⟩ := k3.entry_data hD hin.noStall hin.noErr (.inl k2) h2
  have hlt : fs.length < j.up.parts.length := by
    have := congrArg List.length g1
    rw [List.length_drop, List.length_cons] at this
    omega
  refine ⟨hlt, Job.after_count hj k1, fun d => ?_⟩
  rw [j.after_push, Job.after_count hj (by simp; omega)]
  simp

/-- If the disk works, the field is saved fully. -/
theorem Job.At.full (hD : D.Sane) (hj : j.Fine D fuel) {fs : List SavedField} {h : FieldHeaders} {s1 : BR} (hat : j.At D w fs (.ok (some h)) s1) {wa wb : World} {r : SaveRes SavedData SavedData}
    (hwa : DiskWorks wa j.cfg.openOpts (Target.file (.dir j.dir.asPath) wa)) (hsv : (Target.dir j.dir.asPath).save (fieldPolicy j.cfg h) fuel wa s1 = (r, wb, t)) : ∃ d, r = .full d := by
  obtain ⟨s0, h1, h2, h3, h4⟩ := hat
  have hin := hj.within
  obtain ⟨⟨k0, k1⟩, k2, k3⟩ := h4 .closed ⟨hin.noStall, hin.noErr, hin.parts⟩
  have hi0 := (h1.spec hD).1
  have hs1 := (h1.entry h2).spec hD
  obtain ⟨dat, es', g1, -, g2⟩ := k3.entry_data hD hin.noStall hin.noErr (.inl k2) h2
  have hmem : (h, dat) ∈ j.up.parts := (List.drop_suffix fs.length j.up.parts).subset (by rw [g1]; exact List.mem_cons_self ..)
  have hbound : ∀ x u, Took s1 x u → x.length ≤ j.cfg.sizeLimit := by
    intro x u hx
    obtain ⟨dat', es'', y, l1, l2⟩ := k3.data hD hin.noStall hin.noErr h1 h2 hx
    rw [g1] at l1
    simp only [List.cons.injEq, Prod.mk.injEq, true_and] at l1
    obtain ⟨rfl, -⟩ := l1
    have hz := hin.sizes _ hmem
    have hcl : crlf.length = 2 := rfl
    simp only at hz
    rcases l2 with l2 | ⟨l2, -, -⟩
    · have := congrArg List.length l2
      rw [List.length_append] at this
      omega
    · have := congrArg List.length l2
      rw [List.length_append, List.length_append] at this
      omega
  have hpol : Nat.min j.cfg.sizeLimit j.cfg.memoryThreshold < u64Max ∨ (fieldPolicy j.cfg h).textPolicy = .ignore := by
    rcases hj.mem with h | h
    · exact .inl h
    · right; unfold fieldPolicy; rw [h]; simp
  rcases Target.save_fine (cfg := fieldPolicy j.cfg h) hs1.1 ⟨hj.typed.size, hj.typed.mem, hj.typed.count, hj.typed.write⟩
    (fun e g => absurd (hs1.2.2.2.subset g) (hin.noErr e)) hwa hbound hsv with g | g | ⟨g, x, -, -, gx, -⟩
  · subst g
    rw [Target.save_eq] at hsv
    refine absurd (congrArg Prod.fst hsv) (withPath_ends _ _ _ hs1.1 ?_ (hpol.elim (fun h => .inr (.inl h)) .inl))
    exact Nat.lt_of_le_of_lt (Nat.le_trans ((BR.readEntry_enough hD hi0 h2).2.2 _) h3) hj.rounds
  · exact g
  · unfold fieldPolicy at g
    simp only at g
    split at g
    next htx =>
      have l3 := textThen_validUpTo dat
      have l4 := Target.save_goes_on (T := .dir j.dir.asPath) (cfg := fieldPolicy j.cfg h) (fuel := fuel) (w := wa) hD hin.noStall h1 h2 g2 l3
        (.inl (l3.of_utf8 (hin.text g _ hmem htx))) (.text x)
      rw [hsv] at l4
      exact absurd gx l4
    next => simp at g

/-- One step of a thread for which everything is fine. -/
structure Thread.SteppedFine (j : Job) (th : Thread) (w : World) (th' : Thread) (w' : World) : Prop where
  well : th'.Well
  rounds : th'.rounds j ≤ th.rounds j - 1
  mkdirs : w'.mkdirs <:+ w.mkdirs
  opens : w'.opens <:+ w.opens
  writes : w'.writes <:+ w.writes
  names : (th.need j = th'.need j + 1 ∧ w'.names = w.names.tail ∧ th.chosen = [] ∧ (th'.chosen = [] ∨ th'.chosen = [w.randName.1])) ∨ (th.need j = th'.need j ∧ w'.names = w.names ∧ th'.chosen.Sublist th.chosen)
  files : ∀ q, w'.files q = w.files q ∨ w.files q ≠ none ∨ ∃ name, th.chosen = [name] ∧ q = j.dir.asPath ++ [name] ∧ th'.chosen = []

theorem Thread.step_fine (hD : D.Sane) (hj : j.Fine D fuel) {th : Thread} (hs : th.Sound D fuel j w) (hex : ∀ p ∈ th.files, w.files p ≠ none) (hwell : th.Well)
    (hm : ∀ e, some e ∉ w.mkdirs) (ho : ∀ e, some e ∉ w.opens) (hwr : WritesFine w.writes) (hw : ∀ n, th.need j = n + 1 → DiskReady w j.dir.asPath (n + 1))
    (hch : ∀ name ∈ th.chosen, w.files (j.dir.asPath ++ [name]) = none) :
    Thread.SteppedFine j th w (th.step D j.cfg fuel w).1 (th.step D j.cfg fuel w).2 := by
  cases th with
  | done r s => exact ⟨hwell, by simp [Thread.step, Thread.rounds], List.suffix_rfl, List.suffix_rfl, List.suffix_rfl, .inr ⟨rfl, rfl, List.Sublist.refl _⟩, fun _ => .inl rfl⟩
  | running res e s1 =>
    obtain ⟨fs, rfl, hat⟩ := hs
    have hat' := hat
    obtain ⟨s0, h1, h2, h3, h4⟩ := hat'
    have hin := hj.within
    obtain ⟨⟨k0, k1⟩, k2, k3⟩ := h4 .closed ⟨hin.noStall, hin.noErr, hin.parts⟩
    have hcnt := Job.after_count hj k1
    have hlim := hin.count
    have hi0 := (h1.spec hD).1
    simp only [Thread.need, hcnt] at hw
    simp only [Thread.step]
    rw [if_pos (by omega)]
    have hnp := BR.readEntry_noPanic hD hi0
    rw [h2] at hnp
    cases res with
    | panic => exact absurd rfl hnp.1
    | hang => exact absurd rfl hnp.2
    | err er => exact absurd (k3.reads hD hin.noStall hin.noErr (.inl k2) (.fail h2)).1 (by simp)
    | ok o =>
      cases o with
      | none =>
        have g3 := (k3.reads hD hin.noStall hin.noErr (.inl k2) (.close h2)).2.length
        rw [List.length_drop] at g3
        simp at g3
        exact ⟨⟨_, rfl⟩, by simp [Thread.rounds], List.suffix_rfl, List.suffix_rfl, List.suffix_rfl, .inr ⟨by simp only [Thread.need, hcnt]; omega, rfl, List.Sublist.refl _⟩, fun _ => .inl rfl⟩
      | some hd =>
        obtain ⟨hlt, -, hpush⟩ := hat.fits hD hj
        simp only
        rcases hmm : saveInMemory (fieldPolicy j.cfg hd) fuel s1 with ⟨r | bytes, s'⟩
        · have hsv : (Target.dir j.dir.asPath).save (fieldPolicy j.cfg hd) fuel w s1 = (r, w.randName.2, s') := by
            show withPath _ _ _ _ _ = _
            rw [withPath_split, hmm]
          obtain ⟨d, rfl⟩ := hat.full hD hj ((hw (j.up.parts.length - fs.length - 1) (by omega)).works hj.fresh hj.typed.write) hsv
          exact ⟨trivial, by simp only [Thread.saved, Thread.rounds, hpush, hcnt]; omega, List.suffix_rfl, List.suffix_rfl, List.suffix_rfl,
            .inl ⟨by simp only [Thread.saved, Thread.need, hpush, hcnt]; omega, rfl, rfl, .inl rfl⟩, fun _ => .inl rfl⟩
        · exact ⟨trivial, by simp only [Thread.rounds, hcnt]; omega, List.suffix_rfl, List.suffix_rfl, List.suffix_rfl,
            .inl ⟨by simp only [Thread.need, hcnt]; omega, rfl, rfl, .inr rfl⟩, fun _ => .inl rfl⟩
  | making e h name bytes s =>
    obtain ⟨fs, s1, rfl, hat, hmm⟩ := hs
    have hhead : w.mkdirs.headD none = none := by
      rcases hmk : w.mkdirs with _ | ⟨_ | e, l⟩
      · rfl
      · rfl
      · exact absurd (by rw [hmk]; exact List.mem_cons_self ..) (hm e)
    simp only [Thread.step, World.createDirAll, List.append_eq_nil_iff, List.cons_ne_nil, and_false, if_false, hhead]
    exact ⟨trivial, by simp only [Thread.rounds]; omega, List.tail_suffix _, List.suffix_rfl, List.suffix_rfl, .inr ⟨rfl, rfl, List.Sublist.refl _⟩, fun _ => .inl rfl⟩
  | opening e h name bytes s =>
    obtain ⟨fs, s1, rfl, hat, hmm⟩ := hs
    have hdir : (j.after fs).saveDir.asPath = j.dir.asPath := by rw [j.after_dir]
    have hl := openFile_later w j.cfg.openOpts (j.dir.asPath ++ [name]) (j.dir.asPath ++ [name])
    have hok : ∃ w1, w.openFile j.cfg.openOpts (j.dir.asPath ++ [name]) = (.ok [], w1) := by
      have hf := hch name (by simp [Thread.chosen])
      unfold World.openFile
      rw [if_neg (by simp [hj.fresh, hj.typed.write])]
      split
      · rename_i e r hop
        exact absurd (by rw [hop]; exact List.mem_cons_self ..) (ho e)
      · simp [hf, hj.fresh]
    obtain ⟨w1, hok⟩ := hok
    rw [hok] at hl
    simp only [Thread.step, hdir, hok]
    refine ⟨trivial, by simp only [Thread.rounds]; omega, hl.mkdirs, hl.opens, hl.writes, .inr ⟨rfl, hl.names, List.nil_sublist _⟩, fun q => ?_⟩
    by_cases hq : q = j.dir.asPath ++ [name]
    · exact .inr (.inr ⟨name, rfl, hq, rfl⟩)
    · left
      simp only [World.setFile, hq, if_false]
      exact hl.files q hq
  | writing e h name old bytes s =>
    obtain ⟨⟨fs, s1, rfl, hat, hmm⟩, w0, w1, hop⟩ := hs
    obtain ⟨hlt, hcnt, hpush⟩ := hat.fits hD hj
    have hdir : (j.after fs).saveDir.asPath = j.dir.asPath := by rw [j.after_dir]
    have hp := hex (j.dir.asPath ++ [name]) (by simp [Thread.files, hdir])
    have hl := (writeFile_later (cfg := fieldPolicy j.cfg h) (fuel := fuel) (p := j.dir.asPath ++ [name]) (old := old) (bytes := bytes) (w := w) (s := s)).1
    rcases hw2 : writeFile (fieldPolicy j.cfg h) fuel (j.dir.asPath ++ [name]) old bytes w s with ⟨r, w2, s2⟩
    rw [hw2] at hl
    rw [hdir] at hop
    obtain ⟨wb, g1, g2⟩ := writeFile_as_save (cfg := fieldPolicy j.cfg h) hop hj.fresh hmm hw2
    obtain ⟨d, rfl⟩ := hat.full hD hj (wa := w.before (j.dir.asPath ++ [name]) name) ⟨fun e he => hm e (by simpa [World.before] using he), fun e he => ho e (by simpa [World.before] using he), hwr,
      .inl ⟨by simp [World.before, Target.file], .inl hj.fresh⟩, .inl hj.typed.write, fun _ _ => hj.fresh⟩ g1
    simp only [Thread.step, hdir, hw2]
    refine ⟨trivial, by simp only [Thread.saved, Thread.rounds, hpush, hcnt]; omega, hl.mkdirs, hl.opens, hl.writes,
      .inr ⟨by simp only [Thread.saved, Thread.need, hpush, hcnt]; omega, hl.names, List.nil_sublist _⟩, fun q => ?_⟩
    by_cases hq : q = j.dir.asPath ++ [name]
    · rw [hq]; exact .inr (.inl hp)
    · exact .inl (hl.files q hq)

theorem le_sum_map {α : Type} (f : α → Nat) {x : α} : ∀ {l : List α}, x ∈ l → f x ≤ (l.map f).sum
  | a :: l, h => by
    simp only [List.map_cons, List.sum_cons]
    rcases List.mem_cons.mp h with rfl | h
    · omega
    · have := le_sum_map f h; omega

def Crew.need (c : Crew) : Nat := (c.map fun x => x.2.need x.1).sum

def Crew.chosen (c : Crew) : List Bytes := c.flatMap fun x => x.2.chosen

/-- Nothing went wrong so far, the disk works, and the names that were chosen or are still to be chosen are different and new. -/
structure Crew.Live (D : Deps) (fuel : Nat) (c : Crew) (w : World) : Prop where
  each : ∀ x ∈ c, x.1.Fine D fuel ∧ x.2.Well ∧ DiskReady w x.1.dir.asPath c.need
  names : (c.chosen ++ w.names.take c.need).Nodup
  free : ∀ x ∈ c, ∀ name ∈ x.2.chosen, w.files (x.1.dir.asPath ++ [name]) = none

theorem Crew.Live.turn (hD : D.Sane) {c1 c2 : Crew} {th : Thread} (hg : Crew.Good D fuel (c1 ++ (j, th) :: c2) w) (h : Crew.Live D fuel (c1 ++ (j, th) :: c2) w) :
    Crew.Live D fuel (c1 ++ (j, (th.step D j.cfg fuel w).1) :: c2) (th.step D j.cfg fuel w).2 ∧ (th.step D j.cfg fuel w).1.rounds j ≤ th.rounds j - 1 := by
  obtain ⟨h1, h2, h3⟩ := h
  have hN : ∀ y, Crew.need (c1 ++ (j, y) :: c2) = c1.need + y.need j + c2.need := by intro y; simp [Crew.need]; omega
  have hC : ∀ y, Crew.chosen (c1 ++ (j, y) :: c2) = c1.chosen ++ (y.chosen ++ c2.chosen) := by intro y; simp [Crew.chosen]
  obtain ⟨f1, f2, f3⟩ := h1 (j, th) (by simp)
  have hex : ∀ p ∈ th.files, w.files p ≠ none := fun p hp => hg.exist p (by rw [Crew.files_append, Crew.files_cons]; simp [hp])
  have hst := Thread.step_fine (j := j) (th := th) hD f1 (hg.sound (j, th) (by simp)) hex f2 f3.mkdirs f3.opens f3.writes (fun n hn => f3.less (by rw [hN]; omega)) (h3 (j, th) (by simp))
  generalize (th.step D j.cfg fuel w).1 = th' at hst ⊢
  generalize (th.step D j.cfg fuel w).2 = w' at hst ⊢
  obtain ⟨g1, g2, g3, g4, g5, g6, g7⟩ := hst
  refine ⟨?_, g2⟩
  have hfree : ∀ q, w.files q = none → (∀ name, th.chosen = [name] → th'.chosen = [] → q ≠ j.dir.asPath ++ [name]) → w'.files q = none := by
    intro q hq hn
    rcases g7 q with k | k | ⟨name, k1, k2, k3⟩
    · rw [k]; exact hq
    · exact absurd hq k
    · exact absurd k2 (hn name k1 k3)
  have hlast : ∀ (d d' : Path) (x y : Bytes), d ++ [x] = d' ++ [y] → x = y := by
    intro d d' x y hh
    simpa using (List.append_inj' hh rfl).2
  have hlen := f3.names
  have hfresh := fun (x : Job × Thread) hx => (h1 x hx).2.2.fresh
  rw [hN] at hlen
  simp only [hN] at hfresh
  rw [hN, hC] at h2
  have hnames : (∀ name ∈ w'.names.take (c1.need + th'.need j + c2.need), name ∈ w.names.take (c1.need + th.need j + c2.need)) ∧ c1.need + th'.need j + c2.need ≤ w'.names.length ∧
      ((c1.chosen ++ (th'.chosen ++ c2.chosen)) ++ w'.names.take (c1.need + th'.need j + c2.need)).Nodup := by
    rcases g6 with ⟨k1, k2, k3, k4⟩ | ⟨k1, k2, k3⟩
    · rcases hnm : w.names with _ | ⟨a, as⟩
      · rw [hnm] at hlen; simp at hlen; omega
      have ha : w.randName.1 = a := by simp [World.randName, hnm]
      have hn1 : c1.need + th.need j + c2.need = (c1.need + th'.need j + c2.need) + 1 := by omega
      rw [hn1, hnm] at h2
      rw [hnm] at k2
      rw [hnm, hn1] at hlen
      rw [hn1, k2]
      simp only [List.take_succ_cons, List.tail_cons, List.length_cons] at h2 hlen ⊢
      refine ⟨fun name hn => List.mem_cons_of_mem _ hn, by omega, ?_⟩
      rw [k3, List.nil_append] at h2
      rcases k4 with k4 | k4
      · rw [k4, List.nil_append]
        exact h2.sublist (List.Sublist.append (List.Sublist.refl _) (List.sublist_cons_self _ _))
      · rw [k4, ha]
        refine List.Perm.nodup_iff ?_ |>.mp h2
        refine List.perm_middle.trans ?_
        rw [List.append_assoc, List.append_assoc]
        exact List.perm_middle.symm
    · rw [k2, ← k1]
      exact ⟨fun _ h => h, hlen, h2.sublist (List.Sublist.append (List.Sublist.append (List.Sublist.refl _) (List.Sublist.append k3 (List.Sublist.refl _))) (List.Sublist.refl _))⟩
  obtain ⟨n1, n2, n3⟩ := hnames
  obtain ⟨o1, o2, o3⟩ := List.nodup_append.mp h2
  have hready : ∀ x ∈ c1 ++ (j, th) :: c2, DiskReady w' x.1.dir.asPath (c1.need + th'.need j + c2.need) := by
    intro x hx
    refine ⟨fun e he => f3.mkdirs e (g3.subset he), fun e he => f3.opens e (g4.subset he), fun ev he => f3.writes ev (g5.subset he), n2, (List.nodup_append.mp n3).2.1, fun name hn => ?_⟩
    refine hfree _ (hfresh x hx name (n1 name hn)) fun nm k1 _ hh => ?_
    have := hlast _ _ _ _ hh
    subst this
    exact o3 name (by simp [k1]) name (n1 name hn) rfl
  have hothers : ∀ x, x ∈ c1 ∨ x ∈ c2 → ∀ name ∈ x.2.chosen, w'.files (x.1.dir.asPath ++ [name]) = none := by
    intro x hx name hn
    refine hfree _ (h3 x (by rcases hx with hx | hx <;> simp [hx]) name hn) fun nm k1 _ hh => ?_
    have := hlast _ _ _ _ hh
    subst this
    rw [k1] at o1
    obtain ⟨p1, p2, p3⟩ := List.nodup_append.mp o1
    rcases hx with hx | hx
    · exact p3 name (List.mem_flatMap.mpr ⟨x, hx, hn⟩) name (by simp) rfl
    · simp only [List.cons_append, List.nil_append, List.nodup_cons] at p2
      exact p2.1 (List.mem_flatMap.mpr ⟨x, hx, hn⟩)
  refine ⟨?_, by rw [hN, hC]; exact n3, ?_⟩
  · intro x hx
    rw [hN]
    rcases List.mem_append.mp hx with hx | hx
    · exact ⟨(h1 x (by simp [hx])).1, (h1 x (by simp [hx])).2.1, hready x (by simp [hx])⟩
    · rcases List.mem_cons.mp hx with rfl | hx
      · exact ⟨f1, g1, hready (j, th) (by simp)⟩
      · exact ⟨(h1 x (by simp [hx])).1, (h1 x (by simp [hx])).2.1, hready x (by simp [hx])⟩
  · intro x hx
    rcases List.mem_append.mp hx with hx | hx
    · exact hothers x (.inl hx)
    · rcases List.mem_cons.mp hx with rfl | hx
      · intro name hn
        rcases g6 with ⟨k1, -, k3, k4⟩ | ⟨-, -, k3⟩
        · rcases k4 with k4 | k4
          · rw [k4] at hn; simp at hn
          · rw [k4, List.mem_singleton] at hn
            subst hn
            refine hfree _ (hfresh (j, th) (by simp) _ ?_) fun nm q1 _ => by rw [k3] at q1; simp at q1
            rcases hnm : w.names with _ | ⟨a, as⟩
            · rw [hnm] at hlen; simp at hlen; omega
            have hn1 : c1.need + th.need j + c2.need = (c1.need + th'.need j + c2.need) + 1 := by omega
            rw [hn1]
            simp [World.randName, hnm]
        · exact hfree _ (h3 (j, th) (by simp) name (k3.subset hn)) fun nm _ q2 => by rw [q2] at hn; simp at hn
      · exact hothers x (.inr hx)

theorem Crew.run_ends (hD : D.Sane) : ∀ (is : List Nat) {c : Crew} {w : World}, Crew.Good D fuel c w → Crew.Live D fuel c w → (∀ (i : Nat) (x : Job × Thread), c[i]? = some x → x.2.rounds x.1 ≤ is.count i) →
    ∀ (i : Nat) (x : Job × Thread), c[i]? = some x → ∃ (e : Entries) (s : BR), (Crew.run D fuel is c w).1[i]? = some (x.1, Thread.done (.full e) s)
  | [], c, w, _, hl, h => by
    rintro i ⟨j, th⟩ hx
    have h2 := (hl.each _ (List.mem_of_getElem? hx)).2.1
    have h3 := h i _ hx
    cases th with
    | done r s =>
      obtain ⟨e, rfl⟩ := h2
      exact ⟨e, s, hx⟩
    | _ => simp [Thread.rounds] at h3
  | k :: is, c, w, hg, hl, h => by
    unfold Crew.run
    split
    · rename_i j th hk
      have f3 := h k _ hk
      have hlt : k < c.length := by
        rcases Nat.lt_or_ge k c.length with h | h
        · exact h
        · rw [List.getElem?_eq_none h] at hk; simp at hk
      obtain ⟨l1, l2, e1, e2⟩ := set_split hk
      subst e1
      obtain ⟨hl', hr⟩ := hl.turn hD hg
      have hg' := hg.turn hD (fuel := fuel)
      rw [← e2] at hl' hg'
      intro i x hx
      have ih := Crew.run_ends hD is hg' hl' ?_ i
      · rw [List.getElem?_set] at ih
        split at ih
        · rename_i hik
          subst hik
          rw [hk] at hx
          cases hx
          exact ih (j, (th.step D j.cfg fuel w).1) rfl
        · exact ih _ hx
      · intro i x hx
        rw [List.getElem?_set] at hx
        split at hx
        · rename_i hik
          subst hik
          cases hx
          rw [List.count_cons_self] at f3
          simp only at f3 ⊢
          omega
        · rename_i hik
          have e3 := h i x hx
          rw [List.count_cons_of_ne hik] at e3
          exact e3
    · rename_i hk
      refine Crew.run_ends hD is hg hl fun i x hx => ?_
      have e3 := h i x hx
      rw [List.count_cons_of_ne (by intro hik; subst hik; rw [hk] at hx; simp at hx)] at e3
      exact e3

/-- C139: if the disk works, the random names are new and all requests are within their limits, then all of them are saved fully at the same time, in whatever order the steps of their threads run, as soon as each had four
for each of its parts and one to end; all parts of all of them are there then with their headers and their data. -/
theorem C139_all_saved (hD : D.Sane) {js : List Job} (hc : ∀ j ∈ js, j.cfg.Typed ∧ j.cfg.openOpts.createNew = true ∧ (Nat.min j.cfg.sizeLimit j.cfg.memoryThreshold < u64Max ∨ j.cfg.textPolicy = .ignore))
    (hu : ∀ j ∈ js, j.up.Within D j.cfg) (hw : ∀ j ∈ js, DiskReady w j.dir.asPath (js.map fun j => j.up.parts.length).sum) {is : List Nat} (his : ∀ i j, js[i]? = some j → 4 * j.up.parts.length < is.count i) :
    ∃ n, ∀ fuel, n ≤ fuel → ∀ (i : Nat) (j : Job), js[i]? = some j → ∃ (e : Entries) (s : BR) (fs : List SavedField), (Crew.run D fuel is (Crew.start D js) w).1[i]? = some (j, Thread.done (.full e) s) ∧ GroupedByName e.fields fs ∧ e.fieldsCount = j.up.parts.length ∧
      All2 (SavedAs j.up.b j.up.evs (Crew.run D fuel is (Crew.start D js) w).2) fs j.up.parts := by
  refine ⟨(js.map fun j => (withBody j.up.evs j.up.b).enough (j.cfg.memLimit 0)).sum + 1, fun fuel hf i j hij => ?_⟩
  have hm : j ∈ js := List.mem_of_getElem? hij
  have hjs : ∀ j ∈ js, j.cfg.openOpts.createNew = true := fun j hj => (hc j hj).2.1
  have hfine : ∀ j ∈ js, j.Fine D fuel := fun j hj => ⟨(hc j hj).1, (hc j hj).2.1, (hc j hj).2.2, hu j hj, by
    have := le_sum_map (fun j : Job => (withBody j.up.evs j.up.b).enough (j.cfg.memLimit 0)) hj
    omega⟩
  have hneed : (Crew.start D js).need = (js.map fun j => j.up.parts.length).sum := by
    unfold Crew.start Crew.need
    rw [List.map_map]
    congr 1
  have hchosen : (Crew.start D js).chosen = [] := by
    unfold Crew.chosen Crew.start
    rw [List.flatMap_eq_nil_iff]
    intro x hx
    obtain ⟨j, -, rfl⟩ := List.mem_map.mp hx
    rfl
  have hstart : ∀ (i : Nat) (x : Job × Thread), (Crew.start D js)[i]? = some x → ∃ j, js[i]? = some j ∧ x = (j, Thread.start D (Entries.new j.dir) (withBody j.up.evs j.up.b)) := by
    intro i x hx
    unfold Crew.start at hx
    rw [List.getElem?_map, Option.map_eq_some_iff] at hx
    obtain ⟨j, h1, h2⟩ := hx
    exact ⟨j, h1, h2.symm⟩
  have hlive : Crew.Live D fuel (Crew.start D js) w := by
    refine ⟨?_, by rw [hchosen, hneed, List.nil_append]; exact (hw j hm).distinct, ?_⟩
    · intro x hx
      obtain ⟨j, hj, rfl⟩ := List.mem_map.mp hx
      exact ⟨hfine j hj, trivial, by rw [hneed]; exact hw j hj⟩
    · intro x hx name hn
      have : name ∈ (Crew.start D js).chosen := List.mem_flatMap.mpr ⟨x, hx, hn⟩
      rw [hchosen] at this
      simp at this
  have hend := Crew.run_ends hD is (.start hjs) hlive (fun i x hx => by
    obtain ⟨j, h1, rfl⟩ := hstart i x hx
    have := his i j h1
    show 4 * (j.up.parts.length - 0) + 1 ≤ _
    omega) i (j, Thread.start D (Entries.new j.dir) (withBody j.up.evs j.up.b)) (by unfold Crew.start; rw [List.getElem?_map, hij]; rfl)
  obtain ⟨e, s, hend⟩ := hend
  have hin := hu j hm
  have hs : (Thread.done (.full e) s).Sound D fuel j _ := ((Crew.run_runs is (Runs.start (D := D) (fuel := fuel) (c0 := Crew.start D js) (w0 := w))).good hD hjs).sound _ (List.mem_of_getElem? hend)
  obtain ⟨fs, rfl, h4⟩ := hs
  obtain ⟨k1, k2, -⟩ := h4 .closed ⟨hin.noStall, hin.noErr, hin.parts⟩
  refine ⟨_, s, fs, hend, j.after_grouped fs, by rw [Job.after_count (hfine j hm) k1.2, k2], ?_⟩
  have := k1.1
  rw [k2, List.take_length] at this
  exact this

/-- Two requests of two fields each, saved to files in the same directory. -/
example : ∃ n, ∀ fuel, n ≤ fuel → ∀ (i : Nat) (j : Job), [Sample.job, Sample.job][i]? = some j → ∃ (e : Entries) (s : BR) (fs : List SavedField),
      (Crew.run refDeps fuel [1, 0, 0, 1, 0, 1, 1, 1, 0, 0, 1, 0, 1, 0, 0, 1, 1, 0] (Crew.start refDeps [Sample.job, Sample.job]) Sample.disk4).1[i]? = some (j, Thread.done (.full e) s) ∧ GroupedByName e.fields fs ∧ e.fieldsCount = j.up.parts.length ∧
      All2 (SavedAs j.up.b j.up.evs (Crew.run refDeps fuel [1, 0, 0, 1, 0, 1, 1, 1, 0, 0, 1, 0, 1, 0, 0, 1, 1, 0] (Crew.start refDeps [Sample.job, Sample.job]) Sample.disk4).2) fs j.up.parts :=
  C139_all_saved refDeps_sane (by intro j hj; simp at hj; subst hj; exact ⟨⟨by decide, by decide, by decide, rfl⟩, rfl, .inl (by decide)⟩)
    (by intro j hj
        simp at hj
        subst hj
        exact ⟨by decide +kernel, by intro e; simp [Sample.job, Sample.evsTwo], Sample.partsTwo, fun h => by simp [Sample.job, Settings.default] at h, by decide, by decide⟩)
    (by intro j hj
        simp at hj
        subst hj
        exact ⟨by simp [Sample.disk4, Sample.disk], by simp [Sample.disk4, Sample.disk], by simp [Sample.disk4, Sample.disk, WritesFine], by decide, by decide, fun _ _ => rfl⟩)
    (by intro i j hij
        rcases i with _ | _ | i
        · simp at hij; subst hij; decide
        · simp at hij; subst hij; decide
        · simp at hij)

end Multipart

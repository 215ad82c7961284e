import Verif.Props.Solo
import Verif.Props.Whole
/-!
# C146: what Iron's middleware occupies while it intercepts requests at the same time, in both modes
-/
namespace Multipart

variable {D : Deps} {cfg : Settings} {i : Intercept} {fuel : Nat} {w w' : World} {s t : BR} {v : IronVisit} {th : Thread} {dir : Path} {evs : List Ev} {b : Bytes} {L : List Path} {k : IronWorker} {e : Entries}

/-! ## Files and memory of a thread -/

/-- The entries are in this directory, are counted, and no more than allowed, also in memory. -/
structure Entries.Fit (cfg : Settings) (dir : Path) (e : Entries) : Prop where
  saveDir : e.saveDir = .temp dir
  counted : e.fieldsCount = e.stored.length
  count : e.stored.length ≤ cfg.countLimit
  memory : memoryUse e.stored ≤ e.stored.length * cfg.memLimit 0
  inside : ∀ p n, .file p n ∈ e.stored → Below dir p

/-- A field goes to a file, which is to begin with these bytes. -/
def Filed (cfg : Settings) (fuel : Nat) (h : FieldHeaders) (bytes : Bytes) (s : BR) : Prop := ∃ s1, saveInMemory (fieldPolicy cfg h) fuel s1 = (.inr bytes, s)

/-- The invariant of a thread that has created these files. -/
def Thread.Fit (cfg : Settings) (fuel : Nat) (dir : Path) (L : List Path) : Thread → Prop
  | .running _ e _ => e.Fit cfg dir ∧ L.length ≤ e.stored.length
  | .making e h _ bytes s => e.Fit cfg dir ∧ L.length ≤ e.stored.length ∧ e.stored.length < cfg.countLimit ∧ Filed cfg fuel h bytes s
  | .opening e h _ bytes s => e.Fit cfg dir ∧ L.length ≤ e.stored.length ∧ e.stored.length < cfg.countLimit ∧ Filed cfg fuel h bytes s
  | .writing e h name old bytes s => e.Fit cfg dir ∧ L.length ≤ e.stored.length + 1 ∧ e.stored.length < cfg.countLimit ∧ Filed cfg fuel h bytes s ∧ dir ++ [name] ∈ L ∧
      ∃ w0 w1 : World, w0.openFile cfg.openOpts (dir ++ [name]) = (.ok old, w1)
  | .done (.full e) _ => e.Fit cfg dir ∧ L.length ≤ e.stored.length
  | .done (.part p r) _ => p.entries.Fit cfg dir ∧ L.length ≤ cfg.countLimit ∧ ((∃ er, r = .io er) ∨ p.keepPartial.Fit cfg dir ∧ L.length ≤ p.keepPartial.stored.length)
  | .done _ _ => L.length ≤ cfg.countLimit

theorem RandomIn.below {q : Path} (h : RandomIn w dir q) : Below dir q := by
  obtain ⟨n, -, rfl⟩ := h
  exact ⟨[n], rfl⟩

theorem Entries.Fit.push (hc : cfg.countLimit ≤ u32Max) (h : e.Fit cfg dir) (hlt : e.stored.length < cfg.countLimit) {hd : FieldHeaders} {d : SavedData} (hd' : d.isMemory = true → d.size ≤ cfg.memLimit 0) (hin : ∀ p n, d = .file p n → Below dir p) : (e.pushField hd d).Fit cfg dir := by
  have hl := stored_push_length e hd d
  refine ⟨h.saveDir, ?_, by omega, ?_, fun p n hp => ?_⟩
  · rw [hl, ← h.counted]
    show Nat.min (e.fieldsCount + 1) u32Max = _
    exact Nat.min_eq_left (by rw [h.counted]; omega)
  · rw [hl, memoryUse_push, Nat.add_mul, Nat.one_mul]
    have := h.memory
    have := memoryUse_one hd'
    omega
  · rcases (pushInto_stored e.fields).mp hp with hp | hp
    · exact hin p n hp.symm
    · exact h.inside p n hp

theorem Entries.Fit.recount (hc : cfg.countLimit ≤ u32Max) (h : e.Fit cfg dir) : e.recountFields.Fit cfg dir := by
  refine ⟨h.saveDir, ?_, h.count, h.memory, h.inside⟩
  rw [fieldsCount_recount]
  exact Nat.min_eq_right (Nat.le_trans h.count hc)

theorem Thread.saved_fit (hc : cfg.countLimit ≤ u32Max) {h : FieldHeaders} {r : SaveRes SavedData SavedData} (he : e.Fit cfg dir) (hlt : e.stored.length < cfg.countLimit) (hn : L.length ≤ e.stored.length + 1)
    (hr : r.light (cfg.memLimit 0)) (hin : ∀ p n, r.data = some (.file p n) → Below dir p) : (Thread.saved D e h r s).Fit cfg fuel dir L := by
  cases r with
  | full d => exact ⟨he.push hc hlt hr fun p n h => hin p n (by rw [h]; rfl), by rw [stored_push_length]; exact hn⟩
  | part d r => exact ⟨he, by omega, .inr ⟨he.push hc hlt hr fun p n h => hin p n (by rw [h]; rfl), by show _ ≤ (e.pushField h d).stored.length; rw [stored_push_length]; exact hn⟩⟩
  | error er => exact ⟨he, by omega, .inl ⟨er, rfl⟩⟩
  | panic => show _ ≤ _; omega
  | hang => show _ ≤ _; omega

/-- One step of a thread. -/
theorem Thread.step_fit (hc : cfg.countLimit ≤ u32Max) (hl : cfg.sizeLimit < u64Max) (ho : cfg.openOpts.createNew = true) (hf : th.Fit cfg fuel dir L) :
    ∃ L' : List Path, (th.step D cfg fuel w).1.Fit cfg fuel dir L' ∧ (∀ p ∈ L, p ∈ L') ∧
      ∀ q, (th.step D cfg fuel w).2.files q = w.files q ∨ (q ∈ L' ∧ Below dir q ∧ (th.step D cfg fuel w).2.fileSize q ≤ cfg.sizeLimit + cfg.memLimit 0) := by
  cases th with
  | done r s => exact ⟨L, hf, fun _ h => h, fun _ => .inl rfl⟩
  | running res e s =>
    obtain ⟨he, hn⟩ := hf
    unfold Thread.step
    simp only
    split
    · rename_i hlt
      rw [he.counted] at hlt
      split
      · rename_i h
        rcases hm : saveInMemory (fieldPolicy cfg h) fuel s with ⟨r | bytes, s'⟩
        · simp only
          have hw : (Target.dir dir).save (fieldPolicy cfg h) fuel w s = (r, w.randName.2, s') := by
            show withPath _ _ _ _ _ = _
            rw [withPath_split, hm]
          have hg := (Target.save_grow (T := .dir dir) (cfg := fieldPolicy cfg h) (fuel := fuel) (w := w) (s := s) hl).2
          rw [hw] at hg
          exact ⟨L, Thread.saved_fit hc he hlt (Nat.le_succ_of_le hn) hg fun p n h => (RandomIn.below ((save_made hw).2 p n h).1), fun _ h => h, fun _ => .inl rfl⟩
        · exact ⟨L, ⟨he, hn, hlt, s, hm⟩, fun _ h => h, fun _ => .inl rfl⟩
      · exact ⟨L, ⟨he, hn⟩, fun _ h => h, fun _ => .inl rfl⟩
      · exact ⟨L, ⟨he, Nat.le_trans hn he.count, .inl ⟨_, rfl⟩⟩, fun _ h => h, fun _ => .inl rfl⟩
      · exact ⟨L, Nat.le_trans hn he.count, fun _ h => h, fun _ => .inl rfl⟩
      · exact ⟨L, Nat.le_trans hn he.count, fun _ h => h, fun _ => .inl rfl⟩
    · exact ⟨L, ⟨he, Nat.le_trans hn he.count, .inr ⟨he, hn⟩⟩, fun _ h => h, fun _ => .inl rfl⟩
  | making e h name bytes s =>
    obtain ⟨he, hn, hlt, hm⟩ := hf
    have hff := createDirAll_files (w := w) (q := e.saveDir.asPath ++ [name])
    unfold Thread.step
    simp only
    rcases hcr : w.createDirAll (e.saveDir.asPath ++ [name]) with ⟨_ | er, w1⟩
    · rw [hcr] at hff
      exact ⟨L, ⟨he, hn, hlt, hm⟩, fun _ h => h, fun q => .inl (congrFun hff q)⟩
    · rw [hcr] at hff
      exact ⟨L, Thread.saved_fit (D := D) (r := .error er) hc he hlt (Nat.le_succ_of_le hn) trivial fun p n h => (by cases h), fun _ h => h, fun q => .inl (congrFun hff q)⟩
  | opening e h name bytes s =>
    obtain ⟨he, hn, hlt, hm⟩ := hf
    have hff := (openFile_old (w := w) (q := e.saveDir.asPath ++ [name]) (o := cfg.openOpts)).1
    have hdir : e.saveDir.asPath = dir := by rw [he.saveDir]; rfl
    unfold Thread.step
    simp only [hdir] at hff ⊢
    rcases hcr : w.openFile cfg.openOpts (dir ++ [name]) with ⟨er | old, w1⟩
    · rw [hcr] at hff
      exact ⟨L, Thread.saved_fit (D := D) (r := .error er) hc he hlt (Nat.le_succ_of_le hn) trivial fun p n h => (by cases h), fun _ h => h, fun q => .inl (congrFun hff q)⟩
    · rw [hcr] at hff
      refine ⟨(dir ++ [name]) :: L, ⟨he, by simpa using hn, hlt, hm, by simp, w, w1, hcr⟩, fun _ h => List.mem_cons_of_mem _ h, fun q => ?_⟩
      obtain ⟨rfl, -, -, -⟩ := openFile_new hcr ho
      by_cases hq : q = dir ++ [name]
      · subst hq
        exact .inr ⟨by simp, ⟨[name], rfl⟩, by simp [World.fileSize, World.setFile]⟩
      · left
        simp only [World.setFile, if_neg hq]
        exact congrFun hff q
  | writing e h name old bytes s =>
    obtain ⟨he, hn, hlt, ⟨s1, hm⟩, hL, w0, w1, hop⟩ := hf
    have hdir : e.saveDir.asPath = dir := by rw [he.saveDir]; rfl
    unfold Thread.step
    simp only [hdir]
    rcases hw : writeFile (fieldPolicy cfg h) fuel (dir ++ [name]) old bytes w s with ⟨r, w2, s2⟩
    simp only
    obtain ⟨wb, g1, g2⟩ := writeFile_as_save (cfg := fieldPolicy cfg h) hop ho hm hw
    obtain ⟨hg, hlight⟩ := Target.save_grow (T := .dir dir) (cfg := fieldPolicy cfg h) (fuel := fuel) (w := w.before (dir ++ [name]) name) (s := s1) hl
    rw [g1] at hg hlight
    refine ⟨L, Thread.saved_fit hc he hlt hn hlight fun p n h => (RandomIn.below ((save_made g1).2 p n h).1), fun _ h => h, fun q => ?_⟩
    by_cases hq : q = dir ++ [name]
    · subst hq
      refine .inr ⟨hL, ⟨[name], rfl⟩, ?_⟩
      have h0 : (w.before (dir ++ [name]) name).fileSize (dir ++ [name]) = 0 := by simp [World.fileSize, World.before]
      have h1 : wb.fileSize (dir ++ [name]) ≤ (w.before (dir ++ [name]) name).fileSize (dir ++ [name]) + (cfg.sizeLimit + cfg.memLimit 0) := hg.size
      have h2 : w2.fileSize (dir ++ [name]) = wb.fileSize (dir ++ [name]) := by unfold World.fileSize; rw [g2]
      omega
    · left
      rw [← g2]
      have h1 : wb.files q = (w.before (dir ++ [name]) name).files q := hg.others q hq
      rw [h1]
      simp [World.before, hq]

/-! ## One step of the middleware -/

/-- There are no other files in this directory than these, and they are not too long. -/
structure Within (cfg : Settings) (w : World) (dir : Path) (L : List Path) : Prop where
  only : ∀ q, Below dir q → w.files q ≠ none → q ∈ L
  size : ∀ q, Below dir q → w.fileSize q ≤ cfg.sizeLimit + cfg.memLimit 0

theorem Within.mono (h : Within cfg w dir L) (hw : ∀ q, Below dir q → w'.files q = w.files q) : Within cfg w' dir L :=
  ⟨fun q hq hn => h.only q hq (by rw [← hw q hq]; exact hn), fun q hq => by rw [World.fileSize_eq (hw q hq)]; exact h.size q hq⟩

/-- The invariant of a worker. -/
def IronWorker.Fit (i : Intercept) (fuel : Nat) (v : IronVisit) (w : World) : IronWorker → Prop
  | .saving th => ∃ dir L, v.made = .ok dir ∧ Within i.settings w dir L ∧ th.Fit i.settings fuel dir L
  | .handling e => ∃ dir L, v.made = .ok dir ∧ Within i.settings w dir L ∧ e.Fit i.settings dir ∧ L.length ≤ i.settings.countLimit
  | _ => True

theorem IronWorker.step_fit (ht : i.Typed) (hl : i.fileSizeLimit < u64Max) (hg : k.Fit i fuel v w) (hnew : k.busy = false → ∀ dir, v.made = .ok dir → ∀ q, Below dir q → w.files q = none) :
    (k.step D i fuel v w).1.Fit i fuel v (k.step D i fuel v w).2 ∧
    (∀ q, (∀ dir, v.made = .ok dir → ¬ Below dir q) → (k.step D i fuel v w).2.files q = w.files q) ∧
    ((k.step D i fuel v w).1.busy = false → ∀ dir, v.made = .ok dir → ∀ q, Below dir q → (k.step D i fuel v w).2.files q = none) := by
  have hc : i.settings.countLimit ≤ u32Max := ht.settings.count
  have key : ∀ (d : SaveDir) (dir : Path), v.made = .ok dir → d = .temp dir → (IronWorker.finished).Fit i fuel v (d.drop none w) ∧
      (∀ q, (∀ dir, v.made = .ok dir → ¬ Below dir q) → (d.drop none w).files q = w.files q) ∧
      ((IronWorker.finished).busy = false → ∀ dir, v.made = .ok dir → ∀ q, Below dir q → (d.drop none w).files q = none) := by
    intro d dir hm hd
    obtain ⟨g1, g2⟩ := SaveDir.drop_temp (fail := none) (w := w) d hd
    refine ⟨trivial, fun q hq => g2 q (hq dir hm), fun _ dir' hdir' q hq => ?_⟩
    rw [hm] at hdir'
    cases hdir'
    exact (g1 rfl q hq).1
  cases k with
  | finished => exact ⟨trivial, fun _ _ => rfl, fun _ => hnew rfl⟩
  | waiting =>
    unfold IronWorker.step
    simp only
    split
    · exact ⟨trivial, fun _ _ => rfl, fun _ => hnew rfl⟩
    · split
      · exact ⟨trivial, fun _ _ => rfl, fun _ => hnew rfl⟩
      · rename_i dir hdir
        have hnone := hnew rfl dir hdir
        refine ⟨⟨dir, [], hdir, ⟨fun q hq hn => absurd (hnone q hq) hn, fun q hq => ?_⟩, ?_⟩, fun _ _ => rfl, fun h => (by cases h)⟩
        · have : World.fileSize w q = 0 := by
            unfold World.fileSize
            rw [hnone q hq]
          show World.fileSize w q ≤ _
          omega
        · exact ⟨⟨rfl, rfl, Nat.zero_le _, Nat.zero_le _, fun _ _ h => (by cases h)⟩, Nat.zero_le _⟩
  | handling e =>
    obtain ⟨dir, L, hm, -, he, -⟩ := hg
    exact key _ dir hm he.saveDir
  | saving th =>
    obtain ⟨dir, L, hm, hw, hf⟩ := hg
    by_cases hd : ∃ r s, th = .done r s
    · obtain ⟨r, s, rfl⟩ := hd
      cases r with
      | full e => exact ⟨⟨dir, L, hm, hw, hf.1, Nat.le_trans hf.2 hf.1.count⟩, fun _ _ => rfl, fun h => (by cases h)⟩
      | part p r =>
        obtain ⟨h1, h2, h3⟩ := hf
        by_cases hr : ∃ er, r = .io er
        · obtain ⟨er, rfl⟩ := hr
          exact key _ dir hm h1.saveDir
        · rcases h3 with h3 | ⟨h3, h4⟩
          · exact absurd h3 hr
          cases hb : i.limitBehavior with
          | throwError =>
            have he : (IronWorker.saving (.done (.part p r) s)).step D i fuel v w = (.finished, p.entries.saveDir.drop none w) := by
              cases r <;> simp only [IronWorker.step, hb]
            rw [he]
            exact key _ dir hm h1.saveDir
          | continue_ =>
            have he : (IronWorker.saving (.done (.part p r) s)).step D i fuel v w = (.saving (Thread.start D p.keepPartial s), w) := by
              cases r with
              | io er => exact absurd ⟨er, rfl⟩ hr
              | _ => simp only [IronWorker.step, hb]
            rw [he]
            exact ⟨⟨dir, L, hm, hw, h3.recount hc, h4⟩, fun _ _ => rfl, fun h => (by cases h)⟩
      | _ => exact ⟨⟨dir, L, hm, hw, hf⟩, fun _ _ => rfl, fun h => (by cases h)⟩
    · have hd : ∀ r s, th ≠ .done r s := fun r s he => hd ⟨r, s, he⟩
      have he : (IronWorker.saving th).step D i fuel v w = (.saving (th.step D i.settings fuel w).1, (th.step D i.settings fuel w).2) := by
        cases th with
        | done r s => exact absurd rfl (hd r s)
        | _ => rfl
      obtain ⟨L', g1, g2, g3⟩ := Thread.step_fit (D := D) (w := w) hc hl rfl hf
      rw [he]
      refine ⟨⟨dir, L', hm, ⟨fun q hq hn => ?_, fun q hq => ?_⟩, g1⟩, fun q hq => ?_, fun h => (by cases h)⟩
      · rcases g3 q with g | g
        · exact g2 q (hw.only q hq (by rw [← g]; exact hn))
        · exact g.1
      · rcases g3 q with g | g
        · show World.fileSize _ q ≤ _
          rw [World.fileSize_eq g]; exact hw.size q hq
        · exact g.2.2
      · rcases g3 q with g | g
        · exact g
        · exact absurd g.2.1 (hq dir hm)

/-! ## All requests -/

/-- The invariant of all threads: `w0` is the disk at the start. -/
structure IronStaff.Fit (i : Intercept) (fuel : Nat) (w0 : World) (c : IronStaff) (w : World) : Prop where
  apart : (c.map fun x => x.1).Pairwise IronVisit.Apart
  fresh : ∀ x ∈ c, x.1.NewIn w0
  each : ∀ x ∈ c, x.2.Fit i fuel x.1 w
  rest : ∀ q, (∀ x ∈ c, x.2.busy = true → ∀ dir, x.1.made = .ok dir → ¬ Below dir q) → w.files q = w0.files q

theorem IronStaff.Fit.turn (ht : i.Typed) (hl : i.fileSizeLimit < u64Max) {w0 : World} {c1 c2 : IronStaff} (h : IronStaff.Fit i fuel w0 (c1 ++ (v, k) :: c2) w) :
    IronStaff.Fit i fuel w0 (c1 ++ (v, (k.step D i fuel v w).1) :: c2) (k.step D i fuel v w).2 := by
  obtain ⟨h1, h3, h4, h5⟩ := h
  have hother : ∀ x, x ∈ c1 ∨ x ∈ c2 → x ∈ c1 ++ (v, k) :: c2 := by rintro x (hx | hx) <;> simp [hx]
  have hap : ∀ x, x ∈ c1 ∨ x ∈ c2 → v.Apart x.1 := by
    have h1' := h1
    rw [List.map_append, List.map_cons, List.pairwise_append] at h1'
    obtain ⟨-, a2, a3⟩ := h1'
    rintro x (hx | hx)
    · exact (a3 x.1 (List.mem_map.mpr ⟨x, hx, rfl⟩) v (by simp)).symm
    · exact (List.pairwise_cons.mp a2).1 x.1 (List.mem_map.mpr ⟨x, hx, rfl⟩)
  obtain ⟨s1, s2, s3⟩ := IronWorker.step_fit (D := D) (v := v) (k := k) (w := w) (fuel := fuel) ht hl (h4 (v, k) (by simp)) (by
    intro hb dir hdir q hq
    rw [h5 q]
    · exact h3 (v, k) (by simp) dir hdir q hq
    · intro x hx hxb d hd hbel
      rcases List.mem_append.mp hx with hx | hx
      · exact hap x (.inl hx) dir d hdir hd q ⟨hq, hbel⟩
      · rcases List.mem_cons.mp hx with rfl | hx
        · rw [hb] at hxb; cases hxb
        · exact hap x (.inr hx) dir d hdir hd q ⟨hq, hbel⟩)
  generalize (k.step D i fuel v w).1 = k' at s1 s3 ⊢
  generalize (k.step D i fuel v w).2 = w' at s1 s2 s3 ⊢
  refine ⟨by simpa using h1, ?_, ?_, ?_⟩
  · intro x hx
    rcases List.mem_append.mp hx with hx | hx
    · exact h3 x (hother x (.inl hx))
    · rcases List.mem_cons.mp hx with rfl | hx
      · exact h3 (v, k) (by simp)
      · exact h3 x (hother x (.inr hx))
  · have hkeep : ∀ x, x ∈ c1 ∨ x ∈ c2 → x.2.Fit i fuel x.1 w' := by
      rintro ⟨v', k''⟩ hx
      have hg := h4 _ (hother _ hx)
      cases k'' with
      | saving th =>
        obtain ⟨dir, L, g1, g2, g3⟩ := hg
        exact ⟨dir, L, g1, g2.mono fun q hq => s2 q fun d hd hbel => hap _ hx d dir hd g1 q ⟨hbel, hq⟩, g3⟩
      | handling e =>
        obtain ⟨dir, L, g1, g2, g3⟩ := hg
        exact ⟨dir, L, g1, g2.mono fun q hq => s2 q fun d hd hbel => hap _ hx d dir hd g1 q ⟨hbel, hq⟩, g3⟩
      | _ => trivial
    intro x hx
    rcases List.mem_append.mp hx with hx | hx
    · exact hkeep x (.inl hx)
    · rcases List.mem_cons.mp hx with rfl | hx
      · exact s1
      · exact hkeep x (.inr hx)
  · intro q hq
    by_cases hv : ∃ dir, v.made = .ok dir ∧ Below dir q
    · obtain ⟨dir, hdir, hbel⟩ := hv
      have hb : k'.busy = false := by
        cases hb : k'.busy with
        | false => rfl
        | true => exact absurd hbel (hq (v, k') (by simp) hb dir hdir)
      rw [s3 hb dir hdir q hbel, h3 (v, k) (by simp) dir hdir q hbel]
    · have hv : ∀ dir, v.made = .ok dir → ¬ Below dir q := fun dir h1 h2 => hv ⟨dir, h1, h2⟩
      rw [s2 q hv]
      refine h5 q fun x hx hxb d hd => ?_
      rcases List.mem_append.mp hx with hx | hx
      · exact hq x (by simp [hx]) hxb d hd
      · rcases List.mem_cons.mp hx with rfl | hx
        · exact hv d hd
        · exact hq x (by simp [hx]) hxb d hd

theorem IronStaff.run_fit (ht : i.Typed) (hl : i.fileSizeLimit < u64Max) {w0 : World} : ∀ (ns : List Nat) {c : IronStaff} {w : World}, IronStaff.Fit i fuel w0 c w →
    IronStaff.Fit i fuel w0 (IronStaff.run D i fuel ns c w).1 (IronStaff.run D i fuel ns c w).2
  | [], _, _, hg => hg
  | m :: ns, c, w, hg => by
    unfold IronStaff.run
    split
    · rename_i v k hk
      obtain ⟨l1, l2, e1, e2⟩ := set_split hk
      rw [e1] at hg
      have hg' := hg.turn (D := D) ht hl
      rw [← e2] at hg'
      exact IronStaff.run_fit ht hl ns hg'
    · exact IronStaff.run_fit ht hl ns hg

theorem IronStaff.Fit.start {vs : List IronVisit} (h1 : vs.Pairwise IronVisit.Apart) (h3 : ∀ v ∈ vs, v.NewIn w) : IronStaff.Fit i fuel w (IronStaff.start vs) w := by
  refine ⟨?_, ?_, ?_, fun _ _ => rfl⟩
  · unfold IronStaff.start
    rw [List.map_map, show ((fun x : IronVisit × IronWorker => x.1) ∘ fun v => (v, IronWorker.waiting)) = id from rfl, List.map_id]
    exact h1
  all_goals
    intro x hx
    obtain ⟨v, hv, rfl⟩ := List.mem_map.mp hx
  · exact h3 v hv
  · trivial

theorem Thread.Fit.length (h : th.Fit cfg fuel dir L) : L.length ≤ cfg.countLimit := by
  cases th with
  | running => exact Nat.le_trans h.2 h.1.count
  | making => exact Nat.le_trans h.2.1 h.1.count
  | opening => exact Nat.le_trans h.2.1 h.1.count
  | writing =>
    have h1 := h.2.1
    have h2 := h.2.2.1
    omega
  | done r s =>
    cases r with
    | full e => exact Nat.le_trans h.2 h.1.count
    | part p r => exact h.2.1
    | _ => exact h

theorem Thread.Fit.entries (h : th.Fit cfg fuel dir L) (he : th.entries = some e) : e.Fit cfg dir := by
  cases th with
  | done r s =>
    cases r with
    | full e => cases he; exact h.1
    | part p r => cases he; exact h.1
    | _ => cases he
  | _ => cases he; exact h.1

theorem IronStaff.fit_list {c : IronStaff} (h : ∀ x ∈ c, x.2.Fit i fuel x.1 w) : ∃ L : List Path, L.length ≤ c.countP (fun x => x.2.busy) * i.fileCountLimit ∧
    ∀ x ∈ c, x.2.busy = true → ∀ dir, x.1.made = .ok dir → ∀ q, Below dir q → w.fileSize q ≤ i.fileSizeLimit + Nat.min i.fileSizeLimit (10 * 1024) ∧ (w.files q ≠ none → q ∈ L) := by
  induction c with
  | nil => exact ⟨[], by simp, fun x hx => by cases hx⟩
  | cons y c ih =>
    obtain ⟨L, h1, h2⟩ := ih fun x hx => h x (List.mem_cons_of_mem _ hx)
    obtain ⟨v, k⟩ := y
    have hk := h (v, k) (List.mem_cons_self ..)
    have key : ∀ dir (L' : List Path), k.busy = true → v.made = .ok dir → Within i.settings w dir L' → L'.length ≤ i.fileCountLimit → ∃ L : List Path, L.length ≤ ((v, k) :: c).countP (fun x => x.2.busy) * i.fileCountLimit ∧
        ∀ x ∈ (v, k) :: c, x.2.busy = true → ∀ dir, x.1.made = .ok dir → ∀ q, Below dir q → w.fileSize q ≤ i.fileSizeLimit + Nat.min i.fileSizeLimit (10 * 1024) ∧ (w.files q ≠ none → q ∈ L) := by
      intro dir L' hb hm hw hn
      refine ⟨L' ++ L, ?_, fun x hx hb d hd q hq => ?_⟩
      · rw [List.countP_cons_of_pos (by simpa using hb), List.length_append, Nat.add_mul, Nat.one_mul]; omega
      · rcases List.mem_cons.mp hx with rfl | hx
        · simp only at hd
          rw [hm] at hd
          cases hd
          exact ⟨hw.size q hq, fun hn => List.mem_append_left _ (hw.only q hq hn)⟩
        · obtain ⟨g1, g2⟩ := h2 x hx hb d hd q hq
          exact ⟨g1, fun hn => List.mem_append_right _ (g2 hn)⟩
    cases k with
    | saving th =>
      obtain ⟨dir, L', g1, g2, g3⟩ := hk
      exact key dir L' rfl g1 g2 g3.length
    | handling e =>
      obtain ⟨dir, L', g1, g2, -, g3⟩ := hk
      exact key dir L' rfl g1 g2 g3
    | _ =>
      refine ⟨L, by rw [List.countP_cons_of_neg (by simp [IronWorker.busy])]; exact h1, fun x hx hb => ?_⟩
      rcases List.mem_cons.mp hx with rfl | hx
      · cases hb
      · exact h2 x hx hb

theorem IronStaff.Fit.use {w0 : World} {c : IronStaff} (h : IronStaff.Fit i fuel w0 c w) (ps : List Path) (hps : ps.Nodup) : w.diskUse ps ≤ w0.diskUse ps + c.countP (fun x => x.2.busy) * (i.fileCountLimit * (i.fileSizeLimit + Nat.min i.fileSizeLimit (10 * 1024))) := by
  obtain ⟨L, h1, h2⟩ := IronStaff.fit_list h.each
  generalize i.fileSizeLimit + Nat.min i.fileSizeLimit (10 * 1024) = room at h2 ⊢
  have hq : ∀ q, w.fileSize q ≤ w0.fileSize q + L.count q * room := by
    intro q
    by_cases hb : ∃ x ∈ c, x.2.busy = true ∧ ∃ dir, x.1.made = .ok dir ∧ Below dir q
    · obtain ⟨x, hx, hxb, dir, hdir, hbel⟩ := hb
      obtain ⟨g1, g2⟩ := h2 x hx hxb dir hdir q hbel
      cases hf : w.files q with
      | none =>
        have : w.fileSize q = 0 := by unfold World.fileSize; rw [hf]
        omega
      | some y =>
        have hpos := List.count_pos_iff.mpr (g2 (by rw [hf]; simp))
        have := Nat.mul_le_mul_right room hpos
        omega
    · rw [World.fileSize_eq (h.rest q fun x hx hxb dir hdir hbel => hb ⟨x, hx, hxb, dir, hdir, hbel⟩)]
      omega
  have a : w.diskUse ps ≤ (ps.map fun q => w0.fileSize q + L.count q * room).sum := sum_map_le (fun q _ => hq q)
  rw [sum_map_add, sum_map_mul] at a
  have b := Nat.mul_le_mul_right room (Nat.le_trans (sum_count L hps) h1)
  rw [← Nat.mul_assoc]
  unfold World.diskUse at a ⊢
  omega

/-- C146: in both modes, also with a lenient middleware that never returns (C60), at any time: only files in the temporary directories of the requests that are being saved or handled are different from the start; all files together have at
most `file_count_limit` times `file_size_limit` and 10 KiB more bytes for each of them; and what is kept of a request in memory is at most `file_count_limit` times 10 KiB, or `file_size_limit` if this is less. -/
theorem C146_files (ht : i.Typed) (hl : i.fileSizeLimit < u64Max) {vs : List IronVisit} (hv : vs.Pairwise IronVisit.Apart) (hw : ∀ v ∈ vs, v.NewIn w) {ns : List Nat} {c : IronStaff}
    (hrun : IronStaff.run D i fuel ns (IronStaff.start vs) w = (c, w')) :
    (∀ q, (∀ x ∈ c, x.2.busy = true → ∀ dir, x.1.made = .ok dir → ¬ Below dir q) → w'.files q = w.files q) ∧
    (∀ ps : List Path, ps.Nodup → w'.diskUse ps ≤ w.diskUse ps + c.countP (fun x => x.2.busy) * (i.fileCountLimit * (i.fileSizeLimit + Nat.min i.fileSizeLimit (10 * 1024)))) ∧
    ∀ x ∈ c, ∀ e, x.2.entries = some e → e.stored.length ≤ i.fileCountLimit ∧ memoryUse e.stored ≤ i.fileCountLimit * Nat.min i.fileSizeLimit (10 * 1024) := by
  have g1 := IronStaff.run_fit (D := D) ht hl ns (IronStaff.Fit.start (fuel := fuel) hv hw)
  rw [hrun] at g1
  refine ⟨g1.rest, g1.use, fun x hx e he => ?_⟩
  obtain ⟨v, k⟩ := x
  have hk := g1.each _ hx
  have key : ∀ dir, e.Fit i.settings dir → e.stored.length ≤ i.fileCountLimit ∧ memoryUse e.stored ≤ i.fileCountLimit * Nat.min i.fileSizeLimit (10 * 1024) :=
    fun dir h => ⟨h.count, Nat.le_trans h.memory (Nat.mul_le_mul_right _ h.count)⟩
  cases k with
  | saving th =>
    obtain ⟨dir, L', -, -, g3⟩ := hk
    exact key dir (g3.entries he)
  | handling e' =>
    cases he
    obtain ⟨dir, L', -, -, g3, -⟩ := hk
    exact key dir g3
  | _ => cases he

example : Intercept.default.Typed ∧ Intercept.default.fileSizeLimit < u64Max ∧ [Sample.ironVisit Sample.evsHuge b!"1", Sample.ironVisit Sample.evsHuge b!"2"].Pairwise IronVisit.Apart ∧ (∀ v ∈ [Sample.ironVisit Sample.evsHuge b!"1", Sample.ironVisit Sample.evsHuge b!"2"], v.NewIn Sample.readyDisk) ∧
    (IronStaff.run refDeps { Intercept.default with limitBehavior := .continue_ } 40 [0, 1, 0, 1, 1, 0, 0, 1, 0, 1, 0] (IronStaff.start [Sample.ironVisit Sample.evsHuge b!"1", Sample.ironVisit Sample.evsHuge b!"2"]) Sample.readyDisk).2.diskUse
      [[b!"tmp", b!"1", b!"x"], [b!"tmp", b!"2", b!"y"]] = 22000 :=
  ⟨⟨by decide, by decide⟩, by decide, Sample.ironVisit_apart _ _, fun _ _ _ _ _ _ => rfl, by decide +kernel⟩

/-! ## The requests are answered, unless they have too many parts -/

/-- The reader of a thread after a `read_entry`. -/
def ReadAt (D : Deps) (cfg : Settings) (evs : List Ev) (b : Bytes) (res : Res (Option FieldHeaders)) (s : BR) : Prop :=
  ∃ s0, Reachable D evs b s0 ∧ s0.readEntry D = (res, s) ∧ s0.enough (cfg.memLimit 0) ≤ (withBody evs b).enough (cfg.memLimit 0)

/-- The reader of a thread that can go on: it did not panic, and no loop was cut off. -/
def Thread.Live (D : Deps) (cfg : Settings) (fuel : Nat) (evs : List Ev) (b : Bytes) : Thread → Prop
  | .running res _ s => ReadAt D cfg evs b res s
  | .making _ h _ bytes s => ∃ s1, ReadAt D cfg evs b (.ok (some h)) s1 ∧ saveInMemory (fieldPolicy cfg h) fuel s1 = (.inr bytes, s)
  | .opening _ h _ bytes s => ∃ s1, ReadAt D cfg evs b (.ok (some h)) s1 ∧ saveInMemory (fieldPolicy cfg h) fuel s1 = (.inr bytes, s)
  | .writing e h name old bytes s => (∃ s1, ReadAt D cfg evs b (.ok (some h)) s1 ∧ saveInMemory (fieldPolicy cfg h) fuel s1 = (.inr bytes, s)) ∧
      ∃ w0 w1 : World, w0.openFile cfg.openOpts (e.saveDir.asPath ++ [name]) = (.ok old, w1)
  | .done r s => (Reachable D evs b s ∧ s.enough (cfg.memLimit 0) ≤ (withBody evs b).enough (cfg.memLimit 0)) ∧ r.saveDir.isSome

theorem Thread.saved_live (hD : D.Sane) (hm : Nat.min cfg.sizeLimit cfg.memoryThreshold < u64Max) (hf : (withBody evs b).enough (cfg.memLimit 0) < fuel) {h : FieldHeaders} {s1 : BR} (hat : ReadAt D cfg evs b (.ok (some h)) s1)
    {T : Target} {wa wb : World} {r : SaveRes SavedData SavedData} (hw : T.save (fieldPolicy cfg h) fuel wa s1 = (r, wb, s)) : (Thread.saved D e h r s).Live D cfg fuel evs b := by
  obtain ⟨s0, h1, h2, h3⟩ := hat
  have hr1 := h1.entry h2
  obtain ⟨d1, -, d3⟩ := BR.readEntry_enough hD (h1.spec hD).1 h2
  have he : r ≠ .hang := by
    have := withPath_ends (fieldPolicy cfg h) (T.file wa) (T.world wa) d1 (Nat.lt_of_le_of_lt (Nat.le_trans (d3 _) h3) hf) (.inr (.inl hm))
    rw [← Target.save_eq, hw] at this
    exact this
  have hp : r ≠ .panic := by
    have := (C44_terminates_partial (T := T) (w := wa) (cfg := fieldPolicy cfg h) hD hr1 (.inl hm)).2 fuel
    rw [hw] at this
    exact this
  obtain ⟨x, hx⟩ := Target.save_took T d1 hw he
  have hr := hx.reachable hr1
  have hle := Nat.le_trans (hx.enough d1 (cfg.memLimit 0)) (Nat.le_trans (d3 _) h3)
  cases r with
  | full d => exact ⟨s, hr, rfl, hle⟩
  | part d r => exact ⟨⟨hr, hle⟩, rfl⟩
  | error er => exact ⟨⟨hr, hle⟩, rfl⟩
  | panic => exact absurd rfl hp
  | hang => exact absurd rfl he

theorem ReadAt.after (hD : D.Sane) {res : Res (Option FieldHeaders)} (hat : ReadAt D cfg evs b res s) : Reachable D evs b s ∧ s.enough (cfg.memLimit 0) ≤ (withBody evs b).enough (cfg.memLimit 0) := by
  obtain ⟨s0, h1, h2, h3⟩ := hat
  exact ⟨h1.entry h2, Nat.le_trans ((BR.readEntry_enough hD (h1.spec hD).1 h2).2.2 _) h3⟩

/-- The steps that are left until the thread is done or has read all fields that are allowed, with two for each restart. -/
def Thread.togo (cfg : Settings) : Thread → Nat
  | .running _ e _ => 5 * (cfg.countLimit - e.fieldsCount) + 3
  | .making e _ _ _ _ => 5 * (cfg.countLimit - e.fieldsCount) + 2
  | .opening e _ _ _ _ => 5 * (cfg.countLimit - e.fieldsCount) + 1
  | .writing e _ _ _ _ _ => 5 * (cfg.countLimit - e.fieldsCount)
  | .done (.part _ (.io _)) _ => 1
  | .done (.part p _) _ => 5 * (cfg.countLimit - p.keepPartial.fieldsCount) + 4
  | .done _ _ => 2

/-- All fields that are allowed were read, and `with_entries` returns this again and again. -/
def Thread.Stuck (cfg : Settings) : Thread → Prop
  | .running _ e _ => e.stored.length = cfg.countLimit
  | .done (.part p .countLimit) _ => p.part = none ∧ p.entries.stored.length = cfg.countLimit
  | _ => False

theorem Thread.saved_togo (hc : cfg.countLimit ≤ u32Max) {h : FieldHeaders} {r : SaveRes SavedData SavedData} (he : e.fieldsCount < cfg.countLimit) : (Thread.saved D e h r s).togo cfg < 5 * (cfg.countLimit - e.fieldsCount) := by
  have hcount : ∀ d, (e.pushField h d).fieldsCount = e.fieldsCount + 1 := by
    intro d
    show Nat.min (e.fieldsCount + 1) u32Max = _
    exact Nat.min_eq_left (by omega)
  cases r with
  | full d => simp only [Thread.saved, Thread.togo, hcount]; omega
  | part d r =>
    have : (Thread.saved D e h (.part d r) s).togo cfg ≤ 5 * (cfg.countLimit - (e.pushField h d).fieldsCount) + 4 := by
      cases r with
      | io er => show 1 ≤ _; omega
      | _ => exact Nat.le_refl _
    rw [hcount] at this
    omega
  | error er => show 1 < _; omega
  | panic => show 2 < _; omega
  | hang => show 2 < _; omega

/-- A field that goes to a file is not saved if the directories cannot be created. -/
theorem save_refused (er : IoErr) {bytes : Bytes} (h : saveInMemory cfg fuel s = (.inr bytes, t)) : ∃ wa wb, (Target.path [b!"x"]).save cfg fuel wa s = (.error er, wb, t) := by
  refine ⟨{ files := fun _ => none, dirs := [], mkdirs := [some er], opens := [], writes := [], names := [] }, ?_⟩
  refine ⟨?_, ?_⟩
  rotate_left
  · show withPath _ _ _ _ _ = _
    rw [withPath_split, h]
    simp only [saveFile, World.createDirAll, List.cons_ne_nil, if_false]
    rfl

theorem Thread.step_live (hD : D.Sane) (hc : cfg.countLimit ≤ u32Max) (hm : Nat.min cfg.sizeLimit cfg.memoryThreshold < u64Max) (ho : cfg.openOpts.createNew = true) (hf : (withBody evs b).enough (cfg.memLimit 0) < fuel)
    (hfit : th.Fit cfg fuel dir L) (hlive : th.Live D cfg fuel evs b) (hd : ∀ r s, th ≠ .done r s) :
    (th.step D cfg fuel w).1.Live D cfg fuel evs b ∧ (¬ th.Stuck cfg → (th.step D cfg fuel w).1.togo cfg < th.togo cfg) ∧ (th.Stuck cfg → (th.step D cfg fuel w).1.Stuck cfg) := by
  cases th with
  | done r s => exact absurd rfl (hd r s)
  | running res e s =>
    obtain ⟨he, -⟩ := hfit
    unfold Thread.step
    simp only
    split
    · rename_i hlt
      have hns : ¬ (Thread.running res e s).Stuck cfg := by
        rw [he.counted] at hlt
        show ¬ e.stored.length = _
        omega
      split
      · rename_i h
        rcases hsm : saveInMemory (fieldPolicy cfg h) fuel s with ⟨r | bytes, s'⟩
        · simp only
          have hw : (Target.dir dir).save (fieldPolicy cfg h) fuel w s = (r, w.randName.2, s') := by
            show withPath _ _ _ _ _ = _
            rw [withPath_split, hsm]
          exact ⟨Thread.saved_live hD hm hf hlive hw, fun _ => Nat.lt_of_lt_of_le (Thread.saved_togo hc hlt) (by simp only [Thread.togo]; omega), fun h => absurd h hns⟩
        · exact ⟨⟨s, hlive, hsm⟩, fun _ => Nat.lt_succ_self _, fun h => absurd h hns⟩
      · exact ⟨⟨hlive.after hD, rfl⟩, fun _ => by show 2 < _ + 3; omega, fun h => absurd h hns⟩
      · exact ⟨⟨hlive.after hD, rfl⟩, fun _ => by show 1 < _ + 3; omega, fun h => absurd h hns⟩
      · obtain ⟨s0, h1, h2, -⟩ := hlive
        exact absurd (congrArg Prod.fst h2) (BR.readEntry_noPanic hD (h1.spec hD).1).1
      · obtain ⟨s0, h1, h2, -⟩ := hlive
        exact absurd (congrArg Prod.fst h2) (BR.readEntry_noPanic hD (h1.spec hD).1).2
    · rename_i hge
      rw [he.counted] at hge
      have hs : e.stored.length = cfg.countLimit := by have := he.count; omega
      exact ⟨⟨hlive.after hD, rfl⟩, fun h => absurd hs h, fun _ => ⟨rfl, hs⟩⟩
  | making e h name bytes s =>
    obtain ⟨he, -, hlt, -⟩ := hfit
    rw [← he.counted] at hlt
    unfold Thread.step
    simp only
    rcases hcr : w.createDirAll (e.saveDir.asPath ++ [name]) with ⟨_ | er, w1⟩
    · exact ⟨hlive, fun _ => Nat.lt_succ_self _, fun h => absurd h id⟩
    · obtain ⟨s1, hat, hsm⟩ := hlive
      refine ⟨?_, fun _ => Nat.lt_of_lt_of_le (Thread.saved_togo (D := D) (r := .error er) hc hlt) (by simp only [Thread.togo]; omega), fun h => absurd h id⟩
      obtain ⟨wa, wb, hw⟩ := save_refused er hsm
      exact Thread.saved_live (r := .error er) hD hm hf hat hw
  | opening e h name bytes s =>
    obtain ⟨he, -, hlt, -⟩ := hfit
    rw [← he.counted] at hlt
    unfold Thread.step
    simp only
    rcases hcr : w.openFile cfg.openOpts (e.saveDir.asPath ++ [name]) with ⟨er | old, w1⟩
    · obtain ⟨s1, hat, hsm⟩ := hlive
      refine ⟨?_, fun _ => Nat.lt_of_lt_of_le (Thread.saved_togo (D := D) (r := .error er) hc hlt) (by simp only [Thread.togo]; omega), fun h => absurd h id⟩
      obtain ⟨wa, wb, hw⟩ := save_refused er hsm
      exact Thread.saved_live (r := .error er) hD hm hf hat hw
    · exact ⟨⟨hlive, w, w1, hcr⟩, fun _ => Nat.lt_succ_self _, fun h => absurd h id⟩
  | writing e h name old bytes s =>
    obtain ⟨he, -, hlt, -⟩ := hfit
    rw [← he.counted] at hlt
    obtain ⟨⟨s1, hat, hsm⟩, w0, w1, hop⟩ := hlive
    unfold Thread.step
    simp only
    rcases hw : writeFile (fieldPolicy cfg h) fuel (e.saveDir.asPath ++ [name]) old bytes w s with ⟨r, w2, s2⟩
    simp only
    obtain ⟨wb, g1, -⟩ := writeFile_as_save (cfg := fieldPolicy cfg h) hop ho hsm hw
    exact ⟨Thread.saved_live hD hm hf hat g1, fun _ => Thread.saved_togo hc hlt, fun h => absurd h id⟩

/-- The invariant of a worker: its thread can go on. -/
def IronWorker.Live (D : Deps) (i : Intercept) (fuel : Nat) (v : IronVisit) : IronWorker → Prop
  | .saving th => ∃ dir L evs b, fromRequest ironHttp v.req = .ok (withBody evs b) ∧ th.Fit i.settings fuel dir L ∧ th.Live D i.settings fuel evs b
  | _ => True

/-- The steps that are left at most, unless the thread gets stuck. -/
def IronWorker.togo (i : Intercept) : IronWorker → Nat
  | .waiting => 5 * i.fileCountLimit + 4
  | .saving th => th.togo i.settings
  | .handling _ => 1
  | .finished => 0

/-- All fields that are allowed were read. -/
def IronWorker.Stuck (i : Intercept) : IronWorker → Prop
  | .saving th => th.Stuck i.settings
  | _ => False

theorem IronWorker.step_live (hD : D.Sane) (ht : i.Typed) (hl : i.fileSizeLimit < u64Max) (hs : i.limitBehavior = .continue_) (hf : v.rounds i ≤ fuel) (hg : k.Live D i fuel v) :
    (k.step D i fuel v w).1.Live D i fuel v ∧ (¬ k.Stuck i → (k.step D i fuel v w).1.togo i ≤ k.togo i - 1) ∧ (k.Stuck i → (k.step D i fuel v w).1.Stuck i) := by
  have hc : i.settings.countLimit ≤ u32Max := ht.settings.count
  cases k with
  | finished => exact ⟨trivial, fun _ => Nat.le_refl _, fun h => h⟩
  | handling e => exact ⟨trivial, fun _ => Nat.le_refl _, fun h => absurd h id⟩
  | waiting =>
    unfold IronWorker.step
    simp only
    rcases fromRequest_cases ironHttp v.req with ⟨b, -, hm⟩ | ⟨-, hm⟩
    · simp only [hm]
      cases hdir : v.made with
      | error er => exact ⟨trivial, fun _ => Nat.zero_le _, fun h => absurd h id⟩
      | ok dir => exact ⟨⟨dir, [], _, b, hm, ⟨⟨rfl, rfl, Nat.zero_le _, Nat.zero_le _, fun _ _ h => (by cases h)⟩, Nat.zero_le _⟩, _, ⟨[], rfl⟩, rfl, Nat.le_refl _⟩, fun _ => Nat.le_refl _, fun h => absurd h id⟩
    · simp only [hm]
      exact ⟨trivial, fun _ => Nat.zero_le _, fun h => absurd h id⟩
  | saving th =>
    obtain ⟨dir, L, evs, b, hb, hfit, hlive⟩ := hg
    have hf : (withBody evs b).enough (i.settings.memLimit 0) < fuel := by
      unfold IronVisit.rounds at hf
      rw [hb] at hf
      exact hf
    by_cases hd : ∃ r s, th = .done r s
    · obtain ⟨r, s, rfl⟩ := hd
      cases r with
      | full e => exact ⟨trivial, fun _ => Nat.le_refl _, fun h => absurd h id⟩
      | part p r =>
        obtain ⟨h1, h2, h3⟩ := hfit
        by_cases hr : ∃ er, r = .io er
        · obtain ⟨er, rfl⟩ := hr
          exact ⟨trivial, fun _ => Nat.zero_le _, fun h => absurd h id⟩
        · rcases h3 with h3 | ⟨h3, h4⟩
          · exact absurd h3 hr
          have he : (IronWorker.saving (.done (.part p r) s)).step D i fuel v w = (.saving (Thread.start D p.keepPartial s), w) := by
            cases r with
            | io er => exact absurd ⟨er, rfl⟩ hr
            | _ => simp only [IronWorker.step, hs]
          rw [he]
          refine ⟨⟨dir, L, evs, b, hb, ⟨h3.recount hc, h4⟩, s, hlive.1.1, rfl, hlive.1.2⟩, fun _ => ?_, fun h => ?_⟩
          · have e1 : (IronWorker.saving (.done (.part p r) s)).togo i = 5 * (i.settings.countLimit - p.keepPartial.fieldsCount) + 4 := by
              cases r with
              | io er => exact absurd ⟨er, rfl⟩ hr
              | _ => rfl
            have e2 : p.keepPartial.recountFields.fieldsCount = p.keepPartial.fieldsCount := by rw [(h3.recount hc).counted, h3.counted]; rfl
            rw [e1]
            show 5 * (i.settings.countLimit - p.keepPartial.recountFields.fieldsCount) + 3 ≤ _
            rw [e2]
            omega
          · cases r with
            | countLimit =>
              obtain ⟨a1, a2⟩ := h
              show p.keepPartial.stored.length = _
              have : p.keepPartial = p.entries := by
                obtain ⟨e, part⟩ := p
                simp only at a1
                subst a1
                rfl
              rw [this]
              exact a2
            | _ => exact absurd h id
      | _ => exact absurd hlive.2 (by simp [SaveRes.saveDir])
    · have hd : ∀ r s, th ≠ .done r s := fun r s he => hd ⟨r, s, he⟩
      have he : (IronWorker.saving th).step D i fuel v w = (.saving (th.step D i.settings fuel w).1, (th.step D i.settings fuel w).2) := by
        cases th with
        | done r s => exact absurd rfl (hd r s)
        | _ => rfl
      obtain ⟨L', g1, -, -⟩ := Thread.step_fit (D := D) (w := w) hc hl rfl hfit
      obtain ⟨g2, g3, g4⟩ := Thread.step_live (w := w) hD hc i.settings_bound rfl hf hfit hlive hd
      rw [he]
      exact ⟨⟨dir, L', evs, b, hb, g1, g2⟩, fun h => Nat.le_sub_one_of_lt (g3 h), g4⟩

theorem IronStaff.run_live (hD : D.Sane) (ht : i.Typed) (hl : i.fileSizeLimit < u64Max) (hs : i.limitBehavior = .continue_) {n : Nat} (hf : v.rounds i ≤ fuel) : ∀ (ns : List Nat) {m : Nat} {c : IronStaff} {w : World} {k : IronWorker},
    c[n]? = some (v, k) → k.Live D i fuel v → (k.Stuck i ∨ k.togo i ≤ m + ns.count n) →
    ∃ k', (IronStaff.run D i fuel ns c w).1[n]? = some (v, k') ∧ k'.Live D i fuel v ∧ (k'.Stuck i ∨ k'.togo i ≤ m)
  | [], m, c, w, k, hn, hg, h => ⟨k, hn, hg, by simpa using h⟩
  | a :: ns, m, c, w, k, hn, hg, h => by
    unfold IronStaff.run
    split
    · rename_i v' k' hk
      by_cases ha : a = n
      · subst ha
        rw [hn] at hk
        cases hk
        obtain ⟨g1, g2, g3⟩ := IronWorker.step_live (w := w) hD ht hl hs hf hg
        refine IronStaff.run_live hD ht hl hs hf ns (k := (k.step D i fuel v w).1) ?_ g1 ?_
        · rw [List.getElem?_set_self (List.getElem?_eq_some_iff.mp hn).1]
        · rw [List.count_cons_self] at h
          by_cases hst : k.Stuck i
          · exact .inl (g3 hst)
          · rcases h with h | h
            · exact absurd h hst
            · have := g2 hst
              right
              omega
      · refine IronStaff.run_live hD ht hl hs hf ns (k := k) ?_ hg ?_
        · rw [List.getElem?_set_ne ha]
          exact hn
        · rw [List.count_cons_of_ne ha] at h
          exact h
    · rename_i hk
      refine IronStaff.run_live hD ht hl hs hf ns hn hg ?_
      rw [List.count_cons_of_ne (by intro ha; subst ha; rw [hn] at hk; cases hk)] at h
      exact h

/-- C146: a lenient middleware: when a thread had `5 * file_count_limit + 4` steps, whatever the others do, its request is handled; or it has read `file_count_limit` fields, and `before` may never return (C60). -/
theorem C146_answered (hD : D.Sane) (ht : i.Typed) (hl : i.fileSizeLimit < u64Max) (hs : i.limitBehavior = .continue_) {vs : List IronVisit} : ∃ m, ∀ fuel, m ≤ fuel → ∀ (w w' : World) ns c,
    IronStaff.run D i fuel ns (IronStaff.start vs) w = (c, w') → ∀ n v, vs[n]? = some v → 5 * i.fileCountLimit + 4 ≤ ns.count n →
      ∃ k, c[n]? = some (v, k) ∧ (k = .finished ∨ ∃ e, k.entries = some e ∧ e.stored.length = i.fileCountLimit) := by
  refine ⟨(vs.map fun v => v.rounds i).sum, fun fuel hf w w' ns c hrun n v hn hcount => ?_⟩
  obtain ⟨k, h1, h2, h3⟩ := IronStaff.run_live (n := n) (v := v) (m := 0) (c := IronStaff.start vs) (w := w) (k := .waiting) (fuel := fuel) hD ht hl hs (Nat.le_trans (IronVisit.rounds_le (List.mem_of_getElem? hn)) hf) ns
    (by unfold IronStaff.start; rw [List.getElem?_map, hn]; rfl) trivial (.inr (by rw [Nat.zero_add]; exact hcount))
  rw [hrun] at h1
  refine ⟨k, h1, ?_⟩
  rcases h3 with h3 | h3
  · right
    cases k with
    | saving th =>
      cases th with
      | running res e s => exact ⟨e, rfl, h3⟩
      | done r s =>
        cases r with
        | part p r =>
          cases r with
          | countLimit => exact ⟨p.entries, rfl, h3.2⟩
          | _ => exact absurd h3 id
        | _ => exact absurd h3 id
      | _ => exact absurd h3 id
    | _ => exact absurd h3 id
  · left
    cases k with
    | finished => rfl
    | waiting => simp [IronWorker.togo] at h3
    | handling e => simp [IronWorker.togo] at h3
    | saving th =>
      cases th with
      | done r s =>
        cases r with
        | part p r => cases r <;> simp [IronWorker.togo, Thread.togo] at h3
        | full e => simp [IronWorker.togo, Thread.togo] at h3
        | _ => obtain ⟨_, _, _, _, _, _, h⟩ := h2; exact absurd h.2 (by simp [SaveRes.saveDir])
      | writing e h name old bytes s =>
        obtain ⟨_, _, _, _, _, hfit, _⟩ := h2
        have := hfit.2.2.1
        rw [← hfit.1.counted] at this
        simp only [IronWorker.togo, Thread.togo] at h3
        omega
      | _ => simp [IronWorker.togo, Thread.togo] at h3

example : ({ Intercept.default with fileCountLimit := 2, limitBehavior := .continue_ } : Intercept).Typed ∧ 5 * 2 + 4 ≤ (List.replicate 14 0).count 0 ∧
    ((IronStaff.run refDeps { Intercept.default with fileCountLimit := 2, limitBehavior := .continue_ } 40 (List.replicate 14 0) (IronStaff.start [Sample.ironVisit Sample.evsTwo b!"1", Sample.ironVisit Sample.evsTwo b!"2"]) Sample.readyDisk).1[0]?).map
      (fun x => x.2.entries.map fun e => e.stored.length) = some (some 2) :=
  ⟨⟨by decide, by decide⟩, by decide, by decide +kernel⟩

/-! ## What the handler gets -/

theorem IronWorker.steps_finished (n : Nat) (w : World) : IronWorker.finished.steps D i fuel v n w = (.finished, w) := by
  induction n with
  | zero => rfl
  | succ n ih => exact ih

/-- A worker that is in the handler, or behind it, does not save any more. -/
theorem IronWorker.steps_after (o : Option Entries) (n : Nat) (w : World) : ((IronWorker.after o).steps D i fuel v (n + 1) w).1 = .finished := by
  cases o with
  | none => exact congrArg Prod.fst (IronWorker.steps_finished (n + 1) w)
  | some e => exact congrArg Prod.fst (IronWorker.steps_finished n _)

theorem IronWorker.saving_first {n m : Nat} {o : Option Entries} (h1 : (k.steps D i fuel v n w).1 = .saving th) (h2 : (k.steps D i fuel v m w).1 = .after o) : n < m := by
  refine Nat.lt_of_not_le fun hle => ?_
  obtain ⟨d, rfl⟩ := Nat.exists_eq_add_of_le hle
  rw [IronWorker.steps_add, h2] at h1
  cases d with
  | zero => cases o <;> cases h1
  | succ d => rw [IronWorker.steps_after] at h1; cases h1

theorem IronWorker.steps_restart {p : PartialEntries} {reason : Reason} (hs : i.limitBehavior = .continue_) (hx : withEntries D i.settings fuel e w s = (.part p reason, w', t)) (hr : ∀ er, reason ≠ .io er) :
    ∃ m, (IronWorker.saving (Thread.start D e s)).steps D i fuel v (m + 1) w = (.saving (Thread.start D p.keepPartial t), w') := by
  obtain ⟨m, -, hm⟩ := IronWorker.steps_saving (v := v) (4 * fuel) _ _ (Thread.steps_loop fuel (4 * fuel) (Nat.le_refl _) _ _ _ _ hx (by simp))
  refine ⟨m, ?_⟩
  refine (IronWorker.steps_succ _ _ _ hm).trans ?_
  cases reason with
  | io er => exact absurd rfl (hr er)
  | _ => simp only [IronWorker.step, hs]

/-- The thread is saving until it has the result of the loop of a lenient middleware. -/
theorem IronWorker.steps_loop (hs : i.limitBehavior = .continue_) (n : Nat) {out : Except IronErr (Option Entries)} (h : i.lenientLoop D fuel none n e w s = (.ok out, w', t)) :
    ∃ m th, ((IronWorker.saving (Thread.start D e s)).steps D i fuel v m w).1 = .saving th ∧ (IronWorker.saving (Thread.start D e s)).steps D i fuel v (m + 1) w = (.after (handedOn out), w') := by
  induction n generalizing e w s with
  | zero => cases h
  | succ n ih =>
    unfold Intercept.lenientLoop at h
    rcases hx : withEntries D i.settings fuel e w s with ⟨r, w1, s1⟩
    rw [hx] at h
    have hend : r ≠ .hang → (IronWorker.saving (.done r s1)).step D i fuel v w1 = (.after (handedOn out), w') →
        ∃ m th, ((IronWorker.saving (Thread.start D e s)).steps D i fuel v m w).1 = .saving th ∧ (IronWorker.saving (Thread.start D e s)).steps D i fuel v (m + 1) w = (.after (handedOn out), w') := by
      intro hr hstep
      obtain ⟨m, -, hm⟩ := IronWorker.steps_saving (v := v) (4 * fuel) _ _ (Thread.steps_loop fuel (4 * fuel) (Nat.le_refl _) _ _ _ _ hx hr)
      exact ⟨m, _, congrArg Prod.fst hm, (IronWorker.steps_succ _ _ _ hm).trans hstep⟩
    cases r with
    | full e1 => cases h; exact hend (by simp) rfl
    | part p reason =>
      have hgo : (∀ er, reason ≠ .io er) → i.lenientLoop D fuel none n p.keepPartial w1 s1 = (.ok out, w', t) →
          ∃ m th, ((IronWorker.saving (Thread.start D e s)).steps D i fuel v m w).1 = .saving th ∧ (IronWorker.saving (Thread.start D e s)).steps D i fuel v (m + 1) w = (.after (handedOn out), w') := by
        intro hr h1
        obtain ⟨m, hm⟩ := IronWorker.steps_restart (v := v) hs hx hr
        obtain ⟨m', th, g1, g2⟩ := ih h1
        refine ⟨m + 1 + m', th, by rw [IronWorker.steps_add, hm]; exact g1, ?_⟩
        rw [Nat.add_assoc (m + 1), IronWorker.steps_add, hm]
        exact g2
      cases reason with
      | io er => cases h; exact hend (by simp) rfl
      | _ => exact hgo (by simp) h
    | error er =>
      obtain ⟨fs, w2, s2, -, -, h3 | ⟨h3, -⟩⟩ := withEntries_spec hx
      · cases h3
      · cases h3
    | panic => cases h
    | hang => cases h

/-- If the loop does not return, the thread is saving for as many steps at least as the loop has rounds. -/
theorem IronWorker.steps_rounds (hD : D.Sane) (hs : i.limitBehavior = .continue_) (n : Nat) (hr : Reachable D evs b s) (hf : s.enough (i.settings.memLimit 0) < fuel) :
    (∃ out w' t, i.lenientLoop D fuel none n e w s = (.ok out, w', t)) ∨ ∃ m th, n ≤ m ∧ ((IronWorker.saving (Thread.start D e s)).steps D i fuel v m w).1 = .saving th := by
  induction n generalizing e w s with
  | zero => exact .inr ⟨0, _, Nat.le_refl _, rfl⟩
  | succ n ih =>
    obtain ⟨hh, hp⟩ := withEntries_ends (fuel := fuel) (e := e) (w := w) hD hr (.inl i.settings_bound)
    replace hh := hh hf
    rcases hx : withEntries D i.settings fuel e w s with ⟨r, w1, s1⟩
    rw [hx] at hp hh
    unfold Intercept.lenientLoop
    rw [hx]
    cases r with
    | panic => exact absurd rfl hp
    | hang => exact absurd rfl hh
    | full e => exact .inl ⟨_, _, _, rfl⟩
    | error er => exact .inl ⟨_, _, _, rfl⟩
    | part p reason =>
      have hgo : (∀ er, reason ≠ .io er) → (∃ out w' t, i.lenientLoop D fuel none n p.keepPartial w1 s1 = (.ok out, w', t)) ∨
          ∃ m th, n + 1 ≤ m ∧ ((IronWorker.saving (Thread.start D e s)).steps D i fuel v m w).1 = .saving th := by
        intro hio
        have hnext : Reachable D evs b s1 ∧ s1.enough (i.settings.memLimit 0) < fuel := by
          obtain ⟨-, fs, w2, s2, h2, -, h3⟩ := Intercept.part_spec hD hr hx
          have hr1 := h2.reachable hD hr
          obtain ⟨c1, -, c3⟩ := h2.shrinks hD (hr.spec hD).1
          rcases h3 with ⟨-, -, -, rfl, -⟩ | ⟨-, -, hd, d, s3, h4, -, -, h5⟩ | ⟨er, h3⟩
          · exact ⟨hr1.step .readEntry, Nat.lt_of_le_of_lt (Nat.le_trans ((BR.readEntry_enough hD c1 rfl).2.2 _) (c3 _)) hf⟩
          · obtain ⟨d1, -, d3⟩ := BR.readEntry_enough hD c1 h4
            obtain ⟨x, hx⟩ := Target.save_took _ d1 h5 (by simp)
            exact ⟨hx.reachable (hr1.entry h4), Nat.lt_of_le_of_lt (Nat.le_trans (hx.enough d1 _) (Nat.le_trans (d3 _) (c3 _))) hf⟩
          · exact absurd h3 (hio er)
        rcases ih (e := p.keepPartial) (w := w1) hnext.1 hnext.2 with h | ⟨m, th, g1, g2⟩
        · exact .inl h
        · obtain ⟨m', hm⟩ := IronWorker.steps_restart (v := v) hs hx hio
          exact .inr ⟨m' + 1 + m, th, by omega, by rw [IronWorker.steps_add, hm]; exact g2⟩
      cases reason with
      | io er => exact .inl ⟨_, _, _, rfl⟩
      | _ => exact hgo (by simp)

/-- A thread that runs alone with a request that has a temporary directory. -/
theorem IronVisit.alone (hD : D.Sane) (hs : i.limitBehavior = .continue_) (hreq : fromRequest ironHttp v.req = .ok (withBody evs b)) (hdir : v.made = .ok dir) (hf : (withBody evs b).enough (i.settings.memLimit 0) < fuel) :
    (∃ out w1 t m th, i.readRequestLenient D fuel none dir { w with dirs := w.dirs ++ [dir] } (withBody evs b) = (.ok out, w1, t) ∧
      (IronWorker.waiting.steps D i fuel v m w).1 = .saving th ∧ IronWorker.waiting.steps D i fuel v (m + 1) w = (.after (handedOn out), w1)) ∨
    ∃ m th, fuel ≤ m ∧ (IronWorker.waiting.steps D i fuel v m w).1 = .saving th := by
  have h0 : IronWorker.waiting.step D i fuel v w = (.saving (Thread.start D (Entries.new (.temp dir)) (withBody evs b)), { w with dirs := w.dirs ++ [dir] }) := by
    simp only [IronWorker.step, hreq, hdir]
  have hsucc : ∀ m, IronWorker.waiting.steps D i fuel v (m + 1) w = (IronWorker.saving (Thread.start D (Entries.new (.temp dir)) (withBody evs b))).steps D i fuel v m { w with dirs := w.dirs ++ [dir] } := by
    intro m
    show IronWorker.steps D i fuel v m (IronWorker.waiting.step D i fuel v w).1 (IronWorker.waiting.step D i fuel v w).2 = _
    rw [h0]
  rcases IronWorker.steps_rounds (v := v) (e := Entries.new (.temp dir)) (w := { w with dirs := w.dirs ++ [dir] }) hD hs (fuel + 1) (⟨[], rfl⟩ : Reachable D evs b (withBody evs b)) hf with ⟨out, w1, t, h⟩ | ⟨m, th, g1, g2⟩
  · left
    obtain ⟨m, th, g1, g2⟩ := IronWorker.steps_loop (v := v) hs (fuel + 1) h
    exact ⟨out, w1, t, m + 1, th, by rw [Intercept.lenient_eq]; exact h, by rw [hsucc]; exact g1, by rw [hsucc]; exact g2⟩
  · exact .inr ⟨m + 1, th, by omega, by rw [hsucc]; exact g2⟩

/-- `step_live`, for some steps. -/
theorem IronWorker.steps_live (hD : D.Sane) (ht : i.Typed) (hl : i.fileSizeLimit < u64Max) (hs : i.limitBehavior = .continue_) (hf : v.rounds i ≤ fuel) (n : Nat) {m : Nat} (hg : k.Live D i fuel v) (h : k.Stuck i ∨ k.togo i ≤ m + n) :
    (k.steps D i fuel v n w).1.Live D i fuel v ∧ ((k.steps D i fuel v n w).1.Stuck i ∨ (k.steps D i fuel v n w).1.togo i ≤ m) ∧ (k.Stuck i → (k.steps D i fuel v n w).1.Stuck i) := by
  induction n generalizing k w with
  | zero => exact ⟨hg, h, fun h => h⟩
  | succ n ih =>
    obtain ⟨g1, g2, g3⟩ := IronWorker.step_live (w := w) hD ht hl hs hf hg
    suffices h' : (k.step D i fuel v w).1.Stuck i ∨ (k.step D i fuel v w).1.togo i ≤ m + n by
      obtain ⟨r1, r2, r3⟩ := ih (w := (k.step D i fuel v w).2) g1 h'
      exact ⟨r1, r2, fun h => r3 (g3 h)⟩
    by_cases hst : k.Stuck i
    · exact .inl (g3 hst)
    · rcases h with h | h
      · exact absurd h hst
      · have := g2 hst
        right
        omega

/-- After enough steps a thread that saves is stuck, and it stays there. -/
theorem IronWorker.never {n m : Nat} {o : Option Entries} (hD : D.Sane) (ht : i.Typed) (hl : i.fileSizeLimit < u64Max) (hs : i.limitBehavior = .continue_) (hf : v.rounds i ≤ fuel) (hn : 5 * i.fileCountLimit + 4 ≤ n)
    (h1 : (IronWorker.waiting.steps D i fuel v n w).1 = .saving th) : (IronWorker.waiting.steps D i fuel v m w).1 ≠ .after o := by
  intro h2
  have hlt := IronWorker.saving_first h1 h2
  obtain ⟨d, rfl⟩ := Nat.exists_eq_add_of_le (Nat.le_of_lt hlt)
  obtain ⟨g1, g2, -⟩ := IronWorker.steps_live (w := w) (k := .waiting) (m := 0) hD ht hl hs hf n trivial (.inr (by rw [Nat.zero_add]; exact hn))
  have hst : (IronWorker.waiting.steps D i fuel v n w).1.Stuck i := by
    rcases g2 with g2 | g2
    · exact g2
    · rw [h1] at g1 g2
      obtain ⟨_, _, _, _, _, hfit, hlive⟩ := g1
      cases th with
      | done r s =>
        cases r with
        | part p r => cases r <;> simp [IronWorker.togo, Thread.togo] at g2
        | full e => simp [IronWorker.togo, Thread.togo] at g2
        | _ => exact absurd hlive.2 (by simp [SaveRes.saveDir])
      | writing e h name old bytes s =>
        have := hfit.2.2.1
        rw [← hfit.1.counted] at this
        simp only [IronWorker.togo, Thread.togo] at g2
        omega
      | _ => simp [IronWorker.togo, Thread.togo] at g2
  obtain ⟨-, -, g3⟩ := IronWorker.steps_live (w := (IronWorker.waiting.steps D i fuel v n w).2) (k := (IronWorker.waiting.steps D i fuel v n w).1) (m := 0) hD ht hl hs hf d g1 (.inl hst)
  rw [IronWorker.steps_add] at h2
  have := g3 hst
  rw [h2] at this
  cases o <;> exact this

/-- C146: a lenient middleware: when a thread had `5 * file_count_limit + 4` steps, whatever the others do, a request with fewer parts than `file_count_limit` is handled. -/
theorem C146_fewer (hD : D.Sane) (ht : i.Typed) (hl : i.fileSizeLimit < u64Max) (hs : i.limitBehavior = .continue_) {vs : List IronVisit} (hv : vs.Pairwise IronVisit.Apart) : ∃ m, ∀ fuel, m ≤ fuel → ∀ (w w' : World) ns c,
    IronStaff.run D i fuel ns (IronStaff.start vs) w = (c, w') → ∀ n v b, vs[n]? = some v → ironHttp.multipartBoundary v.req = some b → NoStall v.req.body → NoErr v.req.body →
    ∀ parts fin, Parts D (dashes ++ b) (Ev.bytes v.req.body) parts fin → parts.length < i.fileCountLimit → 5 * i.fileCountLimit + 4 ≤ ns.count n → c[n]? = some (v, .finished) := by
  refine ⟨(vs.map fun v => v.rounds i).sum, fun fuel hf w w' ns c hrun n v b hn hb hns hne parts fin hP hlt hcount => ?_⟩
  have hr : v.rounds i ≤ fuel := Nat.le_trans (IronVisit.rounds_le (List.mem_of_getElem? hn)) hf
  have hreq : fromRequest ironHttp v.req = .ok (withBody v.req.body b) := by
    unfold fromRequest
    rw [hb]
    rfl
  have hfuel : (withBody v.req.body b).enough (i.settings.memLimit 0) < fuel := by
    unfold IronVisit.rounds at hr
    rw [hreq] at hr
    exact hr
  obtain ⟨k, h1, w0, w1, -, -, -, h5, -⟩ := C145_iron hv hrun hn
  rw [h1]
  change IronStaff.run D i fuel _ [(v, .waiting)] w0 = _ at h5
  rw [IronStaff.run_steps] at h5
  have hk : (IronWorker.waiting.steps D i fuel v (ns.count n) w0).1 = k := by
    have := congrArg (fun x => x.1.map Prod.snd) h5
    simpa using this
  obtain ⟨g1, g2, -⟩ := IronWorker.steps_live (w := w0) (k := .waiting) (m := 0) hD ht hl hs hr (ns.count n) trivial (.inr (by rw [Nat.zero_add]; exact hcount))
  rw [hk] at g1 g2
  have hsav : ∀ th, k ≠ .saving th := by
    intro th hth
    cases hdir : v.made with
    | error er =>
      refine IronWorker.never (m := 1) (o := none) hD ht hl hs hr hcount (hk.trans hth) ?_
      show (IronWorker.waiting.step D i fuel v w0).1 = .finished
      simp only [IronWorker.step, hreq, hdir]
    | ok dir =>
      obtain ⟨out, w2, t, hret, -⟩ := Intercept.lenientLoop_returns (i := i) (fuel := fuel) (n := fuel + 1) (e := Entries.new (.temp dir)) (w := { w0 with dirs := w0.dirs ++ [dir] }) (fail := none) hD (⟨[], rfl⟩ : Reachable D v.req.body b (withBody v.req.body b)) hfuel
        (by unfold BR.enough at hfuel; omega) (by
          intro k u h
          have := h.parts hD hns hne (.start hP)
          simp [Entries.new, total]
          omega)
      rcases IronVisit.alone (w := w0) hD hs hreq hdir hfuel with ⟨out', w3, t', m, th', a1, a2, a3⟩ | ⟨m, th', a1, a2⟩
      · exact IronWorker.never (m := m + 1) hD ht hl hs hr hcount (hk.trans hth) (congrArg Prod.fst a3)
      · obtain ⟨m', th'', -, c2⟩ := IronWorker.steps_loop (v := v) hs (fuel + 1) hret
        refine IronWorker.never (m := m' + 1 + 1) hD ht hl hs hr hcount (hk.trans hth) (o := handedOn out) ?_
        show (IronWorker.steps D i fuel v (m' + 1) (IronWorker.waiting.step D i fuel v w0).1 (IronWorker.waiting.step D i fuel v w0).2).1 = _
        have h0 : IronWorker.waiting.step D i fuel v w0 = (.saving (Thread.start D (Entries.new (.temp dir)) (withBody v.req.body b)), { w0 with dirs := w0.dirs ++ [dir] }) := by
          simp only [IronWorker.step, hreq, hdir]
        rw [h0, c2]
  cases k with
  | saving th => exact absurd rfl (hsav th)
  | finished => rfl
  | waiting => rcases g2 with g2 | g2 <;> simp [IronWorker.Stuck, IronWorker.togo] at g2
  | handling e => rcases g2 with g2 | g2 <;> simp [IronWorker.Stuck, IronWorker.togo] at g2

example : ironHttp.multipartBoundary (Sample.ironVisit Sample.evsTwo b!"1").req = some Sample.bnd ∧ [(Sample.fh, b!"one"), (Sample.fh, b!"two")].length < 3 ∧
    5 * 3 + 4 ≤ (List.replicate 6 0 ++ [1, 1] ++ List.replicate 13 0).count 0 ∧ Parts refDeps (dashes ++ Sample.bnd) (Ev.bytes Sample.evsTwo) [(Sample.fh, b!"one"), (Sample.fh, b!"two")] .closed ∧
    ((IronStaff.run refDeps { Sample.lenientCut with fileCountLimit := 3 } 40 (List.replicate 6 0 ++ [1, 1] ++ List.replicate 13 0) (IronStaff.start [Sample.ironVisit Sample.evsTwo b!"1", Sample.ironVisit Sample.evsTwo b!"2"]) Sample.readyDisk).1[0]?).map (fun x => match x.2 with
      | .finished => true
      | _ => false) = some true :=
  ⟨rfl, by decide, by decide, Sample.partsTwo, by decide +kernel⟩

/-- C146: what a handler behind a lenient middleware gets, whatever else is handled at the same time: the request was complete and has fewer parts than `file_count_limit`, and the entries are all its parts, in order, with their contents
or, for a part that is longer than `file_size_limit`, the beginning of them. -/
theorem C146_own (hD : D.Sane) (ht : i.Typed) (hl : i.fileSizeLimit < u64Max) (hs : i.limitBehavior = .continue_) {vs : List IronVisit} (hv : vs.Pairwise IronVisit.Apart) : ∃ m, ∀ fuel, m ≤ fuel → ∀ w : World, (∀ v ∈ vs, v.NewIn w) →
    ∀ (w' : World) ns (c : IronStaff), IronStaff.run D i fuel ns (IronStaff.start vs) w = (c, w') → ∀ (n : Nat) (v : IronVisit) b (e : Entries), vs[n]? = some v → c[n]? = some (v, .handling e) → ironHttp.multipartBoundary v.req = some b → NoStall v.req.body → NoErr v.req.body →
    (Ev.bytes v.req.body).length ≤ u64Max → ∀ parts fin, Parts D (dashes ++ b) (Ev.bytes v.req.body) parts fin →
      fin = .closed ∧ parts.length < i.fileCountLimit ∧ ∃ fs, GroupedByName e.fields fs ∧ All2 (Kept i.fileSizeLimit b v.req.body w') fs parts := by
  refine ⟨(vs.map fun v => v.rounds i).sum + (5 * i.fileCountLimit + 4), fun fuel hf w hw w' ns c hrun n v b e hn hc hb hns hne hsz parts fin hP => ?_⟩
  have hr : v.rounds i ≤ fuel := Nat.le_trans (IronVisit.rounds_le (List.mem_of_getElem? hn)) (by omega)
  have hreq : fromRequest ironHttp v.req = .ok (withBody v.req.body b) := by
    unfold fromRequest
    rw [hb]
    rfl
  have hfuel : (withBody v.req.body b).enough (i.settings.memLimit 0) < fuel := by
    unfold IronVisit.rounds at hr
    rw [hreq] at hr
    exact hr
  obtain ⟨k, h1, w0, w1, -, -, -, h5, h6⟩ := C145_iron hv hrun hn
  rw [hc] at h1
  cases h1
  change IronStaff.run D i fuel _ [(v, .waiting)] w0 = _ at h5
  rw [IronStaff.run_steps] at h5
  have hk : (IronWorker.waiting.steps D i fuel v (ns.count n) w0).1 = .after (some e) := by
    have := congrArg (fun x => x.1.map Prod.snd) h5
    simpa [IronWorker.after] using this
  have hw1 : (IronWorker.waiting.steps D i fuel v (ns.count n) w0).2 = w1 := congrArg Prod.snd h5
  have g1 := IronStaff.run_fit (D := D) ht hl ns (IronStaff.Fit.start (fuel := fuel) hv hw)
  rw [hrun] at g1
  obtain ⟨dir, L, hdir, -, hfit, -⟩ := g1.each _ (List.mem_of_getElem? hc)
  rcases IronVisit.alone (w := w0) hD hs hreq hdir hfuel with ⟨out, w3, t, m, th, a1, a2, a3⟩ | ⟨m, th, a1, a2⟩
  · have hlt := IronWorker.saving_first a2 hk
    obtain ⟨d, hd⟩ := Nat.exists_eq_add_of_le (show m + 1 ≤ ns.count n from hlt)
    have hd0 : d = 0 := by
      cases d with
      | zero => rfl
      | succ d =>
        rw [hd, IronWorker.steps_add, a3, IronWorker.steps_after] at hk
        cases hk
    subst hd0
    rw [Nat.add_zero] at hd
    rw [hd, a3] at hk hw1
    simp only at hk hw1
    subst hw1
    have hout : out = .ok (some e) := by
      cases out with
      | error er => cases hk
      | ok o =>
        cases o with
        | none => cases hk
        | some e' => cases hk; rfl
    subst hout
    obtain ⟨r1, r2, -, fs, r3, r4⟩ := C60_entries hD hns hne ht hsz hP a1
    refine ⟨r1, r2, fs, r3, r4.imp_mem fun f p hf ⟨q1, x, dat, q2, q3, q4⟩ => ⟨q1, x, dat, ?_, q3, q4⟩⟩
    have hmem := r3.stored hf
    generalize f.data = d at hmem q2
    cases d with
    | file p n =>
      have hsame := h6 dir hdir p (hfit.inside p n hmem)
      simp only [SavedData.readable] at q2 ⊢
      rw [← hsame]
      exact q2
    | _ => exact q2
  · exact absurd hk (IronWorker.never hD ht hl hs hr (by omega) a2)

example : ∃ (c : IronStaff) (w' : World) (e : Entries), IronStaff.run refDeps Sample.lenientCut 40 [0, 1, 0, 1, 1, 0, 0, 0, 1, 0, 0, 0, 0, 0, 0, 0, 0] (IronStaff.start [Sample.ironVisit Sample.evsTwo b!"1", Sample.ironVisit Sample.evsTwo b!"2"]) Sample.readyDisk = (c, w') ∧
    c[0]? = some (Sample.ironVisit Sample.evsTwo b!"1", .handling e) ∧ e.fieldsCount = 2 ∧ ironHttp.multipartBoundary (Sample.ironVisit Sample.evsTwo b!"1").req = some Sample.bnd ∧
    NoStall Sample.evsTwo ∧ NoErr Sample.evsTwo ∧ (Ev.bytes Sample.evsTwo).length ≤ u64Max ∧ Parts refDeps (dashes ++ Sample.bnd) (Ev.bytes Sample.evsTwo) [(Sample.fh, b!"one"), (Sample.fh, b!"two")] .closed := by
  rcases hc : IronStaff.run refDeps Sample.lenientCut 40 [0, 1, 0, 1, 1, 0, 0, 0, 1, 0, 0, 0, 0, 0, 0, 0, 0] (IronStaff.start [Sample.ironVisit Sample.evsTwo b!"1", Sample.ironVisit Sample.evsTwo b!"2"]) Sample.readyDisk with ⟨c, w'⟩
  have he : ((IronStaff.run refDeps Sample.lenientCut 40 [0, 1, 0, 1, 1, 0, 0, 0, 1, 0, 0, 0, 0, 0, 0, 0, 0] (IronStaff.start [Sample.ironVisit Sample.evsTwo b!"1", Sample.ironVisit Sample.evsTwo b!"2"]) Sample.readyDisk).1[0]?).map (fun x => match x.2 with
    | .handling e => some e.fieldsCount
    | _ => none) = some (some 2) := by decide +kernel
  have hj : ((IronStaff.run refDeps Sample.lenientCut 40 [0, 1, 0, 1, 1, 0, 0, 0, 1, 0, 0, 0, 0, 0, 0, 0, 0] (IronStaff.start [Sample.ironVisit Sample.evsTwo b!"1", Sample.ironVisit Sample.evsTwo b!"2"]) Sample.readyDisk).1[0]?).map (fun x => x.1) = some (Sample.ironVisit Sample.evsTwo b!"1") := rfl
  rw [hc] at he hj
  rcases hx : c[0]? with _ | ⟨v, k⟩
  · rw [hx] at he; cases he
  · rw [hx] at he hj
    simp only [Option.map_some, Option.some.injEq] at he hj
    subst hj
    cases k with
    | handling e => exact ⟨c, w', e, rfl, hx, Option.some.inj he, rfl, by decide +kernel, by intro e; simp [Sample.evsTwo], by decide, Sample.partsTwo⟩
    | _ => cases he

end Multipart

import Verif.Spec.Workers
import Verif.Props.Threads
import Verif.Props.ExampleDisk
/-!
# C141: requests that the example servers handle at the same time
-/
namespace Multipart

variable {D : Deps} {fuel : Nat} {w w' : World} {s t : BR} {j : Job}

/-! ## One step of a thread -/

/-- The thread has created at most `n` files; it did not panic. -/
def Thread.Counts (cfg : Settings) (n : Nat) : Thread → Prop
  | .running _ e _ => n ≤ e.fieldsCount ∧ n ≤ cfg.countLimit
  | .making e _ _ _ _ => n ≤ e.fieldsCount ∧ e.fieldsCount < cfg.countLimit
  | .opening e _ _ _ _ => n ≤ e.fieldsCount ∧ e.fieldsCount < cfg.countLimit
  | .writing e _ _ _ _ _ => n ≤ e.fieldsCount + 1 ∧ e.fieldsCount < cfg.countLimit
  | .done r _ => n ≤ cfg.countLimit ∧ r.saveDir.isSome

/-- The steps that are left, at most. -/
def Thread.left (cfg : Settings) : Thread → Nat
  | .running _ e _ => 4 * (cfg.countLimit - e.fieldsCount) + 1
  | .making e _ _ _ _ => 4 * (cfg.countLimit - e.fieldsCount)
  | .opening e _ _ _ _ => 4 * (cfg.countLimit - e.fieldsCount) - 1
  | .writing e _ _ _ _ _ => 4 * (cfg.countLimit - e.fieldsCount) - 2
  | .done _ _ => 0

theorem Thread.saved_counts {cfg : Settings} {n : Nat} {e : Entries} {h : FieldHeaders} {r : SaveRes SavedData SavedData} (hc : cfg.countLimit ≤ u32Max) (hn : n ≤ e.fieldsCount + 1) (he : e.fieldsCount < cfg.countLimit)
    (h1 : r ≠ .hang) (h2 : r ≠ .panic) : (Thread.saved D e h r s).Counts cfg n ∧ (Thread.saved D e h r s).left cfg < 4 * (cfg.countLimit - e.fieldsCount) - 2 := by
  cases r with
  | full d =>
    have hcount : (e.pushField h d).fieldsCount = e.fieldsCount + 1 := by
      show Nat.min (e.fieldsCount + 1) u32Max = _
      exact Nat.min_eq_left (by omega)
    simp only [Thread.saved, Thread.Counts, Thread.left, hcount]
    omega
  | part d r => exact ⟨⟨by omega, rfl⟩, by simp only [Thread.saved, Thread.left]; omega⟩
  | error er => exact ⟨⟨by omega, rfl⟩, by simp only [Thread.saved, Thread.left]; omega⟩
  | panic => exact absurd rfl h2
  | hang => exact absurd rfl h1

/-- The settings of the request. -/
structure Job.Plain (fuel : Nat) (j : Job) : Prop where
  count : j.cfg.countLimit ≤ u32Max
  size : j.cfg.sizeLimit < u64Max
  fresh : j.cfg.openOpts.createNew = true
  rounds : (withBody j.up.evs j.up.b).enough (j.cfg.memLimit 0) < fuel

theorem Job.At.ends (hD : D.Sane) (hj : j.Plain fuel) {fs : List SavedField} {h : FieldHeaders} (hat : j.At D w fs (.ok (some h)) s) {wa : World} {r : SaveRes SavedData SavedData}
    (hw : (Target.dir j.dir.asPath).save (fieldPolicy j.cfg h) fuel wa s = (r, w', t)) : r ≠ .hang ∧ r ≠ .panic := by
  obtain ⟨s0, h1, h2, h3, -⟩ := hat
  have hr1 := h1.entry h2
  have hml : Nat.min (fieldPolicy j.cfg h).sizeLimit (fieldPolicy j.cfg h).memoryThreshold < u64Max := Nat.lt_of_le_of_lt (Nat.min_le_left _ _) hj.size
  constructor
  · have : (Target.save (.dir j.dir.asPath) (fieldPolicy j.cfg h) fuel wa s).1 ≠ .hang := by
      rw [Target.save_eq]
      obtain ⟨d1, -, d3⟩ := BR.readEntry_enough hD (h1.spec hD).1 h2
      exact withPath_ends _ _ _ d1 (Nat.lt_of_le_of_lt (Nat.le_trans (d3 _) h3) hj.rounds) (.inr (.inl hml))
    rw [hw] at this
    exact this
  · have := (C44_terminates_partial (T := .dir j.dir.asPath) (w := wa) (cfg := fieldPolicy j.cfg h) hD hr1 (.inl hml)).2 fuel
    rw [hw] at this
    exact this

/-- One step of a thread that is not done: there is a list of the files it has created, to which one may be added; nothing else changes, and these files have at most `size_limit` and what is kept in memory. -/
theorem Thread.step_room (hD : D.Sane) (hj : j.Plain fuel) {th : Thread} (hs : th.Sound D fuel j w) {L : List Path} (hc : th.Counts j.cfg L.length) (hL : ∀ p ∈ th.opened, p ∈ L) (hd : ∀ r s, th ≠ .done r s) :
    ∃ L' : List Path, (th.step D j.cfg fuel w).1.Counts j.cfg L'.length ∧ (th.step D j.cfg fuel w).1.left j.cfg < th.left j.cfg ∧ (∀ p ∈ L, p ∈ L') ∧
      ∀ q, (th.step D j.cfg fuel w).2.files q = w.files q ∨ (q ∈ L' ∧ Below j.dir.asPath q ∧ (th.step D j.cfg fuel w).2.fileSize q ≤ j.cfg.sizeLimit + j.cfg.memLimit 0) := by
  cases th with
  | done r s => exact absurd rfl (hd r s)
  | running res e s =>
    obtain ⟨fs, rfl, hat⟩ := hs
    unfold Thread.step
    simp only [Thread.Counts] at hc
    simp only
    split
    · rename_i hlt
      have hdone : ∀ r : SaveRes Entries PartialEntries, r.saveDir.isSome → ∃ L' : List Path, (Thread.done r s).Counts j.cfg L'.length ∧ (Thread.done r s).left j.cfg < (Thread.running res (j.after fs) s).left j.cfg ∧ (∀ p ∈ L, p ∈ L') ∧
          ∀ q, w.files q = w.files q ∨ (q ∈ L' ∧ Below j.dir.asPath q ∧ w.fileSize q ≤ j.cfg.sizeLimit + j.cfg.memLimit 0) :=
        fun r hr => ⟨L, ⟨hc.2, hr⟩, Nat.succ_pos _, fun _ h => h, fun _ => .inl rfl⟩
      split
      · rename_i h
        rcases hm : saveInMemory (fieldPolicy j.cfg h) fuel s with ⟨r | bytes, s'⟩
        · simp only
          have hw : (Target.dir j.dir.asPath).save (fieldPolicy j.cfg h) fuel w s = (r, w.randName.2, s') := by
            show withPath _ _ _ _ _ = _
            rw [withPath_split, hm]
          obtain ⟨g1, g2⟩ := hat.ends hD hj hw
          obtain ⟨k1, k2⟩ := Thread.saved_counts (D := D) (s := s') (h := h) hj.count (Nat.le_succ_of_le hc.1) hlt g1 g2
          exact ⟨L, k1, Nat.lt_of_lt_of_le k2 (by simp only [Thread.left]; omega), fun _ h => h, fun _ => .inl rfl⟩
        · exact ⟨L, ⟨hc.1, hlt⟩, by simp only [Thread.left]; omega, fun _ h => h, fun _ => .inl rfl⟩
      · exact hdone _ rfl
      · exact hdone _ rfl
      · obtain ⟨s0, h1, h2, -⟩ := hat
        exact absurd (congrArg Prod.fst h2) (BR.readEntry_noPanic hD (h1.spec hD).1).1
      · obtain ⟨s0, h1, h2, -⟩ := hat
        exact absurd (congrArg Prod.fst h2) (BR.readEntry_noPanic hD (h1.spec hD).1).2
    · exact ⟨L, ⟨hc.2, rfl⟩, Nat.succ_pos _, fun _ h => h, fun _ => .inl rfl⟩
  | making e h name bytes s =>
    simp only [Thread.Counts] at hc
    have hff := createDirAll_files (w := w) (q := e.saveDir.asPath ++ [name])
    unfold Thread.step
    simp only
    rcases hcr : w.createDirAll (e.saveDir.asPath ++ [name]) with ⟨_ | er, w1⟩
    · rw [hcr] at hff
      exact ⟨L, hc, by simp only [Thread.left]; omega, fun _ h => h, fun q => .inl (congrFun hff q)⟩
    · rw [hcr] at hff
      obtain ⟨k1, k2⟩ := Thread.saved_counts (D := D) (s := s) (h := h) (r := .error er) hj.count (Nat.le_succ_of_le hc.1) hc.2 (by simp) (by simp)
      exact ⟨L, k1, Nat.lt_of_lt_of_le k2 (by simp only [Thread.left]; omega), fun _ h => h, fun q => .inl (congrFun hff q)⟩
  | opening e h name bytes s =>
    simp only [Thread.Counts] at hc
    have hff := (openFile_old (w := w) (q := e.saveDir.asPath ++ [name]) (o := j.cfg.openOpts)).1
    unfold Thread.step
    simp only
    rcases hcr : w.openFile j.cfg.openOpts (e.saveDir.asPath ++ [name]) with ⟨er | old, w1⟩
    · rw [hcr] at hff
      obtain ⟨k1, k2⟩ := Thread.saved_counts (D := D) (s := s) (h := h) (r := .error er) hj.count (Nat.le_succ_of_le hc.1) hc.2 (by simp) (by simp)
      exact ⟨L, k1, Nat.lt_of_lt_of_le k2 (by simp only [Thread.left]; omega), fun _ h => h, fun q => .inl (congrFun hff q)⟩
    · rw [hcr] at hff
      obtain ⟨rfl, -, -, -⟩ := openFile_new hcr hj.fresh
      obtain ⟨fs, s1, rfl, hat, hm⟩ := hs
      rw [j.after_dir]
      refine ⟨(j.dir.asPath ++ [name]) :: L, ⟨by simpa using hc.1, hc.2⟩, by simp only [Thread.left]; omega, fun _ h => List.mem_cons_of_mem _ h, fun q => ?_⟩
      by_cases hq : q = j.dir.asPath ++ [name]
      · subst hq
        exact .inr ⟨by simp, ⟨[name], rfl⟩, by simp [World.fileSize, World.setFile]⟩
      · left
        simp only [World.setFile, if_neg hq]
        exact congrFun hff q
  | writing e h name old bytes s =>
    simp only [Thread.Counts] at hc
    obtain ⟨⟨fs, s1, rfl, hat, hm⟩, w0, w1, hop⟩ := hs
    have hdir : (j.after fs).saveDir.asPath = j.dir.asPath := by rw [j.after_dir]
    unfold Thread.step
    simp only [hdir] at hop ⊢
    rcases hw : writeFile (fieldPolicy j.cfg h) fuel (j.dir.asPath ++ [name]) old bytes w s with ⟨r, w2, s2⟩
    simp only
    obtain ⟨wb, g1, g2⟩ := writeFile_as_save (cfg := fieldPolicy j.cfg h) hop hj.fresh hm hw
    obtain ⟨e1, e2⟩ := hat.ends hD hj g1
    obtain ⟨k1, k2⟩ := Thread.saved_counts (D := D) (s := s2) (h := h) hj.count hc.1 hc.2 e1 e2
    have hg := (Target.save_grow (T := .dir j.dir.asPath) (cfg := fieldPolicy j.cfg h) (fuel := fuel) (w := w.before (j.dir.asPath ++ [name]) name) (s := s1) hj.size).1
    rw [g1] at hg
    refine ⟨L, k1, Nat.lt_of_lt_of_le k2 (by simp only [Thread.left]; omega), fun _ h => h, fun q => ?_⟩
    by_cases hq : q = j.dir.asPath ++ [name]
    · subst hq
      refine .inr ⟨hL _ (by simp [Thread.opened, hdir]), ⟨[name], rfl⟩, ?_⟩
      have h0 : (w.before (j.dir.asPath ++ [name]) name).fileSize (j.dir.asPath ++ [name]) = 0 := by simp [World.fileSize, World.before]
      have h1 : wb.fileSize (j.dir.asPath ++ [name]) ≤ (w.before (j.dir.asPath ++ [name]) name).fileSize (j.dir.asPath ++ [name]) + (j.cfg.sizeLimit + j.cfg.memLimit 0) := hg.size
      have h2 : w2.fileSize (j.dir.asPath ++ [name]) = wb.fileSize (j.dir.asPath ++ [name]) := by unfold World.fileSize; rw [g2]
      omega
    · left
      rw [← g2]
      have h1 : wb.files q = (w.before (j.dir.asPath ++ [name]) name).files q := hg.others q hq
      rw [h1]
      simp [World.before, hq]

/-! ## One step of the handling of a request -/

/-- These settings for a request with this body, saved in this temporary directory. -/
def requestJob (cfg : Settings) (dir : Path) (evs : List Ev) (b : Bytes) (parts : List (FieldHeaders × Bytes)) : Job := ⟨cfg, .temp dir, ⟨evs, b, parts⟩⟩

/-- The files of a request have at most this length. -/
def room : Nat := Settings.default.sizeLimit + Settings.default.memLimit 0

/-- The invariant of a thread that saves a request: `L` are the files it has created in its directory, where there are no others. -/
structure Saving (D : Deps) (fuel : Nat) (cfg : Settings) (w : World) (th : Thread) (dir : Path) (evs : List Ev) (b : Bytes) (L : List Path) : Prop where
  sound : ∀ parts, th.Sound D fuel (requestJob cfg dir evs b parts) w
  exist : ∀ p ∈ th.files, w.files p ≠ none
  own : th.files.Nodup
  inside : ∀ p ∈ th.files, Below dir p
  count : th.Counts cfg L.length
  only : ∀ q, Below dir q → w.files q ≠ none → q ∈ L
  size : ∀ q, Below dir q → w.fileSize q ≤ cfg.sizeLimit + cfg.memLimit 0

/-- The same for the thread that handles this request. -/
structure Handling (D : Deps) (fuel : Nat) (v : Visit) (w : World) (th : Thread) (dir : Path) (evs : List Ev) (b : Bytes) (L : List Path) : Prop extends Saving D fuel .default w th dir evs b L where
  temp : v.temp.tempdir b!"multipart-rs" = .ok dir
  body : v.req.multipart = some (withBody evs b)

variable {cfg : Settings} {v : Visit} {th : Thread} {dir : Path} {evs : List Ev} {b : Bytes} {L : List Path} {k : Worker}

theorem World.fileSize_eq {q : Path} (h : w'.files q = w.files q) : w'.fileSize q = w.fileSize q := by
  unfold World.fileSize; rw [h]

theorem Saving.mono (h : Saving D fuel cfg w th dir evs b L) (hw : ∀ q, Below dir q → w'.files q = w.files q) : Saving D fuel cfg w' th dir evs b L :=
  ⟨fun parts => (h.sound parts).mono fun p hp => hw p (h.inside p hp), fun p hp => by rw [hw p (h.inside p hp)]; exact h.exist p hp, h.own, h.inside, h.count,
    fun q hq hn => h.only q hq (by rw [← hw q hq]; exact hn), fun q hq => by rw [World.fileSize_eq (hw q hq)]; exact h.size q hq⟩

theorem Handling.mono (h : Handling D fuel v w th dir evs b L) (hw : ∀ q, Below dir q → w'.files q = w.files q) : Handling D fuel v w' th dir evs b L :=
  ⟨h.toSaving.mono hw, h.temp, h.body⟩

theorem requestJob_plain (h1 : cfg.countLimit ≤ u32Max) (h2 : cfg.sizeLimit < u64Max) (h3 : cfg.openOpts.createNew = true) (hf : (withBody evs b).enough (cfg.memLimit 0) < fuel) (parts : List (FieldHeaders × Bytes)) :
    (requestJob cfg dir evs b parts).Plain fuel := ⟨h1, h2, h3, hf⟩

theorem Saving.start (hnone : ∀ q, Below dir q → w.files q = none) : Saving D fuel cfg w (Thread.start D (Entries.new (.temp dir)) (withBody evs b)) dir evs b [] := by
  refine ⟨fun parts => ?_, fun p hp => ?_, List.nodup_nil, fun p hp => ?_, ⟨Nat.zero_le _, Nat.zero_le _⟩, fun q hq hn => ?_, fun q hq => ?_⟩
  · refine ⟨[], rfl, withBody evs b, ⟨[], rfl⟩, rfl, Nat.le_refl _, fun fin hk => ⟨⟨.nil, Nat.zero_le _⟩, ?_, ?_⟩⟩
    · intro h; simp [withBody, BR.fromReader] at h
    · exact .start hk.parts
  · cases hp
  · cases hp
  · exact absurd (hnone q hq) hn
  · have : World.fileSize w q = 0 := by
      unfold World.fileSize
      rw [hnone q hq]
    omega

theorem Saving.step (hD : D.Sane) (hf : (requestJob cfg dir evs b []).Plain fuel) (h : Saving D fuel cfg w th dir evs b L) (hd : ∀ r s, th ≠ .done r s) :
    ∃ L', Saving D fuel cfg (th.step D cfg fuel w).2 (th.step D cfg fuel w).1 dir evs b L' ∧ (th.step D cfg fuel w).1.left cfg < th.left cfg ∧
      ∀ q, ¬ Below dir q → (th.step D cfg fuel w).2.files q = w.files q := by
  have hopen : ∀ p ∈ th.opened, p ∈ L := fun p hp => h.only p (h.inside p (th.opened_files p hp)) (h.exist p (th.opened_files p hp))
  obtain ⟨L', r1, r2, r3, r4⟩ := Thread.step_room (w := w) hD hf (h.sound []) (L := L) h.count hopen hd
  have hst : ∀ parts, Thread.Stepped D fuel (requestJob cfg dir evs b parts) th w (th.step D cfg fuel w).1 (th.step D cfg fuel w).2 :=
    fun parts => Thread.step_spec (j := requestJob cfg dir evs b parts) hD hf.fresh (h.sound parts) h.exist h.own
  change (th.step D cfg fuel w).1.Counts cfg L'.length at r1
  change (th.step D cfg fuel w).1.left cfg < th.left cfg at r2
  have r4 : ∀ q, (th.step D cfg fuel w).2.files q = w.files q ∨ (q ∈ L' ∧ Below dir q ∧ (th.step D cfg fuel w).2.fileSize q ≤ cfg.sizeLimit + cfg.memLimit 0) := r4
  generalize (th.step D cfg fuel w).1 = th' at r1 r2 hst ⊢
  generalize (th.step D cfg fuel w).2 = w' at r4 hst ⊢
  obtain ⟨kept, new, k1, k2, k3, k4⟩ := (hst []).holds
  refine ⟨L', ⟨fun parts => (hst parts).sound, ?_, ?_, ?_, r1, ?_, ?_⟩, r2, ?_⟩
  · intro p hp
    rcases List.mem_append.mp (k1.mem_iff.mp hp) with hp | hp
    · exact (hst []).stays p (h.exist p (k2.subset hp))
    · exact (k4 p hp).2
  · refine k1.nodup_iff.mpr (List.nodup_append.mpr ⟨h.own.sublist k2, k3, fun a ha c hc hac => ?_⟩)
    subst hac
    exact h.exist a (k2.subset ha) (k4 a hc).1
  · intro p hp
    rcases List.mem_append.mp (k1.mem_iff.mp hp) with hp | hp
    · exact h.inside p (k2.subset hp)
    · rcases r4 p with g | g
      · rw [(k4 p hp).1] at g
        exact absurd g (k4 p hp).2
      · exact g.2.1
  · intro q hq hn
    rcases r4 q with g | g
    · exact r3 q (h.only q hq (by rw [← g]; exact hn))
    · exact g.1
  · intro q hq
    rcases r4 q with g | g
    · rw [World.fileSize_eq g]; exact h.size q hq
    · exact g.2.2
  · intro q hq
    rcases r4 q with g | g
    · exact g
    · exact absurd g.2.1 hq

theorem Saving.saveDir {r : SaveRes Entries PartialEntries} (h : Saving D fuel cfg w (.done r s) dir evs b L) : r.saveDir = some (.temp dir) := by
  have hc := h.count.2
  have hs := h.sound []
  cases r with
  | full e =>
    obtain ⟨fs, rfl, -⟩ := hs
    exact congrArg some (Job.after_dir _ fs)
  | part p r =>
    obtain ⟨fs, h1, -⟩ := hs
    show some p.entries.saveDir = _
    rw [h1]
    exact congrArg some (Job.after_dir _ fs)
  | _ => cases hc

/-- The invariant of a worker. -/
def Worker.Good (D : Deps) (fuel : Nat) (v : Visit) (w : World) : Worker → Prop
  | .saving th => ∃ dir evs b L, Handling D fuel v w th dir evs b L
  | _ => True

/-- The steps that are left, at most. -/
def Worker.left : Worker → Nat
  | .waiting => 4 * Settings.default.countLimit + 3
  | .saving th => th.left .default + 1
  | .finished => 0

theorem Worker.step_spec (hD : D.Sane) (hf : v.req.rounds ≤ fuel) (hg : k.Good D fuel v w) (hnew : k.busy = false → ∀ dir, v.temp.tempdir b!"multipart-rs" = .ok dir → ∀ q, Below dir q → w.files q = none) :
    (k.step D fuel v w).1.Good D fuel v (k.step D fuel v w).2 ∧
    (∀ q, (∀ dir, v.temp.tempdir b!"multipart-rs" = .ok dir → ¬ Below dir q) → (k.step D fuel v w).2.files q = w.files q) ∧
    ((k.step D fuel v w).1.busy = false → ∀ dir, v.temp.tempdir b!"multipart-rs" = .ok dir → ∀ q, Below dir q → (k.step D fuel v w).2.files q = none) ∧
    (k.step D fuel v w).1.left ≤ k.left - 1 := by
  cases k with
  | finished => exact ⟨trivial, fun _ _ => rfl, fun _ => hnew rfl, Nat.le_refl _⟩
  | waiting =>
    unfold Worker.step
    simp only
    rcases v.req.multipart_body with hm | ⟨evs, b, hm⟩
    · simp only [hm]
      exact ⟨trivial, fun _ _ => trivial, fun _ => hnew rfl, Nat.zero_le _⟩
    · simp only [hm]
      cases hdir : v.temp.tempdir b!"multipart-rs" with
      | error er =>
        simp only
        exact ⟨trivial, fun _ _ => trivial, fun _ dir h => (by cases h), Nat.zero_le _⟩
      | ok dir =>
        have hnone := hnew rfl dir hdir
        simp only
        exact ⟨⟨dir, evs, b, [], Saving.start hnone, hdir, hm⟩, fun _ _ => trivial, fun h => (by cases h), Nat.le_refl _⟩
  | saving th =>
    obtain ⟨dir, evs, b, L, h⟩ := hg
    have hf : (withBody evs b).enough (Settings.default.memLimit 0) < fuel := by
      unfold ExampleReq.rounds at hf
      rw [h.body] at hf
      exact hf
    by_cases hd : ∃ r s, th = .done r s
    · obtain ⟨r, s, rfl⟩ := hd
      have hdir := h.saveDir
      have key : ∀ d : SaveDir, some d = some (.temp dir) → (Worker.finished).Good D fuel v (d.drop none w) ∧
          (∀ q, (∀ dir, v.temp.tempdir b!"multipart-rs" = .ok dir → ¬ Below dir q) → (d.drop none w).files q = w.files q) ∧
          ((Worker.finished).busy = false → ∀ dir, v.temp.tempdir b!"multipart-rs" = .ok dir → ∀ q, Below dir q → (d.drop none w).files q = none) ∧ Worker.left .finished ≤ Worker.left (.saving (.done r s)) - 1 := by
        intro d hd
        obtain ⟨g1, g2⟩ := SaveDir.drop_temp (fail := none) (w := w) d (Option.some.inj hd)
        refine ⟨trivial, fun q hq => g2 q (hq dir h.temp), fun _ dir' hdir' q hq => ?_, Nat.zero_le _⟩
        rw [h.temp] at hdir'
        cases hdir'
        exact (g1 rfl q hq).1
      cases r with
      | full e => exact key _ hdir
      | part p r => exact key _ (by rw [v.req.kept_dir]; exact hdir)
      | _ => cases hdir
    · have hd : ∀ r s, th ≠ .done r s := fun r s he => hd ⟨r, s, he⟩
      have he : (Worker.saving th).step D fuel v w = (.saving (th.step D .default fuel w).1, (th.step D .default fuel w).2) := by
        cases th with
        | done r s => exact absurd rfl (hd r s)
        | _ => rfl
      obtain ⟨L', g1, g2, g3⟩ := h.toSaving.step hD (requestJob_plain (by decide) (by decide) rfl hf []) hd
      rw [he]
      refine ⟨⟨dir, evs, b, L', g1, h.temp, h.body⟩, fun q hq => g3 q (hq dir h.temp), fun h => (by cases h), ?_⟩
      simp only [Worker.left]
      omega

/-! ## All requests -/

/-- The invariant of all threads: `w0` is the disk at the start. -/
structure Staff.Good (D : Deps) (fuel : Nat) (w0 : World) (c : Staff) (w : World) : Prop where
  apart : (c.map fun x => x.1).Pairwise Visit.Apart
  rounds : ∀ x ∈ c, x.1.req.rounds ≤ fuel
  fresh : ∀ x ∈ c, x.1.temp.NewIn w0
  each : ∀ x ∈ c, x.2.Good D fuel x.1 w
  rest : ∀ q, (∀ x ∈ c, x.2.busy = true → ∀ dir, x.1.temp.tempdir b!"multipart-rs" = .ok dir → ¬ Below dir q) → w.files q = w0.files q

theorem Visit.Apart.symm {v v' : Visit} (h : v.Apart v') : v'.Apart v := fun d d' h1 h2 q ⟨h3, h4⟩ => h d' d h2 h1 q ⟨h4, h3⟩

theorem Staff.Good.turn (hD : D.Sane) {w0 : World} {c1 c2 : Staff} (h : Staff.Good D fuel w0 (c1 ++ (v, k) :: c2) w) :
    Staff.Good D fuel w0 (c1 ++ (v, (k.step D fuel v w).1) :: c2) (k.step D fuel v w).2 ∧ (k.step D fuel v w).1.left ≤ k.left - 1 := by
  obtain ⟨h1, h2, h3, h4, h5⟩ := h
  have hother : ∀ x, x ∈ c1 ∨ x ∈ c2 → x ∈ c1 ++ (v, k) :: c2 := by rintro x (hx | hx) <;> simp [hx]
  have hap : ∀ x, x ∈ c1 ∨ x ∈ c2 → v.Apart x.1 := by
    have h1' := h1
    rw [List.map_append, List.map_cons, List.pairwise_append] at h1'
    obtain ⟨-, a2, a3⟩ := h1'
    rintro x (hx | hx)
    · exact (a3 x.1 (List.mem_map.mpr ⟨x, hx, rfl⟩) v (by simp)).symm
    · exact (List.pairwise_cons.mp a2).1 x.1 (List.mem_map.mpr ⟨x, hx, rfl⟩)
  obtain ⟨s1, s2, s3, s4⟩ := Worker.step_spec (v := v) (k := k) (w := w) (fuel := fuel) hD (h2 (v, k) (by simp)) (h4 (v, k) (by simp)) (by
    intro hb dir hdir q hq
    rw [h5 q]
    · exact h3 (v, k) (by simp) dir hdir q hq
    · intro x hx hxb d hd hbel
      rcases List.mem_append.mp hx with hx | hx
      · exact hap x (.inl hx) dir d hdir hd q ⟨hq, hbel⟩
      · rcases List.mem_cons.mp hx with rfl | hx
        · rw [hb] at hxb; cases hxb
        · exact hap x (.inr hx) dir d hdir hd q ⟨hq, hbel⟩)
  generalize (k.step D fuel v w).1 = k' at s1 s3 s4 ⊢
  generalize (k.step D fuel v w).2 = w' at s1 s2 s3 ⊢
  refine ⟨⟨by simpa using h1, ?_, ?_, ?_, ?_⟩, s4⟩
  · intro x hx
    rcases List.mem_append.mp hx with hx | hx
    · exact h2 x (hother x (.inl hx))
    · rcases List.mem_cons.mp hx with rfl | hx
      · exact h2 (v, k) (by simp)
      · exact h2 x (hother x (.inr hx))
  · intro x hx
    rcases List.mem_append.mp hx with hx | hx
    · exact h3 x (hother x (.inl hx))
    · rcases List.mem_cons.mp hx with rfl | hx
      · exact h3 (v, k) (by simp)
      · exact h3 x (hother x (.inr hx))
  · have hkeep : ∀ x, x ∈ c1 ∨ x ∈ c2 → x.2.Good D fuel x.1 w' := by
      rintro ⟨v', k''⟩ hx
      have hg := h4 _ (hother _ hx)
      cases k'' with
      | saving th =>
        obtain ⟨dir, evs, b, L, hg⟩ := hg
        exact ⟨dir, evs, b, L, hg.mono fun q hq => s2 q fun d hd hbel => hap _ hx d dir hd hg.temp q ⟨hbel, hq⟩⟩
      | _ => trivial
    intro x hx
    rcases List.mem_append.mp hx with hx | hx
    · exact hkeep x (.inl hx)
    · rcases List.mem_cons.mp hx with rfl | hx
      · exact s1
      · exact hkeep x (.inr hx)
  · intro q hq
    by_cases hv : ∃ dir, v.temp.tempdir b!"multipart-rs" = .ok dir ∧ Below dir q
    · obtain ⟨dir, hdir, hbel⟩ := hv
      have hb : k'.busy = false := by
        cases hb : k'.busy with
        | false => rfl
        | true => exact absurd hbel (hq (v, k') (by simp) hb dir hdir)
      rw [s3 hb dir hdir q hbel, h3 (v, k) (by simp) dir hdir q hbel]
    · have hv : ∀ dir, v.temp.tempdir b!"multipart-rs" = .ok dir → ¬ Below dir q := fun dir h1 h2 => hv ⟨dir, h1, h2⟩
      rw [s2 q hv]
      refine h5 q fun x hx hxb d hd => ?_
      rcases List.mem_append.mp hx with hx | hx
      · exact hq x (by simp [hx]) hxb d hd
      · rcases List.mem_cons.mp hx with rfl | hx
        · exact hv d hd
        · exact hq x (by simp [hx]) hxb d hd

theorem Staff.run_good (hD : D.Sane) {w0 : World} : ∀ (is : List Nat) {c : Staff} {w : World}, Staff.Good D fuel w0 c w → Staff.Good D fuel w0 (Staff.run D fuel is c w).1 (Staff.run D fuel is c w).2 ∧
    ((∀ (i : Nat) (x : Visit × Worker), c[i]? = some x → x.2.left ≤ is.count i) → ∀ x ∈ (Staff.run D fuel is c w).1, x.2.left = 0)
  | [], c, w, hg => by
    refine ⟨hg, fun h x hx => ?_⟩
    obtain ⟨i, hi⟩ := List.getElem?_of_mem hx
    have := h i x hi
    simpa using this
  | m :: is, c, w, hg => by
    unfold Staff.run
    split
    · rename_i v k hk
      obtain ⟨l1, l2, e1, e2⟩ := set_split hk
      have hg1 := hg
      rw [e1] at hg1
      obtain ⟨hg', hl⟩ := hg1.turn hD
      rw [← e2] at hg'
      obtain ⟨r1, r2⟩ := Staff.run_good hD is hg'
      refine ⟨r1, fun h => r2 fun i x hx => ?_⟩
      rw [List.getElem?_set] at hx
      split at hx
      · rename_i hik
        subst hik
        split at hx
        · cases hx
          have := h m (v, k) hk
          rw [List.count_cons_self] at this
          simp only at this ⊢
          omega
        · cases hx
      · rename_i hik
        have e3 := h i x hx
        rw [List.count_cons_of_ne hik] at e3
        exact e3
    · rename_i hk
      obtain ⟨r1, r2⟩ := Staff.run_good hD is hg
      refine ⟨r1, fun h => r2 fun i x hx => ?_⟩
      have e3 := h i x hx
      rw [List.count_cons_of_ne (by intro hik; subst hik; rw [hk] at hx; simp at hx)] at e3
      exact e3

theorem Staff.Good.start {vs : List Visit} (h1 : vs.Pairwise Visit.Apart) (h2 : ∀ v ∈ vs, v.req.rounds ≤ fuel) (h3 : ∀ v ∈ vs, v.temp.NewIn w) : Staff.Good D fuel w (Staff.start vs) w := by
  refine ⟨?_, ?_, ?_, ?_, fun _ _ => rfl⟩
  · unfold Staff.start
    rw [List.map_map, show ((fun x : Visit × Worker => x.1) ∘ fun v => (v, Worker.waiting)) = id from rfl, List.map_id]
    exact h1
  all_goals
    intro x hx
    obtain ⟨v, hv, rfl⟩ := List.mem_map.mp hx
  · exact h2 v hv
  · exact h3 v hv
  · trivial

theorem Staff.list {c : Staff} (h : ∀ x ∈ c, x.2.Good D fuel x.1 w) : ∃ L : List Path, L.length ≤ c.countP (fun x => x.2.busy) * 256 ∧
    ∀ x ∈ c, x.2.busy = true → ∀ dir, x.1.temp.tempdir b!"multipart-rs" = .ok dir → ∀ q, Below dir q → w.fileSize q ≤ room ∧ (w.files q ≠ none → q ∈ L) := by
  induction c with
  | nil => exact ⟨[], by simp, fun x hx => by cases hx⟩
  | cons y c ih =>
    obtain ⟨L, h1, h2⟩ := ih fun x hx => h x (List.mem_cons_of_mem _ hx)
    obtain ⟨v, k⟩ := y
    have hk := h (v, k) (List.mem_cons_self ..)
    cases k with
    | saving th =>
      obtain ⟨dir, evs, b, L', hk⟩ := hk
      have hn : L'.length ≤ 256 := by
        have hc := hk.count
        cases th with
        | running => exact hc.2
        | making => exact Nat.le_trans hc.1 (Nat.le_of_lt hc.2)
        | opening => exact Nat.le_trans hc.1 (Nat.le_of_lt hc.2)
        | writing => exact Nat.le_trans hc.1 hc.2
        | done => exact hc.1
      refine ⟨L' ++ L, ?_, fun x hx hb d hd q hq => ?_⟩
      · rw [List.countP_cons_of_pos (by rfl), List.length_append]; omega
      · rcases List.mem_cons.mp hx with rfl | hx
        · simp only at hd
          rw [hk.temp] at hd
          cases hd
          exact ⟨hk.size q hq, fun hn => List.mem_append_left _ (hk.only q hq hn)⟩
        · obtain ⟨g1, g2⟩ := h2 x hx hb d hd q hq
          exact ⟨g1, fun hn => List.mem_append_right _ (g2 hn)⟩
    | _ =>
      refine ⟨L, by rw [List.countP_cons_of_neg (by simp [Worker.busy])]; exact h1, fun x hx hb => ?_⟩
      rcases List.mem_cons.mp hx with rfl | hx
      · cases hb
      · exact h2 x hx hb

theorem Staff.Good.use {w0 : World} {c : Staff} (h : Staff.Good D fuel w0 c w) (ps : List Path) (hps : ps.Nodup) : w.diskUse ps ≤ w0.diskUse ps + c.countP (fun x => x.2.busy) * (256 * (8 * 1024 * 1024 + 10 * 1024)) := by
  obtain ⟨L, h1, h2⟩ := Staff.list h.each
  have hq : ∀ q, w.fileSize q ≤ w0.fileSize q + L.count q * room := by
    intro q
    by_cases hb : ∃ x ∈ c, x.2.busy = true ∧ ∃ dir, x.1.temp.tempdir b!"multipart-rs" = .ok dir ∧ Below dir q
    · obtain ⟨x, hx, hxb, dir, hdir, hbel⟩ := hb
      obtain ⟨g1, g2⟩ := h2 x hx hxb dir hdir q hbel
      cases hf : w.files q with
      | none =>
        have : w.fileSize q = 0 := by unfold World.fileSize; rw [hf]
        omega
      | some y =>
        have hpos := List.count_pos_iff.mpr (g2 (by rw [hf]; simp))
        have := Nat.mul_le_mul_right room hpos
        omega
    · rw [World.fileSize_eq (h.rest q fun x hx hxb dir hdir hbel => hb ⟨x, hx, hxb, dir, hdir, hbel⟩)]
      omega
  have a : w.diskUse ps ≤ (ps.map fun q => w0.fileSize q + L.count q * room).sum := sum_map_le (fun q _ => hq q)
  rw [sum_map_add, sum_map_mul] at a
  have b := Nat.mul_le_mul_right room (Nat.le_trans (sum_count L hps) h1)
  have hroom : 8 * 1024 * 1024 + 10 * 1024 = room := by decide
  rw [hroom, ← Nat.mul_assoc]
  unfold World.diskUse at a ⊢
  omega

theorem Visit.rounds_le {vs : List Visit} (h : v ∈ vs) : v.req.rounds ≤ (vs.map fun v => v.req.rounds).sum := by
  induction vs with
  | nil => cases h
  | cons a l ih =>
    simp only [List.map_cons, List.sum_cons]
    rcases List.mem_cons.mp h with rfl | h
    · omega
    · have := ih h; omega

theorem withBody_inj {evs' : List Ev} {b' : Bytes} (h : withBody evs b = withBody evs' b') : evs = evs' ∧ b = b' := by
  have h1 : evs = evs' := congrArg BR.evs h
  have h2 : dashes ++ b = dashes ++ b' := congrArg BR.delim h
  exact ⟨h1, List.append_cancel_left h2⟩

/-- C141: the example servers may handle any requests at the same time, in any number of threads. At any time, with the requests that are being saved then: only files in their temporary directories are different from the start, and all files
together have at most 256 times (8 MiB + 10 KiB) more bytes for each of them. When each thread had 1027 steps, in whatever order, all requests are handled, and all files are as they were. (The temporary directories are new and
different.) -/
theorem C141_files (hD : D.Sane) {vs : List Visit} (hv : vs.Pairwise Visit.Apart) : ∃ n, ∀ fuel, n ≤ fuel → ∀ w : World, (∀ v ∈ vs, v.temp.NewIn w) → ∀ is c w', Staff.run D fuel is (Staff.start vs) w = (c, w') →
    (∀ q, (∀ x ∈ c, x.2.busy = true → ∀ dir, x.1.temp.tempdir b!"multipart-rs" = .ok dir → ¬ Below dir q) → w'.files q = w.files q) ∧
    (∀ ps : List Path, ps.Nodup → w'.diskUse ps ≤ w.diskUse ps + c.countP (fun x => x.2.busy) * (256 * (8 * 1024 * 1024 + 10 * 1024))) ∧
    ((∀ i, i < vs.length → 1027 ≤ is.count i) → (∀ x ∈ c, x.2 = .finished) ∧ w'.files = w.files) := by
  refine ⟨(vs.map fun v => v.req.rounds).sum, fun fuel hf w hw is c w' hrun => ?_⟩
  obtain ⟨g1, g2⟩ := Staff.run_good hD is (Staff.Good.start (D := D) (fuel := fuel) hv (fun v h => Nat.le_trans (Visit.rounds_le h) hf) hw)
  rw [hrun] at g1 g2
  refine ⟨g1.rest, g1.use, fun his => ?_⟩
  have hfin : ∀ x ∈ c, x.2 = .finished := by
    intro x hx
    have h0 := g2 (fun i y hy => by
      obtain ⟨hi, -⟩ := List.getElem?_eq_some_iff.mp hy
      have hm := List.mem_of_getElem? hy
      obtain ⟨v, -, rfl⟩ := List.mem_map.mp hm
      exact his i (by simpa [Staff.start] using hi)) x hx
    obtain ⟨v, k⟩ := x
    cases k with
    | waiting => cases h0
    | saving th => cases h0
    | finished => rfl
  exact ⟨hfin, funext fun q => g1.rest q fun x hx hb => by rw [hfin x hx] at hb; cases hb⟩

namespace Sample

/-- A request to the Rocket server, which gets a temporary directory with this number. -/
def visit (evs : List Ev) (number : Bytes) : Visit := ⟨.rocket ⟨true, [(b!"boundary", b!"b")], evs⟩, ⟨[b!"tmp"], fun _ => true, number, none⟩⟩

theorem visit_apart (evs evs' : List Ev) : [visit evs b!"1", visit evs' b!"2"].Pairwise Visit.Apart := by
  refine List.pairwise_cons.mpr ⟨?_, List.pairwise_singleton _ _⟩
  intro v hv
  rw [List.mem_singleton] at hv
  subst hv
  intro d d' h1 h2 q ⟨⟨r, h3⟩, ⟨r', h4⟩⟩
  cases h1
  cases h2
  rw [h3] at h4
  exact absurd h4 (by simp [visit])

end Sample

/-- C141_files: two requests are saved in files at the same time. -/
example : [Sample.visit Sample.evsHuge b!"1", Sample.visit Sample.evsHuge b!"2"].Pairwise Visit.Apart ∧ (∀ v ∈ [Sample.visit Sample.evsHuge b!"1", Sample.visit Sample.evsHuge b!"2"], v.temp.NewIn Sample.readyDisk) ∧
    (Staff.run refDeps 40 [0, 1, 0, 1, 1, 0, 0, 1, 0, 1] (Staff.start [Sample.visit Sample.evsHuge b!"1", Sample.visit Sample.evsHuge b!"2"]) Sample.readyDisk).2.diskUse
      [[b!"tmp", b!"multipart-rs1", b!"x"], [b!"tmp", b!"multipart-rs2", b!"y"]] = 22000 :=
  ⟨Sample.visit_apart _ _, fun _ _ _ _ _ _ => rfl, by decide +kernel⟩

/-- C141: what else is handled at the same time does not matter for what is saved: at any time the entries of a thread are the first parts of its own body, with their headers, and what it has saved can be read back and is their data. If its
save is full, they are all parts. -/
theorem C141_own (hD : D.Sane) {vs : List Visit} (hv : vs.Pairwise Visit.Apart) : ∃ n, ∀ fuel, n ≤ fuel → ∀ w : World, (∀ v ∈ vs, v.temp.NewIn w) → ∀ is c w', Staff.run D fuel is (Staff.start vs) w = (c, w') →
    ∀ v th evs b, (v, .saving th) ∈ c → v.req.multipart = some (withBody evs b) → NoStall evs → NoErr evs → ∀ parts fin, Parts D (dashes ++ b) (Ev.bytes evs) parts fin → ∀ e, th.entries = some e →
      ∃ fs m, GroupedByName e.fields fs ∧ All2 (SavedAs b evs w') fs (parts.take m) ∧ ∀ s, th = .done (.full e) s → m = parts.length ∧ fin = .closed := by
  refine ⟨(vs.map fun v => v.req.rounds).sum, fun fuel hf w hw is c w' hrun v th evs b hm hbody hn hne parts fin hP e he => ?_⟩
  obtain ⟨g1, -⟩ := Staff.run_good hD is (Staff.Good.start (D := D) (fuel := fuel) hv (fun v h => Nat.le_trans (Visit.rounds_le h) hf) hw)
  rw [hrun] at g1
  obtain ⟨dir, evs', b', L, hg⟩ := g1.each _ hm
  have hsame := hg.body
  rw [hbody] at hsame
  obtain ⟨rfl, rfl⟩ := withBody_inj (Option.some.inj hsame)
  exact (Thread.Sound.own (hg.sound parts) hn hne hP he).2

/-- C141_own: the first request has saved its first field. -/
example : ∃ (c : Staff) (w' : World) (th : Thread) (e : Entries), Staff.run refDeps 40 [0, 1, 0, 1] (Staff.start [Sample.visit Sample.evsTwo b!"1", Sample.visit Sample.evsTwo b!"2"]) Sample.readyDisk = (c, w') ∧
    (Sample.visit Sample.evsTwo b!"1", .saving th) ∈ c ∧ th.entries = some e ∧ e.fieldsCount = 1 ∧ (Sample.visit Sample.evsTwo b!"1").req.multipart = some (withBody Sample.evsTwo Sample.bnd) ∧
    NoStall Sample.evsTwo ∧ NoErr Sample.evsTwo ∧ Parts refDeps (dashes ++ Sample.bnd) (Ev.bytes Sample.evsTwo) [(Sample.fh, b!"one"), (Sample.fh, b!"two")] .closed := by
  rcases hc : Staff.run refDeps 40 [0, 1, 0, 1] (Staff.start [Sample.visit Sample.evsTwo b!"1", Sample.visit Sample.evsTwo b!"2"]) Sample.readyDisk with ⟨c, w'⟩
  have he : ((Staff.run refDeps 40 [0, 1, 0, 1] (Staff.start [Sample.visit Sample.evsTwo b!"1", Sample.visit Sample.evsTwo b!"2"]) Sample.readyDisk).1[0]?).map (fun x => match x.2 with
    | .saving th => th.entries.map Entries.fieldsCount
    | _ => none) = some (some 1) := by decide +kernel
  have hj : ((Staff.run refDeps 40 [0, 1, 0, 1] (Staff.start [Sample.visit Sample.evsTwo b!"1", Sample.visit Sample.evsTwo b!"2"]) Sample.readyDisk).1[0]?).map (fun x => x.1) = some (Sample.visit Sample.evsTwo b!"1") := rfl
  rw [hc] at he hj
  rcases hx : c[0]? with _ | ⟨v, k⟩
  · rw [hx] at he; cases he
  · rw [hx] at he hj
    simp only [Option.map_some, Option.some.injEq] at he hj
    subst hj
    cases k with
    | saving th =>
      obtain ⟨e, he1, he2⟩ := Option.map_eq_some_iff.mp he
      exact ⟨c, w', th, e, rfl, List.mem_of_getElem? hx, he1, he2, rfl, by decide +kernel, by intro e; simp [Sample.evsTwo], Sample.partsTwo⟩
    | _ => cases he

/-! ## One request alone -/

/-- Some steps of one worker. -/
def Worker.steps (D : Deps) (fuel : Nat) (v : Visit) : Nat → Worker → World → Worker × World
  | 0, k, w => (k, w)
  | n + 1, k, w => Worker.steps D fuel v n (k.step D fuel v w).1 (k.step D fuel v w).2

theorem Staff.run_steps (n : Nat) (k : Worker) (w : World) : Staff.run D fuel (List.replicate n 0) [(v, k)] w = ([(v, (k.steps D fuel v n w).1)], (k.steps D fuel v n w).2) := by
  induction n generalizing k w with
  | zero => rfl
  | succ n ih =>
    rw [List.replicate_succ]
    unfold Staff.run Worker.steps
    exact ih _ _

theorem Worker.steps_finished (n : Nat) : Worker.finished.steps D fuel v n w = (.finished, w) := by
  induction n with
  | zero => rfl
  | succ n ih => exact ih

theorem Worker.steps_saving (n : Nat) (th : Thread) (w : World) {r : SaveRes Entries PartialEntries} {d : SaveDir} (hr : (∃ e, r = .full e ∧ d = e.saveDir) ∨ ∃ p x, r = .part p x ∧ d = (v.req.kept p).saveDir)
    (h : th.steps D .default fuel n w = (.done r t, w')) : (Worker.saving th).steps D fuel v (n + 1) w = (.finished, d.drop none w') := by
  have hdone : ∀ m (w : World), (Worker.saving (.done r t)).steps D fuel v (m + 1) w = (.finished, d.drop none w) := by
    intro m w
    rcases hr with ⟨e, rfl, rfl⟩ | ⟨p, x, rfl, rfl⟩ <;> exact Worker.steps_finished m
  induction n generalizing th w with
  | zero => cases h; exact hdone 0 w'
  | succ n ih =>
    by_cases hd : ∃ r s, th = .done r s
    · obtain ⟨r', s', rfl⟩ := hd
      rw [Thread.steps_done] at h
      cases h
      exact hdone (n + 1) w'
    · have he : (Worker.saving th).step D fuel v w = (.saving (th.step D .default fuel w).1, (th.step D .default fuel w).2) := by
        cases th with
        | done r s => exact absurd ⟨r, s, rfl⟩ hd
        | _ => rfl
      show Worker.steps D fuel v (n + 1) ((Worker.saving th).step D fuel v w).1 ((Worker.saving th).step D fuel v w).2 = _
      rw [he]
      exact ih _ _ h

/-- C141: a thread that runs alone does what is claimed in C140. -/
theorem C141_alone (hD : D.Sane) (v : Visit) : ∃ n, ∀ fuel, n ≤ fuel → ∀ w : World, Staff.run D fuel (List.replicate (4 * fuel + 2) 0) (Staff.start [v]) w = ([(v, .finished)], v.req.answered D fuel v.temp none w) := by
  refine ⟨v.req.rounds, fun fuel hf w => ?_⟩
  show Staff.run D fuel _ [(v, .waiting)] w = _
  rw [Staff.run_steps]
  have key : Worker.waiting.steps D fuel v (4 * fuel + 2) w = (.finished, v.req.answered D fuel v.temp none w) := by
    show Worker.steps D fuel v (4 * fuel + 1) (Worker.waiting.step D fuel v w).1 (Worker.waiting.step D fuel v w).2 = _
    rcases v.req.multipart_body with hm | ⟨evs, b, hm⟩
    · unfold Worker.step ExampleReq.answered
      simp only [hm]
      exact Worker.steps_finished _
    · have hf : (withBody evs b).enough (Settings.default.memLimit 0) < fuel := by
        unfold ExampleReq.rounds at hf
        rw [hm] at hf
        exact hf
      have he := tempSave_ended_at hD evs b v.temp w hf
      unfold Worker.step ExampleReq.answered
      simp only [hm]
      generalize tempSave D .default fuel v.temp w (withBody evs b) = x at he ⊢
      cases he with
      | error h => simp only [h]; exact Worker.steps_finished _
      | full h1 h2 =>
        simp only [h1]
        exact Worker.steps_saving (4 * fuel) _ _ (.inl ⟨_, rfl, rfl⟩) (Thread.steps_loop fuel (4 * fuel) (Nat.le_refl _) _ _ _ _ h2 (by simp))
      | part h1 h2 =>
        simp only [h1]
        exact Worker.steps_saving (4 * fuel) _ _ (.inr ⟨_, _, rfl, rfl⟩) (Thread.steps_loop fuel (4 * fuel) (Nat.le_refl _) _ _ _ _ h2 (by simp))
  rw [key]

example : ∃ n, ∀ fuel, n ≤ fuel → ∀ w : World, Staff.run refDeps fuel (List.replicate (4 * fuel + 2) 0) (Staff.start [Sample.visit Sample.evsHuge b!"1"]) w =
    ([(Sample.visit Sample.evsHuge b!"1", .finished)], (Sample.visit Sample.evsHuge b!"1").req.answered refDeps fuel (Sample.visit Sample.evsHuge b!"1").temp none w) :=
  C141_alone refDeps_sane _

end Multipart

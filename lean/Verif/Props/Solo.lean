import Verif.Lemmas.Solo
import Verif.Props.IronWorkers
import Verif.Props.TempDir
/-!
# C145: to a request it makes no difference what else is handled at the same time
-/
namespace Multipart

variable {D : Deps} {fuel : Nat} {cfg : Settings} {w w' : World} {s t : BR} {d : SaveDir} {R : Path → Prop} {ι σ : Type}

/-! ## One step of a thread -/

/-- What the thread saves goes to this directory. -/
def Thread.InDir (d : SaveDir) : Thread → Prop
  | .running _ e _ => e.saveDir = d
  | .making e _ _ _ _ => e.saveDir = d
  | .opening e _ _ _ _ => e.saveDir = d
  | .writing e _ _ _ _ _ => e.saveDir = d
  | .done (.full e) _ => e.saveDir = d
  | .done (.part p _) _ => p.entries.saveDir = d
  | .done _ _ => True

theorem Thread.saved_inDir {e : Entries} {h : FieldHeaders} {r : SaveRes SavedData SavedData} (he : e.saveDir = d) : (Thread.saved D e h r s).InDir d := by
  cases r with
  | panic => trivial
  | hang => trivial
  | _ => exact he

theorem Thread.step_inDir {th : Thread} (h : th.InDir d) : (th.step D cfg fuel w).1.InDir d := by
  unfold Thread.step
  cases th with
  | running res e s =>
    simp only
    split
    · split
      · split
        · exact Thread.saved_inDir h
        · exact h
      all_goals first | exact h | trivial
    · exact h
  | making e hd name bytes s =>
    simp only
    split
    · exact Thread.saved_inDir (D := D) (s := s) (h := hd) (r := .error _) h
    · exact h
  | opening e hd name bytes s =>
    simp only
    split
    · exact Thread.saved_inDir (D := D) (s := s) (h := hd) (r := .error _) h
    · exact h
  | writing e hd name old bytes s => exact Thread.saved_inDir h
  | done r s => exact h

theorem Thread.step_local {th : Thread} (h : th.InDir d) : Local (Below d.asPath) fun w => th.step D cfg fuel w := by
  cases th with
  | running res e s =>
    by_cases hc : e.fieldsCount < cfg.countLimit
    · cases res with
      | ok o =>
        cases o with
        | none => exact (Local.pure _).congr fun w => by simp only [Thread.step, if_pos hc]; rfl
        | some hd =>
          rcases hm : saveInMemory (fieldPolicy cfg hd) fuel s with ⟨r | bytes, s1⟩
          · refine (randName_local.bind (g := fun _ w => (Thread.saved D e hd r s1, w)) fun _ => .pure _).congr fun w => ?_
            simp only [Thread.step, if_pos hc, hm]
          · refine (randName_local.bind (g := fun name w => (Thread.making e hd name bytes s1, w)) fun _ => .pure _).congr fun w => ?_
            simp only [Thread.step, if_pos hc, hm]
      | _ => exact (Local.pure _).congr fun w => by simp only [Thread.step, if_pos hc]; rfl
    · exact (Local.pure _).congr fun w => by simp only [Thread.step, if_neg hc]; rfl
  | making e hd name bytes s =>
    refine ((createDirAll_local (e.saveDir.asPath ++ [name])).bind (g := fun r w => match r with
      | some er => (Thread.saved D e hd (.error er) s, w)
      | none => (.opening e hd name bytes s, w)) fun r => ?_).congr fun w => ?_
    · cases r <;> exact .pure _
    · unfold Thread.step
      simp only
      rcases w.createDirAll (e.saveDir.asPath ++ [name]) with ⟨_ | _, _⟩ <;> rfl
  | opening e hd name bytes s =>
    have hp : Below d.asPath (e.saveDir.asPath ++ [name]) := by rw [show e.saveDir = d from h]; exact ⟨[name], rfl⟩
    refine ((openFile_local cfg.openOpts hp).bind (g := fun r w => match r with
      | .error er => (Thread.saved D e hd (.error er) s, w)
      | .ok old => (.writing e hd name old bytes s, w.setFile (e.saveDir.asPath ++ [name]) old)) fun r => ?_).congr fun w => ?_
    · cases r with
      | error er => exact .pure _
      | ok old => exact setFile_local hp _ _
    · unfold Thread.step
      simp only
      rcases w.openFile cfg.openOpts (e.saveDir.asPath ++ [name]) with ⟨_ | _, _⟩ <;> rfl
  | writing e hd name old bytes s =>
    have hp : Below d.asPath (e.saveDir.asPath ++ [name]) := by rw [show e.saveDir = d from h]; exact ⟨[name], rfl⟩
    exact ((writeFile_local (fieldPolicy cfg hd) fuel hp old bytes s).bind (g := fun x w => (Thread.saved D e hd x.1 x.2, w)) fun x => .pure _).congr fun w => rfl
  | done r s => exact Local.pure _

theorem drop_local {α : Type} (a : α) (dir : Path) (h : d = .temp dir) : Local (Below dir) fun w => (a, d.drop none w) := by
  subst h
  have hb : ∀ q : Path, dir <+: q ↔ Below dir q := fun q => ⟨fun ⟨r, h⟩ => ⟨r, h.symm⟩, fun ⟨r, h⟩ => ⟨r, h.symm⟩⟩
  intro w
  refine ⟨fun q hq => ?_, ⟨fun _ h => .inl h, fun _ h => .inl h, fun _ h => .inl h, fun _ h => .inl h⟩, .none,
    ⟨by simp [World.withScript, Script.none], by simp [World.withScript, Script.none], by simp [World.withScript, Script.none], by simp [World.withScript, Script.none]⟩, fun rest w0 hs => ⟨rfl, fun q hq => ?_, hs.script⟩⟩
  · exact (SaveDir.drop_temp (fail := none) (w := w) (.temp dir) rfl).2 q hq
  · rw [((SaveDir.drop_temp (fail := none) (w := w) (.temp dir) rfl).1 rfl q hq).1, ((SaveDir.drop_temp (fail := none) (w := w0) (.temp dir) rfl).1 rfl q hq).1]

/-! ## Many threads -/

/-- Threads run in the order of the list, which has their numbers. -/
def manyRun (step : ι → σ → World → σ × World) : List Nat → List (ι × σ) → World → List (ι × σ) × World
  | [], c, w => (c, w)
  | n :: ns, c, w =>
    match c[n]? with
    | some (v, k) => manyRun step ns (c.set n (v, (step v k w).1)) (step v k w).2
    | none => manyRun step ns c w

/-- The steps of these threads look only at files of their regions. `inv` holds for the states they can have. -/
structure Regions (step : ι → σ → World → σ × World) (inv : ι → σ → Prop) (R : ι → Path → Prop) : Prop where
  keeps : ∀ v k w, inv v k → inv v (step v k w).1
  within : ∀ v k, inv v k → Local (R v) (step v k)

variable {step : ι → σ → World → σ × World} {inv : ι → σ → Prop} {Rs : ι → Path → Prop}

theorem many_solo (hR : Regions step inv Rs) (ns : List Nat) {c c' : List (ι × σ)} {n : Nat} {v : ι} {k : σ} (hinv : ∀ x ∈ c, inv x.1 x.2) (hn : c[n]? = some (v, k))
    (hap : ∀ m v' k', m ≠ n → c[m]? = some (v', k') → ∀ q, ¬ (Rs v q ∧ Rs v' q)) (hrun : manyRun step ns c w = (c', w')) :
    ∃ k', c'[n]? = some (v, k') ∧ ∃ u : Script, (w.withScript u).MeetsOnly w ∧ ∀ rest w0, Seen (Rs v) (u.app rest) w0 w →
      ∃ w1, manyRun step (List.replicate (ns.count n) 0) [(v, k)] w0 = ([(v, k')], w1) ∧ Seen (Rs v) rest w1 w' := by
  induction ns generalizing c w k with
  | nil =>
    cases hrun
    exact ⟨k, hn, .none, ⟨by simp [World.withScript, Script.none], by simp [World.withScript, Script.none], by simp [World.withScript, Script.none], by simp [World.withScript, Script.none]⟩, fun rest w0 hs => ⟨w0, rfl, hs⟩⟩
  | cons m ns ih =>
    unfold manyRun at hrun
    split at hrun
    · rename_i v1 k1 hm
      have hi1 := hinv _ (List.mem_of_getElem? hm)
      obtain ⟨h1, h2, x, h3, h4⟩ := hR.within v1 k1 hi1 w
      have hinv' : ∀ x ∈ c.set m (v1, (step v1 k1 w).1), inv x.1 x.2 := by
        intro x hx
        rcases List.mem_or_eq_of_mem_set hx with hx | rfl
        · exact hinv x hx
        · exact hR.keeps v1 k1 w hi1
      have hlt : m < c.length := (List.getElem?_eq_some_iff.mp hm).1
      by_cases hmn : m = n
      · subst hmn
        rw [hn] at hm
        cases hm
        obtain ⟨k', g1, u, g2, g3⟩ := ih hinv' (by rw [List.getElem?_set_self hlt]) (fun m' v' k' hne hm' => by
          rw [List.getElem?_set_ne (fun h => hne h.symm)] at hm'
          exact hap m' v' k' hne hm') hrun
        refine ⟨k', g1, x.app u, h3.app (g2.trans h2).script, fun rest w0 hs => ?_⟩
        rw [Script.app_assoc] at hs
        obtain ⟨a1, a2⟩ := h4 _ w0 hs
        obtain ⟨w1, b1, b2⟩ := g3 rest _ a2
        refine ⟨w1, ?_, b2⟩
        rw [List.count_cons_self, List.replicate_succ]
        unfold manyRun
        show manyRun step _ [(v, (step v k w0).1)] (step v k w0).2 = _
        rw [a1]
        exact b1
      · obtain ⟨k', g1, u, g2, g3⟩ := ih hinv' (by rw [List.getElem?_set_ne hmn]; exact hn) (fun m' v' k' hne hm' => by
          by_cases hmm : m = m'
          · subst hmm
            rw [List.getElem?_set_self hlt] at hm'
            cases hm'
            exact hap m v1 k1 hne hm
          · rw [List.getElem?_set_ne hmm] at hm'
            exact hap m' v' k' hne hm') hrun
        refine ⟨k', g1, u, (g2.trans h2).script, fun rest w0 hs => ?_⟩
        rw [List.count_cons_of_ne hmn]
        refine g3 rest w0 ⟨fun q hq => ?_, hs.script⟩
        rw [hs.files q hq, h1 q fun hq1 => hap m v1 k1 hmn hm q ⟨hq, hq1⟩]
    · rename_i hm
      have hmn : m ≠ n := by
        rintro rfl
        rw [hn] at hm
        cases hm
      rw [List.count_cons_of_ne hmn]
      exact ih hinv hn hap hrun

/-- The same for the world that has just these scripts. -/
theorem many_solo' (hR : Regions step inv Rs) (ns : List Nat) {c c' : List (ι × σ)} {n : Nat} {v : ι} {k : σ} (hinv : ∀ x ∈ c, inv x.1 x.2) (hn : c[n]? = some (v, k))
    (hap : ∀ m v' k', m ≠ n → c[m]? = some (v', k') → ∀ q, ¬ (Rs v q ∧ Rs v' q)) (hrun : manyRun step ns c w = (c', w')) :
    ∃ k', c'[n]? = some (v, k') ∧ ∃ w0 w1 : World, w0.files = w.files ∧ w0.dirs = w.dirs ∧ w0.MeetsOnly w ∧ manyRun step (List.replicate (ns.count n) 0) [(v, k)] w0 = ([(v, k')], w1) ∧
      ∀ q, Rs v q → w1.files q = w'.files q := by
  obtain ⟨k', h1, u, h2, h3⟩ := many_solo hR ns hinv hn hap hrun
  obtain ⟨w1, g1, g2⟩ := h3 .none (w.withScript u) ⟨fun _ _ => rfl, (Script.app_none u).symm⟩
  exact ⟨k', h1, w.withScript u, w1, rfl, rfl, h2, g1, g2.files⟩

theorem apart_of {A : ι → ι → Prop} (hsym : ∀ a b, A a b → A b a) {vs : List ι} (h : vs.Pairwise A) {m n : Nat} {a b : ι} (hm : vs[m]? = some a) (hn : vs[n]? = some b) (hne : m ≠ n) : A a b := by
  obtain ⟨h1, rfl⟩ := List.getElem?_eq_some_iff.mp hm
  obtain ⟨h2, rfl⟩ := List.getElem?_eq_some_iff.mp hn
  rcases Nat.lt_or_gt_of_ne hne with h3 | h3
  · exact List.pairwise_iff_getElem.mp h m n h1 h2 h3
  · exact hsym _ _ (List.pairwise_iff_getElem.mp h n m h2 h1 h3)

/-! ## Saves of requests -/

theorem Crew.run_many (ns : List Nat) (c : Crew) (w : World) : Crew.run D fuel ns c w = manyRun (fun j th w => Thread.step D j.cfg fuel th w) ns c w := by
  induction ns generalizing c w with
  | nil => rfl
  | cons n ns ih =>
    unfold Crew.run manyRun
    rcases c[n]? with _ | ⟨v, k⟩ <;> exact ih _ _

theorem Job.regions : Regions (fun (j : Job) th w => Thread.step D j.cfg fuel th w) (fun j th => th.InDir j.dir) (fun j q => Below j.dir.asPath q) :=
  ⟨fun _ _ _ h => Thread.step_inDir h, fun _ _ h => Thread.step_local h⟩

/-- C145: requests are saved at the same time, with any settings, each in a directory of its own. For each of them one can forget the others: there is a disk with the same files, on which nothing happens that does not happen on this one, and
if the request were saved there alone, the thread would be in the same state now, and the files in its directory would be the same. -/
theorem C145_saves {js : List Job} (hj : js.Pairwise Job.Apart) {ns : List Nat} {c : Crew} {w w' : World} (hrun : Crew.run D fuel ns (Crew.start D js) w = (c, w')) {n : Nat} {j : Job} (hn : js[n]? = some j) :
    ∃ th, c[n]? = some (j, th) ∧ ∃ w0 w1 : World, w0.files = w.files ∧ w0.dirs = w.dirs ∧ w0.MeetsOnly w ∧ Crew.run D fuel (List.replicate (ns.count n) 0) (Crew.start D [j]) w0 = ([(j, th)], w1) ∧
      ∀ q, Below j.dir.asPath q → w1.files q = w'.files q := by
  rw [Crew.run_many] at hrun
  have hstart : ∀ (m : Nat) v k, (Crew.start D js)[m]? = some (v, k) → js[m]? = some v := by
    intro m v k h
    unfold Crew.start at h
    rw [List.getElem?_map] at h
    obtain ⟨j', h1, h2⟩ := Option.map_eq_some_iff.mp h
    cases h2
    exact h1
  obtain ⟨th, h1, w0, w1, h2, h3, h4, h5, h6⟩ := many_solo' Job.regions ns (n := n) (v := j) (k := Thread.start D (Entries.new j.dir) (withBody j.up.evs j.up.b)) (fun x hx => by
    obtain ⟨j', -, rfl⟩ := List.mem_map.mp hx
    exact rfl) (by
    unfold Crew.start
    rw [List.getElem?_map, hn]
    rfl) (fun m v' k' hne hm q hq => apart_of (A := Job.Apart) (fun a b h q hq => h q hq.symm) hj hn (hstart m v' k' hm) (fun h => hne h.symm) q hq) hrun
  refine ⟨th, h1, w0, w1, h2, h3, h4, ?_, h6⟩
  rw [Crew.run_many]
  exact h5

namespace Sample

/-- Another request, which is saved in this directory; its files are opened in any state. -/
def soloJob (evs : List Ev) (dir : Bytes) : Job := ⟨{ Settings.default with memoryThreshold := 0, openOpts := { Settings.default.openOpts with createNew := false, create := true } }, .perm [b!"uploads", dir], ⟨evs, bnd, []⟩⟩

theorem soloJob_apart (evs evs' : List Ev) : [soloJob evs b!"1", soloJob evs' b!"2"].Pairwise Job.Apart := by
  refine List.pairwise_cons.mpr ⟨?_, List.pairwise_singleton _ _⟩
  intro j hj
  rw [List.mem_singleton] at hj
  subst hj
  rintro q ⟨⟨r, h3⟩, ⟨r', h4⟩⟩
  rw [h3] at h4
  exact absurd h4 (by simp [soloJob, SaveDir.asPath])

end Sample

/-- C145_saves: two requests are saved in turns; the first has two files. -/
example : [Sample.soloJob Sample.evsTwo b!"1", Sample.soloJob Sample.evsHuge b!"2"].Pairwise Job.Apart ∧
    (Crew.run refDeps 40 [0, 1, 0, 1, 1, 0, 0, 0, 0, 0, 0, 1, 0, 1] (Crew.start refDeps [Sample.soloJob Sample.evsTwo b!"1", Sample.soloJob Sample.evsHuge b!"2"]) Sample.readyDisk).2.diskUse
      [[b!"uploads", b!"1", b!"x"], [b!"uploads", b!"1", b!"z"]] = 6 :=
  ⟨Sample.soloJob_apart _ _, by decide +kernel⟩

/-! ## The example servers -/

theorem Staff.run_many (ns : List Nat) (c : Staff) (w : World) : Staff.run D fuel ns c w = manyRun (fun v k w => Worker.step D fuel v k w) ns c w := by
  induction ns generalizing c w with
  | nil => rfl
  | cons n ns ih =>
    unfold Staff.run manyRun
    rcases c[n]? with _ | ⟨v, k⟩ <;> exact ih _ _

/-- The worker saves in the directory of the request. -/
def Worker.InDir (v : Visit) : Worker → Prop
  | .saving th => ∃ dir, v.temp.tempdir b!"multipart-rs" = .ok dir ∧ th.InDir (.temp dir)
  | _ => True

theorem Local.mono {α : Type} {R R' : Path → Prop} {f : World → α × World} (hf : Local R f) (h : ∀ q, R q ↔ R' q) : Local R' f := by
  have : R = R' := funext fun q => propext (h q)
  rw [← this]
  exact hf

theorem Visit.regions : Regions (fun v k w => Worker.step D fuel v k w) Worker.InDir (fun v q => ∃ dir, v.temp.tempdir b!"multipart-rs" = .ok dir ∧ Below dir q) := by
  refine ⟨fun v k w h => ?_, fun v k h => ?_⟩
  · unfold Worker.step
    cases k with
    | waiting =>
      simp only
      split
      · trivial
      · split
        · trivial
        · rename_i dir hdir
          exact ⟨dir, hdir, rfl⟩
    | finished => trivial
    | saving th =>
      obtain ⟨dir, h1, h2⟩ := h
      simp only
      split
      · trivial
      · trivial
      · exact ⟨dir, h1, Thread.step_inDir h2⟩
  · cases k with
    | waiting =>
      cases hm : v.req.multipart with
      | none => exact (Local.pure _).congr fun w => by simp only [Worker.step, hm]; rfl
      | some m =>
        cases hdir : v.temp.tempdir b!"multipart-rs" with
        | error er => exact (Local.pure _).congr fun w => by simp only [Worker.step, hm, hdir]; rfl
        | ok dir => exact (addDir_local _ dir).congr fun w => by simp only [Worker.step, hm, hdir]; rfl
    | finished => exact Local.pure _
    | saving th =>
      obtain ⟨dir, h1, h2⟩ := h
      refine Local.mono (R := Below dir) ?_ fun q => ⟨fun hq => ⟨dir, h1, hq⟩, fun ⟨dir', h, hq⟩ => by rw [h1] at h; cases h; exact hq⟩
      by_cases hd : (∃ e s, th = .done (.full e) s) ∨ ∃ p r s, th = .done (.part p r) s
      · rcases hd with ⟨e, s, rfl⟩ | ⟨p, r, s, rfl⟩
        · exact drop_local _ dir h2
        · exact drop_local _ dir (by rw [v.req.kept_dir]; exact h2)
      · refine ((Thread.step_local (D := D) (cfg := .default) (fuel := fuel) h2).bind (g := fun th w => (Worker.saving th, w)) fun _ => .pure _).congr fun w => ?_
        cases th with
        | done r s =>
          cases r with
          | full e => exact absurd (.inl ⟨e, s, rfl⟩) hd
          | part p r => exact absurd (.inr ⟨p, r, s, rfl⟩) hd
          | _ => rfl
        | _ => rfl

/-- C145: the same for requests to the example servers. -/
theorem C145_examples {vs : List Visit} (hv : vs.Pairwise Visit.Apart) {ns : List Nat} {c : Staff} {w w' : World} (hrun : Staff.run D fuel ns (Staff.start vs) w = (c, w')) {n : Nat} {v : Visit} (hn : vs[n]? = some v) :
    ∃ k, c[n]? = some (v, k) ∧ ∃ w0 w1 : World, w0.files = w.files ∧ w0.dirs = w.dirs ∧ w0.MeetsOnly w ∧ Staff.run D fuel (List.replicate (ns.count n) 0) (Staff.start [v]) w0 = ([(v, k)], w1) ∧
      ∀ dir, v.temp.tempdir b!"multipart-rs" = .ok dir → ∀ q, Below dir q → w1.files q = w'.files q := by
  rw [Staff.run_many] at hrun
  have hstart : ∀ (m : Nat) v k, (Staff.start vs)[m]? = some (v, k) → vs[m]? = some v := by
    intro m v k h
    unfold Staff.start at h
    rw [List.getElem?_map] at h
    obtain ⟨j', h1, h2⟩ := Option.map_eq_some_iff.mp h
    cases h2
    exact h1
  obtain ⟨th, h1, w0, w1, h2, h3, h4, h5, h6⟩ := many_solo' Visit.regions ns (n := n) (v := v) (k := .waiting) (fun x hx => by
    obtain ⟨j', -, rfl⟩ := List.mem_map.mp hx
    trivial) (by
    unfold Staff.start
    rw [List.getElem?_map, hn]
    rfl) (fun m v' k' hne hm q ⟨⟨d, e1, e2⟩, ⟨d', e3, e4⟩⟩ => apart_of (A := Visit.Apart) (fun a b h d d' h1 h2 q hq => h d' d h2 h1 q hq.symm) hv hn (hstart m v' k' hm) (fun h => hne h.symm) d d' e1 e3 q ⟨e2, e4⟩) hrun
  refine ⟨th, h1, w0, w1, h2, h3, h4, ?_, fun dir hdir q hq => h6 q ⟨dir, hdir, hq⟩⟩
  rw [Staff.run_many]
  exact h5

/-- C145_examples: two requests are saved in files in turns. -/
example : [Sample.visit Sample.evsHuge b!"1", Sample.visit Sample.evsHuge b!"2"].Pairwise Visit.Apart ∧ [Sample.visit Sample.evsHuge b!"1", Sample.visit Sample.evsHuge b!"2"][1]? = some (Sample.visit Sample.evsHuge b!"2") ∧
    (Staff.run refDeps 40 [0, 1, 0, 1, 1, 0, 0, 1, 0, 1] (Staff.start [Sample.visit Sample.evsHuge b!"1", Sample.visit Sample.evsHuge b!"2"]) Sample.readyDisk).2.fileSize [b!"tmp", b!"multipart-rs2", b!"y"] = 11000 :=
  ⟨Sample.visit_apart _ _, rfl, by decide +kernel⟩

/-! ## Iron's middleware -/

variable {i : Intercept}

theorem IronStaff.run_many (ns : List Nat) (c : IronStaff) (w : World) : IronStaff.run D i fuel ns c w = manyRun (fun v k w => IronWorker.step D i fuel v k w) ns c w := by
  induction ns generalizing c w with
  | nil => rfl
  | cons n ns ih =>
    unfold IronStaff.run manyRun
    rcases c[n]? with _ | ⟨v, k⟩ <;> exact ih _ _

/-- The worker saves in the directory of the request. -/
def IronWorker.InDir (v : IronVisit) : IronWorker → Prop
  | .saving th => ∃ dir, v.made = .ok dir ∧ th.InDir (.temp dir)
  | .handling e => ∃ dir, v.made = .ok dir ∧ e.saveDir = .temp dir
  | _ => True

theorem IronVisit.regions : Regions (fun v k w => IronWorker.step D i fuel v k w) IronWorker.InDir (fun v q => ∃ dir, v.made = .ok dir ∧ Below dir q) := by
  refine ⟨fun v k w h => ?_, fun v k h => ?_⟩
  · unfold IronWorker.step
    cases k with
    | waiting =>
      simp only
      split
      · trivial
      · split
        · trivial
        · rename_i dir hdir
          exact ⟨dir, hdir, rfl⟩
    | finished => trivial
    | handling e => trivial
    | saving th =>
      obtain ⟨dir, h1, h2⟩ := h
      simp only
      split
      · exact ⟨dir, h1, h2⟩
      · trivial
      · split
        · trivial
        · refine ⟨dir, h1, ?_⟩
          exact (PartialEntries.keepPartial_dir _).trans h2
      · exact ⟨dir, h1, Thread.step_inDir h2⟩
  · cases k with
    | waiting =>
      cases hm : fromRequest ironHttp v.req with
      | error e => exact (Local.pure _).congr fun w => by simp only [IronWorker.step, hm]; rfl
      | ok m =>
        cases hdir : v.made with
        | error er => exact (Local.pure _).congr fun w => by simp only [IronWorker.step, hm, hdir]; rfl
        | ok dir => exact (addDir_local _ dir).congr fun w => by simp only [IronWorker.step, hm, hdir]; rfl
    | finished => exact Local.pure _
    | handling e =>
      obtain ⟨dir, h1, h2⟩ := h
      refine Local.mono (R := Below dir) ?_ fun q => ⟨fun hq => ⟨dir, h1, hq⟩, fun ⟨dir', h, hq⟩ => by rw [h1] at h; cases h; exact hq⟩
      exact drop_local _ dir h2
    | saving th =>
      obtain ⟨dir, h1, h2⟩ := h
      refine Local.mono (R := Below dir) ?_ fun q => ⟨fun hq => ⟨dir, h1, hq⟩, fun ⟨dir', h, hq⟩ => by rw [h1] at h; cases h; exact hq⟩
      by_cases hd : (∃ e s, th = .done (.full e) s) ∨ ∃ p r s, th = .done (.part p r) s
      · rcases hd with ⟨e, s, rfl⟩ | ⟨p, r, s, rfl⟩
        · exact Local.pure _
        · cases hb : i.limitBehavior with
          | throwError => exact (drop_local IronWorker.finished dir h2).congr fun w => by cases r <;> simp only [IronWorker.step, hb]
          | continue_ =>
            by_cases hr : ∃ er, r = .io er
            · obtain ⟨er, rfl⟩ := hr
              exact drop_local _ dir h2
            · exact (Local.pure (IronWorker.saving (Thread.start D p.keepPartial s))).congr fun w => by
                cases r with
                | io er => exact absurd ⟨er, rfl⟩ hr
                | _ => simp only [IronWorker.step, hb]
      · refine ((Thread.step_local (D := D) (cfg := i.settings) (fuel := fuel) h2).bind (g := fun th w => (IronWorker.saving th, w)) fun _ => .pure _).congr fun w => ?_
        cases th with
        | done r s =>
          cases r with
          | full e => exact absurd (.inl ⟨e, s, rfl⟩) hd
          | part p r => exact absurd (.inr ⟨p, r, s, rfl⟩) hd
          | _ => rfl
        | _ => rfl

/-- C145: the same for requests that Iron's middleware intercepts, in both modes; the state of the thread has the entries that the handler gets. -/
theorem C145_iron {vs : List IronVisit} (hv : vs.Pairwise IronVisit.Apart) {ns : List Nat} {c : IronStaff} {w w' : World} (hrun : IronStaff.run D i fuel ns (IronStaff.start vs) w = (c, w')) {n : Nat} {v : IronVisit}
    (hn : vs[n]? = some v) :
    ∃ k, c[n]? = some (v, k) ∧ ∃ w0 w1 : World, w0.files = w.files ∧ w0.dirs = w.dirs ∧ w0.MeetsOnly w ∧ IronStaff.run D i fuel (List.replicate (ns.count n) 0) (IronStaff.start [v]) w0 = ([(v, k)], w1) ∧
      ∀ dir, v.made = .ok dir → ∀ q, Below dir q → w1.files q = w'.files q := by
  rw [IronStaff.run_many] at hrun
  have hstart : ∀ (m : Nat) v k, (IronStaff.start vs)[m]? = some (v, k) → vs[m]? = some v := by
    intro m v k h
    unfold IronStaff.start at h
    rw [List.getElem?_map] at h
    obtain ⟨j', h1, h2⟩ := Option.map_eq_some_iff.mp h
    cases h2
    exact h1
  obtain ⟨th, h1, w0, w1, h2, h3, h4, h5, h6⟩ := many_solo' IronVisit.regions ns (n := n) (v := v) (k := .waiting) (fun x hx => by
    obtain ⟨j', -, rfl⟩ := List.mem_map.mp hx
    trivial) (by
    unfold IronStaff.start
    rw [List.getElem?_map, hn]
    rfl) (fun m v' k' hne hm q ⟨⟨d, e1, e2⟩, ⟨d', e3, e4⟩⟩ => apart_of (A := IronVisit.Apart) (fun a b h d d' h1 h2 q hq => h d' d h2 h1 q hq.symm) hv hn (hstart m v' k' hm) (fun h => hne h.symm) d d' e1 e3 q ⟨e2, e4⟩) hrun
  refine ⟨th, h1, w0, w1, h2, h3, h4, ?_, fun dir hdir q hq => h6 q ⟨dir, hdir, hq⟩⟩
  rw [IronStaff.run_many]
  exact h5

namespace Sample

/-- A lenient middleware that cuts fields to 2 bytes. -/
def lenientCut : Intercept := { Intercept.default with fileSizeLimit := 2, limitBehavior := .continue_ }

end Sample

/-- C145_iron: two requests with cut fields; the first is in the handler. -/
example : [Sample.ironVisit Sample.evsTwo b!"1", Sample.ironVisit Sample.evsTwo b!"2"].Pairwise IronVisit.Apart ∧
    ((IronStaff.run refDeps Sample.lenientCut 40 [0, 1, 0, 1, 1, 0, 0, 0, 1, 0, 0, 0, 0, 0, 0, 0, 0] (IronStaff.start [Sample.ironVisit Sample.evsTwo b!"1", Sample.ironVisit Sample.evsTwo b!"2"]) Sample.readyDisk).1[0]?).map (fun x => match x.2 with
      | .handling e => some e.fieldsCount
      | _ => none) = some (some 2) :=
  ⟨Sample.ironVisit_apart _ _, by decide +kernel⟩

theorem IronWorker.steps_add (n m : Nat) {v : IronVisit} (k : IronWorker) (w : World) :
    k.steps D i fuel v (n + m) w = (k.steps D i fuel v n w).1.steps D i fuel v m (k.steps D i fuel v n w).2 := by
  induction n generalizing k w with
  | zero => rw [Nat.zero_add]; rfl
  | succ n ih => rw [Nat.succ_add]; exact ih _ _

/-- The state after one `with_entries` of a lenient middleware. -/
theorem IronWorker.steps_entries {v : IronVisit} {e : Entries} {r : SaveRes Entries PartialEntries} (h : withEntries D i.settings fuel e w s = (r, w', t)) (hr : r ≠ .hang) :
    ∃ m, (IronWorker.saving (Thread.start D e s)).steps D i fuel v m w = (IronWorker.saving (.done r t)).step D i fuel v w' := by
  obtain ⟨m, -, hm⟩ := IronWorker.steps_saving (v := v) (4 * fuel) _ _ (Thread.steps_loop fuel (4 * fuel) (Nat.le_refl _) _ _ _ _ h hr)
  exact ⟨m + 1, IronWorker.steps_succ _ _ _ hm⟩

/-- The entries among the result of the middleware. -/
def handedOn : Except IronErr (Option Entries) → Option Entries
  | .ok o => o
  | .error _ => none

theorem IronWorker.steps_lenient {v : IronVisit} (hs : i.limitBehavior = .continue_) (n : Nat) {e : Entries} {out : Except IronErr (Option Entries)} (h : i.lenientLoop D fuel none n e w s = (.ok out, w', t)) :
    ∃ m, (IronWorker.saving (Thread.start D e s)).steps D i fuel v m w = (.after (handedOn out), w') := by
  induction n generalizing e w s with
  | zero => cases h
  | succ n ih =>
    unfold Intercept.lenientLoop at h
    rcases hx : withEntries D i.settings fuel e w s with ⟨r, w1, s1⟩
    rw [hx] at h
    cases r with
    | full e1 =>
      cases h
      exact IronWorker.steps_entries hx (by simp)
    | part p reason =>
      obtain ⟨m, hm⟩ := IronWorker.steps_entries (v := v) hx (by simp)
      have hgo : i.lenientLoop D fuel none n p.keepPartial w1 s1 = (.ok out, w', t) →
          (IronWorker.saving (.done (.part p reason) s1)).step D i fuel v w1 = (.saving (Thread.start D p.keepPartial s1), w1) →
          ∃ m, (IronWorker.saving (Thread.start D e s)).steps D i fuel v m w = (.after (handedOn out), w') := by
        intro h1 h2
        obtain ⟨m', hm'⟩ := ih h1
        exact ⟨m + m', by rw [IronWorker.steps_add, hm, h2]; exact hm'⟩
      cases reason with
      | io er =>
        cases h
        exact ⟨m, hm⟩
      | _ => exact hgo h (by simp only [IronWorker.step, hs])
    | error er =>
      obtain ⟨fs, w2, s2, -, -, h3 | ⟨h3, -⟩⟩ := withEntries_spec hx
      · cases h3
      · cases h3
    | panic => cases h
    | hang => cases h

/-- C145: a thread that runs alone does what a lenient middleware does in C60 and the like, if this returns: at some time it is in the handler, with the entries that `before` adds to the request, and the disk is as `before` leaves it; or,
if there are none, it is finished. (For the strict middleware this is C144_alone.) -/
theorem C145_lenient (hs : i.limitBehavior = .continue_) {v : IronVisit} {r : Except IronErr Unit} {ext : Option Entries} (h : i.before D fuel v.made none w v.req none = (.ok r, ext, w')) :
    ∃ m, IronStaff.run D i fuel (List.replicate m 0) (IronStaff.start [v]) w = ([(v, .after ext)], w') := by
  suffices hk : ∃ m, IronWorker.waiting.steps D i fuel v m w = (.after ext, w') by
    obtain ⟨m, hk⟩ := hk
    refine ⟨m, ?_⟩
    show IronStaff.run D i fuel _ [(v, .waiting)] w = _
    rw [IronStaff.run_steps, hk]
  obtain ⟨out, hrd, hext⟩ : ∃ out, i.readRequest D fuel v.made none w v.req = (.ok out, w') ∧ ext = handedOn out := by
    unfold Intercept.before at h
    split at h <;> cases h
    · rename_i h; exact ⟨_, h, rfl⟩
    · rename_i h; exact ⟨_, h, rfl⟩
    · rename_i h; exact ⟨_, h, rfl⟩
  subst hext
  unfold Intercept.readRequest at hrd
  cases hm : fromRequest ironHttp v.req with
  | error q =>
    simp only [hm] at hrd
    cases hrd
    refine ⟨1, ?_⟩
    show IronWorker.waiting.step D i fuel v w = _
    simp only [IronWorker.step, hm]
    rfl
  | ok m =>
    simp only [hm, hs] at hrd
    cases hdir : v.made with
    | error er =>
      simp only [hdir] at hrd
      cases hrd
      refine ⟨1, ?_⟩
      show IronWorker.waiting.step D i fuel v w = _
      simp only [IronWorker.step, hm, hdir]
      rfl
    | ok dir =>
      simp only [hdir] at hrd
      have hstart : IronWorker.waiting.step D i fuel v w = (.saving (Thread.start D (Entries.new (.temp dir)) m), { w with dirs := w.dirs ++ [dir] }) := by
        unfold IronWorker.step
        simp only [hm, hdir]
      rcases hx : i.readRequestLenient D fuel none dir { w with dirs := w.dirs ++ [dir] } m with ⟨o, w1, t⟩
      rw [hx] at hrd
      cases hrd
      have hloop : i.lenientLoop D fuel none (fuel + 1) (Entries.new (.temp dir)) { w with dirs := w.dirs ++ [dir] } m = (.ok out, w1, t) := by
        rw [← hx]
        rfl
      obtain ⟨n, hn⟩ := IronWorker.steps_lenient (v := v) hs _ hloop
      refine ⟨n + 1, ?_⟩
      show IronWorker.steps D i fuel v n (IronWorker.waiting.step D i fuel v w).1 (IronWorker.waiting.step D i fuel v w).2 = _
      rw [hstart]
      exact hn

/-- C145_lenient: both fields are cut, and the request is handed on. -/
example : ∃ (e : Entries) (w' : World), Sample.lenientCut.limitBehavior = .continue_ ∧
    Sample.lenientCut.before refDeps 40 (Sample.ironVisit Sample.evsTwo b!"1").made none Sample.readyDisk (Sample.ironVisit Sample.evsTwo b!"1").req none = (.ok (.ok ()), some e, w') ∧ e.fieldsCount = 2 := by
  have h : (match Sample.lenientCut.before refDeps 40 (Sample.ironVisit Sample.evsTwo b!"1").made none Sample.readyDisk (Sample.ironVisit Sample.evsTwo b!"1").req none with
    | (.ok (.ok ()), some e, _) => some e.fieldsCount
    | _ => none) = some 2 := by decide +kernel
  split at h
  · rename_i e w' he
    exact ⟨e, w', rfl, he, Option.some.inj h⟩
  · cases h

end Multipart

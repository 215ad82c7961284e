import Verif.Spec.IronWorkers
import Verif.Props.Workers
import Verif.Props.IronUse
/-!
# C144: requests that Iron handles at the same time
-/
namespace Multipart

variable {D : Deps} {i : Intercept} {fuel : Nat} {w w' : World} {s t : BR} {v : IronVisit} {th : Thread} {dir : Path} {evs : List Ev} {b : Bytes} {L : List Path} {k : IronWorker}

/-- Enough rounds for every loop while this request is saved. -/
def IronVisit.rounds (i : Intercept) (v : IronVisit) : Nat :=
  match fromRequest ironHttp v.req with
  | .error _ => 0
  | .ok m => m.enough (i.settings.memLimit 0) + 1

/-- The invariant of the thread that saves this request. -/
structure IronSaving (D : Deps) (i : Intercept) (fuel : Nat) (v : IronVisit) (w : World) (th : Thread) (dir : Path) (evs : List Ev) (b : Bytes) (L : List Path) : Prop extends Saving D fuel i.settings w th dir evs b L where
  temp : v.made = .ok dir
  body : fromRequest ironHttp v.req = .ok (withBody evs b)

theorem IronSaving.mono (h : IronSaving D i fuel v w th dir evs b L) (hw : ∀ q, Below dir q → w'.files q = w.files q) : IronSaving D i fuel v w' th dir evs b L :=
  ⟨h.toSaving.mono hw, h.temp, h.body⟩

/-- The invariant of a worker. -/
def IronWorker.Good (D : Deps) (i : Intercept) (fuel : Nat) (v : IronVisit) (w : World) : IronWorker → Prop
  | .saving th => ∃ dir evs b L, IronSaving D i fuel v w th dir evs b L
  | .handling e => ∃ dir evs b L s, IronSaving D i fuel v w (.done (.full e) s) dir evs b L
  | _ => True

/-- The steps that are left, at most. -/
def IronWorker.left (i : Intercept) : IronWorker → Nat
  | .waiting => 4 * i.fileCountLimit + 4
  | .saving th => th.left i.settings + 2
  | .handling _ => 1
  | .finished => 0

theorem IronWorker.step_spec (hD : D.Sane) (ht : i.Typed) (hl : i.fileSizeLimit < u64Max) (hs : i.limitBehavior = .throwError) (hf : v.rounds i ≤ fuel) (hg : k.Good D i fuel v w)
    (hnew : k.busy = false → ∀ dir, v.made = .ok dir → ∀ q, Below dir q → w.files q = none) :
    (k.step D i fuel v w).1.Good D i fuel v (k.step D i fuel v w).2 ∧
    (∀ q, (∀ dir, v.made = .ok dir → ¬ Below dir q) → (k.step D i fuel v w).2.files q = w.files q) ∧
    ((k.step D i fuel v w).1.busy = false → ∀ dir, v.made = .ok dir → ∀ q, Below dir q → (k.step D i fuel v w).2.files q = none) ∧
    (k.step D i fuel v w).1.left i ≤ k.left i - 1 := by
  have key : ∀ (d : SaveDir) (dir : Path), v.made = .ok dir → some d = some (.temp dir) → (IronWorker.finished).Good D i fuel v (d.drop none w) ∧
      (∀ q, (∀ dir, v.made = .ok dir → ¬ Below dir q) → (d.drop none w).files q = w.files q) ∧
      ((IronWorker.finished).busy = false → ∀ dir, v.made = .ok dir → ∀ q, Below dir q → (d.drop none w).files q = none) := by
    intro d dir hm hd
    obtain ⟨g1, g2⟩ := SaveDir.drop_temp (fail := none) (w := w) d (Option.some.inj hd)
    refine ⟨trivial, fun q hq => g2 q (hq dir hm), fun _ dir' hdir' q hq => ?_⟩
    rw [hm] at hdir'
    cases hdir'
    exact (g1 rfl q hq).1
  cases k with
  | finished => exact ⟨trivial, fun _ _ => rfl, fun _ => hnew rfl, Nat.le_refl _⟩
  | waiting =>
    unfold IronWorker.step
    simp only
    rcases fromRequest_cases ironHttp v.req with ⟨b, -, hm⟩ | ⟨-, hm⟩
    · simp only [hm]
      cases hdir : v.made with
      | error er =>
        simp only
        exact ⟨trivial, fun _ _ => trivial, fun _ dir h => (by cases h), Nat.zero_le _⟩
      | ok dir =>
        have hnone := hnew rfl dir hdir
        simp only
        exact ⟨⟨dir, _, b, [], Saving.start hnone, hdir, hm⟩, fun _ _ => trivial, fun h => (by cases h), Nat.le_refl _⟩
    · simp only [hm]
      exact ⟨trivial, fun _ _ => trivial, fun _ => hnew rfl, Nat.zero_le _⟩
  | handling e =>
    obtain ⟨dir, evs, b, L, s, h⟩ := hg
    obtain ⟨g1, g2, g3⟩ := key _ dir h.temp h.toSaving.saveDir
    exact ⟨g1, g2, g3, Nat.zero_le _⟩
  | saving th =>
    obtain ⟨dir, evs, b, L, h⟩ := hg
    have hf : (withBody evs b).enough (i.settings.memLimit 0) < fuel := by
      unfold IronVisit.rounds at hf
      rw [h.body] at hf
      exact hf
    by_cases hd : ∃ r s, th = .done r s
    · obtain ⟨r, s, rfl⟩ := hd
      have hdir := h.toSaving.saveDir
      cases r with
      | full e => exact ⟨⟨dir, evs, b, L, s, h⟩, fun _ _ => rfl, fun h => (by cases h), Nat.le_refl _⟩
      | part p r =>
        obtain ⟨g1, g2, g3⟩ := key _ dir h.temp hdir
        cases r with
        | io er => exact ⟨g1, g2, g3, Nat.zero_le _⟩
        | _ =>
          simp only [IronWorker.step, hs]
          exact ⟨g1, g2, g3, Nat.zero_le _⟩
      | _ => cases hdir
    · have hd : ∀ r s, th ≠ .done r s := fun r s he => hd ⟨r, s, he⟩
      have he : (IronWorker.saving th).step D i fuel v w = (.saving (th.step D i.settings fuel w).1, (th.step D i.settings fuel w).2) := by
        cases th with
        | done r s => exact absurd rfl (hd r s)
        | _ => rfl
      obtain ⟨L', g1, g2, g3⟩ := h.toSaving.step hD (requestJob_plain ht.settings.count hl rfl hf []) hd
      rw [he]
      refine ⟨⟨dir, evs, b, L', g1, h.temp, h.body⟩, fun q hq => g3 q (hq dir h.temp), fun h => (by cases h), ?_⟩
      simp only [IronWorker.left]
      omega

/-! ## All requests -/

/-- The invariant of all threads: `w0` is the disk at the start. -/
structure IronStaff.Good (D : Deps) (i : Intercept) (fuel : Nat) (w0 : World) (c : IronStaff) (w : World) : Prop where
  apart : (c.map fun x => x.1).Pairwise IronVisit.Apart
  rounds : ∀ x ∈ c, x.1.rounds i ≤ fuel
  fresh : ∀ x ∈ c, x.1.NewIn w0
  each : ∀ x ∈ c, x.2.Good D i fuel x.1 w
  rest : ∀ q, (∀ x ∈ c, x.2.busy = true → ∀ dir, x.1.made = .ok dir → ¬ Below dir q) → w.files q = w0.files q

theorem IronVisit.Apart.symm {v v' : IronVisit} (h : v.Apart v') : v'.Apart v := fun d d' h1 h2 q ⟨h3, h4⟩ => h d' d h2 h1 q ⟨h4, h3⟩

theorem IronStaff.Good.turn (hD : D.Sane) (ht : i.Typed) (hl : i.fileSizeLimit < u64Max) (hs : i.limitBehavior = .throwError) {w0 : World} {c1 c2 : IronStaff} (h : IronStaff.Good D i fuel w0 (c1 ++ (v, k) :: c2) w) :
    IronStaff.Good D i fuel w0 (c1 ++ (v, (k.step D i fuel v w).1) :: c2) (k.step D i fuel v w).2 ∧ (k.step D i fuel v w).1.left i ≤ k.left i - 1 := by
  obtain ⟨h1, h2, h3, h4, h5⟩ := h
  have hother : ∀ x, x ∈ c1 ∨ x ∈ c2 → x ∈ c1 ++ (v, k) :: c2 := by rintro x (hx | hx) <;> simp [hx]
  have hap : ∀ x, x ∈ c1 ∨ x ∈ c2 → v.Apart x.1 := by
    have h1' := h1
    rw [List.map_append, List.map_cons, List.pairwise_append] at h1'
    obtain ⟨-, a2, a3⟩ := h1'
    rintro x (hx | hx)
    · exact (a3 x.1 (List.mem_map.mpr ⟨x, hx, rfl⟩) v (by simp)).symm
    · exact (List.pairwise_cons.mp a2).1 x.1 (List.mem_map.mpr ⟨x, hx, rfl⟩)
  obtain ⟨s1, s2, s3, s4⟩ := IronWorker.step_spec (v := v) (k := k) (w := w) (fuel := fuel) hD ht hl hs (h2 (v, k) (by simp)) (h4 (v, k) (by simp)) (by
    intro hb dir hdir q hq
    rw [h5 q]
    · exact h3 (v, k) (by simp) dir hdir q hq
    · intro x hx hxb d hd hbel
      rcases List.mem_append.mp hx with hx | hx
      · exact hap x (.inl hx) dir d hdir hd q ⟨hq, hbel⟩
      · rcases List.mem_cons.mp hx with rfl | hx
        · rw [hb] at hxb; cases hxb
        · exact hap x (.inr hx) dir d hdir hd q ⟨hq, hbel⟩)
  generalize (k.step D i fuel v w).1 = k' at s1 s3 s4 ⊢
  generalize (k.step D i fuel v w).2 = w' at s1 s2 s3 ⊢
  refine ⟨⟨by simpa using h1, ?_, ?_, ?_, ?_⟩, s4⟩
  · intro x hx
    rcases List.mem_append.mp hx with hx | hx
    · exact h2 x (hother x (.inl hx))
    · rcases List.mem_cons.mp hx with rfl | hx
      · exact h2 (v, k) (by simp)
      · exact h2 x (hother x (.inr hx))
  · intro x hx
    rcases List.mem_append.mp hx with hx | hx
    · exact h3 x (hother x (.inl hx))
    · rcases List.mem_cons.mp hx with rfl | hx
      · exact h3 (v, k) (by simp)
      · exact h3 x (hother x (.inr hx))
  · have hkeep : ∀ x, x ∈ c1 ∨ x ∈ c2 → x.2.Good D i fuel x.1 w' := by
      rintro ⟨v', k''⟩ hx
      have hg := h4 _ (hother _ hx)
      cases k'' with
      | saving th =>
        obtain ⟨dir, evs, b, L, hg⟩ := hg
        exact ⟨dir, evs, b, L, hg.mono fun q hq => s2 q fun d hd hbel => hap _ hx d dir hd hg.temp q ⟨hbel, hq⟩⟩
      | handling e =>
        obtain ⟨dir, evs, b, L, s, hg⟩ := hg
        exact ⟨dir, evs, b, L, s, hg.mono fun q hq => s2 q fun d hd hbel => hap _ hx d dir hd hg.temp q ⟨hbel, hq⟩⟩
      | _ => trivial
    intro x hx
    rcases List.mem_append.mp hx with hx | hx
    · exact hkeep x (.inl hx)
    · rcases List.mem_cons.mp hx with rfl | hx
      · exact s1
      · exact hkeep x (.inr hx)
  · intro q hq
    by_cases hv : ∃ dir, v.made = .ok dir ∧ Below dir q
    · obtain ⟨dir, hdir, hbel⟩ := hv
      have hb : k'.busy = false := by
        cases hb : k'.busy with
        | false => rfl
        | true => exact absurd hbel (hq (v, k') (by simp) hb dir hdir)
      rw [s3 hb dir hdir q hbel, h3 (v, k) (by simp) dir hdir q hbel]
    · have hv : ∀ dir, v.made = .ok dir → ¬ Below dir q := fun dir h1 h2 => hv ⟨dir, h1, h2⟩
      rw [s2 q hv]
      refine h5 q fun x hx hxb d hd => ?_
      rcases List.mem_append.mp hx with hx | hx
      · exact hq x (by simp [hx]) hxb d hd
      · rcases List.mem_cons.mp hx with rfl | hx
        · exact hv d hd
        · exact hq x (by simp [hx]) hxb d hd

theorem IronStaff.run_good (hD : D.Sane) (ht : i.Typed) (hl : i.fileSizeLimit < u64Max) (hs : i.limitBehavior = .throwError) {w0 : World} : ∀ (ns : List Nat) {c : IronStaff} {w : World}, IronStaff.Good D i fuel w0 c w → IronStaff.Good D i fuel w0 (IronStaff.run D i fuel ns c w).1 (IronStaff.run D i fuel ns c w).2 ∧
    ((∀ (n : Nat) (x : IronVisit × IronWorker), c[n]? = some x → x.2.left i ≤ ns.count n) → ∀ x ∈ (IronStaff.run D i fuel ns c w).1, x.2.left i = 0)
  | [], c, w, hg => by
    refine ⟨hg, fun h x hx => ?_⟩
    obtain ⟨n, hn⟩ := List.getElem?_of_mem hx
    have := h n x hn
    simpa using this
  | m :: ns, c, w, hg => by
    unfold IronStaff.run
    split
    · rename_i v k hk
      obtain ⟨l1, l2, e1, e2⟩ := set_split hk
      have hg1 := hg
      rw [e1] at hg1
      obtain ⟨hg', hleft⟩ := hg1.turn hD ht hl hs
      rw [← e2] at hg'
      obtain ⟨r1, r2⟩ := IronStaff.run_good hD ht hl hs ns hg'
      refine ⟨r1, fun h => r2 fun n x hx => ?_⟩
      rw [List.getElem?_set] at hx
      split at hx
      · rename_i hik
        subst hik
        split at hx
        · cases hx
          have := h m (v, k) hk
          rw [List.count_cons_self] at this
          simp only at this ⊢
          omega
        · cases hx
      · rename_i hik
        have e3 := h n x hx
        rw [List.count_cons_of_ne hik] at e3
        exact e3
    · rename_i hk
      obtain ⟨r1, r2⟩ := IronStaff.run_good hD ht hl hs ns hg
      refine ⟨r1, fun h => r2 fun n x hx => ?_⟩
      have e3 := h n x hx
      rw [List.count_cons_of_ne (by intro hik; subst hik; rw [hk] at hx; simp at hx)] at e3
      exact e3

theorem IronStaff.Good.start {vs : List IronVisit} (h1 : vs.Pairwise IronVisit.Apart) (h2 : ∀ v ∈ vs, v.rounds i ≤ fuel) (h3 : ∀ v ∈ vs, v.NewIn w) : IronStaff.Good D i fuel w (IronStaff.start vs) w := by
  refine ⟨?_, ?_, ?_, ?_, fun _ _ => rfl⟩
  · unfold IronStaff.start
    rw [List.map_map, show ((fun x : IronVisit × IronWorker => x.1) ∘ fun v => (v, IronWorker.waiting)) = id from rfl, List.map_id]
    exact h1
  all_goals
    intro x hx
    obtain ⟨v, hv, rfl⟩ := List.mem_map.mp hx
  · exact h2 v hv
  · exact h3 v hv
  · trivial

theorem IronStaff.list {c : IronStaff} (h : ∀ x ∈ c, x.2.Good D i fuel x.1 w) : ∃ L : List Path, L.length ≤ c.countP (fun x => x.2.busy) * i.fileCountLimit ∧
    ∀ x ∈ c, x.2.busy = true → ∀ dir, x.1.made = .ok dir → ∀ q, Below dir q → w.fileSize q ≤ i.fileSizeLimit + Nat.min i.fileSizeLimit (10 * 1024) ∧ (w.files q ≠ none → q ∈ L) := by
  induction c with
  | nil => exact ⟨[], by simp, fun x hx => by cases hx⟩
  | cons y c ih =>
    obtain ⟨L, h1, h2⟩ := ih fun x hx => h x (List.mem_cons_of_mem _ hx)
    obtain ⟨v, k⟩ := y
    have hk := h (v, k) (List.mem_cons_self ..)
    have key : ∀ th, k.busy = true → (∃ dir evs b L, IronSaving D i fuel v w th dir evs b L) → ∃ L : List Path, L.length ≤ ((v, k) :: c).countP (fun x => x.2.busy) * i.fileCountLimit ∧
        ∀ x ∈ (v, k) :: c, x.2.busy = true → ∀ dir, x.1.made = .ok dir → ∀ q, Below dir q → w.fileSize q ≤ i.fileSizeLimit + Nat.min i.fileSizeLimit (10 * 1024) ∧ (w.files q ≠ none → q ∈ L) := by
      rintro th hb ⟨dir, evs, b, L', hk⟩
      have hn : L'.length ≤ i.fileCountLimit := by
        have hc := hk.count
        cases th with
        | running => exact hc.2
        | making => exact Nat.le_trans hc.1 (Nat.le_of_lt hc.2)
        | opening => exact Nat.le_trans hc.1 (Nat.le_of_lt hc.2)
        | writing => exact Nat.le_trans hc.1 hc.2
        | done => exact hc.1
      refine ⟨L' ++ L, ?_, fun x hx hb d hd q hq => ?_⟩
      · rw [List.countP_cons_of_pos (by simpa using hb), List.length_append, Nat.add_mul, Nat.one_mul]; omega
      · rcases List.mem_cons.mp hx with rfl | hx
        · simp only at hd
          rw [hk.temp] at hd
          cases hd
          exact ⟨hk.size q hq, fun hn => List.mem_append_left _ (hk.only q hq hn)⟩
        · obtain ⟨g1, g2⟩ := h2 x hx hb d hd q hq
          exact ⟨g1, fun hn => List.mem_append_right _ (g2 hn)⟩
    cases k with
    | saving th => exact key th rfl hk
    | handling e =>
      obtain ⟨dir, evs, b, L', s, hk⟩ := hk
      exact key _ rfl ⟨dir, evs, b, L', hk⟩
    | _ =>
      refine ⟨L, by rw [List.countP_cons_of_neg (by simp [IronWorker.busy])]; exact h1, fun x hx hb => ?_⟩
      rcases List.mem_cons.mp hx with rfl | hx
      · cases hb
      · exact h2 x hx hb

theorem IronStaff.Good.use {w0 : World} {c : IronStaff} (h : IronStaff.Good D i fuel w0 c w) (ps : List Path) (hps : ps.Nodup) : w.diskUse ps ≤ w0.diskUse ps + c.countP (fun x => x.2.busy) * (i.fileCountLimit * (i.fileSizeLimit + Nat.min i.fileSizeLimit (10 * 1024))) := by
  obtain ⟨L, h1, h2⟩ := IronStaff.list h.each
  generalize i.fileSizeLimit + Nat.min i.fileSizeLimit (10 * 1024) = room at h2 ⊢
  have hq : ∀ q, w.fileSize q ≤ w0.fileSize q + L.count q * room := by
    intro q
    by_cases hb : ∃ x ∈ c, x.2.busy = true ∧ ∃ dir, x.1.made = .ok dir ∧ Below dir q
    · obtain ⟨x, hx, hxb, dir, hdir, hbel⟩ := hb
      obtain ⟨g1, g2⟩ := h2 x hx hxb dir hdir q hbel
      cases hf : w.files q with
      | none =>
        have : w.fileSize q = 0 := by unfold World.fileSize; rw [hf]
        omega
      | some y =>
        have hpos := List.count_pos_iff.mpr (g2 (by rw [hf]; simp))
        have := Nat.mul_le_mul_right room hpos
        omega
    · rw [World.fileSize_eq (h.rest q fun x hx hxb dir hdir hbel => hb ⟨x, hx, hxb, dir, hdir, hbel⟩)]
      omega
  have a : w.diskUse ps ≤ (ps.map fun q => w0.fileSize q + L.count q * room).sum := sum_map_le (fun q _ => hq q)
  rw [sum_map_add, sum_map_mul] at a
  have b := Nat.mul_le_mul_right room (Nat.le_trans (sum_count L hps) h1)
  rw [← Nat.mul_assoc]
  unfold World.diskUse at a ⊢
  omega

theorem IronVisit.rounds_le {vs : List IronVisit} (h : v ∈ vs) : v.rounds i ≤ (vs.map fun v => v.rounds i).sum := by
  induction vs with
  | nil => cases h
  | cons a l ih =>
    simp only [List.map_cons, List.sum_cons]
    rcases List.mem_cons.mp h with rfl | h
    · omega
    · have := ih h; omega

/-- C144: Iron may handle any requests at the same time, in any number of threads that share the middleware, which here answers with an error when a limit is exceeded. At any time, with the requests that are being saved or handled then: only
files in their temporary directories are different from the start, and all files together have at most `file_count_limit` times `file_size_limit` and 10 KiB more bytes for each of them. When each thread had `4 * file_count_limit + 4`
steps, in whatever order, all requests are handled, and all files are as they were. (The temporary directories are new and different.) -/
theorem C144_files (hD : D.Sane) (ht : i.Typed) (hl : i.fileSizeLimit < u64Max) (hs : i.limitBehavior = .throwError) {vs : List IronVisit} (hv : vs.Pairwise IronVisit.Apart) : ∃ n, ∀ fuel, n ≤ fuel → ∀ w : World, (∀ v ∈ vs, v.NewIn w) →
    ∀ ns c w', IronStaff.run D i fuel ns (IronStaff.start vs) w = (c, w') →
    (∀ q, (∀ x ∈ c, x.2.busy = true → ∀ dir, x.1.made = .ok dir → ¬ Below dir q) → w'.files q = w.files q) ∧
    (∀ ps : List Path, ps.Nodup → w'.diskUse ps ≤ w.diskUse ps + c.countP (fun x => x.2.busy) * (i.fileCountLimit * (i.fileSizeLimit + Nat.min i.fileSizeLimit (10 * 1024)))) ∧
    ((∀ n, n < vs.length → 4 * i.fileCountLimit + 4 ≤ ns.count n) → (∀ x ∈ c, x.2 = .finished) ∧ w'.files = w.files) := by
  refine ⟨(vs.map fun v => v.rounds i).sum, fun fuel hf w hw ns c w' hrun => ?_⟩
  obtain ⟨g1, g2⟩ := IronStaff.run_good hD ht hl hs ns (IronStaff.Good.start (D := D) (fuel := fuel) hv (fun v h => Nat.le_trans (IronVisit.rounds_le h) hf) hw)
  rw [hrun] at g1 g2
  refine ⟨g1.rest, g1.use, fun his => ?_⟩
  have hfin : ∀ x ∈ c, x.2 = .finished := by
    intro x hx
    have h0 := g2 (fun n y hy => by
      obtain ⟨hi, -⟩ := List.getElem?_eq_some_iff.mp hy
      have hm := List.mem_of_getElem? hy
      obtain ⟨v, -, rfl⟩ := List.mem_map.mp hm
      exact his n (by simpa [IronStaff.start] using hi)) x hx
    obtain ⟨v, k⟩ := x
    cases k with
    | waiting => cases h0
    | saving th => cases h0
    | handling e => cases h0
    | finished => rfl
  exact ⟨hfin, funext fun q => g1.rest q fun x hx hb => by rw [hfin x hx] at hb; cases hb⟩

namespace Sample

/-- A request to an Iron server, which gets a temporary directory with this name. -/
def ironVisit (evs : List Ev) (name : Bytes) : IronVisit := ⟨ironReq evs, .ok [b!"tmp", name]⟩

theorem ironVisit_apart (evs evs' : List Ev) : [ironVisit evs b!"1", ironVisit evs' b!"2"].Pairwise IronVisit.Apart := by
  refine List.pairwise_cons.mpr ⟨?_, List.pairwise_singleton _ _⟩
  intro v hv
  rw [List.mem_singleton] at hv
  subst hv
  intro d d' h1 h2 q ⟨⟨r, h3⟩, ⟨r', h4⟩⟩
  cases h1
  cases h2
  rw [h3] at h4
  exact absurd h4 (by simp)

end Sample

/-- C144_files: two requests are saved in files at the same time; the first is in the handler already. -/
example : Intercept.default.Typed ∧ Intercept.default.fileSizeLimit < u64Max ∧ Intercept.default.limitBehavior = .throwError ∧ [Sample.ironVisit Sample.evsHuge b!"1", Sample.ironVisit Sample.evsHuge b!"2"].Pairwise IronVisit.Apart ∧
    (∀ v ∈ [Sample.ironVisit Sample.evsHuge b!"1", Sample.ironVisit Sample.evsHuge b!"2"], v.NewIn Sample.readyDisk) ∧
    (IronStaff.run refDeps .default 40 [0, 1, 0, 1, 1, 0, 0, 1, 0, 1, 0] (IronStaff.start [Sample.ironVisit Sample.evsHuge b!"1", Sample.ironVisit Sample.evsHuge b!"2"]) Sample.readyDisk).2.diskUse
      [[b!"tmp", b!"1", b!"x"], [b!"tmp", b!"2", b!"y"]] = 22000 :=
  ⟨⟨by decide, by decide⟩, by decide, rfl, Sample.ironVisit_apart _ _, fun _ _ _ _ _ _ => rfl, by decide +kernel⟩

/-- C144: what else is handled at the same time does not matter for a handler: at any time the entries of a request are the first parts of its own body, with their headers, and what is saved can be read back and is their data. When they
are handed to the handler, they are all parts. -/
theorem C144_own (hD : D.Sane) (ht : i.Typed) (hl : i.fileSizeLimit < u64Max) (hs : i.limitBehavior = .throwError) {vs : List IronVisit} (hv : vs.Pairwise IronVisit.Apart) : ∃ n, ∀ fuel, n ≤ fuel → ∀ w : World, (∀ v ∈ vs, v.NewIn w) →
    ∀ ns c w', IronStaff.run D i fuel ns (IronStaff.start vs) w = (c, w') → ∀ v k b, (v, k) ∈ c → ironHttp.multipartBoundary v.req = some b → NoStall v.req.body → NoErr v.req.body →
    ∀ parts fin, Parts D (dashes ++ b) (Ev.bytes v.req.body) parts fin → ∀ e, k.entries = some e →
      ∃ fs m, GroupedByName e.fields fs ∧ All2 (SavedAs b v.req.body w') fs (parts.take m) ∧ (k = .handling e → m = parts.length ∧ fin = .closed) := by
  refine ⟨(vs.map fun v => v.rounds i).sum, fun fuel hf w hw ns c w' hrun v k b hm hbody hn hne parts fin hP e he => ?_⟩
  obtain ⟨g1, -⟩ := IronStaff.run_good hD ht hl hs ns (IronStaff.Good.start (D := D) (fuel := fuel) hv (fun v h => Nat.le_trans (IronVisit.rounds_le h) hf) hw)
  rw [hrun] at g1
  have hg := g1.each _ hm
  have key : ∀ th, th.entries = some e → (∃ dir evs b L, IronSaving D i fuel v w' th dir evs b L) →
      ∃ fs m, GroupedByName e.fields fs ∧ All2 (SavedAs b v.req.body w') fs (parts.take m) ∧ ∀ s, th = .done (.full e) s → m = parts.length ∧ fin = .closed := by
    rintro th he ⟨dir, evs', b', L, hg⟩
    have hsame := hg.body
    unfold fromRequest at hsame
    rw [hbody] at hsame
    obtain ⟨rfl, rfl⟩ := withBody_inj (Except.ok.inj hsame)
    exact (Thread.Sound.own (hg.sound parts) hn hne hP he).2
  cases k with
  | saving th =>
    obtain ⟨fs, m, h1, h2, -⟩ := key th he hg
    exact ⟨fs, m, h1, h2, fun h => by cases h⟩
  | handling e' =>
    cases he
    obtain ⟨dir, evs, b', L, s, hg⟩ := hg
    obtain ⟨fs, m, h1, h2, h3⟩ := key _ rfl ⟨dir, evs, b', L, hg⟩
    exact ⟨fs, m, h1, h2, fun _ => h3 s rfl⟩
  | _ => cases he

/-- C144_own: the first request is in the handler, with both fields. -/
example : ∃ (c : IronStaff) (w' : World) (e : Entries), IronStaff.run refDeps .default 40 [0, 1, 0, 1, 0, 0, 0] (IronStaff.start [Sample.ironVisit Sample.evsTwo b!"1", Sample.ironVisit Sample.evsTwo b!"2"]) Sample.readyDisk = (c, w') ∧
    (Sample.ironVisit Sample.evsTwo b!"1", .handling e) ∈ c ∧ e.fieldsCount = 2 ∧ ironHttp.multipartBoundary (Sample.ironVisit Sample.evsTwo b!"1").req = some Sample.bnd ∧
    NoStall Sample.evsTwo ∧ NoErr Sample.evsTwo ∧ Parts refDeps (dashes ++ Sample.bnd) (Ev.bytes Sample.evsTwo) [(Sample.fh, b!"one"), (Sample.fh, b!"two")] .closed := by
  rcases hc : IronStaff.run refDeps .default 40 [0, 1, 0, 1, 0, 0, 0] (IronStaff.start [Sample.ironVisit Sample.evsTwo b!"1", Sample.ironVisit Sample.evsTwo b!"2"]) Sample.readyDisk with ⟨c, w'⟩
  have he : ((IronStaff.run refDeps .default 40 [0, 1, 0, 1, 0, 0, 0] (IronStaff.start [Sample.ironVisit Sample.evsTwo b!"1", Sample.ironVisit Sample.evsTwo b!"2"]) Sample.readyDisk).1[0]?).map (fun x => match x.2 with
    | .handling e => some e.fieldsCount
    | _ => none) = some (some 2) := by decide +kernel
  have hj : ((IronStaff.run refDeps .default 40 [0, 1, 0, 1, 0, 0, 0] (IronStaff.start [Sample.ironVisit Sample.evsTwo b!"1", Sample.ironVisit Sample.evsTwo b!"2"]) Sample.readyDisk).1[0]?).map (fun x => x.1) =
    some (Sample.ironVisit Sample.evsTwo b!"1") := rfl
  rw [hc] at he hj
  rcases hx : c[0]? with _ | ⟨v, k⟩
  · rw [hx] at he; cases he
  · rw [hx] at he hj
    simp only [Option.map_some, Option.some.injEq] at he hj
    subst hj
    cases k with
    | handling e => exact ⟨c, w', e, rfl, List.mem_of_getElem? hx, Option.some.inj he, rfl, by decide +kernel, by intro e; simp [Sample.evsTwo], Sample.partsTwo⟩
    | _ => cases he

/-! ## One request alone -/

/-- Some steps of one worker. -/
def IronWorker.steps (D : Deps) (i : Intercept) (fuel : Nat) (v : IronVisit) : Nat → IronWorker → World → IronWorker × World
  | 0, k, w => (k, w)
  | n + 1, k, w => IronWorker.steps D i fuel v n (k.step D i fuel v w).1 (k.step D i fuel v w).2

theorem IronStaff.run_steps (n : Nat) (k : IronWorker) (w : World) :
    IronStaff.run D i fuel (List.replicate n 0) [(v, k)] w = ([(v, (k.steps D i fuel v n w).1)], (k.steps D i fuel v n w).2) := by
  induction n generalizing k w with
  | zero => rfl
  | succ n ih =>
    rw [List.replicate_succ]
    unfold IronStaff.run IronWorker.steps
    exact ih _ _

theorem IronWorker.steps_saving (n : Nat) (th : Thread) (w : World) (h : th.steps D i.settings fuel n w = (.done r t, w')) :
    ∃ m, m ≤ n ∧ (IronWorker.saving th).steps D i fuel v m w = (.saving (.done r t), w') := by
  induction n generalizing th w with
  | zero => cases h; exact ⟨0, Nat.le_refl _, rfl⟩
  | succ n ih =>
    by_cases hd : ∃ r s, th = .done r s
    · obtain ⟨r', s', rfl⟩ := hd
      rw [Thread.steps_done] at h
      cases h
      exact ⟨0, Nat.zero_le _, rfl⟩
    · have he : (IronWorker.saving th).step D i fuel v w = (.saving (th.step D i.settings fuel w).1, (th.step D i.settings fuel w).2) := by
        cases th with
        | done r s => exact absurd ⟨r, s, rfl⟩ hd
        | _ => rfl
      obtain ⟨m, hm, hs⟩ := ih _ _ h
      refine ⟨m + 1, by omega, ?_⟩
      show IronWorker.steps D i fuel v m ((IronWorker.saving th).step D i fuel v w).1 ((IronWorker.saving th).step D i fuel v w).2 = _
      rw [he]
      exact hs

theorem IronWorker.steps_succ (n : Nat) (k : IronWorker) (w : World) (h : k.steps D i fuel v n w = (k', w')) : k.steps D i fuel v (n + 1) w = k'.step D i fuel v w' := by
  induction n generalizing k w with
  | zero => cases h; rfl
  | succ n ih => exact ih _ _ h

/-- C144: a thread that runs alone does what the middleware does in C58 and the like: at some time it is in the handler, with the entries that `before` adds to the request, and the disk is as `before` leaves it; or, if there are none, it is finished. -/
theorem C144_alone (hD : D.Sane) (hl : i.fileSizeLimit < u64Max) (hs : i.limitBehavior = .throwError) (v : IronVisit) : ∃ n, ∀ fuel, n ≤ fuel → ∀ w r ext w', i.before D fuel v.made none w v.req none = (r, ext, w') →
    ∃ m, m ≤ 4 * fuel + 2 ∧ IronStaff.run D i fuel (List.replicate m 0) (IronStaff.start [v]) w = ([(v, .after ext)], w') := by
  refine ⟨v.rounds i, fun fuel hf w r ext w' h => ?_⟩
  suffices hk : ∃ m, m ≤ 4 * fuel + 2 ∧ IronWorker.waiting.steps D i fuel v m w = (IronWorker.after ext, w') by
    obtain ⟨m, hm, hk⟩ := hk
    refine ⟨m, hm, ?_⟩
    show IronStaff.run D i fuel _ [(v, .waiting)] w = _
    rw [IronStaff.run_steps, hk]
  unfold Intercept.before Intercept.readRequest at h
  rcases fromRequest_cases ironHttp v.req with ⟨b, -, hm⟩ | ⟨-, hm⟩
  · have hf : (withBody (ironHttp.body v.req) b).enough (i.settings.memLimit 0) < fuel := by
      unfold IronVisit.rounds at hf
      rw [hm] at hf
      exact hf
    simp only [hm, hs] at h
    cases hdir : v.made with
    | error er =>
      simp only [hdir] at h
      cases h
      refine ⟨1, by omega, ?_⟩
      show IronWorker.waiting.step D i fuel v w = _
      unfold IronWorker.step
      simp only [hm, hdir]
      rfl
    | ok dir =>
      simp only [hdir] at h
      unfold Intercept.readRequestStrict withTempDir at h
      have hstart : IronWorker.waiting.step D i fuel v w = (.saving (Thread.start D (Entries.new (.temp dir)) (withBody (ironHttp.body v.req) b)), { w with dirs := w.dirs ++ [dir] }) := by
        unfold IronWorker.step
        simp only [hm, hdir]
      have hr : Reachable D (ironHttp.body v.req) b (withBody (ironHttp.body v.req) b) := ⟨[], rfl⟩
      obtain ⟨e1, e2⟩ := withEntries_ends (cfg := i.settings) (e := Entries.new (.temp dir)) (w := { w with dirs := w.dirs ++ [dir] }) (fuel := fuel) hD hr
        (.inl (Nat.lt_of_le_of_lt (Nat.min_le_left _ _) hl))
      have e1 := e1 hf
      rcases hx : withEntries D i.settings fuel (Entries.new (.temp dir)) { w with dirs := w.dirs ++ [dir] } (withBody (ironHttp.body v.req) b) with ⟨r', w1, t⟩
      rw [hx] at e1 e2 h
      have hdone : ∃ m, m ≤ 4 * fuel + 1 ∧ IronWorker.waiting.steps D i fuel v m w = (.saving (.done r' t), w1) := by
        obtain ⟨m, hm, hsteps⟩ := IronWorker.steps_saving (v := v) (4 * fuel) _ _ (Thread.steps_loop fuel (4 * fuel) (Nat.le_refl _) _ _ _ _ hx e1)
        refine ⟨m + 1, by omega, ?_⟩
        show IronWorker.steps D i fuel v m (IronWorker.waiting.step D i fuel v w).1 (IronWorker.waiting.step D i fuel v w).2 = _
        rw [hstart]
        exact hsteps
      obtain ⟨m, hm, hdone⟩ := hdone
      refine ⟨m + 1, by omega, ?_⟩
      rw [IronWorker.steps_succ _ _ _ hdone]
      cases r' with
      | full e => cases h; rfl
      | part p r =>
        cases r with
        | sizeLimit =>
          simp only at h
          cases hp : p.part with
          | none => rw [hp] at h; cases h; simp only [IronWorker.step, hs]; rfl
          | some f => rw [hp] at h; cases h; simp only [IronWorker.step, hs]; rfl
        | io er => cases h; rfl
        | _ => cases h; simp only [IronWorker.step, hs]; rfl
      | error er =>
        obtain ⟨fs, w1, s1, -, -, h3 | ⟨h3, -⟩⟩ := withEntries_spec hx
        · cases h3
        · cases h3
      | panic => exact absurd rfl e2
      | hang => exact absurd rfl e1
  · simp only [hm] at h
    cases h
    refine ⟨1, by omega, ?_⟩
    show IronWorker.waiting.step D i fuel v w = _
    unfold IronWorker.step
    simp only [hm]
    rfl

/-- C144_alone: one field, which is handed on. -/
example : ∃ (e : Entries) (w' : World), Intercept.default.limitBehavior = .throwError ∧
    Intercept.default.before refDeps 40 (Sample.ironVisit Sample.evsHuge b!"1").made none Sample.readyDisk (Sample.ironVisit Sample.evsHuge b!"1").req none = (.ok (.ok ()), some e, w') ∧ e.fieldsCount = 1 := by
  have h : (match Intercept.default.before refDeps 40 (Sample.ironVisit Sample.evsHuge b!"1").made none Sample.readyDisk (Sample.ironVisit Sample.evsHuge b!"1").req none with
    | (.ok (.ok ()), some e, _) => some e.fieldsCount
    | _ => none) = some 1 := by decide +kernel
  split at h
  · rename_i e w' he
    exact ⟨e, w', rfl, he, Option.some.inj h⟩
  · cases h

end Multipart

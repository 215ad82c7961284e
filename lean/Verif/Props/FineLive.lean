import Verif.Props.WriteSteps
import Verif.Props.Threads
/-!
# C151: all requests are saved, write by write
-/
namespace Multipart

variable {D : Deps} {fuel : Nat} {cfg : Settings} {w w' : World} {s t : BR} {j : Job}

/-! ## Writes that do not fail -/

/-- As `Copying.From`, and no write failed. -/
def Copying.FromFine (b : Settings) (fuel : Nat) (p : Path) (bytes : Bytes) (s0 : BR) (c : Copying) (got : Bytes) (s : BR) : Prop :=
  ∃ used : List WEv, WritesFine used ∧ ∀ rest, (Copying.first bytes 0).finish b fuel p { script := used ++ rest, got := [] } s0 = c.finish b fuel p { script := rest, got := got } s

theorem WritesFine.used {script u : List WEv} (h : WritesFine script) (hu : ∀ x ∈ u, x ∈ script ∨ ∃ n, x = .accept (n + 1)) : WritesFine u := by
  intro ev hev e hf
  rcases hu ev hev with h1 | ⟨n, rfl⟩
  · exact h ev h1 e hf
  · simp [WEv.FailsWith] at hf

theorem Copying.FromFine.step {b : Settings} {p : Path} {bytes : Bytes} {s0 s s' : BR} {c c' : Copying} {k k' : Sink} (h : Copying.FromFine b fuel p bytes s0 c k.got s) (hk : WritesFine k.script) (hs : c.step b fuel p k s = (.inr c', k', s')) :
    Copying.FromFine b fuel p bytes s0 c' k'.got s' := by
  obtain ⟨used, h0, h⟩ := h
  obtain ⟨-, u, hu0, hu⟩ := Copying.step_local b fuel p c s k
  refine ⟨used ++ u, h0.append (hk.used hu0), fun rest => ?_⟩
  rw [List.append_assoc, h (u ++ rest), Copying.finish_step]
  have hu := hu rest
  simp only [hs, Prod.mk.injEq] at hu
  obtain ⟨⟨h1, h2⟩, h3⟩ := hu
  rw [show c.step b fuel p { script := u ++ rest, got := k.got } s = (.inr c', { script := rest, got := k'.got }, s') from Prod.ext h1 (Prod.ext h3 h2)]

theorem Copying.FromFine.done {b : Settings} {p : Path} {bytes : Bytes} {s0 s s' : BR} {c : Copying} {r : SaveRes SavedData SavedData} {k k' : Sink} (h : Copying.FromFine b fuel p bytes s0 c k.got s)
    (hk : WritesFine k.script) (hs : c.step b fuel p k s = (.inl r, k', s')) :
    ∃ used : List WEv, WritesFine used ∧ ∀ rest, (Copying.first bytes 0).finish b fuel p { script := used ++ rest, got := [] } s0 = (r, { script := rest, got := k'.got }, s') := by
  obtain ⟨used, h0, h⟩ := h
  obtain ⟨-, u, hu0, hu⟩ := Copying.step_local b fuel p c s k
  refine ⟨used ++ u, h0.append (hk.used hu0), fun rest => ?_⟩
  rw [List.append_assoc, h (u ++ rest), Copying.finish_step]
  have hu := hu rest
  simp only [hs, Prod.mk.injEq] at hu
  obtain ⟨⟨h1, h2⟩, h3⟩ := hu
  rw [show c.step b fuel p { script := u ++ rest, got := k.got } s = (.inl r, { script := rest, got := k'.got }, s') from Prod.ext h1 (Prod.ext h3 h2)]

/-! ## How many steps a file takes -/

def Copying.left (s : BR) : Copying → Nat
  | .first rest _ => (if rest = [] then 0 else 1) + 2 + 3 * s.enough 0
  | .loop _ _ _ _ => 1 + 3 * s.enough 0
  | .chunk _ _ _ _ rest c => (if rest = [] then 0 else 1) + 2 + 3 * (s.consume (c + rest.length)).enough 0

theorem Copying.left_pos (c : Copying) (s : BR) : 0 < c.left s := by cases c <;> simp only [Copying.left] <;> omega

theorem writeOnce_script (rest : Bytes) (total : Nat) (k : Sink) : (writeOnce rest total k).2.script <:+ k.script := by
  unfold writeOnce
  split
  · exact List.suffix_rfl
  · rcases hk : k.script with _ | ⟨ev, l⟩
    · exact List.suffix_rfl
    · rcases ev with n | e
      · simp only
        split <;> exact List.suffix_cons ..
      · cases e <;> exact List.suffix_cons ..

theorem Copying.step_script (b : Settings) (p : Path) (c : Copying) (k : Sink) (s : BR) : (c.step b fuel p k s).2.1.script <:+ k.script := by
  cases c with
  | first rest total =>
    have := writeOnce_script rest total k
    unfold Copying.step
    simp only
    generalize writeOnce rest total k = x at this ⊢
    obtain ⟨(_ | _ | _ | _ | _) | _, k'⟩ := x <;> exact this
  | loop size n total copied =>
    cases n with
    | zero => exact List.suffix_rfl
    | succ n =>
      unfold Copying.step
      simp only
      repeat' split
      all_goals exact List.suffix_rfl
  | chunk size n total copied rest c =>
    have := writeOnce_script rest c k
    unfold Copying.step
    simp only
    generalize writeOnce rest c k = x at this ⊢
    obtain ⟨(_ | _ | _ | _ | _) | _, k'⟩ := x <;> exact this

theorem Copying.left_step {b : Settings} {p : Path} {s1 s s' : BR} {c c' : Copying} {k k' : Sink} (hi : s1.Inv) (ht : c.Taken s1 k.got s) (hs : c.step b fuel p k s = (.inr c', k', s')) :
    c'.left s' + k'.script.length < c.left s + k.script.length := by
  cases c with
  | first rest total =>
    unfold Copying.step at hs
    simp only at hs
    split at hs
    · rename_i hw
      cases hs
      have := writeOnce_shrinks hw
      simp only [Copying.left]
      omega
    · rename_i hw
      cases hs
      obtain ⟨h1, -, rfl⟩ := writeOnce_full hw
      simp only [Copying.left]
      omega
    · cases hs
  | loop size n total copied =>
    cases n with
    | zero => cases hs
    | succ n =>
      have hsi : s.Inv := Took.inv (show Took s1 k.got s from ht) hi
      have hf := BR.fill_cases hsi
      have hen := (Took.fill s).enough hsi 0
      have hun := congrArg List.length ((Took.fill s).unread hsi)
      unfold Copying.step at hs
      simp only at hs
      rcases hrd : s.readToBoundary with ⟨r, s2⟩
      rw [hrd] at hs hf hen hun
      rcases hf with ⟨e, h1, h2, -⟩ | ⟨buf, h1, -, h3⟩
      · simp only at h1 h2 hun
        subst h1
        cases e with
        | interrupted =>
          cases hs
          simp only [Copying.left, BR.enough]
          simp at hun
          omega
        | _ => cases hs
      · simp only at h1
        subst h1
        simp only at hs
        split at hs
        · cases hs
        · rename_i hb
          split at hs
          · cases hs
          · cases hs
            have h4 := h3 buf.length (Nat.le_refl _)
            rw [List.take_length] at h4
            have h5 := congrArg List.length (h4.unread hsi)
            have h6 := (h4.evs hsi).length_le
            have h7 := List.length_pos_iff.mpr hb
            rw [List.length_append] at h5
            simp only [Copying.left, BR.enough, Nat.zero_add, if_neg hb]
            simp only at h5 h6
            omega
  | chunk size n total copied rest c =>
    unfold Copying.step at hs
    simp only at hs
    split at hs
    · rename_i hw
      cases hs
      have h1 := writeOnce_shrinks hw
      have h2 := (writeOnce_keeps hw).2
      simp only [Copying.left, h2]
      omega
    · rename_i hw
      cases hs
      obtain ⟨rfl, h2, rfl⟩ := writeOnce_full hw
      subst h2
      simp only [Copying.left, List.length_nil, Nat.add_zero]
      omega
    all_goals cases hs

/-! ## All steps -/

def FineThread.DoesFine (j : Job) (fuel : Nat) : FineThread → Thread → Prop
  | .at th, th' => th' = th
  | .copying e h name old c got s, th' => ∃ bytes s0, th' = .writing e h name old bytes s0 ∧ Copying.FromFine (fieldPolicy j.cfg h) fuel (e.saveDir.asPath ++ [name]) bytes s0 c got s ∧
    ∀ s1, s1.Inv → Took s1 bytes s0 → c.Taken s1 got s

theorem FineThread.DoesFine.does {ft : FineThread} {th : Thread} (h : ft.DoesFine j fuel th) : ft.Does j fuel th := by
  cases ft with
  | «at» => exact h
  | copying =>
    obtain ⟨bytes, s0, h1, ⟨used, -, h2⟩, h3⟩ := h
    exact ⟨bytes, s0, h1, ⟨used, h2⟩, h3⟩

/-- A bound for the steps that the writes of one file take. -/
def Job.perFile (j : Job) : Nat := 3 * (withBody j.up.evs j.up.b).enough 0 + 4

/-- The steps that are still to be run, at most, apart from those for the writes that the disk cuts short. -/
def FineThread.left (j : Job) : FineThread → Nat
  | .at th => th.rounds j * j.perFile
  | .copying e _ _ _ c _ s => (4 * (j.up.parts.length - e.fieldsCount - 1) + 1) * j.perFile + c.left s

/-- What the simulation keeps: the threads of `Model/Threads.lean`, for which all is well, on the disk without what was written to the open files. -/
structure FineCrew.LiveSim (D : Deps) (fuel : Nat) (c : FineCrew) (w : World) (c' : Crew) : Prop where
  good : Crew.Good D fuel c' (c.hide w)
  live : Crew.Live D fuel c' (c.hide w)
  does : All2 (fun x y => y.1 = x.1 ∧ x.2.DoesFine x.1 fuel y.2) c c'
  shown : ∀ x ∈ c, x.2.Shown x.1 w

theorem Crew.Good.writes {c : Crew} (h : Crew.Good D fuel c w) (ws : List WEv) : Crew.Good D fuel c { w with writes := ws } :=
  ⟨h.fresh, fun x hx => (h.sound x hx).mono fun _ _ => rfl, h.exist, h.own⟩

theorem Crew.Live.rewrite {c : Crew} (h : Crew.Live D fuel c w) {ws : List WEv} (hws : WritesFine ws) : Crew.Live D fuel c { w with writes := ws } :=
  ⟨fun x hx => ⟨(h.each x hx).1, (h.each x hx).2.1, ⟨(h.each x hx).2.2.mkdirs, (h.each x hx).2.2.opens, hws, (h.each x hx).2.2.names, (h.each x hx).2.2.distinct, (h.each x hx).2.2.fresh⟩⟩, h.names, h.free⟩

theorem World.createDirAll_writes (w : World) (p : Path) : (w.createDirAll p).2.writes = w.writes := by
  unfold World.createDirAll
  repeat' split
  all_goals rfl

theorem World.openFile_writes (w : World) (o : OpenOpts) (p : Path) : (w.openFile o p).2.writes = w.writes := by
  unfold World.openFile
  cases hf : w.files p <;> simp only [hf]
  all_goals repeat' split
  all_goals rfl

theorem Thread.step_writes {th : Thread} (hth : ∀ e h name old bytes s, th ≠ .writing e h name old bytes s) : (th.step D cfg fuel w).2.writes = w.writes := by
  cases th with
  | writing e hd name old bytes s => exact absurd rfl (hth _ _ _ _ _ _)
  | done r s => rfl
  | running res e s =>
    unfold Thread.step
    simp only
    repeat' split
    all_goals rfl
  | making e hd name bytes s =>
    have h := w.createDirAll_writes (e.saveDir.asPath ++ [name])
    unfold Thread.step
    simp only
    split
    · rename_i g
      rw [g] at h
      exact h
    · rename_i g
      rw [g] at h
      exact h
  | opening e hd name bytes s =>
    have h := w.openFile_writes cfg.openOpts (e.saveDir.asPath ++ [name])
    unfold Thread.step
    simp only
    split
    · rename_i g
      rw [g] at h
      exact h
    · rename_i g
      rw [g] at h
      exact h

theorem Job.At.inv (hD : D.Sane) {fs : List SavedField} {h : FieldHeaders} (hat : j.At D w fs (.ok (some h)) s) : s.Inv := by
  obtain ⟨s0, a1, a2, -⟩ := hat
  exact ((a1.entry a2).spec hD).1

theorem Job.At.left (hD : D.Sane) {fs : List SavedField} {h : FieldHeaders} {bytes : Bytes} (hat : j.At D w fs (.ok (some h)) s) (hmem : saveInMemory (fieldPolicy j.cfg h) fuel s = (.inr bytes, t)) :
    t.enough 0 ≤ (withBody j.up.evs j.up.b).enough 0 := by
  have hi := hat.inv hD
  obtain ⟨s0, a1, a2, a3, -⟩ := hat
  have h1 := (BR.readEntry_enough hD (a1.spec hD).1 a2).2.2 0
  have h2 := (saveInMemory_took hi hmem).enough hi 0
  unfold BR.enough at a3 h1 h2 ⊢
  omega

theorem FineCrew.LiveSim.turn (hD : D.Sane) {c1 c2 : FineCrew} {ft : FineThread} {c' : Crew} (h : FineCrew.LiveSim D fuel (c1 ++ (j, ft) :: c2) w c') :
    (∃ c', FineCrew.LiveSim D fuel (c1 ++ (j, (ft.step D j.cfg fuel w).1) :: c2) (ft.step D j.cfg fuel w).2 c') ∧ (ft.step D j.cfg fuel w).2.writes.length ≤ w.writes.length ∧
      (ft.left j = 0 ∨ (ft.step D j.cfg fuel w).1.left j + (ft.step D j.cfg fuel w).2.writes.length < ft.left j + w.writes.length) := by
  obtain ⟨hgood, hlive, hd, hs⟩ := h
  have hfl := FineCrew.Does.files (hd.imp fun _ _ h => ⟨h.1, h.2.does⟩)
  obtain ⟨b1, ⟨j, th⟩, b2, rfl, d1, ⟨rfl, d2⟩, d3⟩ := hd.middle
  have ho : j.cfg.openOpts.createNew = true := hgood.fresh (j, th) (List.mem_append_right _ (List.mem_cons_self ..))
  have hapart : ∀ q ∈ ft.files, ∀ x ∈ c1 ++ c2, q ∉ x.2.files := by
    have hnd := hgood.own
    rw [hfl] at hnd
    have he : FineCrew.files (c1 ++ (j, ft) :: c2) = c1.files ++ (ft.files ++ c2.files) := by simp [FineCrew.files]
    rw [he] at hnd
    intro q hq x hx hqx
    rcases List.mem_append.mp hx with hx | hx
    · exact (List.nodup_append.mp hnd).2.2 q (List.mem_flatMap.mpr ⟨x, hx, hqx⟩) q (List.mem_append_left _ hq) rfl
    · exact (List.nodup_append.mp (List.nodup_append.mp hnd).2.1).2.2 q hq q (List.mem_flatMap.mpr ⟨x, hx, hqx⟩) rfl
  have hin : ∀ x ∈ c1 ++ c2, x ∈ c1 ++ (j, ft) :: c2 := fun x hx => (List.mem_append.mp hx).elim (List.mem_append_left _) fun h => List.mem_append_right _ (List.mem_cons_of_mem _ h)
  have hex : ∀ x ∈ c1 ++ c2, ∀ q ∈ x.2.files, w.files q ≠ none := by
    intro x hx q hq h0
    have := hgood.exist q (by rw [hfl]; exact List.mem_flatMap.mpr ⟨x, hin x hx, hq⟩)
    exact this ((FineCrew.hide_exists hs q).mpr h0)
  have hothers : ∀ x ∈ c1 ++ c2, x.2.Shown x.1 (ft.step D j.cfg fuel w).2 := fun x hx => (hs x (hin x hx)).mono fun q hq =>
    FineThread.step_keeps ho (fun hq' => hapart q hq' x hx hq) (hex x hx q hq)
  have hshown : ∀ {ft' : FineThread} {w1 : World}, (∀ x ∈ c1 ++ c2, x.2.Shown x.1 w1) → ft'.Shown j w1 → ∀ x ∈ c1 ++ (j, ft') :: c2, x.2.Shown x.1 w1 := by
    intro ft' w1 h1 h2 x hx
    rcases List.mem_append.mp hx with hx | hx
    · exact h1 x (List.mem_append_left _ hx)
    · rcases List.mem_cons.mp hx with rfl | hx
      · exact h2
      · exact h1 x (List.mem_append_right _ hx)
  have hown : ft.Shown j w := hs (j, ft) (List.mem_append_right _ (List.mem_cons_self ..))
  cases ft with
  | «at» th0 =>
    obtain rfl : th = th0 := d2
    by_cases hth : ∀ e h name old bytes s, th ≠ .writing e h name old bytes s
    · have he : FineThread.step D j.cfg fuel (.at th) w = (.at (th.step D j.cfg fuel w).1, (th.step D j.cfg fuel w).2) := by
        cases th with
        | writing e hd name old bytes s => exact absurd rfl (hth _ _ _ _ _ _)
        | _ => rfl
      rw [he] at hothers ⊢
      have hgt := hgood.turn hD
      obtain ⟨hlt, hrounds⟩ := hlive.turn hD hgood
      have hwd : Thread.step D j.cfg fuel th (FineCrew.hide (c1 ++ (j, .at th) :: c2) w) = ((th.step D j.cfg fuel w).1, FineCrew.hide (c1 ++ (j, .at (th.step D j.cfg fuel w).1) :: c2) (th.step D j.cfg fuel w).2) := by
        rcases Thread.step_files (D := D) (fuel := fuel) ho hth (FineCrew.hide_exists hs) with ⟨h1, h2, -⟩ | ⟨e, h, name, bytes, s, h1, h2, h3, h4⟩
        · rw [show FineCrew.hide (c1 ++ (j, .at th) :: c2) w = w.withFiles (FineCrew.hide (c1 ++ (j, .at th) :: c2) w).files from rfl, h2]
          refine Prod.ext rfl ?_
          simp only [World.withFiles, FineCrew.hide]
          congr 1
          funext q
          exact FineCrew.hidden_same rfl (by rw [h1])
        · rw [show FineCrew.hide (c1 ++ (j, .at th) :: c2) w = w.withFiles (FineCrew.hide (c1 ++ (j, .at th) :: c2) w).files from rfl, h4]
          refine Prod.ext rfl ?_
          simp only [World.withFiles, FineCrew.hide]
          congr 1
          funext q
          simp only [World.setFile]
          by_cases hq : q = e.saveDir.asPath ++ [name]
          · rw [if_pos hq, FineCrew.hidden_own (fun x hx hqx => hex x hx q hqx (by rw [hq]; exact h2)), h3]
            simp [FineThread.before, World.setFile, hq]
          · rw [if_neg hq]
            exact FineCrew.hidden_same rfl (by rw [h3]; simp [World.setFile, hq])
      rw [hwd] at hgt hlt hrounds
      have hwr := Thread.step_writes (D := D) (cfg := j.cfg) (fuel := fuel) (w := w) hth
      refine ⟨⟨b1 ++ (j, (th.step D j.cfg fuel w).1) :: b2, hgt, hlt, d1.append (.cons ⟨rfl, rfl⟩ d3), ?_⟩, Nat.le_of_eq (congrArg List.length hwr), ?_⟩
      · refine hshown hothers ?_
        rcases Thread.step_files (D := D) (fuel := fuel) ho hth (FineCrew.hide_exists hs) with ⟨h1, h2, h3⟩ | ⟨e, h, name, bytes, s, h1, h2, h3, h4⟩
        · show FineThread.Shown j _ (.at (th.step D j.cfg fuel w).1)
          cases hx : (th.step D j.cfg fuel w).1 with
          | writing => exact absurd hx (h3 _ _ _ _ _ _)
          | _ => trivial
        · show FineThread.Shown j _ (.at (th.step D j.cfg fuel w).1)
          rw [h1]
          show (th.step D j.cfg fuel w).2.files _ = _
          rw [h3]
          simp [World.setFile]
      · simp only at hrounds
        simp only [FineThread.left, hwr]
        have h1 := Nat.mul_le_mul_right j.perFile hrounds
        rcases Nat.eq_zero_or_pos (th.rounds j) with h0 | h0
        · exact .inl (by rw [h0, Nat.zero_mul])
        · have h2 : th.rounds j * j.perFile = (th.rounds j - 1) * j.perFile + j.perFile := by
            rw [← Nat.succ_mul]
            congr 1
            omega
          have h3 : 4 ≤ j.perFile := by unfold Job.perFile; omega
          omega
    · cases th with
      | writing e h name old bytes s =>
        have hwd : FineCrew.hide (c1 ++ (j, (FineThread.step D j.cfg fuel (.at (.writing e h name old bytes s)) w).1) :: c2) (FineThread.step D j.cfg fuel (.at (.writing e h name old bytes s)) w).2 =
            FineCrew.hide (c1 ++ (j, .at (.writing e h name old bytes s)) :: c2) w := by
          simp only [FineCrew.hide, FineThread.step]
          congr 1
          funext q
          by_cases hq : q = e.saveDir.asPath ++ [name]
          · subst hq
            have hp := hapart (e.saveDir.asPath ++ [name]) (List.mem_append_right _ (List.mem_singleton_self _))
            rw [FineCrew.hidden_own hp, FineCrew.hidden_own hp, show w.files _ = _ from hown]
            simp [FineThread.before]
          · exact FineCrew.hidden_same (by simp [FineThread.before, hq]) rfl
        refine ⟨⟨b1 ++ (j, .writing e h name old bytes s) :: b2, by rw [hwd]; exact hgood, by rw [hwd]; exact hlive, d1.append (.cons ⟨rfl, bytes, s, rfl, ⟨[], by simp [WritesFine], fun _ => rfl⟩, fun _ _ h => h⟩ d3), hshown hothers ?_⟩,
          Nat.le_refl _, ?_⟩
        · show w.files _ = _
          rw [overlay_nil]
          exact hown
        · obtain ⟨⟨fs, s1, -, hat, hmem⟩, -⟩ := hgood.sound (j, .writing e h name old bytes s) (List.mem_append_right _ (List.mem_cons_self ..))
          have h1 : s.enough 0 ≤ (withBody j.up.evs j.up.b).enough 0 := hat.left hD hmem
          simp only [FineThread.step, FineThread.left, Thread.rounds, Copying.left]
          have h2 : (4 * (j.up.parts.length - e.fieldsCount - 1) + 2) * j.perFile = (4 * (j.up.parts.length - e.fieldsCount - 1) + 1) * j.perFile + j.perFile := Nat.succ_mul ..
          have h3 : j.perFile = 3 * (withBody j.up.evs j.up.b).enough 0 + 4 := rfl
          split <;> omega
      | _ => exact absurd (by simp) hth
  | copying e h name old c got s =>
    obtain ⟨bytes, s0, rfl, hfrom, htaken⟩ := d2
    have hfine : WritesFine w.writes := (hlive.each (j, .writing e h name old bytes s0) (List.mem_append_right _ (List.mem_cons_self ..))).2.2.writes
    have hscr := Copying.step_script (fuel := fuel) (fieldPolicy j.cfg h) (e.saveDir.asPath ++ [name]) c { script := w.writes, got := got } s
    have hpos := c.left_pos s
    have hp := hapart (e.saveDir.asPath ++ [name]) (List.mem_append_right _ (List.mem_singleton_self _))
    rcases hst : c.step (fieldPolicy j.cfg h) fuel (e.saveDir.asPath ++ [name]) { script := w.writes, got := got } s with ⟨r | c', k, s'⟩
    · have he : FineThread.step D j.cfg fuel (.copying e h name old c got s) w =
          (.at (Thread.saved D e h r s'), { w with writes := k.script }.setFile (e.saveDir.asPath ++ [name]) (overlay j.cfg.openOpts old k.got)) := by
        simp only [FineThread.step, hst]
      rw [he] at hothers ⊢
      rw [hst] at hscr
      obtain ⟨used, hu0, hu⟩ := Copying.FromFine.done (k := { script := w.writes, got := got }) hfrom hfine hst
      have hks : WritesFine k.script := fun ev hev => hfine ev (hscr.subset hev)
      have hg1 := hgood.writes (used ++ k.script)
      have hl1 := hlive.rewrite (hu0.append hks)
      have hgt := hg1.turn hD
      obtain ⟨hlt, hrounds⟩ := hl1.turn hD hg1
      have hw : Thread.step D j.cfg fuel (.writing e h name old bytes s0) { FineCrew.hide (c1 ++ (j, FineThread.copying e h name old c got s) :: c2) w with writes := used ++ k.script } =
          (Thread.saved D e h r s', { FineCrew.hide (c1 ++ (j, FineThread.copying e h name old c got s) :: c2) w with writes := k.script }.setFile (e.saveDir.asPath ++ [name]) (overlay j.cfg.openOpts old k.got)) := by
        unfold Thread.step
        simp only
        rw [writeFile_finish]
        simp only [hu k.script]
        rfl
      rw [hw] at hgt hlt hrounds
      have hwd : FineCrew.hide (c1 ++ (j, .at (Thread.saved D e h r s')) :: c2) ({ w with writes := k.script }.setFile (e.saveDir.asPath ++ [name]) (overlay j.cfg.openOpts old k.got)) =
          { FineCrew.hide (c1 ++ (j, FineThread.copying e h name old c got s) :: c2) w with writes := k.script }.setFile (e.saveDir.asPath ++ [name]) (overlay j.cfg.openOpts old k.got) := by
        simp only [FineCrew.hide, World.setFile]
        congr 1
        funext q
        by_cases hq : q = e.saveDir.asPath ++ [name]
        · subst hq
          rw [if_pos rfl, FineCrew.hidden_own hp, if_pos rfl]
          rfl
        · rw [if_neg hq]
          exact FineCrew.hidden_same (by simp [FineThread.before, hq]) (by rw [if_neg hq])
      refine ⟨⟨b1 ++ (j, Thread.saved D e h r s') :: b2, by rw [hwd]; exact hgt, by rw [hwd]; exact hlt, d1.append (.cons ⟨rfl, rfl⟩ d3), hshown hothers ?_⟩, hscr.length_le, ?_⟩
      · show FineThread.Shown j _ (.at (Thread.saved D e h r s'))
        cases r <;> trivial
      · have h1 := Nat.mul_le_mul_right j.perFile hrounds
        have h2 := hscr.length_le
        right
        show (Thread.saved D e h r s').rounds j * j.perFile + k.script.length < (4 * (j.up.parts.length - e.fieldsCount - 1) + 1) * j.perFile + c.left s + w.writes.length
        have h1 : (Thread.saved D e h r s').rounds j * j.perFile ≤ (4 * (j.up.parts.length - e.fieldsCount - 1) + 1) * j.perFile := h1
        have h2 : k.script.length ≤ w.writes.length := h2
        omega
    · have he : FineThread.step D j.cfg fuel (.copying e h name old c got s) w =
          (.copying e h name old c' k.got s', { w with writes := k.script }.setFile (e.saveDir.asPath ++ [name]) (overlay j.cfg.openOpts old k.got)) := by
        simp only [FineThread.step, hst]
      rw [he] at hothers ⊢
      rw [hst] at hscr
      have hks : WritesFine k.script := fun ev hev => hfine ev (hscr.subset hev)
      have hwd : FineCrew.hide (c1 ++ (j, .copying e h name old c' k.got s') :: c2) ({ w with writes := k.script }.setFile (e.saveDir.asPath ++ [name]) (overlay j.cfg.openOpts old k.got)) =
          { FineCrew.hide (c1 ++ (j, FineThread.copying e h name old c got s) :: c2) w with writes := k.script } := by
        simp only [FineCrew.hide, World.setFile]
        congr 1
        funext q
        by_cases hq : q = e.saveDir.asPath ++ [name]
        · subst hq
          rw [FineCrew.hidden_own hp, FineCrew.hidden_own hp]
          simp [FineThread.before]
        · exact FineCrew.hidden_same rfl (by simp [hq])
      refine ⟨⟨b1 ++ (j, .writing e h name old bytes s0) :: b2, by rw [hwd]; exact hgood.writes _, by rw [hwd]; exact hlive.rewrite hks, d1.append (.cons ⟨rfl, bytes, s0, rfl,
        Copying.FromFine.step (k := { script := w.writes, got := got }) hfrom hfine hst, fun s1 hi h => Copying.Taken.step (k := { script := w.writes, got := got }) hi (htaken s1 hi h) hst⟩ d3), hshown hothers ?_⟩, hscr.length_le, ?_⟩
      · show World.files _ _ = _
        simp [World.setFile]
      · obtain ⟨⟨fs, s1, -, hat, hmem⟩, -⟩ := hgood.sound (j, .writing e h name old bytes s0) (List.mem_append_right _ (List.mem_cons_self ..))
        have hi1 := hat.inv hD
        have h1 := Copying.left_step (k := { script := w.writes, got := got }) hi1 (htaken s1 hi1 (saveInMemory_took hi1 hmem)) hst
        simp only [FineThread.left, World.setFile]
        simp only at h1
        omega


theorem FineCrew.start_hide (js : List Job) : (FineCrew.start D js).hide w = w := by
  unfold FineCrew.hide
  have : FineCrew.hidden (FineCrew.start D js) w.files = w.files := by
    funext q
    unfold FineCrew.hidden
    rw [List.findSome?_eq_none_iff.mpr fun x hx => ?_]
    · rfl
    · obtain ⟨j, -, rfl⟩ := List.mem_map.mp hx
      rfl
  rw [this]

theorem Thread.rounds_zero {th : Thread} (h : th.rounds j = 0) : ∃ r s, th = .done r s := by
  cases th with
  | done r s => exact ⟨r, s, rfl⟩
  | _ => simp [Thread.rounds] at h

theorem FineThread.left_zero {ft : FineThread} (h : ft.left j = 0) : ∃ r s, ft = .at (.done r s) := by
  cases ft with
  | «at» th =>
    simp only [FineThread.left] at h
    rcases Nat.mul_eq_zero.mp h with h | h
    · obtain ⟨r, s, rfl⟩ := Thread.rounds_zero h
      exact ⟨r, s, rfl⟩
    · simp [Job.perFile] at h
  | copying e _ _ _ c _ s =>
    have := c.left_pos s
    simp only [FineThread.left] at h
    omega

theorem FineCrew.run_ends (hD : D.Sane) : ∀ (is : List Nat) {c : FineCrew} {w : World} {c' : Crew}, FineCrew.LiveSim D fuel c w c' →
    (∀ (i : Nat) (x : Job × FineThread), c[i]? = some x → x.2.left x.1 = 0 ∨ x.2.left x.1 + w.writes.length ≤ is.count i) →
    ∀ (i : Nat) (x : Job × FineThread), c[i]? = some x → ∃ (e : Entries) (s : BR), (FineCrew.run D fuel is c w).1[i]? = some (x.1, .at (.done (.full e) s))
  | [], c, w, c', hl, h => by
    rintro i ⟨j, ft⟩ hx
    have h3 : ft.left j = 0 := by
      rcases h i _ hx with h | h
      · exact h
      · simp at h
        omega
    obtain ⟨r, s, rfl⟩ := FineThread.left_zero h3
    obtain ⟨l1, l2, e1, -⟩ := set_split hx
    subst e1
    obtain ⟨b1, ⟨j, th⟩, b2, rfl, -, ⟨rfl, d2⟩, -⟩ := hl.does.middle
    obtain rfl : th = .done r s := d2
    obtain ⟨e, rfl⟩ := (hl.live.each (j, .done r s) (by simp)).2.1
    exact ⟨e, s, hx⟩
  | k :: is, c, w, c', hl, h => by
    unfold FineCrew.run
    split
    · rename_i j ft hk
      have f3 := h k _ hk
      obtain ⟨l1, l2, e1, e2⟩ := set_split hk
      have hlt : k < c.length := by
        rcases Nat.lt_or_ge k c.length with h | h
        · exact h
        · rw [List.getElem?_eq_none h] at hk; simp at hk
      subst e1
      obtain ⟨⟨c'', hl'⟩, hwr, hleft⟩ := hl.turn hD
      rw [← e2] at hl'
      intro i x hx
      have ih := FineCrew.run_ends hD is hl' ?_ i
      · rw [List.getElem?_set] at ih
        split at ih
        · rename_i hik
          subst hik
          rw [hk] at hx
          cases hx
          exact ih (j, (ft.step D j.cfg fuel w).1) rfl
        · exact ih _ hx
      · intro i x hx
        rw [List.getElem?_set] at hx
        split at hx
        · rename_i hik
          subst hik
          cases hx
          rw [List.count_cons_self] at f3
          simp only at f3 ⊢
          by_cases h0 : ft.left j = 0
          · left
            obtain ⟨r, s, rfl⟩ := FineThread.left_zero h0
            simp [FineThread.step, Thread.step, FineThread.left, Thread.rounds]
          · omega
        · rename_i hik
          have e3 := h i x hx
          rw [List.count_cons_of_ne hik] at e3
          omega
    · rename_i hk
      refine FineCrew.run_ends hD is hl fun i x hx => ?_
      have e3 := h i x hx
      rw [List.count_cons_of_ne (by intro hik; subst hik; rw [hk] at hx; simp at hx)] at e3
      exact e3

/-- C151: if the disk works, though it may write as little at once as it likes and be interrupted, the random names are new and all requests are within their limits, then all of them are saved fully at the same time, in whatever
order the steps of their threads run, each with at most one call of `write`, as soon as each thread had this many; all parts of all requests are there then with their headers and their data. -/
theorem C151_all_saved (hD : D.Sane) {js : List Job} (hc : ∀ j ∈ js, j.cfg.Typed ∧ j.cfg.openOpts.createNew = true ∧ (Nat.min j.cfg.sizeLimit j.cfg.memoryThreshold < u64Max ∨ j.cfg.textPolicy = .ignore))
    (hu : ∀ j ∈ js, j.up.Within D j.cfg) (hw : ∀ j ∈ js, DiskReady w j.dir.asPath (js.map fun j => j.up.parts.length).sum) {is : List Nat}
    (his : ∀ i j, js[i]? = some j → (4 * j.up.parts.length + 1) * (3 * ((Ev.bytes j.up.evs).length + j.up.evs.length) + 4) + w.writes.length ≤ is.count i) :
    ∃ n, ∀ fuel, n ≤ fuel → ∀ (i : Nat) (j : Job), js[i]? = some j → ∃ (e : Entries) (s : BR) (fs : List SavedField), (FineCrew.run D fuel is (FineCrew.start D js) w).1[i]? = some (j, .at (.done (.full e) s)) ∧
      GroupedByName e.fields fs ∧ e.fieldsCount = j.up.parts.length ∧ All2 (SavedAs j.up.b j.up.evs (FineCrew.run D fuel is (FineCrew.start D js) w).2) fs j.up.parts := by
  refine ⟨(js.map fun j => (withBody j.up.evs j.up.b).enough (j.cfg.memLimit 0)).sum + 1, fun fuel hf i j hij => ?_⟩
  have hm : j ∈ js := List.mem_of_getElem? hij
  have hjs : ∀ j ∈ js, j.cfg.openOpts.createNew = true := fun j hj => (hc j hj).2.1
  have hfine : ∀ j ∈ js, j.Fine D fuel := fun j hj => ⟨(hc j hj).1, (hc j hj).2.1, (hc j hj).2.2, hu j hj, by
    have := le_sum_map (fun j : Job => (withBody j.up.evs j.up.b).enough (j.cfg.memLimit 0)) hj
    omega⟩
  have hneed : (Crew.start D js).need = (js.map fun j => j.up.parts.length).sum := by
    unfold Crew.start Crew.need
    rw [List.map_map]
    congr 1
  have hchosen : (Crew.start D js).chosen = [] := by
    unfold Crew.chosen Crew.start
    rw [List.flatMap_eq_nil_iff]
    intro x hx
    obtain ⟨j, -, rfl⟩ := List.mem_map.mp hx
    rfl
  have hlive : Crew.Live D fuel (Crew.start D js) w := by
    refine ⟨?_, by rw [hchosen, hneed, List.nil_append]; exact (hw j hm).distinct, ?_⟩
    · intro x hx
      obtain ⟨j, hj, rfl⟩ := List.mem_map.mp hx
      exact ⟨hfine j hj, trivial, by rw [hneed]; exact hw j hj⟩
    · intro x hx name hn
      have : name ∈ (Crew.start D js).chosen := List.mem_flatMap.mpr ⟨x, hx, hn⟩
      rw [hchosen] at this
      simp at this
  have hsim : FineCrew.LiveSim D fuel (FineCrew.start D js) w (Crew.start D js) := by
    have h0 := FineCrew.Sim.start (D := D) (fuel := fuel) (w := w) js
    have hhide : (FineCrew.start D js).hide w = w := FineCrew.start_hide js
    refine ⟨by rw [hhide]; exact .start hjs, by rw [hhide]; exact hlive, ?_, h0.shown⟩
    have hsame : ∀ l : List Job, All2 (fun x y => y.1 = x.1 ∧ x.2.DoesFine x.1 fuel y.2) (FineCrew.start D l) (Crew.start D l) := by
      intro l
      induction l with
      | nil => exact .nil
      | cons j l ih => exact .cons ⟨rfl, rfl⟩ ih
    exact hsame js
  have henough : ∀ j : Job, j.perFile = 3 * ((Ev.bytes j.up.evs).length + j.up.evs.length) + 4 := fun j => by
    unfold Job.perFile BR.enough
    simp [BR.unread, withBody, BR.fromReader]
  have hend := FineCrew.run_ends hD is hsim (fun i x hx => by
    unfold FineCrew.start at hx
    rw [List.getElem?_map, Option.map_eq_some_iff] at hx
    obtain ⟨j, h1, rfl⟩ := hx
    have := his i j h1
    right
    rw [← henough j] at this
    exact this) i (j, .at (Thread.start D (Entries.new j.dir) (withBody j.up.evs j.up.b))) (by unfold FineCrew.start; rw [List.getElem?_map, hij]; rfl)
  obtain ⟨e, s, hend⟩ := hend
  have hin := hu j hm
  obtain ⟨th, h1, hs, -⟩ := FineRuns.one hD hjs (FineCrew.run_runs is (FineRuns.start (D := D) (fuel := fuel) (c0 := FineCrew.start D js) (w0 := w))) (List.mem_of_getElem? hend)
  obtain rfl : th = .done (.full e) s := h1
  obtain ⟨fs, rfl, h4⟩ := hs
  obtain ⟨k1, k2, -⟩ := h4 .closed ⟨hin.noStall, hin.noErr, hin.parts⟩
  refine ⟨_, s, fs, hend, j.after_grouped fs, by rw [Job.after_count (hfine j hm) k1.2, k2], ?_⟩
  have := k1.1
  rw [k2, List.take_length] at this
  exact this

def Sample.disk4Slow : World := { Sample.disk4 with writes := [.accept 1, .err .interrupted, .accept 2] }

def Sample.longTurns : List Nat := List.replicate 17 1 ++ List.replicate 23 0 ++ List.replicate 4000 1 ++ List.replicate 4000 0

theorem Sample.longTurns_count : Sample.longTurns.count 0 = 4023 ∧ Sample.longTurns.count 1 = 4017 := by
  unfold Sample.longTurns
  simp only [List.count_append, List.count_replicate]
  exact ⟨rfl, rfl⟩

/-- Two requests of two fields each, saved to files in the same directory. The disk takes few bytes at once at first, and a write is interrupted. First one thread runs alone for a while, then the other, then the first to its end, then the other. -/
example : ∃ n, ∀ fuel, n ≤ fuel → ∀ (i : Nat) (j : Job), [Sample.job, Sample.job][i]? = some j → ∃ (e : Entries) (s : BR) (fs : List SavedField),
      (FineCrew.run refDeps fuel Sample.longTurns (FineCrew.start refDeps [Sample.job, Sample.job]) Sample.disk4Slow).1[i]? = some (j, .at (.done (.full e) s)) ∧
      GroupedByName e.fields fs ∧ e.fieldsCount = j.up.parts.length ∧
      All2 (SavedAs j.up.b j.up.evs (FineCrew.run refDeps fuel Sample.longTurns (FineCrew.start refDeps [Sample.job, Sample.job]) Sample.disk4Slow).2) fs j.up.parts :=
  C151_all_saved (is := Sample.longTurns) refDeps_sane (by intro j hj; simp at hj; subst hj; exact ⟨⟨by decide, by decide, by decide, rfl⟩, rfl, .inl (by decide)⟩)
    (by intro j hj
        simp at hj
        subst hj
        exact ⟨by decide +kernel, by intro e; simp [Sample.job, Sample.evsTwo], Sample.partsTwo, fun h => by simp [Sample.job, Settings.default] at h, by decide, by decide⟩)
    (by intro j hj
        simp at hj
        subst hj
        exact ⟨by simp [Sample.disk4Slow, Sample.disk4, Sample.disk], by simp [Sample.disk4Slow, Sample.disk4, Sample.disk], by simp [Sample.disk4Slow, WritesFine, WEv.FailsWith], by decide, by decide, fun _ _ => rfl⟩)
    (by intro i j hij
        rcases i with _ | _ | i
        · simp at hij; subst hij; rw [Sample.longTurns_count.1]; decide +kernel
        · simp at hij; subst hij; rw [show (0 + 1) = 1 from rfl, Sample.longTurns_count.2]; decide +kernel
        · simp at hij)

end Multipart

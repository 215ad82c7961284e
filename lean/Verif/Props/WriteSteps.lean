import Verif.Spec.WriteSteps
import Verif.Lemmas.WriteSteps
import Verif.Props.Solo
/-!
# C148: files grow while other threads run
-/
namespace Multipart

variable {D : Deps} {fuel : Nat} {cfg : Settings} {w w' : World} {s t : BR} {j : Job}

/-! ## What was written so far -/

/-- What is read from the field when the bytes that are still to be written are. -/
def Copying.Taken (s1 : BR) (c : Copying) (got : Bytes) (s : BR) : Prop :=
  match c with
  | .first rest _ => Took s1 (got ++ rest) s
  | .loop _ _ _ _ => Took s1 got s
  | .chunk _ _ _ _ rest c => ∃ n, c + rest.length = n ∧ Took s1 (got ++ rest) (s.consume n)

theorem writeOnce_keeps {rest rest' : Bytes} {total total' : Nat} {k k' : Sink} (h : writeOnce rest total k = (.inr (rest', total'), k')) : k'.got ++ rest' = k.got ++ rest ∧ total' + rest'.length = total + rest.length := by
  unfold writeOnce at h
  split at h
  · cases h
  · split at h
    · cases h
      simp
    · cases h
      exact ⟨rfl, rfl⟩
    · cases h
    · split at h
      · cases h
      · rename_i n _ _ hn
        cases h
        have hle : Nat.min n rest.length ≤ rest.length := Nat.min_le_right _ _
        refine ⟨by rw [List.append_assoc, List.take_append_drop], ?_⟩
        rw [List.length_drop]
        omega

theorem writeOnce_full {rest : Bytes} {total c : Nat} {k k' : Sink} (h : writeOnce rest total k = (.inl (.full c), k')) : rest = [] ∧ c = total ∧ k' = k := by
  unfold writeOnce at h
  split at h
  · rename_i hr
    cases h
    exact ⟨hr, rfl, rfl⟩
  · split at h
    · cases h
    · cases h
    · simp only [Prod.mk.injEq, Sum.inl.injEq] at h
      obtain ⟨h, -⟩ := h
      split at h <;> cases h
    · split at h
      · simp only [Prod.mk.injEq, Sum.inl.injEq] at h
        obtain ⟨h, -⟩ := h
        split at h <;> cases h
      · cases h

theorem Copying.Taken.step {b : Settings} {p : Path} {s1 s' : BR} {c c' : Copying} {k k' : Sink} (hi : s1.Inv) (h : c.Taken s1 k.got s) (hs : c.step b fuel p k s = (.inr c', k', s')) : c'.Taken s1 k'.got s' := by
  cases c with
  | first rest total =>
    unfold Copying.step at hs
    simp only at hs
    rcases hw : writeOnce rest total k with ⟨r | ⟨rest', total'⟩, k1⟩
    · rw [hw] at hs
      cases r with
      | full size =>
        cases hs
        obtain ⟨rfl, -, rfl⟩ := writeOnce_full hw
        simpa [Copying.Taken] using h
      | _ => cases hs
    · rw [hw] at hs
      cases hs
      show Took s1 (k'.got ++ rest') s
      rw [(writeOnce_keeps hw).1]
      exact h
  | loop size n total copied =>
    cases n with
    | zero => cases hs
    | succ n =>
      unfold Copying.step at hs
      simp only at hs
      have hT : Took s1 k.got s := h
      have hf := BR.fill_cases (hT.inv hi)
      have hl := hT.trans (Took.fill s)
      rw [List.append_nil] at hl
      generalize s.readToBoundary = x at hs hf hl
      rcases x with ⟨r, s2⟩
      cases r with
      | err e =>
        cases e with
        | interrupted => cases hs; exact hl
        | _ => simp only at hs; split at hs <;> cases hs
      | panic => cases hs
      | hang => cases hs
      | ok buf =>
        simp only at hs
        split at hs
        · cases hs
        · split at hs
          · cases hs
          · cases hs
            rcases hf with ⟨e, he, -⟩ | ⟨buf', he, -, hf⟩
            · cases he
            · cases he
              refine ⟨buf.length, by simp, ?_⟩
              have := hT.trans (hf buf.length (Nat.le_refl _))
              rwa [List.take_length] at this
  | chunk size n total copied rest c =>
    unfold Copying.step at hs
    simp only at hs
    obtain ⟨m, hm, hT⟩ := h
    rcases hw : writeOnce rest c k with ⟨r | ⟨rest', c1⟩, k1⟩
    · rw [hw] at hs
      cases r with
      | full c2 =>
        cases hs
        obtain ⟨rfl, rfl, rfl⟩ := writeOnce_full hw
        simp only [List.length_nil, Nat.add_zero] at hm
        subst hm
        simpa [Copying.Taken] using hT
      | _ => cases hs
    · rw [hw] at hs
      cases hs
      refine ⟨m, by rw [(writeOnce_keeps hw).2]; exact hm, ?_⟩
      rw [(writeOnce_keeps hw).1]
      exact hT

theorem Copying.Taken.took {s1 : BR} {c : Copying} {got : Bytes} (h : c.Taken s1 got s) : ∃ y u, Took s1 (got ++ y) u := by
  cases c with
  | first => exact ⟨_, _, h⟩
  | loop => exact ⟨[], s, by rw [List.append_nil]; exact h⟩
  | chunk => obtain ⟨n, -, h⟩ := h; exact ⟨_, _, h⟩

/-- The bytes in memory were read from the field. -/
theorem saveInMemory_took {bytes : Bytes} (hi : s.Inv) (h : saveInMemory cfg fuel s = (.inr bytes, t)) : Took s bytes t := by
  have hmem : ∀ {acc : Bytes} {u : BR}, Took s acc u → saveBytesInMemory cfg fuel acc u = (.inr bytes, t) → Took s bytes t := by
    intro acc u h0 h
    have hm := saveMem_spec cfg fuel acc (h0.inv hi)
    unfold saveBytesInMemory at h
    generalize saveMem cfg fuel acc u = x at hm h
    rcases x with ⟨r, u1⟩
    cases hm with
    | limit h1 h2 h3 h4 =>
      simp only at h
      split at h
      · cases h
        exact h0.trans h1
      · cases h
    | io h1 h2 h3 h4 =>
      simp only at h
      split at h
      · rename_i hc
        exact absurd hc.1 (by simp)
      · cases h
    | _ => cases h
  unfold saveInMemory at h
  split at h
  · have ht := saveText_spec cfg fuel hi
    generalize saveText cfg fuel s = x at ht h
    rcases x with ⟨r, u1⟩
    have hpart : ∀ {x : Bytes} {reason : Reason}, Took s x u1 → (if (reason = .sizeLimit ∧ cfg.cmpSizeLimit x.length = false) ∨ (reason = .utf8 ∧ cfg.textPolicy ≠ .force) then saveBytesInMemory cfg fuel x u1
        else (.inl (.part (.text x) reason), u1)) = (.inr bytes, t) → Took s bytes t := by
      intro x reason hx h
      split at h
      · exact hmem hx h
      · cases h
    cases ht with
    | limit h1 => exact hpart h1 h
    | utf8 h1 => exact hpart h1 h
    | io h1 => exact hpart h1 h
    | _ => cases h
  · exact hmem (Took.refl s) h

/-! ## The disk without what was written to the open files -/

/-- What was in the file when the thread opened it, if this is the file it is writing. -/
def FineThread.before (q : Path) : FineThread → Option Bytes
  | .at _ => none
  | .copying e _ name old _ _ _ => if q = e.saveDir.asPath ++ [name] then some old else none

/-- The files without what was written to those that are open. -/
def FineCrew.hidden (c : FineCrew) (f : Path → Option Bytes) (q : Path) : Option Bytes := (c.findSome? fun x => x.2.before q).or (f q)

/-- The disk without what was written to the open files. -/
def FineCrew.hide (c : FineCrew) (w : World) : World := { w with files := c.hidden w.files }

/-- The thread is at the place of the other one; what it has written so far are the first steps of what the other one is about to do. -/
def FineThread.Does (j : Job) (fuel : Nat) : FineThread → Thread → Prop
  | .at th, th' => th' = th
  | .copying e h name old c got s, th' => ∃ bytes s0, th' = .writing e h name old bytes s0 ∧ Copying.From (fieldPolicy j.cfg h) fuel (e.saveDir.asPath ++ [name]) bytes s0 c got s ∧
    ∀ s1, s1.Inv → Took s1 bytes s0 → c.Taken s1 got s

def FineCrew.Does (fuel : Nat) (c : FineCrew) (c' : Crew) : Prop := All2 (fun x y => y.1 = x.1 ∧ x.2.Does x.1 fuel y.2) c c'

theorem FineThread.Does.is {ft : FineThread} {th : Thread} (h : ft.Does j fuel th) : ft.Is th := by
  cases ft with
  | «at» => exact h
  | copying =>
    obtain ⟨bytes, s0, h, -⟩ := h
    exact ⟨bytes, s0, h⟩

theorem FineThread.Does.files {ft : FineThread} {th : Thread} (h : ft.Does j fuel th) : th.files = ft.files := by
  cases ft with
  | «at» => rw [show th = _ from h]; rfl
  | copying =>
    obtain ⟨bytes, s0, rfl, -⟩ := h
    rfl

theorem FineCrew.Does.files {c : FineCrew} {c' : Crew} (h : c.Does fuel c') : Crew.files c' = c.files := by
  induction h with
  | nil => rfl
  | cons h1 _ ih =>
    simp only [Crew.files, FineCrew.files, List.flatMap_cons] at ih ⊢
    rw [ih, h1.2.files]

theorem All2.middle {α β : Type} {R : α → β → Prop} {a1 a2 : List α} {a : α} {bs : List β} (h : All2 R (a1 ++ a :: a2) bs) : ∃ b1 b b2, bs = b1 ++ b :: b2 ∧ All2 R a1 b1 ∧ R a b ∧ All2 R a2 b2 := by
  induction a1 generalizing bs with
  | nil =>
    cases h with
    | cons h1 h2 => exact ⟨[], _, _, rfl, .nil, h1, h2⟩
  | cons x a1 ih =>
    cases h with
    | cons h1 h2 =>
      obtain ⟨b1, b, b2, rfl, g1, g2, g3⟩ := ih h2
      exact ⟨_ :: b1, b, b2, rfl, .cons h1 g1, g2, g3⟩

theorem FineThread.before_files {ft : FineThread} {q : Path} {old : Bytes} (h : ft.before q = some old) : q ∈ ft.files := by
  cases ft with
  | «at» => cases h
  | copying e hd name old' c got s =>
    simp only [FineThread.before] at h
    split at h
    · rename_i hq
      subst hq
      exact List.mem_append_right _ (List.mem_singleton_self _)
    · cases h

theorem FineCrew.before_none {c : FineCrew} {q : Path} (hq : ∀ x ∈ c, q ∉ x.2.files) : c.findSome? (fun x => x.2.before q) = none := by
  rw [List.findSome?_eq_none_iff]
  intro x hx
  cases hb : x.2.before q with
  | none => rfl
  | some old => exact absurd (FineThread.before_files hb) (hq x hx)

/-- No other thread holds the file. -/
theorem FineCrew.hidden_own {c1 c2 : FineCrew} {ft : FineThread} {f : Path → Option Bytes} {q : Path} (hq : ∀ x ∈ c1 ++ c2, q ∉ x.2.files) : FineCrew.hidden (c1 ++ (j, ft) :: c2) f q = (ft.before q).or (f q) := by
  unfold FineCrew.hidden
  rw [List.findSome?_append, FineCrew.before_none fun x hx => hq x (List.mem_append_left _ hx), List.findSome?_cons]
  cases ft.before q with
  | some => rfl
  | none => rw [FineCrew.before_none fun x hx => hq x (List.mem_append_right _ hx)]; rfl

/-- The thread does not hold the file before or after. -/
theorem FineCrew.hidden_same {c1 c2 : FineCrew} {ft ft' : FineThread} {f f' : Path → Option Bytes} {q : Path} (h : ft.before q = ft'.before q) (hf : f q = f' q) :
    FineCrew.hidden (c1 ++ (j, ft) :: c2) f q = FineCrew.hidden (c1 ++ (j, ft') :: c2) f' q := by
  unfold FineCrew.hidden
  rw [List.findSome?_append, List.findSome?_append, List.findSome?_cons, List.findSome?_cons, h, hf]

/-- The open file holds what was written to it. -/
def FineThread.Shown (j : Job) (w : World) : FineThread → Prop
  | .at (.writing e _ name old _ _) => w.files (e.saveDir.asPath ++ [name]) = some old
  | .at _ => True
  | .copying e _ name old _ got _ => w.files (e.saveDir.asPath ++ [name]) = some (overlay j.cfg.openOpts old got)

theorem FineThread.Shown.mono {ft : FineThread} (h : ft.Shown j w) (hk : ∀ q ∈ ft.files, w'.files q = w.files q) : ft.Shown j w' := by
  cases ft with
  | «at» th =>
    cases th with
    | writing e hd name old bytes s => exact (hk _ (List.mem_append_right _ (List.mem_singleton_self _))).trans h
    | _ => trivial
  | copying e hd name old c got s => exact (hk _ (List.mem_append_right _ (List.mem_singleton_self _))).trans h

/-! ## One step -/

def World.withFiles (w : World) (f : Path → Option Bytes) : World := { w with files := f }

/-- What a step of a thread that is not writing does, and that it does the same with other contents of the files. -/
theorem Thread.step_files (ho : cfg.openOpts.createNew = true) {th : Thread} (hth : ∀ e h name old bytes s, th ≠ .writing e h name old bytes s) {f : Path → Option Bytes} (hf : ∀ q, f q = none ↔ w.files q = none) :
    ((th.step D cfg fuel w).2.files = w.files ∧ th.step D cfg fuel (w.withFiles f) = ((th.step D cfg fuel w).1, (th.step D cfg fuel w).2.withFiles f) ∧
      ∀ e h name old bytes s, (th.step D cfg fuel w).1 ≠ .writing e h name old bytes s) ∨
    ∃ e h name bytes s, (th.step D cfg fuel w).1 = .writing e h name [] bytes s ∧ w.files (e.saveDir.asPath ++ [name]) = none ∧ (th.step D cfg fuel w).2.files = (w.setFile (e.saveDir.asPath ++ [name]) []).files ∧
      th.step D cfg fuel (w.withFiles f) = ((th.step D cfg fuel w).1, (th.step D cfg fuel w).2.withFiles ((w.withFiles f).setFile (e.saveDir.asPath ++ [name]) []).files) := by
  have hsaved : ∀ e hd r s e' h' name' old' bytes' s', Thread.saved D e hd r s ≠ .writing e' h' name' old' bytes' s' := by
    intro e hd r s e' h' name' old' bytes' s'
    cases r <;> simp [Thread.saved]
  cases th with
  | running res e s =>
    refine .inl ?_
    unfold Thread.step
    simp only
    by_cases hc : e.fieldsCount < cfg.countLimit
    · simp only [if_pos hc]
      cases res with
      | ok o =>
        cases o with
        | none => exact ⟨by trivial, by trivial, by simp⟩
        | some hd =>
          simp only
          rcases saveInMemory (fieldPolicy cfg hd) fuel s with ⟨r | bytes, s1⟩
          · exact ⟨by trivial, by trivial, fun _ _ _ _ _ _ => hsaved _ _ _ _ _ _ _ _ _ _⟩
          · exact ⟨by trivial, by trivial, by simp⟩
      | _ => exact ⟨by trivial, by trivial, by simp⟩
    · simp only [if_neg hc]
      exact ⟨by trivial, by trivial, by simp⟩
  | making e hd name bytes s =>
    refine .inl ?_
    unfold Thread.step World.createDirAll
    have hne : e.saveDir.asPath ++ [name] ≠ [] := by simp
    simp only [if_neg hne, World.withFiles]
    cases w.mkdirs.headD none with
    | none => exact ⟨by trivial, by trivial, by simp⟩
    | some er => exact ⟨by trivial, by trivial, fun _ _ _ _ _ _ => hsaved e hd (.error er) s _ _ _ _ _ _⟩
  | opening e hd name bytes s =>
    unfold Thread.step
    simp only
    rw [openFile_eq, openFile_eq]
    by_cases hv : (!cfg.openOpts.write && !cfg.openOpts.append || cfg.openOpts.append && cfg.openOpts.truncate && !cfg.openOpts.createNew) = true
    · simp only [if_pos hv]
      exact .inl ⟨by trivial, by trivial, fun _ _ _ _ _ _ => hsaved _ _ _ _ _ _ _ _ _ _⟩
    · simp only [if_neg hv]
      have hop : (w.withFiles f).opens = w.opens := rfl
      rw [hop]
      cases w.opens.headD none with
      | some er => exact .inl ⟨by trivial, by trivial, fun _ _ _ _ _ _ => hsaved e hd (.error er) s _ _ _ _ _ _⟩
      | none =>
        simp only [ho, if_true, true_or]
        have hp := hf (e.saveDir.asPath ++ [name])
        have hfp : (w.withFiles f).files (e.saveDir.asPath ++ [name]) = f (e.saveDir.asPath ++ [name]) := rfl
        rw [hfp]
        cases h1 : w.files (e.saveDir.asPath ++ [name]) with
        | none =>
          rw [hp.mpr h1]
          exact .inr ⟨e, hd, name, bytes, s, rfl, h1, rfl, rfl⟩
        | some x =>
          cases h2 : f (e.saveDir.asPath ++ [name]) with
          | none => rw [hp.mp h2] at h1; cases h1
          | some y => exact .inl ⟨by trivial, by trivial, fun _ _ _ _ _ _ => hsaved e hd (.error .alreadyExists) s _ _ _ _ _ _⟩
  | writing e hd name old bytes s => exact absurd rfl (hth _ _ _ _ _ _)
  | done r s => exact .inl ⟨rfl, rfl, by simp [Thread.step]⟩

/-- A step changes no file of another thread. -/
theorem FineThread.step_keeps (ho : j.cfg.openOpts.createNew = true) {ft : FineThread} {q : Path} (hq : q ∉ ft.files) (hex : w.files q ≠ none) : (ft.step D j.cfg fuel w).2.files q = w.files q := by
  cases ft with
  | copying e hd name old c got s =>
    have hne : q ≠ e.saveDir.asPath ++ [name] := fun h => hq (by rw [h]; exact List.mem_append_right _ (List.mem_singleton_self _))
    unfold FineThread.step
    simp only
    split <;> simp only [World.setFile, if_neg hne]
  | «at» th =>
    by_cases hth : ∀ e h name old bytes s, th ≠ .writing e h name old bytes s
    · have he : FineThread.step D j.cfg fuel (.at th) w = (.at (th.step D j.cfg fuel w).1, (th.step D j.cfg fuel w).2) := by
        cases th with
        | writing e hd name old bytes s => exact absurd rfl (hth _ _ _ _ _ _)
        | _ => rfl
      rw [he]
      rcases Thread.step_files (D := D) (fuel := fuel) ho hth (f := w.files) fun _ => Iff.rfl with ⟨h1, -⟩ | ⟨e, h, name, bytes, s, h1, h2, h3, -⟩
      · simp only [h1]
      · simp only [h3]
        have hne : q ≠ e.saveDir.asPath ++ [name] := by
          rintro rfl
          exact hex h2
        simp only [World.setFile, if_neg hne]
    · cases th with
      | writing e hd name old bytes s => rfl
      | _ => exact absurd (by simp) hth

/-! ## All steps -/

theorem overlay_nil (o : OpenOpts) (old : Bytes) : overlay o old [] = old := by
  unfold overlay
  split <;> simp

/-- What the simulation keeps: the threads of `Model/Threads.lean`, on the disk without what was written to the open files. -/
structure FineCrew.Sim (D : Deps) (fuel : Nat) (js : List Job) (w0 : World) (c : FineCrew) (w : World) (c' : Crew) : Prop where
  runs : Runs D fuel (Crew.start D js) w0 c' (c.hide w)
  does : c.Does fuel c'
  shown : ∀ x ∈ c, x.2.Shown x.1 w

theorem FineCrew.Sim.start (js : List Job) : FineCrew.Sim D fuel js w (FineCrew.start D js) w (Crew.start D js) := by
  have hat : ∀ x ∈ FineCrew.start D js, ∃ res e s, x.2 = .at (.running res e s) := by
    intro x hx
    obtain ⟨j, -, rfl⟩ := List.mem_map.mp hx
    exact ⟨_, _, _, rfl⟩
  refine ⟨?_, ?_, fun x hx => ?_⟩
  · have : (FineCrew.start D js).hide w = w := by
      unfold FineCrew.hide
      have : FineCrew.hidden (FineCrew.start D js) w.files = w.files := by
        funext q
        unfold FineCrew.hidden
        rw [List.findSome?_eq_none_iff.mpr fun x hx => ?_]
        · rfl
        · obtain ⟨res, e, s, h⟩ := hat x hx
          rw [h]
          rfl
      rw [this]
    rw [this]
    exact .start
  · unfold FineCrew.start Crew.start FineCrew.Does
    induction js with
    | nil => exact .nil
    | cons j js ih => exact .cons ⟨rfl, rfl⟩ (ih fun x hx => by
        obtain ⟨j, -, rfl⟩ := List.mem_map.mp hx
        exact ⟨_, _, _, rfl⟩)
  · obtain ⟨res, e, s, h⟩ := hat x hx
    rw [h]
    trivial

theorem FineCrew.Sim.other {js : List Job} {w0 : World} {c : FineCrew} {c' : Crew} (h : FineCrew.Sim D fuel js w0 c w c') (hk : ∀ p ∈ c.files, w'.files p = w.files p) : FineCrew.Sim D fuel js w0 c w' c' := by
  refine ⟨.other h.runs fun p hp => ?_, h.does, fun x hx => (h.shown x hx).mono fun q hq => hk q (List.mem_flatMap.mpr ⟨x, hx, hq⟩)⟩
  rw [h.does.files] at hp
  simp only [FineCrew.hide, FineCrew.hidden]
  rw [hk p hp]

theorem FineCrew.hide_exists {c : FineCrew} (hs : ∀ x ∈ c, x.2.Shown x.1 w) (q : Path) : (c.hide w).files q = none ↔ w.files q = none := by
  simp only [FineCrew.hide, FineCrew.hidden]
  cases hb : c.findSome? fun x => x.2.before q with
  | none => exact Iff.rfl
  | some old =>
    obtain ⟨x, hx, hb⟩ := List.exists_of_findSome?_eq_some hb
    have hsh := hs x hx
    rcases x with ⟨j, ft⟩
    cases ft with
    | «at» => cases hb
    | copying e h name old' c got s =>
      simp only [FineThread.before] at hb
      split at hb
      · rename_i hq
        subst hq
        rw [show w.files _ = _ from hsh]
        simp
      · cases hb

theorem FineCrew.Sim.turn (hD : D.Sane) {js : List Job} (hjs : ∀ j ∈ js, j.cfg.openOpts.createNew = true) {w0 : World} {c1 c2 : FineCrew} {ft : FineThread} {c' : Crew} (h : FineCrew.Sim D fuel js w0 (c1 ++ (j, ft) :: c2) w c') :
    ∃ c', FineCrew.Sim D fuel js w0 (c1 ++ (j, (ft.step D j.cfg fuel w).1) :: c2) (ft.step D j.cfg fuel w).2 c' := by
  obtain ⟨hr, hd, hs⟩ := h
  have hgood := hr.good hD hjs
  have hfl := hd.files
  obtain ⟨b1, ⟨j, th⟩, b2, rfl, d1, ⟨rfl, d2⟩, d3⟩ := hd.middle
  have ho : j.cfg.openOpts.createNew = true := hgood.fresh (j, th) (List.mem_append_right _ (List.mem_cons_self ..))
  have hapart : ∀ q ∈ ft.files, ∀ x ∈ c1 ++ c2, q ∉ x.2.files := by
    have hnd := hgood.own
    rw [hfl] at hnd
    have he : FineCrew.files (c1 ++ (j, ft) :: c2) = c1.files ++ (ft.files ++ c2.files) := by simp [FineCrew.files]
    rw [he] at hnd
    intro q hq x hx hqx
    rcases List.mem_append.mp hx with hx | hx
    · exact (List.nodup_append.mp hnd).2.2 q (List.mem_flatMap.mpr ⟨x, hx, hqx⟩) q (List.mem_append_left _ hq) rfl
    · exact (List.nodup_append.mp (List.nodup_append.mp hnd).2.1).2.2 q hq q (List.mem_flatMap.mpr ⟨x, hx, hqx⟩) rfl
  have hin : ∀ x ∈ c1 ++ c2, x ∈ c1 ++ (j, ft) :: c2 := fun x hx => (List.mem_append.mp hx).elim (List.mem_append_left _) fun h => List.mem_append_right _ (List.mem_cons_of_mem _ h)
  have hex : ∀ x ∈ c1 ++ c2, ∀ q ∈ x.2.files, w.files q ≠ none := by
    intro x hx q hq h0
    have := hgood.exist q (by rw [hfl]; exact List.mem_flatMap.mpr ⟨x, hin x hx, hq⟩)
    exact this ((FineCrew.hide_exists hs q).mpr h0)
  have hothers : ∀ x ∈ c1 ++ c2, x.2.Shown x.1 (ft.step D j.cfg fuel w).2 := fun x hx => (hs x (hin x hx)).mono fun q hq =>
    FineThread.step_keeps ho (fun hq' => hapart q hq' x hx hq) (hex x hx q hq)
  have hshown : ∀ {ft' : FineThread} {w1 : World}, (∀ x ∈ c1 ++ c2, x.2.Shown x.1 w1) → ft'.Shown j w1 → ∀ x ∈ c1 ++ (j, ft') :: c2, x.2.Shown x.1 w1 := by
    intro ft' w1 h1 h2 x hx
    rcases List.mem_append.mp hx with hx | hx
    · exact h1 x (List.mem_append_left _ hx)
    · rcases List.mem_cons.mp hx with rfl | hx
      · exact h2
      · exact h1 x (List.mem_append_right _ hx)
  have hown : ft.Shown j w := hs (j, ft) (List.mem_append_right _ (List.mem_cons_self ..))
  cases ft with
  | «at» th0 =>
    obtain rfl : th = th0 := d2
    by_cases hth : ∀ e h name old bytes s, th ≠ .writing e h name old bytes s
    · have he : FineThread.step D j.cfg fuel (.at th) w = (.at (th.step D j.cfg fuel w).1, (th.step D j.cfg fuel w).2) := by
        cases th with
        | writing e hd name old bytes s => exact absurd rfl (hth _ _ _ _ _ _)
        | _ => rfl
      rw [he] at hothers ⊢
      refine ⟨b1 ++ (j, (th.step D j.cfg fuel w).1) :: b2, ?_, d1.append (.cons ⟨rfl, rfl⟩ d3), ?_⟩
      · have hrun := hr.turn
        rcases Thread.step_files (D := D) (fuel := fuel) ho hth (FineCrew.hide_exists hs) with ⟨h1, h2, -⟩ | ⟨e, h, name, bytes, s, h1, h2, h3, h4⟩
        · rw [show FineCrew.hide (c1 ++ (j, .at th) :: c2) w = w.withFiles (FineCrew.hide (c1 ++ (j, .at th) :: c2) w).files from rfl, h2] at hrun
          refine cast ?_ hrun
          congr 1
          simp only [World.withFiles, FineCrew.hide]
          congr 1
          funext q
          exact FineCrew.hidden_same rfl (by rw [h1])
        · rw [show FineCrew.hide (c1 ++ (j, .at th) :: c2) w = w.withFiles (FineCrew.hide (c1 ++ (j, .at th) :: c2) w).files from rfl, h4] at hrun
          refine cast ?_ hrun
          congr 1
          simp only [World.withFiles, FineCrew.hide]
          congr 1
          funext q
          simp only [World.setFile]
          by_cases hq : q = e.saveDir.asPath ++ [name]
          · rw [if_pos hq, FineCrew.hidden_own (fun x hx hqx => hex x hx q hqx (by rw [hq]; exact h2)), h3]
            simp [FineThread.before, World.setFile, hq]
          · rw [if_neg hq]
            exact FineCrew.hidden_same rfl (by rw [h3]; simp [World.setFile, hq])
      · refine hshown hothers ?_
        rcases Thread.step_files (D := D) (fuel := fuel) ho hth (FineCrew.hide_exists hs) with ⟨h1, h2, h3⟩ | ⟨e, h, name, bytes, s, h1, h2, h3, h4⟩
        · show FineThread.Shown j _ (.at (th.step D j.cfg fuel w).1)
          cases hx : (th.step D j.cfg fuel w).1 with
          | writing => exact absurd hx (h3 _ _ _ _ _ _)
          | _ => trivial
        · show FineThread.Shown j _ (.at (th.step D j.cfg fuel w).1)
          rw [h1]
          show (th.step D j.cfg fuel w).2.files _ = _
          rw [h3]
          simp [World.setFile]
    · cases th with
      | writing e h name old bytes s =>
        refine ⟨b1 ++ (j, .writing e h name old bytes s) :: b2, ?_, d1.append (.cons ⟨rfl, bytes, s, rfl, Copying.From.first .., fun _ _ h => h⟩ d3), hshown hothers ?_⟩
        · refine cast ?_ hr
          congr 1
          simp only [FineCrew.hide, FineThread.step]
          congr 1
          funext q
          by_cases hq : q = e.saveDir.asPath ++ [name]
          · subst hq
            have hp := hapart (e.saveDir.asPath ++ [name]) (List.mem_append_right _ (List.mem_singleton_self _))
            rw [FineCrew.hidden_own hp, FineCrew.hidden_own hp, show w.files _ = _ from hown]
            simp [FineThread.before]
          · exact FineCrew.hidden_same (by simp [FineThread.before, hq]) rfl
        · show w.files _ = _
          rw [overlay_nil]
          exact hown
      | _ => exact absurd (by simp) hth
  | copying e h name old c got s =>
    obtain ⟨bytes, s0, rfl, hfrom, htaken⟩ := d2
    have hp := hapart (e.saveDir.asPath ++ [name]) (List.mem_append_right _ (List.mem_singleton_self _))
    rcases hst : c.step (fieldPolicy j.cfg h) fuel (e.saveDir.asPath ++ [name]) { script := w.writes, got := got } s with ⟨r | c', k, s'⟩
    · have he : FineThread.step D j.cfg fuel (.copying e h name old c got s) w =
          (.at (Thread.saved D e h r s'), { w with writes := k.script }.setFile (e.saveDir.asPath ++ [name]) (overlay j.cfg.openOpts old k.got)) := by
        simp only [FineThread.step, hst]
      rw [he] at hothers ⊢
      obtain ⟨used, hu⟩ := Copying.From.done (k := { script := w.writes, got := got }) hfrom hst
      have h1 := hr.other (w' := { FineCrew.hide (c1 ++ (j, FineThread.copying e h name old c got s) :: c2) w with writes := used ++ k.script }) fun _ _ => rfl
      have h2 := h1.turn
      have hw : Thread.step D j.cfg fuel (.writing e h name old bytes s0) { FineCrew.hide (c1 ++ (j, FineThread.copying e h name old c got s) :: c2) w with writes := used ++ k.script } =
          (Thread.saved D e h r s', { FineCrew.hide (c1 ++ (j, FineThread.copying e h name old c got s) :: c2) w with writes := k.script }.setFile (e.saveDir.asPath ++ [name]) (overlay j.cfg.openOpts old k.got)) := by
        unfold Thread.step
        simp only
        rw [writeFile_finish]
        simp only [hu k.script]
        rfl
      rw [hw] at h2
      refine ⟨b1 ++ (j, Thread.saved D e h r s') :: b2, ?_, d1.append (.cons ⟨rfl, rfl⟩ d3), hshown hothers ?_⟩
      · refine cast ?_ h2
        congr 1
        simp only [FineCrew.hide, World.setFile]
        congr 1
        funext q
        by_cases hq : q = e.saveDir.asPath ++ [name]
        · subst hq
          rw [if_pos rfl, FineCrew.hidden_own hp, if_pos rfl]
          rfl
        · rw [if_neg hq]
          exact FineCrew.hidden_same (by simp [FineThread.before, hq]) (by rw [if_neg hq])
      · show FineThread.Shown j _ (.at (Thread.saved D e h r s'))
        cases r <;> trivial
    · have he : FineThread.step D j.cfg fuel (.copying e h name old c got s) w =
          (.copying e h name old c' k.got s', { w with writes := k.script }.setFile (e.saveDir.asPath ++ [name]) (overlay j.cfg.openOpts old k.got)) := by
        simp only [FineThread.step, hst]
      rw [he] at hothers ⊢
      refine ⟨b1 ++ (j, .writing e h name old bytes s0) :: b2, ?_, d1.append (.cons ⟨rfl, bytes, s0, rfl, Copying.From.step (k := { script := w.writes, got := got }) hfrom hst, fun s1 hi h =>
        Copying.Taken.step (k := { script := w.writes, got := got }) hi (htaken s1 hi h) hst⟩ d3), hshown hothers ?_⟩
      · refine hr.other fun q _ => ?_
        simp only [FineCrew.hide]
        by_cases hq : q = e.saveDir.asPath ++ [name]
        · subst hq
          rw [FineCrew.hidden_own hp, FineCrew.hidden_own hp]
          simp [FineThread.before]
        · exact FineCrew.hidden_same rfl (by simp [World.setFile, hq])
      · show World.files _ _ = _
        simp [World.setFile]

theorem FineRuns.sim (hD : D.Sane) {js : List Job} (hjs : ∀ j ∈ js, j.cfg.openOpts.createNew = true) {c : FineCrew} (h : FineRuns D fuel (FineCrew.start D js) w c w') : ∃ c', FineCrew.Sim D fuel js w c w' c' := by
  induction h with
  | start => exact ⟨_, .start js⟩
  | turn _ ih =>
    obtain ⟨c', h⟩ := ih
    exact h.turn hD hjs
  | other _ hk ih =>
    obtain ⟨c', h⟩ := ih
    exact ⟨c', h.other hk⟩

/-- C148: the single writes make no difference: whatever the threads have done, they are where they could be if every file were written at once, and the files are the same, apart from those that are being written. (New files
only, which is the default.) -/
theorem C148_same (hD : D.Sane) {js : List Job} (hjs : ∀ j ∈ js, j.cfg.openOpts.createNew = true) {c : FineCrew} (h : FineRuns D fuel (FineCrew.start D js) w c w') :
    ∃ c' w1, Runs D fuel (Crew.start D js) w c' w1 ∧ All2 (fun x y => y.1 = x.1 ∧ x.2.Is y.2) c c' ∧ ∀ q, (∀ x ∈ c, x.2.growing ≠ some q) → w'.files q = w1.files q := by
  obtain ⟨c', h⟩ := h.sim hD hjs
  refine ⟨c', c.hide w', h.runs, h.does.imp fun _ _ h => ⟨h.1, h.2.is⟩, fun q hq => ?_⟩
  simp only [FineCrew.hide, FineCrew.hidden]
  rw [List.findSome?_eq_none_iff.mpr]
  · rfl
  · intro x hx
    have := hq x hx
    cases hft : x.2 with
    | «at» => rfl
    | copying e hd name old c got s =>
      rw [hft] at this
      simp only [FineThread.growing, ne_eq, Option.some.injEq] at this
      simp only [FineThread.before]
      rw [if_neg fun hq => this hq.symm]

/-- What the simulation says about one thread. -/
theorem FineRuns.one (hD : D.Sane) {js : List Job} (hjs : ∀ j ∈ js, j.cfg.openOpts.createNew = true) {c : FineCrew} (h : FineRuns D fuel (FineCrew.start D js) w c w') {ft : FineThread} (hm : (j, ft) ∈ c) :
    ∃ th, ft.Does j fuel th ∧ th.Sound D fuel j w' ∧ ft.Shown j w' ∧ c.files.Nodup ∧ ∀ p ∈ c.files, w'.files p ≠ none := by
  obtain ⟨c', hr, hd, hs⟩ := h.sim hD hjs
  have hgood := hr.good hD hjs
  have hfl := hd.files
  have hown := hgood.own
  have hexist : ∀ p ∈ c.files, w'.files p ≠ none := fun p hp h0 => hgood.exist p (by rw [hfl]; exact hp) ((FineCrew.hide_exists hs p).mpr h0)
  rw [hfl] at hown
  obtain ⟨c1, c2, rfl⟩ := List.append_of_mem hm
  obtain ⟨b1, ⟨j, th⟩, b2, rfl, d1, ⟨rfl, d2⟩, d3⟩ := hd.middle
  have hapart : ∀ q ∈ ft.files, ∀ x ∈ c1 ++ c2, q ∉ x.2.files := by
    have he : FineCrew.files (c1 ++ (j, ft) :: c2) = FineCrew.files c1 ++ (ft.files ++ FineCrew.files c2) := by simp [FineCrew.files]
    rw [he] at hown
    intro q hq x hx hqx
    rcases List.mem_append.mp hx with hx | hx
    · exact (List.nodup_append.mp hown).2.2 q (List.mem_flatMap.mpr ⟨x, hx, hqx⟩) q (List.mem_append_left _ hq) rfl
    · exact (List.nodup_append.mp (List.nodup_append.mp hown).2.1).2.2 q hq q (List.mem_flatMap.mpr ⟨x, hx, hqx⟩) rfl
  have hself : ft.files.Nodup := by
    have he : FineCrew.files (c1 ++ (j, ft) :: c2) = FineCrew.files c1 ++ (ft.files ++ FineCrew.files c2) := by simp [FineCrew.files]
    rw [he] at hown
    exact (List.nodup_append.mp (List.nodup_append.mp hown).2.1).1
  have hsound := hgood.sound (j, th) (List.mem_append_right _ (List.mem_cons_self ..))
  refine ⟨th, d2, ?_, hs (j, ft) hm, hown, hexist⟩
  cases ft with
  | «at» th0 =>
    obtain rfl : th = th0 := d2
    refine hsound.mono fun q hq => ?_
    simp only [FineCrew.hide]
    rw [FineCrew.hidden_own (hapart q hq)]
    rfl
  | copying e hd name old c got s =>
    obtain ⟨bytes, s0, rfl, -⟩ := d2
    refine ⟨Job.Filing.mono hsound.1 fun q hq => ?_, hsound.2⟩
    simp only [FineCrew.hide]
    rw [FineCrew.hidden_own (hapart q (List.mem_append_left _ hq))]
    have hne : q ≠ e.saveDir.asPath ++ [name] := fun h => (List.nodup_append.mp hself).2.2 q hq q (by rw [h]; exact List.mem_singleton_self _) rfl
    simp [FineThread.before, hne]

/-- C148: also while files grow, the entries of a thread are the first parts of its own body, with their headers, and what it has saved can be read back and is their data. If it has finished, they are all parts. -/
theorem C148_own_parts (hD : D.Sane) {js : List Job} (hjs : ∀ j ∈ js, j.cfg.openOpts.createNew = true) {c : FineCrew} (h : FineRuns D fuel (FineCrew.start D js) w c w') {ft : FineThread} (hm : (j, ft) ∈ c)
    (hn : NoStall j.up.evs) (hne : NoErr j.up.evs) {fin : Ending} (hP : Parts D (dashes ++ j.up.b) (Ev.bytes j.up.evs) j.up.parts fin) {e : Entries} (he : ft.entries = some e) :
    e.saveDir = j.dir ∧ ∃ fs k, GroupedByName e.fields fs ∧ All2 (SavedAs j.up.b j.up.evs w') fs (j.up.parts.take k) ∧ ∀ s, ft = .at (.done (.full e) s) → k = j.up.parts.length ∧ fin = .closed := by
  obtain ⟨th, h1, h2, -⟩ := h.one hD hjs hm
  have he' : th.entries = some e := by
    cases ft with
    | «at» => rw [show th = _ from h1]; exact he
    | copying =>
      obtain ⟨bytes, s0, rfl, -⟩ := h1
      exact he
  obtain ⟨g1, fs, k, g2, g3, g4⟩ := h2.own hn hne hP he'
  refine ⟨g1, fs, k, g2, g3, fun s hs => g4 s ?_⟩
  subst hs
  exact h1

/-- C148: no two fields, of the same request or of different ones, are saved to the same file, also while they are written or if they are cut off, and all these files exist. -/
theorem C148_own_files (hD : D.Sane) {js : List Job} (hjs : ∀ j ∈ js, j.cfg.openOpts.createNew = true) {c : FineCrew} (h : FineRuns D fuel (FineCrew.start D js) w c w') : c.files.Nodup ∧ ∀ p ∈ c.files, w'.files p ≠ none := by
  cases c with
  | nil => exact ⟨List.nodup_nil, by simp [FineCrew.files]⟩
  | cons x c =>
    obtain ⟨th, -, -, -, h4, h5⟩ := h.one hD hjs (j := x.1) (ft := x.2) (List.mem_cons_self ..)
    exact ⟨h4, h5⟩

/-- C148: the file that is being written holds at any time a beginning of what is saved for the part that comes after those that the thread has saved. -/
theorem C148_growing (hD : D.Sane) {js : List Job} (hjs : ∀ j ∈ js, j.cfg.openOpts.createNew = true) {c : FineCrew} (h : FineRuns D fuel (FineCrew.start D js) w c w') {ft : FineThread} (hm : (j, ft) ∈ c)
    (hn : NoStall j.up.evs) (hne : NoErr j.up.evs) {fin : Ending} (hP : Parts D (dashes ++ j.up.b) (Ev.bytes j.up.evs) j.up.parts fin) {p : Path} (hp : ft.growing = some p) :
    ∃ e fs x got more, ft.entries = some e ∧ GroupedByName e.fields fs ∧ j.up.parts[fs.length]? = some x ∧ w'.files p = some got ∧ SavedOk (dashes ++ j.up.b) j.up.evs x.2 (got ++ more) := by
  obtain ⟨th, h1, h2, h3, -⟩ := h.one hD hjs hm
  cases ft with
  | «at» => cases hp
  | copying e hd name old c got s =>
    cases hp
    obtain ⟨bytes, s0, rfl, -, h4⟩ := h1
    obtain ⟨⟨fs, s1, rfl, hat, hmem⟩, w0, w1, hop⟩ := h2
    have ho : j.cfg.openOpts.createNew = true := by
      have hst : ∀ {c : FineCrew} {w' : World}, FineRuns D fuel (FineCrew.start D js) w c w' → ∀ x ∈ c, x.1 ∈ js := by
        intro c w' h
        induction h with
        | start =>
          intro x hx
          obtain ⟨j, hj, rfl⟩ := List.mem_map.mp hx
          exact hj
        | turn _ ih =>
          intro x hx
          rcases List.mem_append.mp hx with hx | hx
          · exact ih x (List.mem_append_left _ hx)
          · rcases List.mem_cons.mp hx with rfl | hx
            · have := ih _ (List.mem_append_right _ (List.mem_cons_self ..))
              exact this
            · exact ih x (List.mem_append_right _ (List.mem_cons_of_mem _ hx))
        | other _ _ ih => exact ih
      exact hjs j (hst h _ hm)
    obtain ⟨rfl, -⟩ := openFile_new hop ho
    obtain ⟨s00, a1, a2, a3, a4⟩ := hat
    obtain ⟨⟨k0, k1⟩, k2, k3⟩ := a4 fin ⟨hn, hne, hP⟩
    have hi1 := ((a1.entry a2).spec hD).1
    obtain ⟨y, u, hT⟩ := (h4 s1 hi1 (saveInMemory_took hi1 hmem)).took
    obtain ⟨dat, es', z, l1, l2⟩ := k3.data hD hn hne a1 a2 hT
    refine ⟨_, fs, (hd, dat), got, y ++ z, rfl, j.after_grouped fs, ?_, ?_, ?_⟩
    · have := congrArg (fun l => l[0]?) l1
      simpa [List.getElem?_drop] using this
    · rw [show w'.files _ = _ from h3]
      unfold overlay
      split <;> simp
    · rw [← List.append_assoc]
      exact l2

theorem FineCrew.run_runs {c0 : FineCrew} {w0 : World} : ∀ (is : List Nat) {c : FineCrew} {w : World}, FineRuns D fuel c0 w0 c w → FineRuns D fuel c0 w0 (FineCrew.run D fuel is c w).1 (FineCrew.run D fuel is c w).2
  | [], _, _, h => h
  | i :: is, c, w, h => by
    unfold FineCrew.run
    split
    · rename_i j ft hi
      obtain ⟨l1, l2, h1, h2⟩ := set_split hi
      rw [h2]
      rw [h1] at h
      exact FineCrew.run_runs is h.turn
    · exact FineCrew.run_runs is h

namespace Sample

/-- A disk that takes few bytes at a time, and one of whose writes is interrupted. -/
def slowDisk : World := { disk4 with writes := [.accept 1, .accept 2, .err .interrupted, .accept 1, .accept 1] }

/-- Two threads take turns; at last the second one has saved its first field. -/
def turns : List Nat := [0, 1, 0, 1, 0, 1, 0, 1, 0, 1, 0, 1, 0, 1, 0, 1, 0, 1, 1]

def pair : FineCrew × World := FineCrew.run refDeps 40 turns (FineCrew.start refDeps [job, job]) slowDisk

theorem pair_runs : FineRuns refDeps 40 (FineCrew.start refDeps [job, job]) slowDisk pair.1 pair.2 := FineCrew.run_runs turns .start

theorem job_new : ∀ j ∈ [job, job], j.cfg.openOpts.createNew = true := by
  intro j hj
  simp at hj
  subst hj
  rfl

end Sample

/-- The first of two threads has written two of the three bytes of its first field, the second one has saved its first field (C148_same, C148_own_parts, C148_own_files, C148_growing). -/
example : (∃ c w', Runs refDeps 40 (Crew.start refDeps [Sample.job, Sample.job]) Sample.slowDisk c w' ∧ All2 (fun x y => y.1 = x.1 ∧ x.2.Is y.2) Sample.pair.1 c) ∧
    FineCrew.files Sample.pair.1 = [[b!"d", b!"x"], [b!"d", b!"y"]] ∧ Sample.pair.2.files [b!"d", b!"x"] = some b!"on" ∧ Sample.pair.2.files [b!"d", b!"y"] = some b!"one" ∧ (FineCrew.files Sample.pair.1).Nodup ∧
    (∃ ft, (Sample.job, ft) ∈ Sample.pair.1 ∧ ft.growing = some [b!"d", b!"x"] ∧ ∃ got more, Sample.pair.2.files [b!"d", b!"x"] = some got ∧ SavedOk (dashes ++ Sample.bnd) Sample.evsTwo b!"one" (got ++ more)) ∧
    ∃ ft e, (Sample.job, ft) ∈ Sample.pair.1 ∧ ft.entries = some e ∧ e.fieldsCount = 1 ∧ ∃ fs k, GroupedByName e.fields fs ∧ All2 (SavedAs Sample.bnd Sample.evsTwo Sample.pair.2) fs (Sample.job.up.parts.take k) := by
  have hr := Sample.pair_runs
  refine ⟨?_, by decide +kernel, by decide +kernel, by decide +kernel, (C148_own_files refDeps_sane Sample.job_new hr).1, ?_, ?_⟩
  · obtain ⟨c, w', h1, h2, -⟩ := C148_same refDeps_sane Sample.job_new hr
    exact ⟨c, w', h1, h2⟩
  · rcases hc : Sample.pair.1[0]? with _ | ⟨j, ft⟩
    · exact absurd hc (by decide +kernel)
    have hj : (Sample.pair.1[0]?).map (fun x => x.1) = some Sample.job := rfl
    have hg : (Sample.pair.1[0]?).map (fun x => x.2.growing) = some (some [b!"d", b!"x"]) := by decide +kernel
    have he : (Sample.pair.1[0]?).map (fun x => x.2.entries.map Entries.fields) = some (some []) := by decide +kernel
    rw [hc] at hj hg he
    simp only [Option.map_some, Option.some.injEq] at hj hg he
    subst hj
    have hm := List.mem_of_getElem? hc
    obtain ⟨e, fs, x, got, more, h1, h2, h3, h4, h5⟩ := C148_growing refDeps_sane Sample.job_new hr hm (by decide +kernel) (by intro e; simp [Sample.job, Sample.evsTwo]) Sample.partsTwo hg
    rw [h1] at he
    simp only [Option.map_some, Option.some.injEq] at he
    rw [he] at h2
    have hfs : fs = [] := List.eq_nil_of_length_eq_zero (by rw [← h2.total]; rfl)
    subst hfs
    cases h3
    refine ⟨ft, hm, hg, got, more, ?_, h5⟩
    rw [h4]
  · rcases hc : Sample.pair.1[1]? with _ | ⟨j, ft⟩
    · exact absurd hc (by decide +kernel)
    have hj : (Sample.pair.1[1]?).map (fun x => x.1) = some Sample.job := rfl
    have he : (Sample.pair.1[1]?).map (fun x => x.2.entries.map Entries.fieldsCount) = some (some 1) := by decide +kernel
    rw [hc] at hj he
    simp only [Option.map_some, Option.some.injEq] at hj he
    subst hj
    obtain ⟨e, he1, he2⟩ := Option.map_eq_some_iff.mp he
    have hm := List.mem_of_getElem? hc
    obtain ⟨-, fs, k, h3, h4, -⟩ := C148_own_parts refDeps_sane Sample.job_new hr hm (by decide +kernel) (by intro e; simp [Sample.job, Sample.evsTwo]) Sample.partsTwo he1
    exact ⟨ft, e, hm, he1, he2, fs, k, h3, h4⟩

/-! ## A thread alone -/

/-- Some steps of one thread. -/
def FineThread.steps (D : Deps) (b : Settings) (fuel : Nat) : Nat → FineThread → World → FineThread × World
  | 0, ft, w => (ft, w)
  | n + 1, ft, w => FineThread.steps D b fuel n (ft.step D b fuel w).1 (ft.step D b fuel w).2

theorem FineCrew.run_steps (n : Nat) (ft : FineThread) (w : World) : FineCrew.run D fuel (List.replicate n 0) [(j, ft)] w = ([(j, (ft.steps D j.cfg fuel n w).1)], (ft.steps D j.cfg fuel n w).2) := by
  induction n generalizing ft w with
  | zero => rfl
  | succ n ih =>
    rw [List.replicate_succ]
    unfold FineCrew.run FineThread.steps
    exact ih _ _

theorem FineThread.steps_add (n m : Nat) (ft : FineThread) (w : World) : ft.steps D cfg fuel (n + m) w = (ft.steps D cfg fuel n w).1.steps D cfg fuel m (ft.steps D cfg fuel n w).2 := by
  induction n generalizing ft w with
  | zero => rw [Nat.zero_add]; rfl
  | succ n ih => rw [Nat.succ_add]; exact ih _ _

theorem FineThread.steps_done (n : Nat) {r : SaveRes Entries PartialEntries} : (FineThread.at (.done r s)).steps D cfg fuel n w = (.at (.done r s), w) := by
  induction n with
  | zero => rfl
  | succ n ih => exact ih

/-- The writing comes to an end. -/
inductive Copying.Ends (b : Settings) (fuel : Nat) (p : Path) : Copying → Sink → BR → Prop
  | done {c : Copying} {k k' : Sink} {s s' : BR} {r : SaveRes SavedData SavedData} : c.step b fuel p k s = (.inl r, k', s') → Copying.Ends b fuel p c k s
  | next {c c' : Copying} {k k' : Sink} {s s' : BR} : c.step b fuel p k s = (.inr c', k', s') → Copying.Ends b fuel p c' k' s' → Copying.Ends b fuel p c k s

theorem writeOnce_shrinks {rest rest' : Bytes} {total total' : Nat} {k k' : Sink} (h : writeOnce rest total k = (.inr (rest', total'), k')) :
    k'.script.length + (if rest' = [] then 0 else 1) < k.script.length + (if rest = [] then 0 else 1) := by
  unfold writeOnce at h
  split at h
  · cases h
  · rename_i hr
    rw [if_neg hr]
    split at h
    · rename_i hsc
      cases h
      simp
    · rename_i hsc
      cases h
      rw [hsc, if_neg hr]
      simp
    · cases h
    · rename_i hsc
      split at h
      · cases h
      · cases h
        rw [hsc]
        simp only [List.length_cons]
        split <;> omega

theorem Copying.ends_loop (b : Settings) (fuel : Nat) (p : Path) : ∀ (n size total copied : Nat) (k : Sink) (s : BR), Copying.Ends b fuel p (.loop size n total copied) k s := by
  intro n
  induction n with
  | zero => exact fun size total copied k s => .done rfl
  | succ n ih =>
    have hchunk : ∀ (m size total copied : Nat) (rest : Bytes) (c : Nat) (k : Sink) (s : BR), k.script.length + (if rest = [] then 0 else 1) < m → Copying.Ends b fuel p (.chunk size n total copied rest c) k s := by
      intro m
      induction m with
      | zero => intro _ _ _ _ _ _ _ h; omega
      | succ m ihm =>
        intro size total copied rest c k s hlt
        rcases hw : writeOnce rest c k with ⟨r | ⟨rest', c'⟩, k'⟩
        · cases r with
          | full c' => exact .next (c' := .loop size n (total + c') copied) (k' := k') (s' := s.consume c') (by simp only [Copying.step, hw]) (ih ..)
          | part c' r => exact .done (by simp only [Copying.step, hw]; rfl)
          | error e => exact .done (by simp only [Copying.step, hw]; rfl)
          | panic => exact .done (by simp only [Copying.step, hw]; rfl)
          | hang => exact .done (by simp only [Copying.step, hw]; rfl)
        · have := writeOnce_shrinks hw
          exact .next (c' := .chunk size n total copied rest' c') (k' := k') (s' := s) (by simp only [Copying.step, hw]) (ihm _ _ _ _ _ _ _ (by omega))
    intro size total copied k s
    rcases hs : Copying.step b fuel p (.loop size (n + 1) total copied) k s with ⟨r | c', k', s'⟩
    · exact .done hs
    · refine .next hs ?_
      unfold Copying.step at hs
      simp only at hs
      split at hs
      · cases hs; exact ih ..
      · cases hs
      · cases hs
      · cases hs
      · split at hs
        · cases hs
        · split at hs
          · cases hs
          · cases hs
            exact hchunk _ _ _ _ _ _ _ _ (Nat.lt_succ_self _)

theorem Copying.ends_first (b : Settings) (fuel : Nat) (p : Path) : ∀ (m : Nat) (rest : Bytes) (total : Nat) (k : Sink) (s : BR), k.script.length + (if rest = [] then 0 else 1) < m → Copying.Ends b fuel p (.first rest total) k s := by
  intro m
  induction m with
  | zero => intro _ _ _ _ h; omega
  | succ m ihm =>
    intro rest total k s hlt
    rcases hw : writeOnce rest total k with ⟨r | ⟨rest', c'⟩, k'⟩
    · cases r with
      | full size => exact .next (c' := .loop size fuel 0 0) (k' := k') (s' := s) (by simp only [Copying.step, hw]) (Copying.ends_loop ..)
      | _ => exact .done (by simp only [Copying.step, hw]; rfl)
    · have := writeOnce_shrinks hw
      exact .next (c' := .first rest' c') (k' := k') (s' := s) (by simp only [Copying.step, hw]) (ihm _ _ _ _ (by omega))

theorem FineThread.steps_copying {e : Entries} {h : FieldHeaders} {name old : Bytes} {c : Copying} {k : Sink} (hE : Copying.Ends (fieldPolicy cfg h) fuel (e.saveDir.asPath ++ [name]) c k s) (w : World) (hw : w.writes = k.script) :
    ∃ m, (FineThread.copying e h name old c k.got s).steps D cfg fuel m w = (.at (Thread.saved D e h (c.finish (fieldPolicy cfg h) fuel (e.saveDir.asPath ++ [name]) k s).1 (c.finish (fieldPolicy cfg h) fuel (e.saveDir.asPath ++ [name]) k s).2.2),
      { w with writes := (c.finish (fieldPolicy cfg h) fuel (e.saveDir.asPath ++ [name]) k s).2.1.script }.setFile (e.saveDir.asPath ++ [name])
        (overlay cfg.openOpts old (c.finish (fieldPolicy cfg h) fuel (e.saveDir.asPath ++ [name]) k s).2.1.got)) := by
  induction hE generalizing w with
  | done hs =>
    rw [Copying.finish_step, hs]
    refine ⟨1, ?_⟩
    unfold FineThread.steps FineThread.step
    simp only
    rw [hw, hs]
    rfl
  | @next c c' k k' s s' hs _ ih =>
    obtain ⟨m, hm⟩ := ih ({ w with writes := k'.script }.setFile (e.saveDir.asPath ++ [name]) (overlay cfg.openOpts old k'.got)) rfl
    rw [Copying.finish_step, hs]
    refine ⟨m + 1, ?_⟩
    unfold FineThread.steps
    have he : FineThread.step D cfg fuel (.copying e h name old c k.got s) w = (.copying e h name old c' k'.got s', { w with writes := k'.script }.setFile (e.saveDir.asPath ++ [name]) (overlay cfg.openOpts old k'.got)) := by
      unfold FineThread.step
      simp only
      rw [hw, hs]
    rw [he]
    simp only
    rw [hm]
    simp only [World.setFile]
    congr 2
    funext q
    split <;> rfl

/-- What a thread does in some steps, it does in some single writes. -/
theorem FineThread.steps_coarse (m : Nat) (th : Thread) (w : World) : ∃ m', (FineThread.at th).steps D cfg fuel m' w = (.at (th.steps D cfg fuel m w).1, (th.steps D cfg fuel m w).2) := by
  induction m generalizing th w with
  | zero => exact ⟨0, rfl⟩
  | succ m ih =>
    have hone : ∃ m', (FineThread.at th).steps D cfg fuel m' w = (.at (th.step D cfg fuel w).1, (th.step D cfg fuel w).2) := by
      cases th with
      | writing e h name old bytes s =>
        obtain ⟨m', hm⟩ := FineThread.steps_copying (D := D) (cfg := cfg) (e := e) (h := h) (name := name) (old := old) (k := { script := w.writes, got := [] }) (Copying.ends_first (fieldPolicy cfg h) fuel (e.saveDir.asPath ++ [name]) _ bytes 0 { script := w.writes, got := [] } s (Nat.lt_succ_self _)) w rfl
        refine ⟨m' + 1, ?_⟩
        unfold FineThread.steps
        show (FineThread.copying e h name old (.first bytes 0) [] s).steps D cfg fuel m' w = _
        rw [hm]
        unfold Thread.step
        simp only [writeFile_finish]
        rfl
      | _ => exact ⟨1, rfl⟩
    obtain ⟨m1, h1⟩ := hone
    obtain ⟨m2, h2⟩ := ih (th.step D cfg fuel w).1 (th.step D cfg fuel w).2
    refine ⟨m1 + m2, ?_⟩
    rw [FineThread.steps_add, h1]
    exact h2

/-- C148: the single writes do what `with_entries` does: if nothing else runs, a thread ends with its result, its disk and its reader. -/
theorem C148_alone {r : SaveRes Entries PartialEntries} (h : withEntries D j.cfg fuel (Entries.new j.dir) w (withBody j.up.evs j.up.b) = (r, w', t)) (hr : r ≠ .hang) :
    ∃ m, FineCrew.run D fuel (List.replicate m 0) (FineCrew.start D [j]) w = ([(j, .at (.done r t))], w') := by
  obtain ⟨m, hm⟩ := FineThread.steps_coarse (D := D) (cfg := j.cfg) (fuel := fuel) (4 * fuel) (Thread.start D (Entries.new j.dir) (withBody j.up.evs j.up.b)) w
  have := Thread.steps_loop fuel (4 * fuel) (Nat.le_refl _) _ _ _ _ h hr
  refine ⟨m, ?_⟩
  show FineCrew.run D fuel _ [(j, _)] w = _
  rw [FineCrew.run_steps, hm]
  unfold Thread.start
  rw [this]

example : ∃ r w' t m, FineCrew.run refDeps 40 (List.replicate m 0) (FineCrew.start refDeps [Sample.job]) Sample.slowDisk = ([(Sample.job, .at (.done r t))], w') :=
  let ⟨m, h⟩ := C148_alone (j := Sample.job) (triple_eq _) (SaveRes.returns_ne (by decide +kernel)).1
  ⟨_, _, _, m, h⟩

/-! ## Every thread for itself -/

def FineThread.InDir (d : SaveDir) : FineThread → Prop
  | .at th => th.InDir d
  | .copying e _ _ _ _ _ _ => e.saveDir = d

theorem Copying.step_world (b : Settings) (fuel : Nat) {R : Path → Prop} {p : Path} (hp : R p) (old got : Bytes) (c : Copying) (s : BR) :
    Local R fun w => (((c.step b fuel p { script := w.writes, got := got } s).1, (c.step b fuel p { script := w.writes, got := got } s).2.1.got, (c.step b fuel p { script := w.writes, got := got } s).2.2),
      { w with writes := (c.step b fuel p { script := w.writes, got := got } s).2.1.script }.setFile p (overlay b.openOpts old (c.step b fuel p { script := w.writes, got := got } s).2.1.got)) := by
  have hf : SinkLocal fun k => (((c.step b fuel p { script := k.script, got := got } s).1, (c.step b fuel p { script := k.script, got := got } s).2.1.got, (c.step b fuel p { script := k.script, got := got } s).2.2),
      ({ script := (c.step b fuel p { script := k.script, got := got } s).2.1.script, got := [] } : Sink)) := by
    intro k
    obtain ⟨h1, u, h2, h3⟩ := Copying.step_local b fuel p c s { script := k.script, got := got }
    refine ⟨h1, u, h2, fun rest => ?_⟩
    have h3 := h3 rest
    simp only [Prod.mk.injEq] at h3
    obtain ⟨⟨g1, g2⟩, g3⟩ := h3
    simp only [g1, g2, g3]
  exact ((sink_local (R := R) hf).bind (g := fun x w => (x.1, w.setFile p (overlay b.openOpts old x.1.2.1))) fun x => setFile_local hp _ _).congr fun w => rfl

theorem Job.fine_regions : Regions (fun (j : Job) ft w => FineThread.step D j.cfg fuel ft w) (fun j ft => ft.InDir j.dir) (fun j q => Below j.dir.asPath q) := by
  refine ⟨fun j ft w h => ?_, fun j ft h => ?_⟩
  · cases ft with
    | «at» th =>
      cases th with
      | writing => exact h
      | _ => exact Thread.step_inDir (D := D) (cfg := j.cfg) (fuel := fuel) (w := w) h
    | copying e hd name old c got s =>
      unfold FineThread.step
      simp only
      split
      · exact Thread.saved_inDir h
      · exact h
  · cases ft with
    | «at» th =>
      have hl := Thread.step_local (D := D) (cfg := j.cfg) (fuel := fuel) (show Thread.InDir j.dir th from h)
      cases th with
      | writing => exact .pure _
      | _ => exact (hl.bind (g := fun th w => (FineThread.at th, w)) fun _ => .pure _).congr fun w => rfl
    | copying e hd name old c got s =>
      have hp : Below j.dir.asPath (e.saveDir.asPath ++ [name]) := by rw [show e.saveDir = j.dir from h]; exact ⟨[name], rfl⟩
      refine ((Copying.step_world (fieldPolicy j.cfg hd) fuel hp old got c s).bind (g := fun x w => (match x.1 with
        | .inl r => FineThread.at (Thread.saved D e hd r x.2.2)
        | .inr c => .copying e hd name old c x.2.1 x.2.2, w)) fun x => .pure _).congr fun w => ?_
      unfold FineThread.step
      simp only
      rcases c.step (fieldPolicy j.cfg hd) fuel (e.saveDir.asPath ++ [name]) { script := w.writes, got := got } s with ⟨r | c', k, s'⟩ <;> rfl

theorem FineCrew.run_many (ns : List Nat) (c : FineCrew) (w : World) : FineCrew.run D fuel ns c w = manyRun (fun j ft w => FineThread.step D j.cfg fuel ft w) ns c w := by
  induction ns generalizing c w with
  | nil => rfl
  | cons n ns ih =>
    unfold FineCrew.run manyRun
    rcases c[n]? with _ | ⟨v, k⟩ <;> exact ih _ _

/-- C148: requests are saved at the same time, with any settings, each in a directory of its own, and every write is a step. When the save of one of them has returned, the result is that of a save of this request alone, on a
disk with the same files on which nothing happens that does not happen on this one, and the files in its directory are the same. -/
theorem C148_result (hD : D.Sane) {js : List Job} (hj : js.Pairwise Job.Apart) {n : Nat} {j : Job} (hn : js[n]? = some j) (hm : Nat.min j.cfg.sizeLimit j.cfg.memoryThreshold < u64Max ∨ j.cfg.textPolicy = .ignore) :
    ∃ m, ∀ fuel, m ≤ fuel → ∀ (w w' : World) ns c r t, FineCrew.run D fuel ns (FineCrew.start D js) w = (c, w') → c[n]? = some (j, .at (.done r t)) →
      ∃ w0 w1 : World, w0.files = w.files ∧ w0.dirs = w.dirs ∧ w0.MeetsOnly w ∧ withEntries D j.cfg fuel (Entries.new j.dir) w0 (withBody j.up.evs j.up.b) = (r, w1, t) ∧ ∀ q, Below j.dir.asPath q → w1.files q = w'.files q := by
  refine ⟨(withBody j.up.evs j.up.b).enough (j.cfg.memLimit 0) + 1, fun fuel hf w w' ns c r t hrun hc => ?_⟩
  rw [FineCrew.run_many] at hrun
  have hstart : ∀ (m : Nat) v k, (FineCrew.start D js)[m]? = some (v, k) → js[m]? = some v := by
    intro m v k h
    unfold FineCrew.start at h
    rw [List.getElem?_map] at h
    obtain ⟨j', h1, h2⟩ := Option.map_eq_some_iff.mp h
    cases h2
    exact h1
  obtain ⟨ft, h1, w0, w1, h2, h3, h4, h5, h6⟩ := many_solo' Job.fine_regions ns (n := n) (v := j) (k := .at (Thread.start D (Entries.new j.dir) (withBody j.up.evs j.up.b))) (fun x hx => by
    obtain ⟨j', -, rfl⟩ := List.mem_map.mp hx
    exact rfl) (by
    unfold FineCrew.start
    rw [List.getElem?_map, hn]
    rfl) (fun m v' k' hne hm q hq => apart_of (A := Job.Apart) (fun a b h q hq => h q hq.symm) hj hn (hstart m v' k' hm) (fun h => hne h.symm) q hq) hrun
  rw [hc] at h1
  cases h1
  rcases he : withEntries D j.cfg fuel (Entries.new j.dir) w0 (withBody j.up.evs j.up.b) with ⟨r0, w2, t0⟩
  have hnh : r0 ≠ .hang := by
    have := (withEntries_ends (D := D) (e := Entries.new j.dir) (w := w0) (fuel := fuel) hD (⟨[], rfl⟩ : Reachable D j.up.evs j.up.b (withBody j.up.evs j.up.b)) hm).1 hf
    rw [he] at this
    exact this
  obtain ⟨m, hal⟩ := C148_alone he hnh
  rw [← FineCrew.run_many] at h5
  rw [FineCrew.run_steps] at h5
  rw [show FineCrew.start D [j] = [(j, .at (Thread.start D (Entries.new j.dir) (withBody j.up.evs j.up.b)))] from rfl, FineCrew.run_steps] at hal
  generalize FineThread.at (Thread.start D (Entries.new j.dir) (withBody j.up.evs j.up.b)) = ft at h5 hal
  have e1 : ft.steps D j.cfg fuel (ns.count n) w0 = (.at (.done r t), w1) := by
    simp only [Prod.mk.injEq, List.cons.injEq, true_and, and_true] at h5
    exact Prod.ext h5.1 h5.2
  have e2 : ft.steps D j.cfg fuel m w0 = (.at (.done r0 t0), w2) := by
    simp only [Prod.mk.injEq, List.cons.injEq, true_and, and_true] at hal
    exact Prod.ext hal.1 hal.2
  have e3 := FineThread.steps_add (D := D) (cfg := j.cfg) (fuel := fuel) (ns.count n) m ft w0
  have e4 := FineThread.steps_add (D := D) (cfg := j.cfg) (fuel := fuel) m (ns.count n) ft w0
  rw [e1, FineThread.steps_done] at e3
  rw [e2, FineThread.steps_done, Nat.add_comm] at e4
  rw [e3] at e4
  simp only [Prod.mk.injEq, FineThread.at.injEq, Thread.done.injEq] at e4
  obtain ⟨⟨rfl, rfl⟩, rfl⟩ := e4
  exact ⟨w0, w1, h2, h3, h4, he, h6⟩

/-- C148_result: two requests are saved in turns on a slow disk; the first is saved when the second is still being written. -/
example : [Sample.soloJob Sample.evsTwo b!"1", Sample.soloJob Sample.evsHuge b!"2"].Pairwise Job.Apart ∧
    (Nat.min (Sample.soloJob Sample.evsTwo b!"1").cfg.sizeLimit (Sample.soloJob Sample.evsTwo b!"1").cfg.memoryThreshold < u64Max ∨ (Sample.soloJob Sample.evsTwo b!"1").cfg.textPolicy = .ignore) ∧
    ∃ r t, (FineCrew.run refDeps 40 (List.replicate 8 1 ++ List.replicate 40 0) (FineCrew.start refDeps [Sample.soloJob Sample.evsTwo b!"1", Sample.soloJob Sample.evsHuge b!"2"]) Sample.slowDisk).1[0]? =
      some (Sample.soloJob Sample.evsTwo b!"1", .at (.done r t)) := by
  refine ⟨Sample.soloJob_apart _ _, by decide +kernel, ?_⟩
  generalize hx : (FineCrew.run refDeps 40 (List.replicate 8 1 ++ List.replicate 40 0) (FineCrew.start refDeps [Sample.soloJob Sample.evsTwo b!"1", Sample.soloJob Sample.evsHuge b!"2"]) Sample.slowDisk).1[0]? = x
  have hd : x.map (fun y => match y.2 with
    | .at (.done _ _) => true
    | _ => false) = some true := by rw [← hx]; decide +kernel
  have hj : x.map (fun x => x.1) = some (Sample.soloJob Sample.evsTwo b!"1") := by rw [← hx]; rfl
  rcases x with _ | ⟨j, ft⟩
  · cases hd
  cases hj
  cases ft with
  | copying => cases hd
  | «at» th =>
    cases th with
    | done r t => exact ⟨r, t, rfl⟩
    | _ => cases hd

end Multipart

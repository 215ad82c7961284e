import Verif.Props.WriteSteps
import Verif.Lemmas.Grow
import Verif.Spec.DiskUse
/-!
# C149: what is on the disk if the process is stopped at any time
-/
namespace Multipart

variable {D : Deps} {cfg : Settings} {fuel : Nat} {w w' : World} {s t : BR} {j : Job}

/-! ## What threads write -/

theorem saveInMemory_short {bytes : Bytes} (hl : cfg.sizeLimit < u64Max) (h : saveInMemory cfg fuel s = (.inr bytes, t)) : bytes.length ≤ cfg.memLimit 0 := by
  have hmem : ∀ {acc : Bytes} {u : BR}, acc.length ≤ cfg.memLimit 0 → saveBytesInMemory cfg fuel acc u = (.inr bytes, t) → bytes.length ≤ cfg.memLimit 0 := by
    intro acc u h0 h
    have hm := saveMem_grow (cfg := cfg) (fuel := fuel) (s := u) hl h0
    unfold saveBytesInMemory at h
    rcases hx : saveMem cfg fuel acc u with ⟨r, u1⟩
    rw [hx] at hm h
    cases r with
    | part x reason =>
      simp only at h
      split at h
      · cases h; exact hm
      · cases h
    | _ => cases h
  unfold saveInMemory at h
  split at h
  · have ht := saveText_grow (cfg := cfg) (fuel := fuel) (s := s) hl
    rcases hx : saveText cfg fuel s with ⟨r, u1⟩
    rw [hx] at ht h
    cases r with
    | part x reason =>
      simp only at h
      split at h
      · exact hmem ht h
      · cases h
    | _ => cases h
  · exact hmem (Nat.zero_le _) h

/-- The bytes of a file that is being written, and those that are about to be written, are not too many. -/
def Copying.Fits (cfg : Settings) (got : Nat) : Copying → Prop
  | .first rest _ => got + rest.length ≤ cfg.memLimit 0
  | .loop _ _ _ copied => got ≤ cfg.memLimit 0 + copied ∧ copied ≤ cfg.sizeLimit
  | .chunk _ _ _ copied rest _ => got + rest.length ≤ cfg.memLimit 0 + copied ∧ copied ≤ cfg.sizeLimit

theorem writeOnce_length {rest rest' : Bytes} {total total' : Nat} {k k' : Sink} (h : writeOnce rest total k = (.inr (rest', total'), k')) : k'.got.length + rest'.length = k.got.length + rest.length := by
  unfold writeOnce at h
  split at h
  · cases h
  · split at h
    · cases h; simp
    · cases h; simp
    · cases h
    · split at h
      · cases h
      · rename_i n _ _ _
        cases h
        simp only [List.length_append, List.length_take, List.length_drop]
        have := Nat.min_le_right n rest.length
        generalize Nat.min n rest.length = m at this ⊢
        omega

theorem writeOnce_inl {rest : Bytes} {total : Nat} {r : SaveRes Nat Nat} {k k' : Sink} (h : writeOnce rest total k = (.inl r, k')) : k'.got = k.got := by
  unfold writeOnce at h
  split at h
  · cases h; rfl
  · split at h
    · cases h
    · cases h
    · cases h; rfl
    · split at h
      · cases h; rfl
      · cases h

/-- The step in which a thread is done with its file writes nothing. -/
theorem Copying.step_last {b : Settings} {p : Path} {c : Copying} {k k' : Sink} {r : SaveRes SavedData SavedData} (h : c.step b fuel p k s = (.inl r, k', t)) : k'.got = k.got := by
  cases c with
  | first rest total =>
    rcases hw : writeOnce rest total k with ⟨r' | ⟨rest', c'⟩, k1⟩
    · simp only [Copying.step, hw] at h
      cases r' with
      | full => cases h
      | _ => cases h; exact writeOnce_inl hw
    · simp only [Copying.step, hw] at h
      cases h
  | chunk size n total copied rest c =>
    rcases hw : writeOnce rest c k with ⟨r' | ⟨rest', c'⟩, k1⟩
    · simp only [Copying.step, hw] at h
      cases r' with
      | full => cases h
      | _ => cases h; exact writeOnce_inl hw
    · simp only [Copying.step, hw] at h
      cases h
  | loop size n total copied =>
    cases n with
    | zero => cases h; rfl
    | succ n =>
      unfold Copying.step at h
      simp only at h
      split at h
      · cases h
      · cases h; rfl
      · cases h; rfl
      · cases h; rfl
      · split at h
        · cases h; rfl
        · split at h
          · cases h; rfl
          · cases h

theorem Copying.Fits.step {p : Path} {c c' : Copying} {k k' : Sink} (hl : cfg.sizeLimit < u64Max) (hf : c.Fits cfg k.got.length) (h : c.step cfg fuel p k s = (.inr c', k', t)) : c'.Fits cfg k'.got.length := by
  cases c with
  | first rest total =>
    rcases hw : writeOnce rest total k with ⟨r' | ⟨rest', c1⟩, k1⟩
    · simp only [Copying.step, hw] at h
      cases r' with
      | full =>
        cases h
        rw [writeOnce_inl hw]
        simp only [Copying.Fits] at hf ⊢
        omega
      | _ => cases h
    · simp only [Copying.step, hw] at h
      cases h
      have := writeOnce_length hw
      simp only [Copying.Fits] at hf ⊢
      omega
  | chunk size n total copied rest c =>
    rcases hw : writeOnce rest c k with ⟨r' | ⟨rest', c1⟩, k1⟩
    · simp only [Copying.step, hw] at h
      cases r' with
      | full =>
        cases h
        rw [writeOnce_inl hw]
        simp only [Copying.Fits] at hf ⊢
        omega
      | _ => cases h
    · simp only [Copying.step, hw] at h
      cases h
      have := writeOnce_length hw
      simp only [Copying.Fits] at hf ⊢
      omega
  | loop size n total copied =>
    cases n with
    | zero => cases h
    | succ n =>
      unfold Copying.step at h
      simp only at h
      split at h
      · cases h; exact hf
      · cases h
      · cases h
      · cases h
      · rename_i buf s1 _
        split at h
        · cases h
        · split at h
          · cases h
          · rename_i hne hlim
            cases h
            simp only [Copying.Fits] at hf ⊢
            have h1 : ¬ cfg.sizeLimit < Nat.min (copied + buf.length) u64Max := fun h => hlim ⟨hl, h⟩
            have h2 : Nat.min (copied + buf.length) u64Max = copied + buf.length := by
              rcases Nat.le_total (copied + buf.length) u64Max with h | h
              · exact Nat.min_eq_left h
              · rw [show Nat.min (copied + buf.length) u64Max = u64Max from Nat.min_eq_right h] at h1; omega
            rw [h2] at h1 ⊢
            omega

theorem Copying.Fits.size {c : Copying} {n : Nat} (h : c.Fits cfg n) : n ≤ cfg.sizeLimit + cfg.memLimit 0 := by
  cases c <;> simp only [Copying.Fits] at h <;> omega

/-- The invariant of a thread that has created these files. -/
def FineThread.Fits (j : Job) (L : List Path) : FineThread → Prop
  | .at (.running _ e _) => e.saveDir = j.dir ∧ e.fieldsCount ≤ j.cfg.countLimit ∧ L.length ≤ e.fieldsCount
  | .at (.making e _ _ bytes _) => e.saveDir = j.dir ∧ e.fieldsCount < j.cfg.countLimit ∧ L.length ≤ e.fieldsCount ∧ bytes.length ≤ j.cfg.memLimit 0
  | .at (.opening e _ _ bytes _) => e.saveDir = j.dir ∧ e.fieldsCount < j.cfg.countLimit ∧ L.length ≤ e.fieldsCount ∧ bytes.length ≤ j.cfg.memLimit 0
  | .at (.writing e _ name old bytes _) => e.saveDir = j.dir ∧ e.fieldsCount < j.cfg.countLimit ∧ L.length ≤ e.fieldsCount + 1 ∧ bytes.length ≤ j.cfg.memLimit 0 ∧ old = [] ∧ j.dir.asPath ++ [name] ∈ L
  | .at (.done _ _) => L.length ≤ j.cfg.countLimit
  | .copying e _ name old c got _ => e.saveDir = j.dir ∧ e.fieldsCount < j.cfg.countLimit ∧ L.length ≤ e.fieldsCount + 1 ∧ c.Fits j.cfg got.length ∧ old = [] ∧ j.dir.asPath ++ [name] ∈ L

theorem FineThread.Fits.length {L : List Path} {ft : FineThread} (h : ft.Fits j L) : L.length ≤ j.cfg.countLimit := by
  cases ft with
  | «at» th =>
    cases th with
    | running => obtain ⟨-, h1, h2⟩ := h; omega
    | making => obtain ⟨-, h1, h2, -⟩ := h; omega
    | opening => obtain ⟨-, h1, h2, -⟩ := h; omega
    | writing => obtain ⟨-, h1, h2, -⟩ := h; omega
    | done => exact h
  | copying => obtain ⟨-, h1, h2, -⟩ := h; omega

theorem Thread.saved_fits {L : List Path} {e : Entries} {h : FieldHeaders} {r : SaveRes SavedData SavedData} (hc : j.cfg.countLimit ≤ u32Max) (hd : e.saveDir = j.dir) (hlt : e.fieldsCount < j.cfg.countLimit)
    (hn : L.length ≤ e.fieldsCount + 1) : (FineThread.at (Thread.saved D e h r s)).Fits j L := by
  cases r with
  | full d =>
    have h1 : (e.pushField h d).fieldsCount = e.fieldsCount + 1 := Nat.min_eq_left (by omega)
    exact ⟨hd, by rw [h1]; exact hlt, by rw [h1]; exact hn⟩
  | _ => show _ ≤ _; omega

theorem overlay_new (o : OpenOpts) (x : Bytes) : overlay o [] x = x := by
  unfold overlay
  split <;> simp

/-- One step of a thread. -/
theorem FineThread.step_fits {L : List Path} {ft : FineThread} (hc : j.cfg.countLimit ≤ u32Max) (hl : j.cfg.sizeLimit < u64Max) (ho : j.cfg.openOpts.createNew = true) (hf : ft.Fits j L) :
    ∃ L' : List Path, (ft.step D j.cfg fuel w).1.Fits j L' ∧ (∀ q, q ∈ L' → q ∈ L ∨ w.files q = none) ∧ (∀ q ∈ L, q ∈ L') ∧
      ∀ q, (ft.step D j.cfg fuel w).2.files q = w.files q ∨ (q ∈ L' ∧ (∃ name, q = j.dir.asPath ++ [name]) ∧ (ft.step D j.cfg fuel w).2.fileSize q ≤ j.cfg.sizeLimit + j.cfg.memLimit 0) := by
  have same : ∀ {ft' : FineThread} {w1 : World}, ft'.Fits j L → w1.files = w.files → ∃ L' : List Path, ft'.Fits j L' ∧ (∀ q, q ∈ L' → q ∈ L ∨ w.files q = none) ∧ (∀ q ∈ L, q ∈ L') ∧
      ∀ q, w1.files q = w.files q ∨ (q ∈ L' ∧ (∃ name, q = j.dir.asPath ++ [name]) ∧ w1.fileSize q ≤ j.cfg.sizeLimit + j.cfg.memLimit 0) :=
    fun h1 h2 => ⟨L, h1, fun _ h => .inl h, fun _ h => h, fun q => .inl (congrFun h2 q)⟩
  cases ft with
  | copying e h name old c got s =>
    obtain ⟨hd, hlt, hn, hcf, rfl, hL⟩ := hf
    unfold FineThread.step
    simp only [hd]
    rcases hst : c.step (fieldPolicy j.cfg h) fuel (j.dir.asPath ++ [name]) { script := w.writes, got := got } s with ⟨r | c', k, s'⟩
    · simp only
      refine ⟨L, Thread.saved_fits hc hd hlt hn, fun _ h => .inl h, fun _ h => h, fun q => ?_⟩
      by_cases hq : q = j.dir.asPath ++ [name]
      · subst hq
        have h1 : k.got = got := Copying.step_last hst
        refine .inr ⟨hL, ⟨name, rfl⟩, ?_⟩
        simp only [World.fileSize, World.setFile, if_pos, overlay_new, h1]
        exact hcf.size
      · left
        simp [World.setFile, hq]
    · simp only
      have h1 : c'.Fits j.cfg k.got.length := Copying.Fits.step (cfg := fieldPolicy j.cfg h) (k := { script := w.writes, got := got }) hl hcf hst
      refine ⟨L, ⟨hd, hlt, hn, h1, rfl, hL⟩, fun _ h => .inl h, fun _ h => h, fun q => ?_⟩
      by_cases hq : q = j.dir.asPath ++ [name]
      · subst hq
        refine .inr ⟨hL, ⟨name, rfl⟩, ?_⟩
        simp only [World.fileSize, World.setFile, if_pos, overlay_new]
        exact h1.size
      · left
        simp [World.setFile, hq]
  | «at» th =>
    cases th with
    | done r s => exact same hf rfl
    | writing e h name old bytes s =>
      obtain ⟨hd, hlt, hn, hb, ho, hL⟩ := hf
      exact same (w1 := w) ⟨hd, hlt, hn, by simpa [Copying.Fits] using hb, ho, hL⟩ rfl
    | running res e s =>
      obtain ⟨hd, hle, hn⟩ := hf
      unfold FineThread.step Thread.step
      simp only
      split
      · rename_i hlt
        split
        · rename_i h
          rcases hm : saveInMemory (fieldPolicy j.cfg h) fuel s with ⟨r | bytes, s'⟩
          · exact same (Thread.saved_fits hc hd hlt (Nat.le_succ_of_le hn)) rfl
          · exact same ⟨hd, hlt, hn, saveInMemory_short (cfg := fieldPolicy j.cfg h) hl hm⟩ rfl
        · exact same (show _ ≤ _ from Nat.le_trans hn hle) rfl
        · exact same (show _ ≤ _ from Nat.le_trans hn hle) rfl
        · exact same (show _ ≤ _ from Nat.le_trans hn hle) rfl
        · exact same (show _ ≤ _ from Nat.le_trans hn hle) rfl
      · exact same (show _ ≤ _ from Nat.le_trans hn hle) rfl
    | making e h name bytes s =>
      obtain ⟨hd, hlt, hn, hb⟩ := hf
      have hff := createDirAll_files (w := w) (q := e.saveDir.asPath ++ [name])
      unfold FineThread.step Thread.step
      simp only
      rcases hcr : w.createDirAll (e.saveDir.asPath ++ [name]) with ⟨_ | er, w1⟩
      · rw [hcr] at hff
        exact same ⟨hd, hlt, hn, hb⟩ hff
      · rw [hcr] at hff
        exact same (Thread.saved_fits (D := D) (h := h) (r := .error er) (s := s) hc hd hlt (Nat.le_succ_of_le hn)) hff
    | opening e h name bytes s =>
      obtain ⟨hd, hlt, hn, hb⟩ := hf
      have hff := (openFile_old (w := w) (q := e.saveDir.asPath ++ [name]) (o := j.cfg.openOpts)).1
      unfold FineThread.step Thread.step
      simp only [hd] at hff ⊢
      rcases hcr : w.openFile j.cfg.openOpts (j.dir.asPath ++ [name]) with ⟨er | old, w1⟩
      · rw [hcr] at hff
        exact same (Thread.saved_fits (D := D) (h := h) (r := .error er) (s := s) hc hd hlt (Nat.le_succ_of_le hn)) hff
      · rw [hcr] at hff
        obtain ⟨rfl, hnone, -, -⟩ := openFile_new hcr ho
        refine ⟨(j.dir.asPath ++ [name]) :: L, ⟨hd, hlt, by simpa using hn, hb, rfl, by simp⟩, fun q hq => ?_, fun _ h => List.mem_cons_of_mem _ h, fun q => ?_⟩
        · rcases List.mem_cons.mp hq with rfl | hq
          · exact .inr hnone
          · exact .inl hq
        · by_cases hq : q = j.dir.asPath ++ [name]
          · subst hq
            exact .inr ⟨by simp, ⟨name, rfl⟩, by simp [World.fileSize, World.setFile]⟩
          · left
            simp only [World.setFile, if_neg hq]
            exact congrFun hff q

/-- The bytes that a request can take on the disk. -/
def Job.room (j : Job) : Nat := j.cfg.sizeLimit + j.cfg.memLimit 0

/-- The invariant: `d` has the threads with the files that they have created. -/
structure Crashed (w0 : World) (d : List ((Job × FineThread) × List Path)) (w : World) : Prop where
  fits : ∀ x ∈ d, x.1.2.Fits x.1.1 x.2
  new : ∀ x ∈ d, ∀ q ∈ x.2, w0.files q = none
  files : ∀ q, w.files q = w0.files q ∨ ∃ x ∈ d, q ∈ x.2 ∧ (∃ name, q = x.1.1.dir.asPath ++ [name]) ∧ w.fileSize q ≤ x.1.1.room

theorem Crashed.turn {w0 : World} {d1 d2 : List ((Job × FineThread) × List Path)} {ft : FineThread} {L : List Path} (hc : j.cfg.countLimit ≤ u32Max) (hl : j.cfg.sizeLimit < u64Max)
    (ho : j.cfg.openOpts.createNew = true) (h : Crashed w0 (d1 ++ ((j, ft), L) :: d2) w) :
    ∃ L', Crashed w0 (d1 ++ ((j, (ft.step D j.cfg fuel w).1), L') :: d2) (ft.step D j.cfg fuel w).2 := by
  have hme : ((j, ft), L) ∈ d1 ++ ((j, ft), L) :: d2 := List.mem_append_right _ (List.mem_cons_self ..)
  obtain ⟨L', h1, h2, h3, h4⟩ := FineThread.step_fits (D := D) (fuel := fuel) (w := w) hc hl ho (h.fits _ hme)
  refine ⟨L', ⟨fun x hx => ?_, fun x hx q hq => ?_, fun q => ?_⟩⟩
  · rcases List.mem_append.mp hx with hx | hx
    · exact h.fits x (List.mem_append_left _ hx)
    · rcases List.mem_cons.mp hx with rfl | hx
      · exact h1
      · exact h.fits x (List.mem_append_right _ (List.mem_cons_of_mem _ hx))
  · rcases List.mem_append.mp hx with hx | hx
    · exact h.new x (List.mem_append_left _ hx) q hq
    · rcases List.mem_cons.mp hx with rfl | hx
      · rcases h2 q hq with hq | hq
        · exact h.new _ hme q hq
        · rcases h.files q with h5 | ⟨y, hy, hqy, -⟩
          · rw [← h5]; exact hq
          · exact h.new y hy q hqy
      · exact h.new x (List.mem_append_right _ (List.mem_cons_of_mem _ hx)) q hq
  · rcases h4 q with h5 | ⟨h5, h6, h7⟩
    · rcases h.files q with h8 | ⟨y, hy, hqy, hin, hsz⟩
      · exact .inl (h5.trans h8)
      · right
        have hsz' : (ft.step D j.cfg fuel w).2.fileSize q ≤ y.1.1.room := by
          unfold World.fileSize at hsz ⊢
          rw [h5]
          exact hsz
        rcases List.mem_append.mp hy with hy | hy
        · exact ⟨y, List.mem_append_left _ hy, hqy, hin, hsz'⟩
        · rcases List.mem_cons.mp hy with rfl | hy
          · exact ⟨_, List.mem_append_right _ (List.mem_cons_self ..), h3 q hqy, hin, hsz'⟩
          · exact ⟨y, List.mem_append_right _ (List.mem_cons_of_mem _ hy), hqy, hin, hsz'⟩
    · exact .inr ⟨_, List.mem_append_right _ (List.mem_cons_self ..), h5, h6, h7⟩

theorem FineCrew.run_crashed {w0 : World} : ∀ (ns : List Nat) {d : List ((Job × FineThread) × List Path)} {w : World}, (∀ x ∈ d, x.1.1.Bounded) → Crashed w0 d w →
    ∃ d', Crashed w0 d' (FineCrew.run D fuel ns (d.map fun x => x.1) w).2 ∧ d'.map (fun x => x.1) = (FineCrew.run D fuel ns (d.map fun x => x.1) w).1 ∧ d'.map (fun x => x.1.1) = d.map (fun x => x.1.1)
  | [], d, w, _, h => ⟨d, h, rfl, rfl⟩
  | n :: ns, d, w, hp, h => by
    unfold FineCrew.run
    split
    · rename_i j ft hn
      rw [List.getElem?_map] at hn
      obtain ⟨⟨x, L⟩, hx, hx'⟩ := Option.map_eq_some_iff.mp hn
      simp only at hx'
      subst hx'
      obtain ⟨d1, d2, rfl, hset⟩ := set_split hx
      obtain ⟨p1, p2, p3⟩ := hp _ (List.mem_append_right _ (List.mem_cons_self ..))
      obtain ⟨L', h'⟩ := h.turn (D := D) (fuel := fuel) p1 p2 p3
      have hrec := FineCrew.run_crashed ns (d := d1 ++ ((j, (ft.step D j.cfg fuel w).1), L') :: d2) (fun x hx => by
        rcases List.mem_append.mp hx with hx | hx
        · exact hp x (List.mem_append_left _ hx)
        · rcases List.mem_cons.mp hx with rfl | hx
          · exact ⟨p1, p2, p3⟩
          · exact hp x (List.mem_append_right _ (List.mem_cons_of_mem _ hx))) h'
      obtain ⟨d', g1, g2, g3⟩ := hrec
      have he : ((d1 ++ ((j, ft), L) :: d2).map fun x => x.1).set n (j, (ft.step D j.cfg fuel w).1) = (d1 ++ ((j, (ft.step D j.cfg fuel w).1), L') :: d2).map fun x => x.1 := by
        have := congrArg (List.map fun x => x.1) (hset ((j, (ft.step D j.cfg fuel w).1), L'))
        rw [List.map_set] at this
        exact this
      rw [he]
      exact ⟨d', g1, g2, by rw [g3]; simp⟩
    · exact FineCrew.run_crashed ns hp h

/-! ## How much is written -/

theorem sum_le_weights (f : Path → Nat) : ∀ (Ws : List (Path × Nat)) (g : Path → Nat), (∀ q, f q ≤ g q + (Ws.map fun x => if x.1 = q then x.2 else 0).sum) → ∀ ps : List Path, ps.Nodup →
    (ps.map f).sum ≤ (ps.map g).sum + (Ws.map fun x => x.2).sum
  | [], g, h, ps, _ => by
    induction ps with
    | nil => simp
    | cons p ps ih =>
      have := h p
      simp only [List.map_cons, List.sum_cons, List.map_nil, List.sum_nil, Nat.add_zero] at this ⊢
      have := ih (by rename_i hnd; exact (List.nodup_cons.mp hnd).2)
      simp only [List.map_nil, List.sum_nil, Nat.add_zero] at this
      omega
  | (p, n) :: Ws, g, h, ps, hps => by
    have h1 := sum_le_weights f Ws (fun q => g q + if p = q then n else 0) (fun q => by have := h q; simp only [List.map_cons, List.sum_cons] at this; omega) ps hps
    have h2 : ∀ ps : List Path, ps.Nodup → (ps.map fun q => g q + if p = q then n else 0).sum ≤ (ps.map g).sum + n ∧ (p ∉ ps → (ps.map fun q => g q + if p = q then n else 0).sum = (ps.map g).sum) := by
      intro ps
      induction ps with
      | nil => simp
      | cons q ps ih =>
        intro hnd
        obtain ⟨hq, hnd⟩ := List.nodup_cons.mp hnd
        obtain ⟨i1, i2⟩ := ih hnd
        simp only [List.map_cons, List.sum_cons]
        by_cases hpq : p = q
        · subst hpq
          rw [i2 hq, if_pos rfl]
          exact ⟨by omega, fun h => absurd (List.mem_cons_self ..) h⟩
        · rw [if_neg hpq]
          refine ⟨by omega, fun h => ?_⟩
          rw [i2 fun h' => h (List.mem_cons_of_mem _ h')]
          omega
    have := (h2 ps hps).1
    simp only [List.map_cons, List.sum_cons]
    omega

theorem sum_weights_mem {Ws : List (Path × Nat)} {q : Path} {n : Nat} (h : (q, n) ∈ Ws) : n ≤ (Ws.map fun x => if x.1 = q then x.2 else 0).sum := by
  induction Ws with
  | nil => cases h
  | cons x Ws ih =>
    simp only [List.map_cons, List.sum_cons]
    rcases List.mem_cons.mp h with rfl | h
    · simp
    · have := ih h
      omega

theorem sum_const_le (L : List Path) (n : Nat) : ((L.map fun q => (q, n)).map fun x : Path × Nat => x.2).sum = L.length * n := by
  induction L with
  | nil => simp
  | cons a L ih =>
    simp only [List.map_cons, List.sum_cons, List.length_cons, ih, Nat.add_mul, Nat.one_mul]
    omega

theorem Crashed.use {w0 : World} {d : List ((Job × FineThread) × List Path)} (h : Crashed w0 d w) {ps : List Path} (hps : ps.Nodup) : w.diskUse ps ≤ w0.diskUse ps + (d.map fun x => x.1.1.cfg.countLimit * x.1.1.room).sum := by
  have h1 := sum_le_weights w.fileSize (d.flatMap fun x => x.2.map fun q => (q, x.1.1.room)) w0.fileSize (fun q => by
    rcases h.files q with h1 | ⟨x, hx, hq, -, hs⟩
    · have : w.fileSize q = w0.fileSize q := by unfold World.fileSize; rw [h1]
      omega
    · have : x.1.1.room ≤ _ := sum_weights_mem (Ws := d.flatMap fun x => x.2.map fun q => (q, x.1.1.room)) (q := q) (List.mem_flatMap.mpr ⟨x, hx, List.mem_map.mpr ⟨q, hq, rfl⟩⟩)
      omega) ps hps
  have h2 : ∀ d : List ((Job × FineThread) × List Path), (∀ x ∈ d, x.1.2.Fits x.1.1 x.2) →
      ((d.flatMap fun x => x.2.map fun q => (q, x.1.1.room)).map fun x : Path × Nat => x.2).sum ≤ (d.map fun x => x.1.1.cfg.countLimit * x.1.1.room).sum := by
    intro d
    induction d with
    | nil => simp
    | cons x d ih =>
      intro hf
      have := ih fun y hy => hf y (List.mem_cons_of_mem _ hy)
      have hx := (hf x (List.mem_cons_self ..)).length
      simp only [List.flatMap_cons, List.map_append, List.sum_append, List.map_cons, List.sum_cons]
      have h3 := sum_const_le x.2 x.1.1.room
      have h4 := Nat.mul_le_mul_right x.1.1.room hx
      omega
  have := h2 d h.fits
  unfold World.diskUse
  omega

theorem Crashed.start (js : List Job) : Crashed w ((FineCrew.start D js).map fun x => (x, [])) w := by
  refine ⟨fun x hx => ?_, fun x hx q hq => ?_, fun q => .inl rfl⟩
  · obtain ⟨y, hy, rfl⟩ := List.mem_map.mp hx
    obtain ⟨j, -, rfl⟩ := List.mem_map.mp hy
    exact ⟨rfl, Nat.zero_le _, Nat.zero_le _⟩
  · obtain ⟨y, -, rfl⟩ := List.mem_map.mp hx
    cases hq

theorem FineCrew.crashed {js : List Job} (hj : ∀ j ∈ js, j.Bounded) {ns : List Nat} {c : FineCrew} (h : FineCrew.run D fuel ns (FineCrew.start D js) w = (c, w')) : ∃ d, Crashed w d w' ∧ d.map (fun x => x.1.1) = js := by
  have h1 := FineCrew.run_crashed (D := D) (fuel := fuel) (w0 := w) (w := w) ns (d := (FineCrew.start D js).map fun x => (x, [])) (fun x hx => by
    obtain ⟨y, hy, rfl⟩ := List.mem_map.mp hx
    obtain ⟨j, hm, rfl⟩ := List.mem_map.mp hy
    exact hj j hm) (Crashed.start js)
  simp only [List.map_map, Function.comp_def] at h1
  rw [show (FineCrew.start D js).map (fun x => x) = FineCrew.start D js from List.map_id' _, h] at h1
  obtain ⟨d', g1, -, g3⟩ := h1
  refine ⟨d', g1, ?_⟩
  rw [g3]
  simp [FineCrew.start, Function.comp_def]

/-- C149: requests are saved at the same time, also in the same directory, and every write is a step. If everything stops at any moment, all files that were there before are as they were; a new file is in the directory of one of the
requests, where its path has one component more, and it has at most the bytes of `size_limit` and of the limit for memory. -/
theorem C149_others {js : List Job} (hj : ∀ j ∈ js, j.Bounded) {ns : List Nat} {c : FineCrew} (h : FineCrew.run D fuel ns (FineCrew.start D js) w = (c, w')) (q : Path) :
    (∀ x, w.files q = some x → w'.files q = some x) ∧
    (w.files q = none → ∀ x, w'.files q = some x → ∃ j ∈ js, (∃ name, q = j.dir.asPath ++ [name]) ∧ x.length ≤ j.cfg.sizeLimit + Nat.min j.cfg.sizeLimit j.cfg.memoryThreshold) := by
  obtain ⟨d, h1, h2⟩ := FineCrew.crashed hj h
  refine ⟨fun x hx => ?_, fun h0 x hx => ?_⟩
  · rcases h1.files q with h3 | ⟨y, hy, hq, -⟩
    · rw [h3]; exact hx
    · rw [h1.new y hy q hq] at hx
      cases hx
  · rcases h1.files q with h3 | ⟨y, hy, -, hin, hs⟩
    · rw [h3, h0] at hx
      cases hx
    · refine ⟨y.1.1, by rw [← h2]; exact List.mem_map.mpr ⟨y, hy, rfl⟩, hin, ?_⟩
      unfold World.fileSize at hs
      rw [hx] at hs
      exact hs

namespace Sample

/-- A slow disk with a file in the directory to which is saved. -/
def usedDisk : World := slowDisk.setFile [b!"d", b!"old"] b!"kept"

/-- Two threads are stopped while the first is writing. -/
def stopped : FineCrew × World := FineCrew.run refDeps 40 turns (FineCrew.start refDeps [job, job]) usedDisk

theorem stopped_run : FineCrew.run refDeps 40 turns (FineCrew.start refDeps [job, job]) usedDisk = (stopped.1, stopped.2) := by
  show stopped = _
  generalize stopped = x
  rfl

theorem job_bounded : ∀ j ∈ [job, job], j.Bounded := by
  intro j hj
  simp at hj
  subst hj
  exact ⟨by decide, by decide, rfl⟩

end Sample

/-- C149_others: two requests are saved in the same directory, one file is complete, one is not. -/
example : (∀ j ∈ [Sample.job, Sample.job], j.Bounded) ∧ Sample.usedDisk.files [b!"d", b!"old"] = some b!"kept" ∧ Sample.stopped.2.files [b!"d", b!"old"] = some b!"kept" ∧
    Sample.usedDisk.files [b!"d", b!"x"] = none ∧ Sample.stopped.2.files [b!"d", b!"x"] = some b!"on" ∧ Sample.stopped.2.files [b!"d", b!"y"] = some b!"one" :=
  ⟨Sample.job_bounded, by decide +kernel, (C149_others Sample.job_bounded Sample.stopped_run _).1 _ (by decide +kernel), by decide +kernel, by decide +kernel, by decide +kernel⟩

/-- C149: all files together have then at most `count_limit` times `size_limit` and the limit for memory more bytes for each request. -/
theorem C149_use {js : List Job} (hj : ∀ j ∈ js, j.Bounded) {ns : List Nat} {c : FineCrew} (h : FineCrew.run D fuel ns (FineCrew.start D js) w = (c, w')) {ps : List Path} (hps : ps.Nodup) :
    w'.diskUse ps ≤ w.diskUse ps + (js.map fun j => j.cfg.countLimit * (j.cfg.sizeLimit + Nat.min j.cfg.sizeLimit j.cfg.memoryThreshold)).sum := by
  obtain ⟨d, h1, h2⟩ := FineCrew.crashed hj h
  have := h1.use hps
  rw [← h2, List.map_map]
  exact this

example : Sample.stopped.2.diskUse [[b!"d", b!"x"], [b!"d", b!"y"], [b!"d", b!"old"]] ≤ Sample.usedDisk.diskUse [[b!"d", b!"x"], [b!"d", b!"y"], [b!"d", b!"old"]] + 30 :=
  C149_use Sample.job_bounded Sample.stopped_run (by decide)

/-! ## What is written -/

theorem FineRuns.jobs {js : List Job} {c : FineCrew} (h : FineRuns D fuel (FineCrew.start D js) w c w') : ∀ x ∈ c, x.1 ∈ js ∧ x.2.InDir x.1.dir := by
  induction h with
  | start =>
    intro x hx
    obtain ⟨j, hj, rfl⟩ := List.mem_map.mp hx
    exact ⟨hj, rfl⟩
  | turn _ ih =>
    intro x hx
    rcases List.mem_append.mp hx with hx | hx
    · exact ih x (List.mem_append_left _ hx)
    · rcases List.mem_cons.mp hx with rfl | hx
      · obtain ⟨h1, h2⟩ := ih _ (List.mem_append_right _ (List.mem_cons_self ..))
        exact ⟨h1, Job.fine_regions.keeps _ _ _ h2⟩
      · exact ih x (List.mem_append_right _ (List.mem_cons_of_mem _ hx))
  | other _ _ ih => exact ih

/-- The file of a path is a beginning of the data of a part of one of the requests, if this is a multipart body. -/
def Begun (D : Deps) (js : List Job) (q : Path) (x : Bytes) : Prop :=
  ∃ j ∈ js, (∃ name, q = j.dir.asPath ++ [name]) ∧ ∀ fin, NoStall j.up.evs → NoErr j.up.evs → Parts D (dashes ++ j.up.b) (Ev.bytes j.up.evs) j.up.parts fin →
    ∃ y ∈ j.up.parts, ∃ more, SavedOk (dashes ++ j.up.b) j.up.evs y.2 (x ++ more)

/-- The file that a thread is writing is such a beginning. -/
theorem FineRuns.begun (hD : D.Sane) {js : List Job} (hjs : ∀ j ∈ js, j.cfg.openOpts.createNew = true) {c : FineCrew} (h : FineRuns D fuel (FineCrew.start D js) w c w') {ft : FineThread} (hm : (j, ft) ∈ c) {q : Path} {x : Bytes}
    (hp : ft.growing = some q) (hx : w'.files q = some x) : Begun D js q x := by
  obtain ⟨h1, h2⟩ := h.jobs _ hm
  refine ⟨j, h1, ?_, fun fin hn hne hP => ?_⟩
  · cases ft with
    | «at» => cases hp
    | copying e hd name old c got s =>
      cases hp
      exact ⟨name, by rw [show e.saveDir = j.dir from h2]⟩
  · obtain ⟨e, fs, y, got, more, -, -, g3, g4, g5⟩ := C148_growing hD hjs h hm hn hne hP hp
    rw [hx] at g4
    cases g4
    exact ⟨y, List.mem_of_getElem? g3, more, g5⟩

/-- One more step. -/
theorem FineRuns.begun_turn (hD : D.Sane) {js : List Job} (hjs : ∀ j ∈ js, j.cfg.openOpts.createNew = true) {c1 c2 : FineCrew} {ft : FineThread} (h : FineRuns D fuel (FineCrew.start D js) w (c1 ++ (j, ft) :: c2) w') {q : Path} {x : Bytes}
    (hx : (ft.step D j.cfg fuel w').2.files q = some x) : w'.files q = some x ∨ Begun D js q x := by
  have h1 := h.turn
  have hme : ∀ y, (j, y) ∈ c1 ++ (j, y) :: c2 := fun y => List.mem_append_right _ (List.mem_cons_self ..)
  cases ft with
  | copying e hd name old c got s =>
    obtain ⟨-, -, -, hsh, -⟩ := h.one hD hjs (hme _)
    have hsh : w'.files (e.saveDir.asPath ++ [name]) = some (overlay j.cfg.openOpts old got) := hsh
    rcases hst : c.step (fieldPolicy j.cfg hd) fuel (e.saveDir.asPath ++ [name]) { script := w'.writes, got := got } s with ⟨r | c', k, s'⟩
    · left
      simp only [FineThread.step, hst, World.setFile] at hx
      split at hx
      · rename_i hq
        rw [hq, hsh, ← hx, Copying.step_last hst]
      · exact hx
    · simp only [FineThread.step, hst] at hx h1
      by_cases hq : q = e.saveDir.asPath ++ [name]
      · right
        exact h1.begun hD hjs (hme _) (by rw [hq]; rfl) hx
      · left
        simp only [World.setFile, if_neg hq] at hx
        exact hx
  | «at» th =>
    cases th with
    | done => exact .inl hx
    | writing => exact .inl hx
    | running res e s =>
      left
      simp only [FineThread.step, Thread.step] at hx
      split at hx
      · split at hx
        · split at hx <;> exact hx
        all_goals exact hx
      · exact hx
    | making e hd name bytes s =>
      left
      have hff := createDirAll_files (w := w') (q := e.saveDir.asPath ++ [name])
      simp only [FineThread.step, Thread.step] at hx
      split at hx
      · rename_i hcr
        rw [hcr] at hff
        rw [← hff]
        exact hx
      · rename_i hcr
        rw [hcr] at hff
        rw [← hff]
        exact hx
    | opening e hd name bytes s =>
      have hff := (openFile_old (w := w') (q := e.saveDir.asPath ++ [name]) (o := j.cfg.openOpts)).1
      rcases hcr : w'.openFile j.cfg.openOpts (e.saveDir.asPath ++ [name]) with ⟨er | old, w1⟩
      · rw [hcr] at hff
        simp only [FineThread.step, Thread.step, hcr] at hx
        left
        rw [← hff]
        exact hx
      · rw [hcr] at hff
        simp only [FineThread.step, Thread.step, hcr] at hx h1
        by_cases hq : q = e.saveDir.asPath ++ [name]
        · right
          exact h1.turn.begun hD hjs (hme _) (by rw [hq]; rfl) hx
        · left
          simp only [World.setFile, if_neg hq] at hx
          rw [← hff]
          exact hx

theorem FineCrew.run_begun (hD : D.Sane) {js : List Job} (hjs : ∀ j ∈ js, j.cfg.openOpts.createNew = true) {w0 : World} : ∀ (ns : List Nat) {c : FineCrew} {w : World}, FineRuns D fuel (FineCrew.start D js) w0 c w →
    (∀ q x, w.files q = some x → w0.files q = some x ∨ Begun D js q x) → ∀ q x, (FineCrew.run D fuel ns c w).2.files q = some x → w0.files q = some x ∨ Begun D js q x
  | [], _, _, _, h => h
  | n :: ns, c, w, hr, h => by
    unfold FineCrew.run
    split
    · rename_i j ft hi
      obtain ⟨l1, l2, h1, h2⟩ := set_split hi
      rw [h2]
      rw [h1] at hr
      exact FineCrew.run_begun hD hjs ns hr.turn fun q x hx => (hr.begun_turn hD hjs hx).elim (h q x) .inr
    · exact FineCrew.run_begun hD hjs ns hr h

/-- C149: a file that was not there holds then a beginning of what is saved for a part of a request in whose directory it is, if the request is a multipart body. -/
theorem C149_beginnings (hD : D.Sane) {js : List Job} (hjs : ∀ j ∈ js, j.cfg.openOpts.createNew = true) {ns : List Nat} {c : FineCrew} (h : FineCrew.run D fuel ns (FineCrew.start D js) w = (c, w')) {q : Path} {x : Bytes}
    (h0 : w.files q = none) (hx : w'.files q = some x) :
    ∃ j ∈ js, (∃ name, q = j.dir.asPath ++ [name]) ∧ ∀ fin, NoStall j.up.evs → NoErr j.up.evs → Parts D (dashes ++ j.up.b) (Ev.bytes j.up.evs) j.up.parts fin →
      ∃ y ∈ j.up.parts, ∃ more, SavedOk (dashes ++ j.up.b) j.up.evs y.2 (x ++ more) := by
  have := FineCrew.run_begun hD hjs ns (FineRuns.start (D := D) (fuel := fuel) (c0 := FineCrew.start D js) (w0 := w)) (fun q x h => .inl h) q x (by rw [h]; exact hx)
  rw [h0] at this
  exact this.elim (fun h => by cases h) id

example : ∃ y ∈ Sample.job.up.parts, ∃ more, SavedOk (dashes ++ Sample.bnd) Sample.evsTwo y.2 (b!"on" ++ more) := by
  obtain ⟨j, hj, -, h⟩ := C149_beginnings refDeps_sane Sample.job_new Sample.stopped_run (q := [b!"d", b!"x"]) (x := b!"on") (by decide +kernel) (by decide +kernel)
  simp at hj
  subst hj
  exact h _ (by decide +kernel) (by intro e; simp [Sample.job, Sample.evsTwo]) Sample.partsTwo

end Multipart

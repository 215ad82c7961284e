import Verif.Lemmas.Grow
import Verif.Props.Save
/-!
# C137: what a request occupies on the disk and in memory
-/
namespace Multipart
variable {D : Deps} {cfg : Settings} {fuel : Nat} {w w' : World} {s t : BR} {T : Target} {r : SaveRes Entries PartialEntries}

/-! ## Sums -/

theorem memoryUse_append (x y : List SavedData) : memoryUse (x ++ y) = memoryUse x + memoryUse y := by simp [memoryUse]

theorem memoryUse_one {d : SavedData} {k : Nat} (h : d.isMemory = true → d.size ≤ k) : memoryUse [d] ≤ k := by
  unfold memoryUse
  cases hd : d.isMemory with
  | false => simp [hd]
  | true => simpa [hd] using h hd

theorem memoryUse_push (e : Entries) (h : FieldHeaders) (d : SavedData) : memoryUse (e.pushField h d).stored = memoryUse e.stored + memoryUse [d] := by
  have aux : ∀ (l : List (Bytes × List SavedField)) (f : SavedField), memoryUse ((pushInto f l).flatMap fun kv => kv.2.map fun f => f.data) =
      memoryUse (l.flatMap fun kv => kv.2.map fun f => f.data) + memoryUse [f.data] := by
    intro l f
    induction l with
    | nil => simp [pushInto, memoryUse]
    | cons kv l ih =>
      obtain ⟨k, v⟩ := kv
      unfold pushInto
      split
      · simp only [List.flatMap_cons, List.map_append, List.map_cons, List.map_nil, memoryUse_append]; omega
      · simp only [List.flatMap_cons, memoryUse_append, ih]; omega
  exact aux e.fields { headers := h, data := d }

theorem stored_push_length (e : Entries) (h : FieldHeaders) (d : SavedData) : (e.pushField h d).stored.length = e.stored.length + 1 := by
  have aux : ∀ (l : List (Bytes × List SavedField)) (f : SavedField), ((pushInto f l).flatMap fun kv => kv.2.map fun f => f.data).length =
      (l.flatMap fun kv => kv.2.map fun f => f.data).length + 1 := by
    intro l f
    induction l with
    | nil => simp [pushInto]
    | cons kv l ih =>
      obtain ⟨k, v⟩ := kv
      unfold pushInto
      split
      · simp only [List.flatMap_cons, List.map_append, List.map_cons, List.map_nil, List.length_append, List.length_cons, List.length_nil]; omega
      · simp only [List.flatMap_cons, List.length_append, ih]; omega
  exact aux e.fields { headers := h, data := d }

theorem fieldsCount_recount (e : Entries) : e.recountFields.fieldsCount = Nat.min u32Max e.stored.length := by
  have : e.stored.length = (e.fields.map fun kv => kv.2.length).sum := by
    unfold Entries.stored
    rw [List.length_flatMap]
    simp
  rw [this]
  rfl

theorem sum_map_add {α : Type} (f g : α → Nat) : ∀ l : List α, (l.map fun a => f a + g a).sum = (l.map f).sum + (l.map g).sum
  | [] => rfl
  | a :: l => by simp only [List.map_cons, List.sum_cons, sum_map_add f g l]; omega

theorem sum_map_mul {α : Type} (f : α → Nat) (k : Nat) : ∀ l : List α, (l.map fun a => f a * k).sum = (l.map f).sum * k
  | [] => by simp
  | a :: l => by simp only [List.map_cons, List.sum_cons, sum_map_mul f k l, Nat.add_mul]

theorem sum_map_le {α : Type} {f g : α → Nat} : ∀ {l : List α}, (∀ a ∈ l, f a ≤ g a) → (l.map f).sum ≤ (l.map g).sum
  | [], _ => Nat.le_refl _
  | a :: l, h => by
    have := sum_map_le (fun b hb => h b (List.mem_cons_of_mem a hb))
    have := h a (by simp)
    simp only [List.map_cons, List.sum_cons]
    omega

theorem sum_const {α : Type} (k : Nat) : ∀ l : List α, (l.map fun _ => k).sum = l.length * k
  | [] => by simp
  | _ :: l => by simp only [List.map_cons, List.sum_cons, sum_const k l, List.length_cons, Nat.add_mul]; omega

theorem sum_one {α : Type} [BEq α] [LawfulBEq α] (a : α) : ∀ {l : List α}, l.Nodup → (l.map fun b => if a == b then 1 else 0).sum ≤ 1
  | [], _ => by simp
  | b :: l, h => by
    obtain ⟨h1, h2⟩ := List.nodup_cons.mp h
    simp only [List.map_cons, List.sum_cons]
    split
    · rename_i hb
      have hb : a = b := by simpa using hb
      subst hb
      have : (l.map fun c => if a == c then 1 else 0).sum ≤ (l.map fun _ => 0).sum := sum_map_le (fun c hc => by
        have hne : (a == c) = false := by
          cases hx : a == c with
          | false => rfl
          | true => exact absurd hc (by rw [← eq_of_beq hx]; exact h1)
        simp [hne])
      have h0 := sum_const 0 l
      omega
    · have := sum_one a h2; omega

theorem sum_count {α : Type} [BEq α] [LawfulBEq α] : ∀ (L : List α) {Q : List α}, Q.Nodup → (Q.map fun q => L.count q).sum ≤ L.length
  | [], Q, _ => by
    have h0 := sum_const 0 Q
    simp only [List.count_nil]
    omega
  | a :: L, Q, h => by
    have h1 := sum_count L h
    have h2 := sum_one a h
    have h3 : (Q.map fun q => (a :: L).count q).sum = (Q.map fun q => L.count q).sum + (Q.map fun q => if a == q then 1 else 0).sum := by
      rw [← sum_map_add]
      congr 1
      exact List.map_congr_left fun q _ => List.count_cons
    simp only [List.length_cons]
    omega

theorem triple_eq {α β γ : Type} (x : α × β × γ) : x = (x.1, x.2.1, x.2.2) := rfl

/-! ## C137 -/

/-- One call: one file may have grown by the size limit and what may be kept in memory, no other file has changed, and data kept in memory are within both limits. -/
theorem C137_field {r' : SaveRes SavedData SavedData} (hl : cfg.sizeLimit < u64Max) (h : T.save cfg fuel w s = (r', w', t)) :
    w'.fileSize (T.file w) ≤ w.fileSize (T.file w) + cfg.sizeLimit + Nat.min cfg.sizeLimit cfg.memoryThreshold ∧ (∀ q, q ≠ T.file w → w'.files q = w.files q) ∧
    (∀ d, r' = .full d ∨ (∃ e, r' = .part d e) → d.isMemory = true → d.size ≤ Nat.min cfg.sizeLimit cfg.memoryThreshold) := by
  obtain ⟨h1, h2⟩ := Target.save_grow (T := T) (w := w) (fuel := fuel) (s := s) hl
  rw [h] at h1 h2
  refine ⟨by have := h1.size; rw [Nat.add_assoc]; exact this, h1.others, fun d hd => ?_⟩
  rcases hd with rfl | ⟨e, rfl⟩
  · exact h2
  · exact h2

example : (Target.save (.path [b!"x"]) { Settings.default with sizeLimit := 3000, memoryThreshold := 2000 } 10 Sample.disk Sample.sLong).2.1.fileSize [b!"x"] ≤ 5000 :=
  (C137_field (T := .path [b!"x"]) (cfg := { Settings.default with sizeLimit := 3000, memoryThreshold := 2000 }) (fuel := 10) (w := Sample.disk) (s := Sample.sLong) (by decide) (triple_eq _)).1

/-- There are `k` fields in the result, with the one that was being saved, unless an error of the stream or the disk ended the save. -/
def SaveRes.counts (r : SaveRes Entries PartialEntries) (k : Nat) : Prop :=
  match r with
  | .full e => e.stored.length = k
  | .part p reason => (∃ er, reason = .io er) ∨ p.keepPartial.stored.length = k
  | _ => True

theorem entriesLoop_grow (hl : cfg.sizeLimit < u64Max) (hc : cfg.countLimit ≤ u32Max) : ∀ (n : Nat) (res : Res (Option FieldHeaders)) (e : Entries) (w : World) (s : BR), e.fieldsCount = Nat.min u32Max e.stored.length →
    ∃ L : List Path, L.length ≤ cfg.countLimit - e.fieldsCount ∧
      (∀ q, (entriesLoop D cfg fuel n res e w s).2.1.fileSize q ≤ w.fileSize q + L.count q * (cfg.sizeLimit + cfg.memLimit 0)) ∧
      (∀ q, q ∉ L → (entriesLoop D cfg fuel n res e w s).2.1.files q = w.files q) ∧
      memoryUse (entriesLoop D cfg fuel n res e w s).1.stored ≤ memoryUse e.stored + L.length * cfg.memLimit 0 ∧
      (entriesLoop D cfg fuel n res e w s).1.counts (e.stored.length + L.length) := by
  intro n
  induction n with
  | zero => intro res e w s _; exact ⟨[], Nat.zero_le _, fun q => by simp [entriesLoop], fun _ _ => rfl, by simp [entriesLoop, SaveRes.stored, memoryUse], trivial⟩
  | succ n ih =>
    intro res e w s he
    have hnone : ∀ x : SaveRes Entries PartialEntries × World × BR, x.2.1 = w → memoryUse x.1.stored ≤ memoryUse e.stored → x.1.counts e.stored.length → ∃ L : List Path, L.length ≤ cfg.countLimit - e.fieldsCount ∧
        (∀ q, x.2.1.fileSize q ≤ w.fileSize q + L.count q * (cfg.sizeLimit + cfg.memLimit 0)) ∧ (∀ q, q ∉ L → x.2.1.files q = w.files q) ∧
        memoryUse x.1.stored ≤ memoryUse e.stored + L.length * cfg.memLimit 0 ∧ x.1.counts (e.stored.length + L.length) := by
      intro x h1 h2 h3
      exact ⟨[], Nat.zero_le _, fun q => by rw [h1]; simp, fun q _ => by rw [h1], by simpa using h2, h3⟩
    unfold entriesLoop
    split
    · rename_i hlt
      cases res with
      | ok o =>
        cases o with
        | none => exact hnone _ rfl (Nat.le_refl _) rfl
        | some fh =>
          simp only
          have hg := Target.save_grow (T := .dir e.saveDir.asPath) (cfg := fieldPolicy cfg fh) (fuel := fuel) (w := w) (s := s) hl
          change Grew (e.saveDir.asPath ++ [w.names.headD []]) (cfg.sizeLimit + cfg.memLimit 0) w (withDir (fieldPolicy cfg fh) fuel e.saveDir.asPath w s).2.1 ∧
            (withDir (fieldPolicy cfg fh) fuel e.saveDir.asPath w s).1.light (cfg.memLimit 0) at hg
          generalize e.saveDir.asPath ++ [w.names.headD []] = p at hg
          generalize withDir (fieldPolicy cfg fh) fuel e.saveDir.asPath w s = x at hg ⊢
          rcases x with ⟨r, w1, s1⟩
          obtain ⟨hg, hli⟩ := hg
          simp only at hg hli
          have hsz : ∀ q, w1.fileSize q ≤ w.fileSize q + [p].count q * (cfg.sizeLimit + cfg.memLimit 0) := by
            intro q
            by_cases hq : q = p
            · subst hq; simpa using hg.size
            · have : w1.fileSize q = w.fileSize q := by unfold World.fileSize; rw [hg.others q hq]
              omega
          have hone : ∀ x : SaveRes Entries PartialEntries × World × BR, x.2.1 = w1 → memoryUse x.1.stored ≤ memoryUse e.stored + cfg.memLimit 0 → x.1.counts (e.stored.length + 1) → ∃ L : List Path, L.length ≤ cfg.countLimit - e.fieldsCount ∧
              (∀ q, x.2.1.fileSize q ≤ w.fileSize q + L.count q * (cfg.sizeLimit + cfg.memLimit 0)) ∧ (∀ q, q ∉ L → x.2.1.files q = w.files q) ∧
              memoryUse x.1.stored ≤ memoryUse e.stored + L.length * cfg.memLimit 0 ∧ x.1.counts (e.stored.length + L.length) := by
            intro x h1 h2 h3
            exact ⟨[p], by simp; omega, fun q => by rw [h1]; exact hsz q, fun q hq => by rw [h1]; exact hg.others q (by simpa using hq), by simpa using h2, h3⟩
          cases r with
          | full d =>
            simp only
            have hpush : (e.pushField fh d).fieldsCount = Nat.min u32Max (e.pushField fh d).stored.length := by
              rw [stored_push_length]
              change Min.min (e.fieldsCount + 1) u32Max = Min.min u32Max (e.stored.length + 1)
              change _ = Min.min u32Max e.stored.length at he
              omega
            obtain ⟨L, h1, h2, h3, h4, h5⟩ := ih (s1.readEntry D).1 (e.pushField fh d) w1 (s1.readEntry D).2 hpush
            have hcount : (e.pushField fh d).fieldsCount = e.fieldsCount + 1 := by
              show Nat.min (e.fieldsCount + 1) u32Max = _
              exact Nat.min_eq_left (by omega)
            refine ⟨p :: L, by rw [hcount] at h1; simp only [List.length_cons]; omega, fun q => ?_, fun q hq => ?_, ?_, by rw [stored_push_length] at h5; rw [List.length_cons, Nat.add_comm L.length 1, ← Nat.add_assoc]; exact h5⟩
            · have a := h2 q
              have b := hsz q
              have c : (p :: L).count q = L.count q + [p].count q := by rw [List.count_cons, List.count_singleton]
              rw [c, Nat.add_mul]
              omega
            · simp only [List.mem_cons, not_or] at hq
              rw [h3 q hq.2, hg.others q hq.1]
            · rw [memoryUse_push] at h4
              have := memoryUse_one hli
              simp only [List.length_cons, Nat.add_mul, Nat.one_mul]
              omega
          | part d r =>
            refine hone _ rfl ?_ (Or.inr (stored_push_length e fh d))
            simp only [SaveRes.stored, memoryUse_append]
            have := memoryUse_one hli
            omega
          | error er => exact hone _ rfl (Nat.le_add_right _ _) (Or.inl ⟨er, rfl⟩)
          | panic => exact hone _ rfl (by simp [SaveRes.stored, memoryUse]) trivial
          | hang => exact hone _ rfl (by simp [SaveRes.stored, memoryUse]) trivial
      | err er => exact hnone _ rfl (Nat.le_refl _) (Or.inl ⟨er, rfl⟩)
      | panic => exact hnone _ rfl (by simp [SaveRes.stored, memoryUse]) trivial
      | hang => exact hnone _ rfl (by simp [SaveRes.stored, memoryUse]) trivial
    · exact hnone _ rfl (Nat.le_refl _) (Or.inr rfl)

/-- The full claim C137, for the disk: all files together grow by at most `count_limit` times `size_limit`. -/
def DiskBounded (D : Deps) : Prop := ∀ (evs : List Ev) (b : Bytes) (cfg : Settings) (fuel : Nat) (e : Entries) (w : World) (ps : List Path), cfg.Typed → ps.Nodup →
  (withEntries D cfg fuel e w (withBody evs b)).2.1.diskUse ps ≤ w.diskUse ps + cfg.countLimit * cfg.sizeLimit

/-- C137, as far as it holds, whatever the request is and however the save ends. If `e` has `n` fields already (`n ≤ u32::MAX`), then: all files together grow by at most `count_limit - n` times
`size_limit` and `min(size_limit, memory_threshold)`; at most `count_limit - n` files are changed; and the fields in memory (also the one that was being saved) grow by at most `count_limit - n` times
`min(size_limit, memory_threshold)`. Missing: the second summand for the disk. -/
theorem C137_request_partial (hc : cfg.Typed) (hl : cfg.sizeLimit < u64Max) {e : Entries} {n : Nat} (hn : n = Nat.min u32Max e.stored.length) (h : withEntries D cfg fuel e w s = (r, w', t)) :
    (∀ ps : List Path, ps.Nodup → w'.diskUse ps ≤ w.diskUse ps + (cfg.countLimit - n) * (cfg.sizeLimit + Nat.min cfg.sizeLimit cfg.memoryThreshold)) ∧
    (∀ ps : List Path, ps.Nodup → (∀ p ∈ ps, w'.files p ≠ w.files p) → ps.length ≤ cfg.countLimit - n) ∧
    memoryUse r.stored ≤ memoryUse e.stored + (cfg.countLimit - n) * Nat.min cfg.sizeLimit cfg.memoryThreshold := by
  have hcnt : e.recountFields.fieldsCount = n := by rw [hn]; exact fieldsCount_recount e
  obtain ⟨L, h1, h2, h3, h4, _⟩ := entriesLoop_grow (D := D) (fuel := fuel) hl hc.count fuel (s.readEntry D).1 e.recountFields w (s.readEntry D).2 (fieldsCount_recount e)
  rw [hcnt] at h1
  unfold withEntries at h
  simp only at h
  rw [h] at h2 h3 h4
  simp only at h2 h3 h4
  have hml : cfg.memLimit 0 = Nat.min cfg.sizeLimit cfg.memoryThreshold := rfl
  rw [hml] at h2 h4
  refine ⟨fun ps hps => ?_, fun ps hps hch => ?_, ?_⟩
  · have a : w'.diskUse ps ≤ (ps.map fun q => w.fileSize q + L.count q * (cfg.sizeLimit + Nat.min cfg.sizeLimit cfg.memoryThreshold)).sum := sum_map_le (fun q _ => h2 q)
    rw [sum_map_add, sum_map_mul] at a
    have b := Nat.mul_le_mul_right (cfg.sizeLimit + Nat.min cfg.sizeLimit cfg.memoryThreshold) (Nat.le_trans (sum_count L hps) h1)
    unfold World.diskUse at a ⊢
    omega
  · have a : (ps.map fun _ => 1).sum ≤ (ps.map fun q => L.count q).sum := sum_map_le (fun q hq => by
      have : q ∈ L := Classical.byContradiction fun hn => hch q hq (h3 q hn)
      exact List.count_pos_iff.mpr this)
    have b := sum_const 1 ps
    have := sum_count L hps
    omega
  · have b := Nat.mul_le_mul_right (Nat.min cfg.sizeLimit cfg.memoryThreshold) h1
    have hst : e.recountFields.stored = e.stored := rfl
    rw [hst] at h4
    omega

namespace Sample

/-- One field may be saved, of 3000 bytes. -/
def tight : Settings := { Settings.default with sizeLimit := 3000, memoryThreshold := 1500, countLimit := 1 }

theorem tight_typed : tight.Typed := ⟨by decide, by decide, by decide, rfl⟩

/-- It has 3300 bytes. -/
theorem tight_use : (withEntries refDeps tight 10 (.new (.temp [b!"t"])) disk (withBody evsLong bnd)).2.1.diskUse [[b!"t", b!"rnd"]] = 3300 := by decide +kernel

end Sample

example (ps : List Path) (h : ps.Nodup) : (withEntries refDeps Sample.tight 10 (.new (.temp [b!"t"])) Sample.disk (withBody Sample.evsLong Sample.bnd)).2.1.diskUse ps ≤ Sample.disk.diskUse ps + 4500 :=
  (C137_request_partial (D := refDeps) (cfg := Sample.tight) (fuel := 10) (w := Sample.disk) (s := withBody Sample.evsLong Sample.bnd) (e := .new (.temp [b!"t"])) (n := 0) Sample.tight_typed (by decide) rfl (triple_eq _)).1 ps h

/-- C137 is false of the code: the bytes in memory do not count for the file (C38). -/
theorem C137_false : ¬ DiskBounded refDeps := by
  intro h
  have := h Sample.evsLong Sample.bnd Sample.tight 10 (.new (.temp [b!"t"])) Sample.disk [[b!"t", b!"rnd"]] Sample.tight_typed (by simp)
  rw [Sample.tight_use] at this
  exact absurd this (by decide)

end Multipart

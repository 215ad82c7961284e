import Verif.Lemmas.SaveField
import Verif.Lemmas.Parts
import Verif.Lemmas.Progress
import Verif.Spec.Entries
namespace Multipart

/-! ## `push_field` -/

theorem pushInto_total (f : SavedField) : ∀ m, total (pushInto f m) = total m + 1 := by
  intro m
  induction m with
  | nil => simp [pushInto, total]
  | cons kv r ih =>
    obtain ⟨k, v⟩ := kv
    simp only [total] at ih ⊢
    simp only [pushInto]
    split
    · simp; omega
    · simp only [List.map_cons, List.sum_cons, ih]; omega

theorem pushInto_keys (f : SavedField) : ∀ m : List (Bytes × List SavedField), ∀ k, k ∈ (pushInto f m).map Prod.fst ↔ k ∈ m.map Prod.fst ∨ k = f.headers.name := by
  intro m k
  induction m with
  | nil => simp [pushInto]
  | cons kv r ih =>
    obtain ⟨k', v⟩ := kv
    simp only [pushInto]
    split
    · rename_i h; subst h; simp only [List.map_cons, List.mem_cons]
      constructor
      · rintro (h | h) <;> simp [h]
      · rintro ((h | h) | h) <;> simp [h]
    · simp only [List.map_cons, List.mem_cons, ih, or_assoc]

theorem pushInto_nodup (f : SavedField) : ∀ m : List (Bytes × List SavedField), (m.map Prod.fst).Nodup → ((pushInto f m).map Prod.fst).Nodup := by
  intro m
  induction m with
  | nil => intro _; simp [pushInto]
  | cons kv r ih =>
    obtain ⟨k, v⟩ := kv
    intro h
    simp only [List.map_cons, List.nodup_cons] at h
    simp only [pushInto]
    split
    · simpa using h
    · rename_i hne
      simp only [List.map_cons, List.nodup_cons]
      refine ⟨fun hm => ?_, ih h.2⟩
      rcases (pushInto_keys f r k).mp hm with h' | h'
      · exact h.1 h'
      · exact hne h'

theorem pushInto_mem (f : SavedField) : ∀ m : List (Bytes × List SavedField), (m.map Prod.fst).Nodup → ∀ k v, (k, v) ∈ pushInto f m ↔
    ((k ≠ f.headers.name ∧ (k, v) ∈ m) ∨ (k = f.headers.name ∧ ((∃ v0, (k, v0) ∈ m ∧ v = v0 ++ [f]) ∨ (k ∉ m.map Prod.fst ∧ v = [f])))) := by
  intro m
  induction m with
  | nil => intro _ k v; simp [pushInto]
  | cons kv r ih =>
    obtain ⟨k', v'⟩ := kv
    intro h k v
    simp only [List.map_cons, List.nodup_cons] at h
    simp only [pushInto]
    split
    · rename_i hk
      subst hk
      simp only [List.mem_cons, Prod.mk.injEq, List.map_cons]
      constructor
      · rintro (⟨rfl, rfl⟩ | hm)
        · exact .inr ⟨rfl, .inl ⟨v', .inl ⟨rfl, rfl⟩, rfl⟩⟩
        · refine .inl ⟨?_, .inr hm⟩
          rintro rfl
          exact h.1 (List.mem_map.mpr ⟨_, hm, rfl⟩)
      · rintro (⟨h1, ⟨h2, -⟩ | h2⟩ | ⟨rfl, ⟨v0, ⟨-, rfl⟩ | h2, rfl⟩ | ⟨h2, -⟩⟩)
        · exact absurd h2 h1
        · exact .inr h2
        · exact .inl ⟨rfl, rfl⟩
        · exact absurd (List.mem_map.mpr ⟨_, h2, rfl⟩) h.1
        · exact absurd (.inl rfl) h2
    · rename_i hk
      simp only [List.mem_cons, Prod.mk.injEq, List.map_cons, ih h.2]
      constructor
      · rintro (⟨rfl, rfl⟩ | ⟨h1, h2⟩ | ⟨rfl, ⟨v0, h2, rfl⟩ | ⟨h2, rfl⟩⟩)
        · exact .inl ⟨hk, .inl ⟨rfl, rfl⟩⟩
        · exact .inl ⟨h1, .inr h2⟩
        · exact .inr ⟨rfl, .inl ⟨v0, .inr h2, rfl⟩⟩
        · refine .inr ⟨rfl, .inr ⟨?_, rfl⟩⟩
          rintro (h3 | h3)
          · exact hk h3.symm
          · exact h2 h3
      · rintro (⟨h1, ⟨rfl, rfl⟩ | h2⟩ | ⟨rfl, ⟨v0, ⟨rfl, rfl⟩ | h2, rfl⟩ | ⟨h2, rfl⟩⟩)
        · exact .inl ⟨rfl, rfl⟩
        · exact .inr (.inl ⟨h1, h2⟩)
        · exact absurd rfl hk
        · exact .inr (.inr ⟨rfl, .inl ⟨v0, h2, rfl⟩⟩)
        · exact .inr (.inr ⟨rfl, .inr ⟨fun h3 => h2 (.inr h3), rfl⟩⟩)

theorem GroupedByName.nil : GroupedByName [] [] := ⟨by simp, by simp⟩

theorem GroupedByName.push {m : List (Bytes × List SavedField)} {fs : List SavedField} (h : GroupedByName m fs) (f : SavedField) :
    GroupedByName (pushInto f m) (fs ++ [f]) := by
  refine ⟨pushInto_nodup f m h.keys, fun k v => ?_⟩
  rw [pushInto_mem f m h.keys]
  simp only [h.groups, List.filter_append]
  by_cases hk : k = f.headers.name
  · subst hk
    have hf : [f].filter (fun g => g.headers.name = f.headers.name) = [f] := by simp
    have hkey : f.headers.name ∉ m.map Prod.fst ↔ fs.filter (fun g => g.headers.name = f.headers.name) = [] := by
      constructor
      · intro h1
        apply Classical.byContradiction
        intro h2
        exact h1 (List.mem_map.mpr ⟨_, (h.groups _ _).mpr ⟨h2, rfl⟩, rfl⟩)
      · intro h1 h2
        obtain ⟨⟨k', v'⟩, h3, h4⟩ := List.mem_map.mp h2
        simp only at h4; subst h4
        have := (h.groups _ _).mp h3
        rw [this.2] at this
        exact this.1 h1
    rw [hf, hkey]
    constructor
    · rintro (⟨h1, -⟩ | ⟨-, ⟨v0, ⟨h1, rfl⟩, rfl⟩ | ⟨h1, rfl⟩⟩)
      · exact absurd rfl h1
      · exact ⟨by simp, rfl⟩
      · exact ⟨by simp, by rw [h1]; rfl⟩
    · rintro ⟨-, rfl⟩
      refine .inr ⟨rfl, ?_⟩
      by_cases he : fs.filter (fun g => g.headers.name = f.headers.name) = []
      · exact .inr ⟨he, by rw [he]; rfl⟩
      · exact .inl ⟨_, ⟨he, rfl⟩, rfl⟩
  · have hf : [f].filter (fun g => g.headers.name = k) = [] := by
      simp only [List.filter_cons, List.filter_nil, ite_eq_right_iff]
      intro h'; simp at h'; exact absurd h'.symm hk
    rw [hf, List.append_nil]
    simp [hk]

theorem GroupedByName.total {m : List (Bytes × List SavedField)} {fs : List SavedField} (h : GroupedByName m fs) : total m = fs.length := by
  induction m generalizing fs with
  | nil =>
    cases fs with
    | nil => rfl
    | cons f r =>
      have := (h.groups f.headers.name ((f :: r).filter (fun g => g.headers.name = f.headers.name))).mpr ⟨by simp, rfl⟩
      simp at this
  | cons kv r ih =>
    obtain ⟨k, v⟩ := kv
    have hkn := h.keys
    simp only [List.map_cons, List.nodup_cons] at hkn
    obtain ⟨hv1, hv2⟩ := (h.groups k v).mp (by simp)
    have h' : GroupedByName r (fs.filter (fun f => ¬ f.headers.name = k)) := by
      refine ⟨hkn.2, fun k' v' => ?_⟩
      have hg := h.groups k' v'
      rw [List.filter_filter]
      by_cases hk : k' = k
      · subst hk
        have : fs.filter (fun a => decide (a.headers.name = k') && decide ¬ a.headers.name = k') = [] := by
          rw [List.filter_eq_nil_iff]; intro a _; simp
        rw [this]
        constructor
        · intro hm; exact absurd (List.mem_map.mpr ⟨_, hm, rfl⟩) hkn.1
        · rintro ⟨h1, h2⟩; exact absurd h2 h1
      · have : fs.filter (fun a => decide (a.headers.name = k') && decide ¬ a.headers.name = k) = fs.filter (fun a => a.headers.name = k') := by
          apply List.filter_congr
          intro a _
          by_cases h1 : a.headers.name = k'
          · simp [h1, hk]
          · simp [h1]
        rw [this, ← hg]
        simp [hk]
    have := ih h'
    have hsum : ∀ l : List SavedField, l.length = (l.filter (fun f => f.headers.name = k)).length + (l.filter (fun f => ¬ f.headers.name = k)).length := by
      intro l
      induction l with
      | nil => rfl
      | cons a l ih' =>
        simp only [List.filter_cons]
        by_cases ha : a.headers.name = k
        · simp only [ha, not_true_eq_false, decide_true, decide_false, if_true, List.length_cons, Bool.false_eq_true, if_false]; omega
        · simp only [ha, not_false_eq_true, decide_true, decide_false, if_true, List.length_cons, Bool.false_eq_true, if_false]; omega
    simp only [Multipart.total] at this ⊢
    simp only [List.map_cons, List.sum_cons, this]
    rw [hsum fs, hv2]

/-! ## Successive pushes -/

/-- `push_field` for several fields. -/
def Entries.pushAll (e : Entries) (fs : List SavedField) : Entries := fs.foldl (fun e f => e.pushField f.headers f.data) e

theorem Entries.pushAll_nil (e : Entries) : e.pushAll [] = e := rfl
theorem Entries.pushAll_cons (e : Entries) (f : SavedField) (fs : List SavedField) : e.pushAll (f :: fs) = (e.pushField f.headers f.data).pushAll fs := rfl

theorem Entries.pushAll_dir (fs : List SavedField) : ∀ e : Entries, (e.pushAll fs).saveDir = e.saveDir := by
  induction fs with
  | nil => intro e; rfl
  | cons f fs ih => intro e; rw [pushAll_cons, ih]; rfl

theorem Entries.pushAll_grouped (fs : List SavedField) : ∀ (e : Entries) (fs0 : List SavedField), GroupedByName e.fields fs0 →
    GroupedByName (e.pushAll fs).fields (fs0 ++ fs) := by
  induction fs with
  | nil => intro e fs0 h; rw [pushAll_nil, List.append_nil]; exact h
  | cons f fs ih =>
    intro e fs0 h
    rw [pushAll_cons, show fs0 ++ f :: fs = (fs0 ++ [f]) ++ fs by simp]
    exact ih _ _ (h.push f)

theorem Entries.pushAll_total (fs : List SavedField) : ∀ e : Entries, total (e.pushAll fs).fields = total e.fields + fs.length := by
  induction fs with
  | nil => intro e; rfl
  | cons f fs ih =>
    intro e
    rw [pushAll_cons, ih]
    show total (pushInto _ _) + _ = _
    rw [pushInto_total]; simp; omega

theorem Entries.pushAll_count (fs : List SavedField) : ∀ e : Entries, e.fieldsCount = Nat.min (total e.fields) u32Max →
    (e.pushAll fs).fieldsCount = Nat.min (total e.fields + fs.length) u32Max := by
  induction fs with
  | nil => intro e h; exact h
  | cons f fs ih =>
    intro e h
    have h1 : (e.pushField f.headers f.data).fieldsCount = Nat.min (total (e.pushField f.headers f.data).fields) u32Max := by
      show Nat.min (e.fieldsCount + 1) u32Max = Nat.min (total (pushInto _ _)) u32Max
      rw [pushInto_total, h]
      show min (min _ _ + 1) _ = min _ _
      omega
    rw [pushAll_cons, ih _ h1]
    show Nat.min (total (pushInto _ _) + _) _ = _
    rw [pushInto_total, List.length_cons]
    congr 1; omega

/-! ## The loop -/

theorem SavedSeq.snoc {D : Deps} {b : Settings} {fuel : Nat} {dir : Path} {w w' w1 : World} {s t s1 s2 : BR} {fs : List SavedField} {h : FieldHeaders} {d : SavedData}
    (hs : SavedSeq D b fuel dir w s fs w' t) (h1 : t.readEntry D = (.ok (some h), s1))
    (h2 : (Target.dir dir).save { b with textPolicy := if h.isText then b.textPolicy else .ignore } fuel w' s1 = (.full d, w1, s2)) :
    SavedSeq D b fuel dir w s (fs ++ [{ headers := h, data := d }]) w1 s2 := by
  induction hs with
  | nil => exact .cons h1 h2 .nil
  | cons a c _ ih => exact .cons a c (ih h1 h2)

/-- How the loop can end, after the fields saved so far, with entries `e`, in `w`, `s`. -/
inductive LoopEnd (D : Deps) (b : Settings) (fuel : Nat) (e : Entries) (w : World) (s : BR) : SaveRes Entries PartialEntries → World → BR → Prop
  | full {t : BR} : s.readEntry D = (.ok none, t) → e.fieldsCount < b.countLimit → LoopEnd D b fuel e w s (.full e) w t
  | count : b.countLimit ≤ e.fieldsCount → LoopEnd D b fuel e w s (.part { entries := e, part := none } .countLimit) w (s.readEntry D).2
  | read {er : IoErr} {t : BR} : s.readEntry D = (.err er, t) → e.fieldsCount < b.countLimit →
      LoopEnd D b fuel e w s (.part { entries := e, part := none } (.io er)) w t
  | part {h : FieldHeaders} {d : SavedData} {r : Reason} {w' : World} {s1 t : BR} : s.readEntry D = (.ok (some h), s1) → e.fieldsCount < b.countLimit →
      (Target.dir e.saveDir.asPath).save { b with textPolicy := if h.isText then b.textPolicy else .ignore } fuel w s1 = (.part d r, w', t) →
      LoopEnd D b fuel e w s (.part { entries := e, part := some { headers := h, dest := some d } } r) w' t
  | error {h : FieldHeaders} {er : IoErr} {w' : World} {s1 t : BR} : s.readEntry D = (.ok (some h), s1) → e.fieldsCount < b.countLimit →
      (Target.dir e.saveDir.asPath).save { b with textPolicy := if h.isText then b.textPolicy else .ignore } fuel w s1 = (.error er, w', t) →
      LoopEnd D b fuel e w s (.part { entries := e, part := some { headers := h, dest := none } } (.io er)) w' t
  | panic {w' : World} {t : BR} : (s.readEntry D).1 = .panic ∨ (∃ h s1, s.readEntry D = (.ok (some h), s1) ∧
      ((Target.dir e.saveDir.asPath).save { b with textPolicy := if h.isText then b.textPolicy else .ignore } fuel w s1).1 = .panic) → LoopEnd D b fuel e w s .panic w' t
  | hang {w' : World} {t : BR} : (s.readEntry D).1 = .hang ∨ (∃ h s1, s.readEntry D = (.ok (some h), s1) ∧
      ((Target.dir e.saveDir.asPath).save { b with textPolicy := if h.isText then b.textPolicy else .ignore } fuel w s1).1 = .hang) → LoopEnd D b fuel e w s .hang w' t

theorem entriesLoop_spec (D : Deps) (b : Settings) (fuel : Nat) : ∀ (n : Nat) (e : Entries) (w : World) (s : BR) {r : SaveRes Entries PartialEntries} {w' : World} {t : BR},
    entriesLoop D b fuel n (s.readEntry D).1 e w (s.readEntry D).2 = (r, w', t) →
    ∃ fs w1 s1, SavedSeq D b fuel e.saveDir.asPath w s fs w1 s1 ∧ (∀ init last, fs = init ++ [last] → (e.pushAll init).fieldsCount < b.countLimit) ∧
      (LoopEnd D b fuel (e.pushAll fs) w1 s1 r w' t ∨ (r = .hang ∧ fs.length = n)) := by
  intro n
  induction n with
  | zero =>
    intro e w s r w' t h
    simp only [entriesLoop, Prod.mk.injEq] at h
    obtain ⟨rfl, rfl, rfl⟩ := h
    exact ⟨[], w, s, .nil, by simp, .inr ⟨rfl, rfl⟩⟩
  | succ n ih =>
    intro e w s r w' t h
    rcases hre : s.readEntry D with ⟨res, s1⟩
    rw [hre] at h
    simp only [entriesLoop] at h
    have stop : LoopEnd D b fuel e w s r w' t → ∃ fs w1 s1, SavedSeq D b fuel e.saveDir.asPath w s fs w1 s1 ∧ (∀ init last, fs = init ++ [last] → (e.pushAll init).fieldsCount < b.countLimit) ∧
      (LoopEnd D b fuel (e.pushAll fs) w1 s1 r w' t ∨ (r = .hang ∧ fs.length = n + 1)) :=
      fun hl => ⟨[], w, s, .nil, by simp, .inl hl⟩
    by_cases hlt : e.fieldsCount < b.countLimit
    · rw [if_pos hlt] at h
      cases res with
      | err er =>
        simp only [Prod.mk.injEq] at h
        obtain ⟨rfl, rfl, rfl⟩ := h
        exact stop (.read hre hlt)
      | panic =>
        simp only [Prod.mk.injEq] at h
        obtain ⟨rfl, rfl, rfl⟩ := h
        exact stop (.panic (.inl (by rw [hre])))
      | hang =>
        simp only [Prod.mk.injEq] at h
        obtain ⟨rfl, rfl, rfl⟩ := h
        exact stop (.hang (.inl (by rw [hre])))
      | ok o =>
        cases o with
        | none =>
          simp only [Prod.mk.injEq] at h
          obtain ⟨rfl, rfl, rfl⟩ := h
          exact stop (.full hre hlt)
        | some hd =>
          simp only at h
          have hsv : ∀ w s, (Target.dir e.saveDir.asPath).save { b with textPolicy := if hd.isText then b.textPolicy else .ignore } fuel w s =
            withDir (fieldPolicy b hd) fuel e.saveDir.asPath w s := fun _ _ => rfl
          rcases hw : withDir (fieldPolicy b hd) fuel e.saveDir.asPath w s1 with ⟨res, w1, s2⟩
          rw [hw] at h
          rw [← hsv] at hw
          cases res with
          | full d =>
            simp only at h
            obtain ⟨fs, w2, s3, h1, h2, h3⟩ := ih _ _ _ h
            refine ⟨{ headers := hd, data := d } :: fs, w2, s3, .cons hre hw h1, ?_, h3.imp_right (fun h => by simpa using h)⟩
            · intro init last hil
              cases init with
              | nil => exact hlt
              | cons f init =>
                simp only [List.cons_append, List.cons.injEq] at hil
                obtain ⟨rfl, hil⟩ := hil
                exact h2 init last hil
          | part d rr =>
            simp only [Prod.mk.injEq] at h
            obtain ⟨rfl, rfl, rfl⟩ := h
            exact stop (.part hre hlt hw)
          | error er =>
            simp only [Prod.mk.injEq] at h
            obtain ⟨rfl, rfl, rfl⟩ := h
            exact stop (.error hre hlt hw)
          | panic =>
            simp only [Prod.mk.injEq] at h
            obtain ⟨rfl, rfl, rfl⟩ := h
            exact stop (.panic (.inr ⟨_, _, hre, by rw [hw]⟩))
          | hang =>
            simp only [Prod.mk.injEq] at h
            obtain ⟨rfl, rfl, rfl⟩ := h
            exact stop (.hang (.inr ⟨_, _, hre, by rw [hw]⟩))
    · rw [if_neg hlt] at h
      simp only [Prod.mk.injEq] at h
      obtain ⟨rfl, rfl, rfl⟩ := h
      have := LoopEnd.count (D := D) (b := b) (fuel := fuel) (e := e) (w := w) (s := s) (by omega)
      rw [hre] at this
      exact stop this

end Multipart

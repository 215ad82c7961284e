import Verif.Props.Limits
import Verif.Spec.Usage
/-!
# How much memory and disk a request takes (C98)
-/
namespace Multipart

variable {D : Deps} {evs : List Ev} {b : Bytes} {s t : BR} {cfg : Settings} {fuel : Nat} {T : Target} {w w' w2 : World} {e : Entries} {r : SaveRes Entries PartialEntries}

/-- What is saved was taken from the stream. -/
theorem Target.save_size (hi : s.Inv) {d : SavedData} {r : Reason} (h : T.save cfg fuel w s = (.full d, w', t) ∨ T.save cfg fuel w s = (.part d r, w', t)) :
    d.size + t.unread.length ≤ s.unread.length := by
  have key : ∀ {x : Bytes}, Took s x t → x.length + t.unread.length ≤ s.unread.length := by
    intro x hx
    have := congrArg List.length (hx.unread hi)
    rw [List.length_append] at this
    omega
  have hmin : ∀ {x : Bytes}, Took s x t → Nat.min x.length u64Max + t.unread.length ≤ s.unread.length := by
    intro x hx
    have := key hx
    have : Nat.min x.length u64Max ≤ x.length := Nat.min_le_left _ _
    omega
  rcases h with h | h
  · cases Target.save_spec hi h with
    | text _ g => exact key g.1
    | bytes _ g => exact key g.1
    | file h1 _ _ _ h5 =>
      cases h5 with
      | full g1 => exact hmin (h1.trans g1.1)
  · cases Target.save_spec hi h with
    | partText _ g => exact key g
    | partBytes _ g => exact key g
    | file h1 _ _ _ h5 =>
      cases h5 with
      | cut g1 g2 g3 =>
        subst g1
        have := key h1
        simp only [SavedData.size]
        omega
      | part g1 => exact hmin (h1.trans g1)

theorem sumOver_push (g : SavedData → Nat) (f : SavedField) : ∀ m, sumOver g (pushInto f m) = sumOver g m + g f.data := by
  intro m
  induction m with
  | nil => simp [pushInto, sumOver]
  | cons kv r ih =>
    obtain ⟨k, v⟩ := kv
    simp only [sumOver] at ih ⊢
    simp only [pushInto]
    split
    · simp; omega
    · simp only [List.map_cons, List.sum_cons, ih]; omega

theorem sumOver_pushAll (g : SavedData → Nat) : ∀ (fs : List SavedField) (e : Entries), sumOver g (e.pushAll fs).fields = sumOver g e.fields + (fs.map fun f => g f.data).sum := by
  intro fs
  induction fs with
  | nil => intro e; simp [Entries.pushAll]
  | cons f fs ih =>
    intro e
    rw [Entries.pushAll_cons, ih]
    show sumOver g (pushInto _ _) + _ = _
    rw [sumOver_push]
    simp; omega

theorem SavedData.inMemory_le (d : SavedData) : d.inMemory + d.onDisk = d.size ∧ (d.inMemory = 0 ∨ d.isMemory = true) ∧ (d.isMemory = true → d.inMemory = d.size) := by
  cases d <;> simp [inMemory, onDisk, size, isMemory]

/-- Data saved from a body with these settings. -/
def SavedFrom (D : Deps) (evs : List Ev) (b : Bytes) (cfg : Settings) (d : SavedData) : Prop :=
  ∃ (T : Target) (p : TextPolicy) (fuel : Nat) (w w' : World) (s t : BR) (r : Reason), Reachable D evs b s ∧
    (T.save { cfg with textPolicy := p } fuel w s = (.full d, w', t) ∨ T.save { cfg with textPolicy := p } fuel w s = (.part d r, w', t))

theorem SavedSeq.sizes (hD : D.Sane) {dir : Path} {fs : List SavedField} (h : SavedSeq D cfg fuel dir w s fs w' t) (hr : Reachable D evs b s) :
    (∀ f ∈ fs, SavedFrom D evs b cfg f.data) ∧ t.unread.length + (fs.map fun f => f.data.size).sum + fs.length * (b.length + 4) ≤ s.unread.length := by
  induction h with
  | nil => simp
  | cons h1 h2 h3 ih =>
    have hr1 := hr.entry h1
    have hl := hr.line hD h1
    have hi := (hr1.spec hD).1
    have h4 := Target.save_size (r := .sizeLimit) hi (.inl h2)
    obtain ⟨x, hx⟩ := Target.save_took _ hi h2 (by simp)
    obtain ⟨h5, h6⟩ := ih (hx.reachable hr1)
    refine ⟨?_, ?_⟩
    · intro f hf
      rcases List.mem_cons.mp hf with rfl | hf
      · exact ⟨_, _, _, _, _, _, _, .sizeLimit, hr1, .inl h2⟩
      · exact h5 f hf
    · rw [List.length_cons, Nat.succ_mul, List.map_cons, List.sum_cons]
      simp only
      omega

/-- The entries of a result are those that were saved, one after the other, from the body. -/
theorem result_entries (hD : D.Sane) (dir : SaveDir) (h : withEntries D cfg fuel (Entries.new dir) w (withBody evs b) = (r, w', t)) (he : ResultEntries r e) :
    ∃ fs, e.fields = ((Entries.new dir).recountFields.pushAll fs).fields ∧ (∀ f ∈ fs, SavedFrom D evs b cfg f.data) ∧
      (fs.map fun f => f.data.size).sum + fs.length * (b.length + 4) ≤ (Ev.bytes evs).length := by
  have hr : Reachable D evs b (withBody evs b) := ⟨[], rfl⟩
  have hu : (withBody evs b).unread.length = (Ev.bytes evs).length := by simp [withBody, BR.fromReader, BR.unread]
  obtain ⟨fs, w1, s1, h1, h2, h3⟩ := withEntries_spec h
  obtain ⟨k1, k2⟩ := h1.sizes hD hr
  have base : e.fields = ((Entries.new dir).recountFields.pushAll fs).fields → ∃ fs, e.fields = ((Entries.new dir).recountFields.pushAll fs).fields ∧ (∀ f ∈ fs, SavedFrom D evs b cfg f.data) ∧
      (fs.map fun f => f.data.size).sum + fs.length * (b.length + 4) ≤ (Ev.bytes evs).length := fun h => ⟨fs, h, k1, by omega⟩
  rcases h3 with h3 | ⟨rfl, -⟩
  · cases h3 with
    | full => cases he; exact base rfl
    | count => cases he <;> exact base rfl
    | read => cases he <;> exact base rfl
    | @part hd d rs _ s2 _ h4 _ h6 =>
      cases he with
      | part => exact base rfl
      | keep =>
        have hr1 := h1.reachable hD hr
        have hr2 := hr1.entry h4
        refine ⟨fs ++ [⟨hd, d⟩], ?_, ?_, ?_⟩
        · show (Entries.pushField _ _ _).fields = _
          rw [Entries.pushAll, Entries.pushAll, List.foldl_append]; rfl
        · intro f hf
          rcases List.mem_append.mp hf with hf | hf
          · exact k1 f hf
          · rw [List.mem_singleton.mp hf]
            exact ⟨_, _, _, _, _, _, _, rs, hr2, .inr h6⟩
        · have := Target.save_size (hr2.spec hD).1 (.inr h6)
          have := hr1.line hD h4
          simp only [List.map_append, List.map_cons, List.map_nil, List.sum_append, List.sum_cons, List.sum_nil, List.length_append, List.length_cons, List.length_nil, Nat.add_mul, Nat.zero_add, Nat.one_mul]
          omega
    | error => cases he <;> exact base rfl
    | panic => cases he
    | hang => cases he
  · cases he

theorem sum_le {α : Type} (g : α → Nat) (n : Nat) : ∀ l : List α, (∀ a ∈ l, g a ≤ n) → (l.map g).sum ≤ l.length * n := by
  intro l
  induction l with
  | nil => simp
  | cons a l ih =>
    intro h
    have := ih fun x hx => h x (List.mem_cons_of_mem _ hx)
    have := h a (List.mem_cons_self ..)
    simp [Nat.succ_mul]
    omega

theorem sum_le_sum {α : Type} (g g' : α → Nat) : ∀ l : List α, (∀ a ∈ l, g a ≤ g' a) → (l.map g).sum ≤ (l.map g').sum := by
  intro l
  induction l with
  | nil => simp
  | cons a l ih =>
    intro h
    have := ih fun x hx => h x (List.mem_cons_of_mem _ hx)
    have := h a (List.mem_cons_self ..)
    simp
    omega

theorem result_total (hc : cfg.Typed) (dir : SaveDir) (h : withEntries D cfg fuel (Entries.new dir) w (withBody evs b) = (r, w', t)) (he : ResultEntries r e) :
    total e.fields ≤ cfg.countLimit := by
  obtain ⟨h1, h2⟩ := C49_count_limit hc (e := Entries.new dir) (by simp [Entries.new, total]) h
  cases he with
  | full => exact h1 _ rfl
  | part => exact (h2 _ _ rfl).1
  | keep => exact (h2 _ _ rfl).2

theorem new_pushAll_total (dir : SaveDir) (fs : List SavedField) : total ((Entries.new dir).recountFields.pushAll fs).fields = fs.length := by
  rw [Entries.pushAll_total]; simp [Entries.recountFields, Entries.new, total]

theorem new_pushAll_sum (g : SavedData → Nat) (dir : SaveDir) (fs : List SavedField) : sumOver g ((Entries.new dir).recountFields.pushAll fs).fields = (fs.map fun f => g f.data).sum := by
  rw [sumOver_pushAll]; simp [Entries.recountFields, Entries.new, sumOver]

/-- C98: the fields of a request take at most `count_limit * memory_threshold` bytes of memory, nor more than `count_limit * size_limit`, whatever the result is. -/
theorem C98_memory (hD : D.Sane) (hc : cfg.Typed) (hsz : (Ev.bytes evs).length ≤ u64Max) (dir : SaveDir)
    (h : withEntries D cfg fuel (Entries.new dir) w (withBody evs b) = (r, w', t)) (he : ResultEntries r e) :
    sumOver SavedData.inMemory e.fields ≤ cfg.countLimit * cfg.memoryThreshold ∧ sumOver SavedData.inMemory e.fields ≤ cfg.countLimit * cfg.sizeLimit := by
  have ht := result_total hc dir h he
  obtain ⟨fs, h1, h2, -⟩ := result_entries hD dir h he
  rw [h1] at ht ⊢
  rw [new_pushAll_total] at ht
  rw [new_pushAll_sum]
  have key : ∀ f ∈ fs, f.data.inMemory ≤ cfg.memoryThreshold ∧ f.data.inMemory ≤ cfg.sizeLimit := by
    intro f hf
    obtain ⟨T, tp, fu, w1, w2, s1, t1, rs, hr, hs⟩ := h2 f hf
    obtain ⟨-, h0 | hm, hz⟩ := f.data.inMemory_le
    · omega
    · have := C39_memory_bound hD hr hsz hs hm
      rw [hz hm]
      exact this
  exact ⟨Nat.le_trans (sum_le _ _ fs fun f hf => (key f hf).1) (Nat.mul_le_mul_right _ ht), Nat.le_trans (sum_le _ _ fs fun f hf => (key f hf).2) (Nat.mul_le_mul_right _ ht)⟩

/-- C98: what the fields of a request take, in memory and in files, and their delimiter lines, is not more than the body. -/
theorem C98_body (hD : D.Sane) (dir : SaveDir) (h : withEntries D cfg fuel (Entries.new dir) w (withBody evs b) = (r, w', t)) (he : ResultEntries r e) :
    sumOver SavedData.inMemory e.fields + sumOver SavedData.onDisk e.fields + total e.fields * (b.length + 4) ≤ (Ev.bytes evs).length := by
  obtain ⟨fs, h1, -, h2⟩ := result_entries hD dir h he
  rw [h1, new_pushAll_total, new_pushAll_sum, new_pushAll_sum]
  have : (fs.map fun f => f.data.inMemory).sum + (fs.map fun f => f.data.onDisk).sum = (fs.map fun f => f.data.size).sum := by
    clear h1 h2
    induction fs with
    | nil => rfl
    | cons f fs ih =>
      have := f.data.inMemory_le.1
      simp only [List.map_cons, List.sum_cons]
      omega
  omega

theorem FewFiles.trans {n m k : Nat} (h1 : FewFiles n k w w') (h2 : FewFiles m k w' w2) : FewFiles (n + m) k w w2 := by
  obtain ⟨ps, g1, g2⟩ := h1
  obtain ⟨qs, g3, g4⟩ := h2
  refine ⟨ps ++ qs, by simp; omega, fun q => ?_⟩
  rcases g4 q with h | ⟨h, c, hc⟩
  · rcases g2 q with h' | ⟨h', c, hc⟩
    · exact .inl (h.trans h')
    · exact .inr ⟨by simp [h'], c, by rw [h]; exact hc.1, hc.2⟩
  · exact .inr ⟨by simp [h], c, hc⟩

theorem FewFiles.mono {n m k : Nat} (h : FewFiles n k w w') (hn : n ≤ m) : FewFiles m k w w' := by
  obtain ⟨ps, g1, g2⟩ := h
  exact ⟨ps, by omega, g2⟩

theorem FewFiles.same {k : Nat} (h : w'.files = w.files) : FewFiles 0 k w w' := ⟨[], by simp, fun q => .inl (congrFun h q)⟩

/-- One field changes one file. -/
theorem Target.save_files (hi : s.Inv) (hb : s.unread.length ≤ u64Max) (ho : cfg.openOpts.createNew = true) (hl : cfg.sizeLimit < u64Max) {r : SaveRes SavedData SavedData}
    (h : T.save cfg fuel w s = (r, w', t)) (hh : r ≠ .hang) : FewFiles 1 (cfg.sizeLimit + Nat.min cfg.sizeLimit cfg.memoryThreshold) w w' := by
  have hw := (T.world_same w).1
  have hml : cfg.memLimit 0 = Nat.min cfg.sizeLimit cfg.memoryThreshold := rfl
  have same : w' = T.world w → FewFiles 1 (cfg.sizeLimit + Nat.min cfg.sizeLimit cfg.memoryThreshold) w w' := fun h => (FewFiles.same (by rw [h, hw])).mono (by omega)
  have only : ∀ {old c}, Opened (T.world w) cfg.openOpts (T.file w) old → OnlyFile (T.world w) w' (T.file w) (overlay cfg.openOpts old c) →
      c.length ≤ cfg.sizeLimit + Nat.min cfg.sizeLimit cfg.memoryThreshold → FewFiles 1 (cfg.sizeLimit + Nat.min cfg.sizeLimit cfg.memoryThreshold) w w' := by
    intro old c h1 h2 h3
    refine ⟨[T.file w], by simp, fun q => ?_⟩
    have := congrFun h2 q
    by_cases hq : q = T.file w
    · right
      rw [if_pos hq] at this
      refine ⟨by simp [hq], _, this, ?_⟩
      rw [OpensEmpty.overlay (.inl ho) h1]
      exact h3
    · left
      rw [if_neg hq, hw] at this
      exact this
  cases Target.save_spec hi h with
  | hang => exact absurd rfl hh
  | text h1 => exact same h1
  | bytes h1 => exact same h1
  | partText h1 => exact same h1
  | partBytes h1 => exact same h1
  | error h1 => exact same h1
  | @file bytes s1 _ h1 h2 h3 h4 h5 =>
    have := h1.shorter hi
    rw [min_of_le (by omega), hml] at h2
    cases h5 with
    | hang => exact absurd rfl hh
    | noFile _ g => exact (FewFiles.same (by rw [g, hw])).mono (by omega)
    | cut _ g1 g2 _ _ g3 => exact only g1 g3 (by rw [List.length_take]; omega)
    | cut0 _ g1 _ _ g3 => exact only g1 g3 (by simp)
    | full _ g1 g2 g3 => exact only g1 g2 (by have := g3 hl; rw [List.length_append]; omega)
    | part _ g1 g2 g3 => exact only g1 g2 (by have := g3 hl; rw [List.length_append]; omega)
    | error _ g1 g2 => exact only g1 g2 (by omega)

theorem SavedSeq.files (hD : D.Sane) (ho : cfg.openOpts.createNew = true) (hl : cfg.sizeLimit < u64Max) (hsz : (Ev.bytes evs).length ≤ u64Max) {dir : Path} {fs : List SavedField}
    (h : SavedSeq D cfg fuel dir w s fs w' t) (hr : Reachable D evs b s) : FewFiles fs.length (cfg.sizeLimit + Nat.min cfg.sizeLimit cfg.memoryThreshold) w w' := by
  induction h with
  | nil => exact .same rfl
  | @cons w w1 w2 s s1 s2 t hd d fs h1 h2 h3 ih =>
    have hr1 := hr.entry h1
    have hi := (hr1.spec hD).1
    obtain ⟨x, hx⟩ := Target.save_took _ hi h2 (by simp)
    have h5 := ih (hx.reachable hr1)
    have h6 := Target.save_files (cfg := { cfg with textPolicy := if hd.isText then cfg.textPolicy else .ignore }) hi (hr1.small hD hsz) ho hl h2 (by simp)
    rw [List.length_cons, Nat.add_comm]
    exact FewFiles.trans h6 h5

/-- C98: saving a request changes at most `count_limit` files, and each of them has at most `size_limit` bytes and what was kept in memory before. -/
theorem C98_files (hD : D.Sane) (hc : cfg.Typed) (ho : cfg.openOpts.createNew = true) (hl : cfg.sizeLimit < u64Max) (hsz : (Ev.bytes evs).length ≤ u64Max) (dir : SaveDir)
    (h : withEntries D cfg fuel (Entries.new dir) w (withBody evs b) = (r, w', t)) (hh : r ≠ .hang) :
    FewFiles cfg.countLimit (cfg.sizeLimit + Nat.min cfg.sizeLimit cfg.memoryThreshold) w w' := by
  have hr : Reachable D evs b (withBody evs b) := ⟨[], rfl⟩
  obtain ⟨fs, w1, s1, h1, h2, h3⟩ := withEntries_spec h
  have h4 := h1.files hD ho hl hsz hr
  have hle : fs.length ≤ cfg.countLimit := by
    rcases eq_nil_or_snoc fs with rfl | ⟨init, last, rfl⟩
    · simp
    · have := (Entries.count_lt hc _ init (h2 _ _ rfl)).1
      simp; omega
  rcases h3 with h3 | ⟨h3, -⟩
  · have last : ∀ {hd s2 rr t}, s1.readEntry D = (.ok (some hd), s2) → ((Entries.new dir).recountFields.pushAll fs).fieldsCount < cfg.countLimit →
        (Target.dir ((Entries.new dir).recountFields.pushAll fs).saveDir.asPath).save { cfg with textPolicy := if hd.isText then cfg.textPolicy else .ignore } fuel w1 s2 = (rr, w', t) → rr ≠ .hang →
        FewFiles cfg.countLimit (cfg.sizeLimit + Nat.min cfg.sizeLimit cfg.memoryThreshold) w w' := by
      intro hd s2 rr t k1 k2 k3 k4
      have hr2 := (h1.reachable hD hr).entry k1
      have h6 := Target.save_files (cfg := { cfg with textPolicy := if hd.isText then cfg.textPolicy else .ignore }) (hr2.spec hD).1 (hr2.small hD hsz) ho hl k3 k4
      have := (Entries.count_lt hc _ fs k2).1
      exact (FewFiles.trans h4 h6).mono (by omega)
    cases h3 with
    | full => exact h4.mono hle
    | count => exact h4.mono hle
    | read => exact h4.mono hle
    | part k1 k2 k3 => exact last k1 k2 k3 (by simp)
    | error k1 k2 k3 => exact last k1 k2 k3 (by simp)
    | panic k =>
      have := (withEntries_ends (cfg := cfg) (fuel := fuel) (e := Entries.new dir) (w := w) hD hr (.inl (Nat.lt_of_le_of_lt (Nat.min_le_left _ _) hl))).2
      rw [h] at this
      exact absurd rfl this
    | hang => exact absurd rfl hh
  · exact absurd h3 hh

/-- Two fields of three bytes: in files, or in memory and the second not at all because of the count limit, or cut off by the size limit. -/
def Sample.used (cfg : Settings) : Option (Nat × Nat × Nat) :=
  match (withEntries refDeps cfg 10 (Entries.new (.temp [b!"tmp"])) { Sample.disk with names := [b!"x", b!"y"] } (withBody Sample.evsTwo Sample.bnd)).1 with
  | .full e => some (sumOver SavedData.inMemory e.fields, sumOver SavedData.onDisk e.fields, total e.fields)
  | .part p _ => some (sumOver SavedData.inMemory p.keepPartial.fields, sumOver SavedData.onDisk p.keepPartial.fields, total p.keepPartial.fields)
  | _ => none

/-- The hypotheses of C98_memory and C98_body are met. -/
example : Sample.used { Settings.default with memoryThreshold := 2, countLimit := 3 } = some (0, 6, 2) := by decide +kernel
example : Sample.used { Settings.default with countLimit := 1 } = some (3, 0, 1) := by decide +kernel
/-- The hypotheses of C98_files are met, too. -/
example : (Ev.bytes Sample.evsTwo).length ≤ u64Max ∧ Settings.default.sizeLimit < u64Max ∧ Settings.default.openOpts.createNew = true := by decide +kernel

end Multipart

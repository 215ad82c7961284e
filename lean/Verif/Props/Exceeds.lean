import Verif.Lemmas.Shown
import Verif.Props.ReadAhead
import Verif.Props.Success
/-!
# How far some claims are from the truth

The claims that are false of the code have a counterexample each. Here some of them are shown to fail always, or nearly always. C38_exceeds: with the usual settings every field a little longer than `size_limit` is saved in full. C41_otherwise: a field longer than `size_limit` creates a file also if `memory_threshold` is not smaller,
except that just `size_limit` bytes of it happen to be in memory when the next ones come.
-/
namespace Multipart
variable {D : Deps} {evs : List Ev} {b : Bytes} {m n : Nat} {s0 s t : BR} {cfg : Settings} {fuel : Nat} {T : Target} {w w' : World} {fh : FieldHeaders} {dat : Bytes}

/-- However a field is read, at most two bytes more than its data come out. -/
theorem Took.field_le {x : Bytes} (hD : D.Sane) (hr : Reachable D evs b s) (hd : FieldData (dashes ++ b) s.unread dat) (h : Took s x t) : x.length ≤ dat.length + 2 := by
  obtain ⟨os, hos⟩ := h.run (hr.spec hD).1
  have key : ∀ {p}, FirstAt (dashes ++ b) s.unread p → x.length ≤ p := by
    intro p hp
    have := (C02_never_past_delimiter hD hr os hp).1.length_le
    rw [hos, List.length_take] at this
    simp only at this
    omega
  cases hd with
  | crlf h _ => exact key h
  | bare h _ _ => have := key h; omega

/-- After any calls on a field, there are fewer than `m + n` bytes in the buffer. -/
theorem Took.buffer {x : Bytes} (hD : D.Sane) (hm : entryBuf (dashes ++ b) ≤ m) {os : List SOp} (hos : ∀ n, SOp.field (.setMin n) ∈ os → n ≤ m)
    (hsz : ReadsUpTo n evs) (hs : s = (withBody evs b).session D os) (h : Took s x t) : t.buf.length < m + n := by
  have hJ : KeptByFields fun s => Reachable D evs b s ∧ ∀ before after, evs = before ++ after → after ≠ [] → s.Late m after :=
    ⟨fun s ⟨h1, h2⟩ => ⟨h1.run [.fillBuf], fun before after h ha => (h2 before after h ha).readToBoundary ha⟩,
      fun s t buf n ⟨h1, h2⟩ hr => ⟨by have := (h1.run [.fillBuf]).run [.consume n]; simp only [BR.run, BR.op, hr] at this; exact this, fun before after h ha => by have := ((h2 before after h ha).readToBoundary ha).consume n; rw [hr] at this; exact this⟩⟩
  obtain ⟨h1, h2⟩ := h.keeps hJ ⟨⟨os, hs⟩, fun before after g ha => by
    subst g; subst hs
    exact BR.Late.session hD ha os (.new hm) hm hos⟩
  obtain ⟨-, hu, -, he⟩ := h1.spec hD
  exact BR.buffer_of_late (Nat.lt_of_lt_of_le (by decide) (Nat.le_trans (Nat.le_max_left 1024 _) hm)) hsz he hu h2

/-- A field of which at most `L` bytes come out is saved in full, if fewer than `M` bytes are in the buffer at a time: at least `memory_threshold + 2 - M` of them are kept in memory, and not counted again. -/
theorem Target.save_within {L M : Nat} {r : SaveRes SavedData SavedData} (hi : s.Inv) (he : OnlyInterrupted s.evs) (hle : ∀ x u, Took s x u → x.length ≤ L) (hbuf : ∀ x u, Took s x u → u.buf.length < M)
    (hw : DiskWorks w cfg.openOpts (T.file w)) (hp : cfg.textPolicy ≠ .force) (hl : cfg.sizeLimit < u64Max) (hless : L + M ≤ cfg.sizeLimit + cfg.memoryThreshold + 2) (ht : cfg.memoryThreshold < cfg.sizeLimit)
    (h : T.save cfg fuel w s = (r, w', t)) : r = .hang ∨ ∃ d, r = .full d := by
  have hml : cfg.memLimit 0 = cfg.memoryThreshold := by simp only [Settings.memLimit, Nat.sub_zero]; exact Nat.min_eq_right (Nat.le_of_lt ht)
  have hse : ∀ {e}, ¬ StreamErr s e := fun g => g.2 (he _ g.1)
  have hwf : ∀ {e}, ¬ ∃ ev ∈ (T.world w).writes, ev.FailsWith e := by
    rintro e ⟨ev, g1, g2⟩; exact (hw.world (T := T)).writes ev g1 e g2
  have small : ∀ {x : Bytes} {l : Nat}, Nat.min x.length u64Max ≤ l → l < u64Max → x.length ≤ l := by
    intro x l g g'; simp only [Nat.min_def] at g; split at g <;> omega
  have ht' : cfg.memoryThreshold < u64Max := by omega
  cases Target.save_spec hi h with
  | hang => exact .inl rfl
  | text => exact .inr ⟨_, rfl⟩
  | bytes => exact .inr ⟨_, rfl⟩
  | partText h1 h2 h3 h4 h5 h6 =>
    rcases h6 with ⟨-, g, -⟩ | ⟨e, -, -, g⟩ | ⟨-, g, -⟩
    · rw [hml] at h5; have := small h5 ht'; omega
    · exact absurd g hse
    · exact absurd g hp
  | partBytes h1 h2 h3 h4 =>
    rcases h4 with ⟨-, g, -⟩ | ⟨e, -, -, g⟩
    · rw [hml] at h3; have := small h3 ht'; omega
    · exact absurd g hse
  | error _ _ g => exact absurd g hse
  | file h1 _ _ _ h5 =>
    rw [T.save_eq] at h
    rcases withPath_shown hi h with ⟨-, h6, -⟩ | ⟨x, s1, h1, h2, h3, h4⟩
    · cases h5 with
      | hang => exact .inl rfl
      | noFile _ _ g => exact absurd g (hw.world (T := T)).not_fails
      | cut => exact absurd rfl ((h6 _ _).2 _)
      | cut0 _ _ _ g => exact absurd g hwf
      | full => exact .inr ⟨_, rfl⟩
      | part => exact absurd rfl ((h6 _ _).2 _)
      | error _ _ _ g => exact absurd (g.after hi h1) hse
    · have hfo := saveFile_spec cfg fuel (T.file w) x (T.world w) (h1.inv hi)
      rw [h4] at hfo
      simp only at hfo
      have hb := hbuf _ _ h1
      cases hfo with
      | hang => exact .inl rfl
      | noFile _ _ g => exact absurd g (hw.world (T := T)).not_fails
      | cut _ _ _ _ g => exact absurd g hwf
      | cut0 _ _ _ g => exact absurd g hwf
      | full => exact .inr ⟨_, rfl⟩
      | part _ _ _ _ g =>
        exfalso
        rcases g with ⟨-, more, u, g1, g2⟩ | ⟨e, -, g | g⟩
        · have := hle _ _ (h1.trans g1)
          rw [List.length_append] at this
          omega
        · exact hse (g.after hi h1)
        · exact hwf g
      | error _ _ _ g => exact absurd (g.after hi h1) hse

/-- C38 fails for all such fields: if at most `n` bytes are read at once, and the minimum buffer is `m` (1024 bytes for boundaries of up to 510 bytes), every field with more than `size_limit` bytes, but no more than
`size_limit + memory_threshold - m - n`, is saved in full, in a file. (With the default settings and reads of 8 KiB: up to 1024 bytes too many.) -/
theorem C38_exceeds (hD : D.Sane) (hn : NoStall evs) (he : OnlyInterrupted evs) (hm : entryBuf (dashes ++ b) ≤ m) {os : List SOp} (hos : ∀ n, SOp.field (.setMin n) ∈ os → n ≤ m)
    (hsz : ReadsUpTo n evs) (hs : s0 = (withBody evs b).session D os) (hen : s0.readEntry D = (.ok (some fh), s)) (hd : FieldData (dashes ++ b) s.unread dat)
    (hw : DiskWorks w cfg.openOpts (T.file w)) (hp : cfg.textPolicy ≠ .force) (hl : cfg.sizeLimit < u64Max) (hmore : cfg.sizeLimit < dat.length)
    (hless : dat.length + m + n ≤ cfg.sizeLimit + cfg.memoryThreshold) (ht : cfg.memoryThreshold < cfg.sizeLimit) :
    ∃ n, ∀ fuel, n ≤ fuel → ∃ k w' t, T.save cfg fuel w s = (.full (.file (T.file w) k), w', t) ∧ cfg.sizeLimit < k := by
  have hr : Reachable D evs b s0 := ⟨os, hs⟩
  have hr' := hr.entry hen
  have hi := (hr'.spec hD).1
  obtain ⟨⟨k, hk⟩, -⟩ := C44_terminates_partial (T := T) (w := w) (cfg := cfg) hD hr' (.inl (Nat.lt_of_le_of_lt (Nat.min_le_left _ _) hl))
  refine ⟨k, fun fuel hf => ?_⟩
  have hk := hk fuel hf
  rcases h : T.save cfg fuel w s with ⟨r, w', t⟩
  rw [h] at hk
  simp only at hk
  have hml : cfg.memLimit 0 = cfg.memoryThreshold := by simp only [Settings.memLimit, Nat.sub_zero]; exact Nat.min_eq_right (Nat.le_of_lt ht)
  have hend : ∀ {x u}, TookAll s x u → dat.length ≤ x.length := by
    intro x u g
    obtain ⟨-, s1, g1, g2, -⟩ := g
    rcases (field_end hD hn hr hen hd).2 _ _ g1 g2 with rfl | ⟨rfl, -⟩ <;> simp
  have small : ∀ {x : Bytes} {l : Nat}, Nat.min x.length u64Max ≤ l → l < u64Max → x.length ≤ l := by
    intro x l g g'; simp only [Nat.min_def] at g; split at g <;> omega
  have ht' : cfg.memoryThreshold < u64Max := by omega
  rcases Target.save_within (L := dat.length + 2) (M := m + n) hi (fun e g => he _ ((hr'.spec hD).2.2.2.subset g)) (fun _ _ g => g.field_le hD hr' hd) (fun x u g => by
    refine g.buffer (os := os ++ [.readEntry]) hD hm (by intro n hn; simp at hn; exact hos n hn) hsz ?_
    rw [BR.session_append, ← hs]; simp [BR.session, BR.sop, hen]) hw hp hl (by omega) ht h with g | ⟨d, rfl⟩
  · exact absurd g hk
  cases Target.save_spec hi h with
  | text h1 h2 h3 h4 h5 => have := hend h2; rw [hml] at h5; have := small h5 ht'; omega
  | bytes h1 h2 h3 => have := hend h2; rw [hml] at h3; have := small h3 ht'; omega
  | file h1 _ _ _ h5 =>
    cases h5 with
    | @full old taken g1 =>
      refine ⟨_, _, _, rfl, ?_⟩
      have := hend (TookAll.after h1 g1)
      simp only [Nat.min_def]; split <;> omega

theorem tryCopyLimited_stops {σ : Type} {f : σ → Bytes → SaveRes Nat Nat × σ} {limit : Nat} {st : σ} {y : Bytes} (h : s.readToBoundary = (.ok y, t)) (hl : limit < Nat.min y.length u64Max) :
    tryCopyLimited f (fuel + 1) limit st s = (.part 0 .sizeLimit, st, t) := by
  have h0 : y ≠ [] := by rintro rfl; simp at hl
  have hc : t.consume 0 = t := by simp [BR.consume]
  have hf : limited f limit (0, st) y = (.part 0 .sizeLimit, (0, st)) := by unfold limited; simp only; rw [Nat.zero_add, if_pos hl]
  unfold tryCopyLimited tryReadBuf
  rw [h]
  simp only
  rw [if_neg h0, hf]
  simp only [hc, Nat.zero_add]

/-- A field whose first bytes are shown all at once and are too many: nothing of it is saved, but a file is created. -/
theorem withPath_stops {p : Path} {y : Bytes} (h : s.readToBoundary = (.ok y, t)) (h' : t.readToBoundary = (.ok y, t)) (hl : cfg.sizeLimit < Nat.min y.length u64Max) (h0 : 0 < cfg.sizeLimit)
    (hw : DiskWorks w cfg.openOpts p) : ∃ w' old, withPath cfg (fuel + 1) p w s = (.part (.file p 0) .sizeLimit, w', t) ∧ Opened w cfg.openOpts p old ∧ OnlyFile w w' p (overlay cfg.openOpts old []) := by
  have hm : cfg.memLimit 0 < Nat.min y.length u64Max := Nat.lt_of_le_of_lt (by simp only [Settings.memLimit, Nat.sub_zero]; exact Nat.min_le_left _ _) hl
  have hlt : cfg.sizeLimit < u64Max := Nat.lt_of_lt_of_le hl (Nat.min_le_right _ _)
  have hc : cfg.cmpSizeLimit ([] : Bytes).length = false := by simp [Settings.cmpSizeLimit]; omega
  have hfile : ∃ w' old, saveFile cfg (fuel + 1) p [] w t = (.part (.file p 0) .sizeLimit, w', t) ∧ Opened w cfg.openOpts p old ∧ OnlyFile w w' p (overlay cfg.openOpts old []) := by
    unfold saveFile
    have hd := w.createDirAll_same p
    have hdo := w.createDirAll_opens p
    rcases hcd : w.createDirAll p with ⟨_ | e, w1⟩
    · rw [hcd] at hd hdo
      simp only at hd hdo ⊢
      have ho := w1.openFile_same cfg.openOpts p
      rcases hopen : w1.openFile cfg.openOpts p with ⟨e | old, w2⟩
      · exfalso
        refine hw.not_fails (e := e) ?_
        rcases World.openFile_error hopen with h | h | h
        · exact .inl (hdo.2.subset h)
        · exact .inr (.inl (hdo.1 ▸ h))
        · refine .inr (.inr ?_)
          cases h with
          | «exists» h1 h2 h3 => exact .exists h1 (hd.1 ▸ h2) h3
          | missing h1 h2 h3 h4 => exact .missing h1 (hd.1 ▸ h2) h3 h4
          | invalid h => exact .invalid h
      · rw [hopen] at ho
        simp only at ho ⊢
        have hwa : tryWriteAll [] { script := w2.writes, got := [] } = (.full 0, { script := w2.writes, got := [] }) := by
          unfold tryWriteAll
          cases w2.writes <;> simp [tryWriteAllAux]
        rw [hwa]
        simp only
        unfold writeTo
        rw [if_pos hlt, tryCopyLimited_stops h' hl]
        refine ⟨_, old, rfl, ?_, ?_⟩
        · have := World.openFile_opened hopen
          cases this with
          | new g1 g2 g3 => exact .new (hd.1 ▸ g1) g2 g3
          | old g1 g2 g3 => exact .old (hd.1 ▸ g1) g2 g3
        · simp only [OnlyFile, World.setFile, ho.1, hd.1]
    · exact absurd (World.createDirAll_error hcd) (hw.mkdirs e)
  have hmem : ∀ {s : BR}, s.readToBoundary = (.ok y, t) → withPathMem cfg (fuel + 1) p [] w s = saveFile cfg (fuel + 1) p [] w t := by
    intro s h
    unfold withPathMem saveMem
    rw [show cfg.memLimit ([] : Bytes).length = cfg.memLimit 0 from rfl, tryCopyLimited_stops h hm]
    simp only
    rw [if_pos ⟨trivial, hc⟩]
  unfold withPath
  split
  · unfold saveText
    rw [tryCopyLimited_stops h hm]
    simp only
    rw [if_pos (.inl ⟨trivial, hc⟩), hmem h']
    exact hfile
  · rw [hmem h]; exact hfile

/-- C41 fails for all small limits: with a size limit of 1 to 509 bytes nothing of a longer field is saved, but a file is created, whatever the memory threshold. -/
theorem C41_creates (hD : D.Sane) (hn : NoStall evs) (hne : NoErr evs) (hr : Reachable D evs b s0) (hen : s0.readEntry D = (.ok (some fh), s)) (hd : FieldData (dashes ++ b) s.unread dat)
    (hw : DiskWorks w cfg.openOpts (T.file w)) (ho : OpensEmpty cfg w (T.file w)) (h0 : 0 < cfg.sizeLimit) (hl : cfg.sizeLimit < 510) (hmore : cfg.sizeLimit < dat.length) :
    ∃ w' t, T.save cfg (fuel + 1) w s = (.part (.file (T.file w) 0) .sizeLimit, w', t) ∧ w'.files (T.file w) = some [] := by
  have hr' := hr.entry hen
  have hsp := hr'.spec hD
  have hi := hsp.1
  obtain ⟨⟨p, hp⟩, hend⟩ := field_end hD hn hr hen hd
  have hns := hn.suffix hsp.2.2.2
  have hf : (fill s.min s.buf s.evs).1 = none := NoErr.fill_none fun e g => hne e (hsp.2.2.2.subset g)
  have hmin : Nat.max (2 * s.delim.length) 1024 ≤ s.min := by rw [(C22_min_buf_size hD hr).2 _ hen, hsp.2.2.1]; exact Nat.le_refl _
  obtain ⟨y, hy⟩ : ∃ y, s.readToBoundary = (.ok y, s.afterRead) := by
    rcases BR.readToBoundary_eq hi with ⟨e, h, -⟩ | ⟨-, h⟩
    · rw [hf] at h; simp at h
    · exact ⟨_, h⟩
  have hful : s.afterRead.Full := by
    have := BR.refill_full hns hf
    unfold BR.Full at this ⊢
    rw [s.afterRead_frame.1, s.afterRead_frame.2.1, s.afterRead_frame.2.2.1]
    exact this
  have hy' := C13_fill_buf_stable hD hr' hy (by
    obtain ⟨g1, g2⟩ := BR.refill_eq_self hful
    rcases BR.readToBoundary_eq (s.afterRead_inv hi) with ⟨e, h, -⟩ | ⟨-, h⟩
    · rw [g2] at h; simp at h
    · rw [h]; simp only; rw [s.afterRead.afterRead_frame.2.1, g1])
  have hlong : cfg.sizeLimit < y.length := by
    obtain ⟨g1, g2⟩ := BR.shown_long hi (BR.readEntry_st hD (hr.spec hD).1 hen) hmin hns hp (by rw [hy])
    rw [hy] at g1 g2
    rcases g2 with g2 | g2
    · omega
    · have hu : Took s y (s.afterRead.consume y.length) := by
        have := Took.start.take hy (Nat.le_refl _)
        rw [List.nil_append, List.take_length] at this
        exact this
      obtain ⟨k, -, hk⟩ := BR.reaches_eof (n := 1) (by omega) _ (hu.inv hi) (Nat.le_refl _)
      have h2 := hend _ _ (hu.trans (Took.reads _ _ _)) hk
      rw [BR.run_found _ (hu.inv hi) g2 (by simp only [BR.consume]; rw [g1]; simp), List.append_nil] at h2
      rcases h2 with h2 | ⟨h2, -⟩
      · rw [h2]; exact hmore
      · rw [h2, List.length_append]; omega
  have hl' : cfg.sizeLimit < Nat.min y.length u64Max := by
    simp only [Nat.min_def, u64Max]; split <;> omega
  obtain ⟨w', old, h1, h2, h3⟩ := withPath_stops (fuel := fuel) (cfg := cfg) hy hy' hl' h0 (hw.world (T := T))
  refine ⟨w', _, by rw [T.save_eq]; exact h1, ?_⟩
  rw [h3]
  simp only [if_true]
  have hoe : OpensEmpty cfg (T.world w) (T.file w) := by unfold OpensEmpty; rw [(T.world_same w).1]; exact ho
  rw [hoe.overlay h2]

/-- C41 fails for nearly all longer fields: of a field longer than `size_limit`, either exactly `size_limit` bytes are kept in memory (they were all consumed when the next ones came), or a file is created. -/
theorem C41_otherwise (hD : D.Sane) (hn : NoStall evs) (he : OnlyInterrupted evs) (hr : Reachable D evs b s0) (hen : s0.readEntry D = (.ok (some fh), s)) (hd : FieldData (dashes ++ b) s.unread dat)
    (hw : DiskWorks w cfg.openOpts (T.file w)) (hp : cfg.textPolicy ≠ .force) (hl : cfg.sizeLimit < u64Max) (ht : cfg.sizeLimit ≤ cfg.memoryThreshold) (hmore : cfg.sizeLimit < dat.length) :
    ∃ n, ∀ fuel, n ≤ fuel → ∃ r w' t, T.save cfg fuel w s = (r, w', t) ∧
      ((SameDisk w w' ∧ ∃ x, (r = .part (.text x) .sizeLimit ∨ r = .part (.bytes x) .sizeLimit) ∧ x.length = cfg.sizeLimit) ∨
        (w'.files (T.file w) ≠ none ∧ ∃ k, r = .full (.file (T.file w) k) ∨ r = .part (.file (T.file w) k) .sizeLimit)) := by
  have hr' := hr.entry hen
  have hi := (hr'.spec hD).1
  obtain ⟨⟨k, hk⟩, -⟩ := C44_terminates_partial (T := T) (w := w) (cfg := cfg) hD hr' (.inl (Nat.lt_of_le_of_lt (Nat.min_le_left _ _) hl))
  refine ⟨k, fun fuel hf => ?_⟩
  have hk := hk fuel hf
  rcases h : T.save cfg fuel w s with ⟨r, w', t⟩
  rw [h] at hk
  simp only at hk
  refine ⟨r, w', t, rfl, ?_⟩
  have hml : cfg.memLimit 0 = cfg.sizeLimit := by simp only [Settings.memLimit, Nat.sub_zero]; exact Nat.min_eq_left ht
  have hse : ∀ {e}, ¬ StreamErr s e := fun g => g.2 (he _ ((hr'.spec hD).2.2.2.subset g.1))
  have hwf : ∀ {e}, ¬ ∃ ev ∈ (T.world w).writes, ev.FailsWith e := by
    rintro e ⟨ev, g1, g2⟩; exact (hw.world (T := T)).writes ev g1 e g2
  have hend : ∀ {x u}, TookAll s x u → dat.length ≤ x.length := by
    intro x u g
    obtain ⟨-, s1, g1, g2, -⟩ := g
    rcases (field_end hD hn hr hen hd).2 _ _ g1 g2 with rfl | ⟨rfl, -⟩ <;> simp
  have small : ∀ {x : Bytes}, Nat.min x.length u64Max ≤ cfg.memLimit 0 → x.length ≤ cfg.sizeLimit := by
    intro x g; rw [hml] at g; simp only [Nat.min_def] at g; split at g <;> omega
  have hsame : w' = T.world w → SameDisk w w' := by rintro rfl; exact ⟨(T.world_same w).1, (T.world_same w).2.1⟩
  cases Target.save_spec hi h with
  | hang => exact absurd rfl hk
  | text h1 h2 h3 h4 h5 => have := hend h2; have := small h5; omega
  | bytes h1 h2 h3 => have := hend h2; have := small h3; omega
  | partText h1 h2 h3 h4 h5 h6 =>
    rcases h6 with ⟨rfl, g, -⟩ | ⟨e, -, -, g⟩ | ⟨-, g, -⟩
    · exact .inl ⟨hsame h1, _, .inl rfl, Nat.le_antisymm (small h5) g⟩
    · exact absurd g hse
    · exact absurd g hp
  | partBytes h1 h2 h3 h4 =>
    rcases h4 with ⟨rfl, g, -⟩ | ⟨e, -, -, g⟩
    · exact .inl ⟨hsame h1, _, .inr rfl, Nat.le_antisymm (small h3) g⟩
    · exact absurd g hse
  | error _ _ g => exact absurd g hse
  | file h1 h2 h3 h4 h5 =>
    refine .inr ?_
    cases h5 with
    | hang => exact absurd rfl hk
    | noFile _ _ g => exact absurd g (hw.world (T := T)).not_fails
    | cut _ _ _ _ g => exact absurd g hwf
    | cut0 _ _ _ g => exact absurd g hwf
    | full _ _ g => rw [g]; exact ⟨by simp, _, .inl rfl⟩
    | part _ _ g1 _ g =>
      rcases g with ⟨rfl, -⟩ | ⟨e, -, g | g⟩
      · rw [g1]; exact ⟨by simp, _, .inr rfl⟩
      · exact absurd (g.after hi h1) hse
      · exact absurd g hwf
    | error _ _ _ g => exact absurd (g.after hi h1) hse

namespace Sample

theorem disk_works {p : Path} : DiskWorks disk Settings.default.openOpts p :=
  ⟨by simp [disk], by simp [disk], by simp [WritesFine, disk], .inl ⟨rfl, .inl rfl⟩, by simp [OpenOpts.Valid, Settings.default]⟩

theorem entryLong : (withBody evsLong bnd).readEntry refDeps = (.ok (some Sample.fh), sLong) := by
  have h : ((withBody evsLong bnd).readEntry refDeps).1 = .ok (some Sample.fh) := by decide +kernel
  exact pair_eq h sLong.eq_def.symm

theorem entryNone : (withBody evsNone bnd).readEntry refDeps = (.ok (some Sample.fh), sNone) := by
  have h : ((withBody evsNone bnd).readEntry refDeps).1 = .ok (some Sample.fh) := by decide +kernel
  exact pair_eq h sNone.eq_def.symm

theorem dataLong : FieldData (dashes ++ bnd) sLong.unread (big ++ big ++ big) := by
  have h : sLong.unread = (big ++ big ++ big) ++ b!"\r\n--b--\r\n" := by decide +kernel
  rw [h]
  exact .crlf (findSub_some (by decide +kernel)) ⟨b!"--b--\r\n", by decide +kernel⟩

theorem evsLong_fine : NoStall evsLong ∧ OnlyInterrupted evsLong ∧ ReadsUpTo 1200 evsLong := by
  refine ⟨by decide +kernel, by simp [OnlyInterrupted, evsLong], ?_⟩
  intro bs hb
  simp only [evsLong, List.mem_cons, List.not_mem_nil, or_false, Ev.data.injEq] at hb
  rcases hb with rfl | rfl | rfl <;> decide +kernel

end Sample

/-- C38_exceeds: 3300 bytes instead of 3200. -/
example : ∃ n, ∀ fuel, n ≤ fuel → ∃ k w' t, (Target.path [b!"x"]).save { Settings.default with sizeLimit := 3200, memoryThreshold := 2400 } fuel Sample.disk Sample.sLong = (.full (.file [b!"x"] k), w', t) ∧ 3200 < k :=
  C38_exceeds (os := []) (m := 1024) (n := 1200) refDeps_sane Sample.evsLong_fine.1 Sample.evsLong_fine.2.1 (by decide +kernel) (by simp) Sample.evsLong_fine.2.2 rfl Sample.entryLong Sample.dataLong Sample.disk_works (by decide)
    (by decide) (by decide +kernel) (by decide +kernel) (by decide)

/-- C41_creates: "hello" with a limit of three bytes. -/
example : ∃ w' t, (Target.path [b!"x"]).save { Settings.default with sizeLimit := 3, memoryThreshold := 3 } 1 Sample.disk Sample.s1 = (.part (.file [b!"x"] 0) .sizeLimit, w', t) ∧ w'.files [b!"x"] = some [] :=
  C41_creates (fuel := 0) (T := .path [b!"x"]) refDeps_sane (by decide +kernel) (by intro e; simp [Sample.evs]) (s0 := withBody Sample.evs Sample.bnd) ⟨[], rfl⟩ Sample.entry1 Sample.data1 Sample.disk_works (.inl rfl) (by decide) (by decide) (by decide)

/-- C41_otherwise: both cases occur. -/
example : (Target.save (.path [b!"x"]) { Settings.default with sizeLimit := 1100, memoryThreshold := 1100 } 10 Sample.disk Sample.sLong).1 = .part (.text Sample.big) .sizeLimit ∧
    (Target.save (.path [b!"x"]) { Settings.default with sizeLimit := 1101, memoryThreshold := 1101 } 10 Sample.disk Sample.sLong).1 = .part (.file [b!"x"] 2200) .sizeLimit ∧
    1101 < (Sample.big ++ Sample.big ++ Sample.big).length := by decide +kernel

example : ∃ n, ∀ fuel, n ≤ fuel → ∃ r w' t, (Target.path [b!"x"]).save { Settings.default with sizeLimit := 1101, memoryThreshold := 1101 } fuel Sample.disk Sample.sLong = (r, w', t) ∧
    ((SameDisk Sample.disk w' ∧ ∃ x, (r = .part (.text x) .sizeLimit ∨ r = .part (.bytes x) .sizeLimit) ∧ x.length = 1101) ∨
      (w'.files [b!"x"] ≠ none ∧ ∃ k, r = .full (.file [b!"x"] k) ∨ r = .part (.file [b!"x"] k) .sizeLimit)) :=
  C41_otherwise refDeps_sane Sample.evsLong_fine.1 Sample.evsLong_fine.2.1 (s0 := withBody Sample.evsLong Sample.bnd) ⟨[], rfl⟩ Sample.entryLong Sample.dataLong Sample.disk_works (by decide) (by decide) (by decide)
    (by decide +kernel)

/-- C40 fails for all empty fields: they are saved in memory, with every setting, and no file is created. -/
theorem C40_empty (hD : D.Sane) (hn : NoStall evs) (he : OnlyInterrupted evs) (hr : Reachable D evs b s0) (hen : s0.readEntry D = (.ok (some fh), s)) (hd : FieldData (dashes ++ b) s.unread []) :
    ∃ n, ∀ fuel, n ≤ fuel → ∃ d w' t, T.save cfg fuel w s = (.full d, w', t) ∧ (d = .text [] ∨ d = .bytes []) ∧ SameDisk w w' := by
  have hr' := hr.entry hen
  have hi := (hr'.spec hD).1
  have hnil : ∀ {x u}, Took s x u → x = [] := by
    intro x u g
    obtain ⟨k, -, hk⟩ := BR.reaches_eof (n := 1) (by omega) _ (g.inv hi) (Nat.le_refl _)
    rcases (field_end hD hn hr hen hd).2 _ _ (g.trans (Took.reads _ _ _)) hk with h | ⟨-, -, h⟩
    · exact (List.append_eq_nil_iff.mp h).1
    · have : 1024 ≤ entryBuf (dashes ++ b) := Nat.le_max_left _ _
      simp at h; omega
  refine ⟨s.enough (cfg.memLimit 0) + 1, fun fuel hf => ?_⟩
  have hk : (withPath cfg fuel (T.file w) (T.world w) s).1 ≠ .hang := by
    refine withPath_ends cfg _ _ hi hf (.inr (.inr fun x y s1 g1 _ g2 g3 => ?_))
    obtain ⟨t', g4⟩ := g1.shown hi g2
    exact absurd (List.append_eq_nil_iff.mp (hnil g4)).2 g3
  rw [← T.save_eq] at hk
  rcases h : T.save cfg fuel w s with ⟨r, w', t⟩
  rw [h] at hk
  simp only at hk
  have hse : ∀ {e}, ¬ StreamErr s e := fun g => g.2 (he _ ((hr'.spec hD).2.2.2.subset g.1))
  have hsame : w' = T.world w → SameDisk w w' := by rintro rfl; exact ⟨(T.world_same w).1, (T.world_same w).2.1⟩
  cases Target.save_spec hi h with
  | hang => exact absurd rfl hk
  | text h1 h2 => have := hnil h2.1; subst this; exact ⟨_, _, _, rfl, .inl rfl, hsame h1⟩
  | bytes h1 h2 => have := hnil h2.1; subst this; exact ⟨_, _, _, rfl, .inr rfl, hsame h1⟩
  | partText h1 h2 h3 h4 h5 h6 =>
    exfalso
    rcases h6 with ⟨-, -, more, u, g1, g2⟩ | ⟨e, -, -, g⟩ | ⟨-, -, y, u, -, g1, -, g2⟩
    · exact g1 (List.append_eq_nil_iff.mp (hnil g2)).2
    · exact hse g
    · have := (List.append_eq_nil_iff.mp (hnil g2)).2
      subst this
      exact g1 .nil
  | partBytes h1 h2 h3 h4 =>
    exfalso
    rcases h4 with ⟨-, -, more, u, g1, g2⟩ | ⟨e, -, -, g⟩
    · rw [hnil g1] at g2; simp at g2
    · exact hse g
  | error _ _ g => exact absurd g hse
  | file _ _ _ h4 =>
    obtain ⟨more, u, g1, g2⟩ := h4
    rw [hnil g1] at g2; simp at g2

example : ∃ n, ∀ fuel, n ≤ fuel → ∃ d w' t, (Target.path [b!"x"]).save { Settings.default with memoryThreshold := 0 } fuel Sample.disk Sample.sNone = (.full d, w', t) ∧ (d = .text [] ∨ d = .bytes []) ∧ SameDisk Sample.disk w' :=
  C40_empty refDeps_sane (by decide +kernel) (by intro e; simp [Sample.evsNone]) (s0 := withBody Sample.evsNone Sample.bnd) ⟨[], rfl⟩ Sample.entryNone
    (.crlf (by decide +kernel) ⟨b!"--b--\r\n", by decide +kernel⟩)

/-- C58 fails always: no file is ever saved under the given name in the temporary directory. -/
theorem C58_never (hD : D.Sane) (hr : Reachable D evs b s) {tmp : Path} (ht : tmp ≠ []) {name : Bytes} {p : Path} {n : Nat}
    (h : withFilename cfg fuel tmp name w s = (.full (.file p n), w', t)) : p ≠ tmp ++ [name] := by
  obtain ⟨-, h2⟩ := C58_filename_partial hD hr h
  rintro rfl
  have := congrArg List.length h2
  have := List.length_pos_iff.mpr ht
  simp at *
  omega

example : (withFilename { Settings.default with memoryThreshold := 4 } 10 [b!"tmp", b!"dir"] b!"name" Sample.disk Sample.s1).1 = .full (.file [b!"tmp", b!"name"] 5) ∧
    Reachable refDeps Sample.evs Sample.bnd Sample.s1 := ⟨by decide +kernel, Sample.s1_reachable⟩

/-- C66 fails always: reads of any size reach a regular end of the field, and none of them fails, wherever the body is cut off. -/
theorem C66_always (hD : D.Sane) (hne : NoErr evs) (hr : Reachable D evs b s) (hn : 0 < n) :
    ∃ k, (s.run (List.replicate k (.read n))).2.AtEof ∧ ∀ os e, ((s.run os).2.read n).1 ≠ .err e := by
  have hsp := hr.spec hD
  obtain ⟨k, -, hk⟩ := BR.reaches_eof hn _ hsp.1 (Nat.le_refl _)
  refine ⟨k, hk, fun os e => ?_⟩
  have hs := (hr.run os).spec hD
  have hf : (fill (s.run os).2.min (s.run os).2.buf (s.run os).2.evs).1 = none := NoErr.fill_none fun e g => hne e (hs.2.2.2.subset g)
  unfold BR.read
  rcases BR.readToBoundary_eq hs.1 with ⟨e, g, -⟩ | ⟨-, g⟩
  · rw [hf] at g; simp at g
  · rw [g]; simp

/-- C66_always: a field that is cut off. -/
example : Absent (dashes ++ Sample.bnd) Sample.sTrunc.unread ∧ ∃ k, (Sample.sTrunc.run (List.replicate k (.read 3))).2.AtEof ∧ ∀ os e, ((Sample.sTrunc.run os).2.read 3).1 ≠ .err e :=
  ⟨findSub_none (by decide +kernel), C66_always (evs := Sample.evsTrunc) (b := Sample.bnd) refDeps_sane (by intro e; simp [Sample.evsTrunc]) ⟨[.readEntry], rfl⟩ (by decide)⟩

end Multipart

import Verif.Props.Exceeds
/-!
# How much is lost when a file cannot be created (more on C48), and which fields leave memory (more on C89)
-/
namespace Multipart
variable {D : Deps} {evs : List Ev} {b : Bytes} {m n : Nat} {s0 s t : BR} {cfg : Settings} {fuel : Nat} {T : Target} {w w' : World} {fh : FieldHeaders} {dat : Bytes}

theorem saveFile_unopened {p : Path} {bytes : Bytes} {e : IoErr} {os : List (Option IoErr)} (h : w.opens = some e :: os) : ∃ e w', saveFile cfg fuel p bytes w s = (.error e, w', s) := by
  unfold saveFile
  have hd := w.createDirAll_opens p
  generalize w.createDirAll p = x at hd
  rcases x with ⟨_ | e, w1⟩
  · simp only at hd ⊢
    rw [h] at hd
    unfold World.openFile
    by_cases hv : (!cfg.openOpts.write && !cfg.openOpts.append || cfg.openOpts.append && cfg.openOpts.truncate && !cfg.openOpts.createNew) = true
    · rw [if_pos hv]; exact ⟨_, _, rfl⟩
    · rw [if_neg hv, hd.1]; exact ⟨_, _, rfl⟩
  · exact ⟨_, _, rfl⟩

/-- C48 fails for every field that does not fit into memory, when the file cannot be opened: what was in memory is gone. This is at least `memory_threshold - m - n` bytes, if at most `n` bytes are read at once and the
minimum buffer is `m`. (With the default settings, reads of 8 KiB and boundaries of up to 510 bytes: more than 1024 bytes.) -/
theorem C48_loses (hD : D.Sane) (hn : NoStall evs) (he : OnlyInterrupted evs) (hm : entryBuf (dashes ++ b) ≤ m) {os : List SOp} (hos : ∀ n, SOp.field (.setMin n) ∈ os → n ≤ m)
    (hsz : ReadsUpTo n evs) (hs : s0 = (withBody evs b).session D os) (hen : s0.readEntry D = (.ok (some fh), s)) (hd : FieldData (dashes ++ b) s.unread dat) {er : IoErr} {rest : List (Option IoErr)}
    (hw : w.opens = some er :: rest) (hp : cfg.textPolicy ≠ .force) (hl : cfg.sizeLimit < u64Max) (hmore : cfg.memoryThreshold < dat.length) (ht : cfg.memoryThreshold < cfg.sizeLimit) :
    ∃ k, ∀ fuel, k ≤ fuel → ∃ e w' t lost, T.save cfg fuel w s = (.error e, w', t) ∧ s.unread = lost ++ t.unread ∧ cfg.memoryThreshold < lost.length + m + n := by
  have hr : Reachable D evs b s0 := ⟨os, hs⟩
  have hr' := hr.entry hen
  have hi := (hr'.spec hD).1
  obtain ⟨⟨k, hk⟩, -⟩ := C44_terminates_partial (T := T) (w := w) (cfg := cfg) hD hr' (.inl (Nat.lt_of_le_of_lt (Nat.min_le_left _ _) hl))
  refine ⟨k, fun fuel hf => ?_⟩
  have hk := hk fuel hf
  rcases h : T.save cfg fuel w s with ⟨r, w', t⟩
  rw [h] at hk
  simp only at hk
  have hml : cfg.memLimit 0 = cfg.memoryThreshold := by simp only [Settings.memLimit, Nat.sub_zero]; exact Nat.min_eq_right (Nat.le_of_lt ht)
  have hse : ∀ {e}, ¬ StreamErr s e := fun g => g.2 (he _ ((hr'.spec hD).2.2.2.subset g.1))
  have hend : ∀ {x u}, TookAll s x u → dat.length ≤ x.length := by
    intro x u g
    obtain ⟨-, s1, g1, g2, -⟩ := g
    rcases (field_end hD hn hr hen hd).2 _ _ g1 g2 with rfl | ⟨rfl, -⟩ <;> simp
  have hbuf : ∀ {x u}, Took s x u → u.buf.length < m + n := by
    intro x u g
    refine g.buffer (os := os ++ [.readEntry]) hD hm (by intro n hn; simp at hn; exact hos n hn) hsz ?_
    rw [BR.session_append, ← hs]; simp [BR.session, BR.sop, hen]
  have small : ∀ {x : Bytes} {l : Nat}, Nat.min x.length u64Max ≤ l → l < u64Max → x.length ≤ l := by
    intro x l g g'; simp only [Nat.min_def] at g; split at g <;> omega
  have ht' : cfg.memoryThreshold < u64Max := by omega
  have hw' : (T.world w).opens = some er :: rest := by cases T <;> exact hw
  cases Target.save_spec hi h with
  | hang => exact absurd rfl hk
  | text h1 h2 h3 h4 h5 => have := hend h2; rw [hml] at h5; have := small h5 ht'; omega
  | bytes h1 h2 h3 => have := hend h2; rw [hml] at h3; have := small h3 ht'; omega
  | partText h1 h2 h3 h4 h5 h6 =>
    rcases h6 with ⟨-, g, -⟩ | ⟨e, -, -, g⟩ | ⟨-, g, -⟩
    · rw [hml] at h5; have := small h5 ht'; omega
    · exact absurd g hse
    · exact absurd g hp
  | partBytes h1 h2 h3 h4 =>
    rcases h4 with ⟨-, g, -⟩ | ⟨e, -, -, g⟩
    · rw [hml] at h3; have := small h3 ht'; omega
    · exact absurd g hse
  | error _ _ g => exact absurd g hse
  | file h1 h2 h3 h4 h5 =>
    rw [T.save_eq] at h
    rcases withPath_shown hi h with ⟨-, h6, h7⟩ | ⟨x, s1, g1, g2, g3, g4⟩
    · cases h5 with
      | hang => exact absurd rfl hk
      | cut => exact absurd rfl ((h6 _ _).2 _)
      | full => exact absurd rfl (h6 _ _).1
      | part => exact absurd rfl ((h6 _ _).2 _)
      | error _ _ _ g => exact absurd (g.after hi h1) hse
      | noFile => exact absurd (h7 _ rfl) hse
      | cut0 => exact absurd (h7 _ rfl) hse
    · obtain ⟨e, w2, g5⟩ := saveFile_unopened (cfg := cfg) (fuel := fuel) (p := T.file w) (bytes := x) (s := s1) hw'
      rw [g5] at g4
      simp only [Prod.mk.injEq] at g4
      obtain ⟨rfl, rfl, rfl⟩ := g4
      refine ⟨_, _, _, x, rfl, g1.unread hi, ?_⟩
      have := hbuf g1
      rw [hml] at g2
      omega

/-- The disk is full, and three pieces of 1100 bytes do not fit into the 2400 bytes of memory: at least 176 bytes are lost (in fact 2200). -/
example : ∃ k, ∀ fuel, k ≤ fuel → ∃ e w' t lost, (Target.path [b!"x"]).save { Settings.default with memoryThreshold := 2400 } fuel { Sample.disk with opens := [some (.other 28)] } Sample.sLong = (.error e, w', t) ∧
    Sample.sLong.unread = lost ++ t.unread ∧ 2400 < lost.length + 1024 + 1200 :=
  C48_loses (os := []) (m := 1024) (n := 1200) refDeps_sane Sample.evsLong_fine.1 Sample.evsLong_fine.2.1 (by decide +kernel) (by simp) Sample.evsLong_fine.2.2 rfl Sample.entryLong Sample.dataLong
    (er := .other 28) (rest := []) rfl (by decide) (by decide) (by decide +kernel) (by decide)

/-- C89 fails for nearly all fields longer than `size_limit`: also with `memory_threshold(u64::MAX)` a file is created, or exactly `size_limit` bytes were in memory when the next ones came. -/
theorem C89_leaves_memory (hD : D.Sane) (hn : NoStall evs) (he : OnlyInterrupted evs) (hr : Reachable D evs b s0) (hen : s0.readEntry D = (.ok (some fh), s)) (hd : FieldData (dashes ++ b) s.unread dat)
    (hw : DiskWorks w cfg.openOpts (T.file w)) (hp : cfg.textPolicy ≠ .force) (hl : cfg.sizeLimit < u64Max) (ht : cfg.memoryThreshold = u64Max) (hmore : cfg.sizeLimit < dat.length) :
    ∃ n, ∀ fuel, n ≤ fuel → ∃ r w' t, T.save cfg fuel w s = (r, w', t) ∧
      ((∃ x, (r = .part (.text x) .sizeLimit ∨ r = .part (.bytes x) .sizeLimit) ∧ x.length = cfg.sizeLimit) ∨
        (w'.files (T.file w) ≠ none ∧ ∃ k, r = .full (.file (T.file w) k) ∨ r = .part (.file (T.file w) k) .sizeLimit)) := by
  obtain ⟨n, h⟩ := C41_otherwise (T := T) hD hn he hr hen hd hw hp hl (by omega) hmore
  exact ⟨n, fun fuel hf => by obtain ⟨r, w', t, h1, h2⟩ := h fuel hf; exact ⟨r, w', t, h1, h2.imp_left (·.2)⟩⟩

/-- 3300 bytes, and a limit of 1101. -/
example : ∃ n, ∀ fuel, n ≤ fuel → ∃ r w' t, (Target.path [b!"x"]).save { Settings.default with sizeLimit := 1101, memoryThreshold := u64Max } fuel Sample.disk Sample.sLong = (r, w', t) ∧
    ((∃ x, (r = .part (.text x) .sizeLimit ∨ r = .part (.bytes x) .sizeLimit) ∧ x.length = 1101) ∨
      (w'.files [b!"x"] ≠ none ∧ ∃ k, r = .full (.file [b!"x"] k) ∨ r = .part (.file [b!"x"] k) .sizeLimit)) :=
  C89_leaves_memory refDeps_sane Sample.evsLong_fine.1 Sample.evsLong_fine.2.1 (s0 := withBody Sample.evsLong Sample.bnd) ⟨[], rfl⟩ Sample.entryLong Sample.dataLong Sample.disk_works (by decide) (by decide) rfl
    (by decide +kernel)

end Multipart

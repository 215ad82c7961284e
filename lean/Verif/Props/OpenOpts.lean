import Verif.Spec.OpenOpts
import Verif.Props.Save
/-!
# C113: open options
-/
namespace Multipart

variable {D : Deps} {evs : List Ev} {b : Bytes} {s t : BR} {cfg : Settings} {fuel : Nat} {T : Target} {w w' : World}

theorem fileAfter {o : OpenOpts} {p : Path} {old c : Bytes} (h : Opened w o p old) : FileAfter o c (w.files p) (overlay o old c) := by
  cases h with
  | new h1 => rw [h1]; simpa [overlay] using FileAfter.new
  | @old x h1 h2 h3 =>
    rw [h1]
    cases ht : o.truncate with
    | true => simpa [overlay] using FileAfter.truncated ht
    | false =>
      simp only [Bool.false_eq_true, if_false, overlay]
      cases ha : o.append with
      | true => simpa using FileAfter.appended ht ha
      | false =>
        simp only [Bool.false_eq_true, if_false]
        by_cases hl : x.length ≤ c.length
        · rw [List.drop_eq_nil_of_le hl, List.append_nil]; exact .covered ht ha hl
        · have := FileAfter.tail (o := o) (data := c) (start := x.take c.length) (rest := x.drop c.length) ht ha (by rw [List.length_take]; omega)
          rwa [List.take_append_drop] at this

/-- The full claim C113: whatever the open options are, a file that a save reports holds the bytes taken from the field, as many as reported. -/
def FileHoldsField (D : Deps) : Prop := ∀ (evs : List Ev) (b : Bytes) (s : BR) (cfg : Settings) (fuel : Nat) (T : Target) (w w' : World) (t : BR) (p : Path) (n : Nat),
  cfg.Typed → Reachable D evs b s → T.save cfg fuel w s = (.full (.file p n), w', t) → ∃ c, w'.files p = some c ∧ s.unread = c ++ t.unread ∧ n = c.length

/-- C113, exactly: a file that is reported holds what `FileAfter` says for a prefix of what was taken from the field, all of it if the save is full; the size reported is that of the data, not that of the file. -/
theorem C113_exact (hD : D.Sane) (hr : Reachable D evs b s) (hsz : (Ev.bytes evs).length ≤ u64Max) {p : Path} {n : Nat} {r : Reason}
    (h : T.save cfg fuel w s = (.full (.file p n), w', t) ∨ T.save cfg fuel w s = (.part (.file p n) r, w', t)) :
    p = T.file w ∧ ∃ c after, w'.files p = some after ∧ FileAfter cfg.openOpts c (w.files p) after ∧ n = c.length ∧ ∃ taken, s.unread = taken ++ t.unread ∧ c <+: taken ∧
      (T.save cfg fuel w s = (.full (.file p n), w', t) → c = taken ∧ ∃ os, (s.run os).2.AtEof ∧ (s.run os).1 = c) := by
  have hi := (hr.spec hD).1
  have hb := hr.small hD hsz
  have hws := (T.world_same w).1
  have key : ∀ {bytes taken old : Bytes} {s1 : BR}, Took s bytes s1 → Took s1 taken t → Opened (T.world w) cfg.openOpts (T.file w) old →
      OnlyFile (T.world w) w' (T.file w) (overlay cfg.openOpts old (bytes ++ taken)) →
      w'.files (T.file w) = some (overlay cfg.openOpts old (bytes ++ taken)) ∧ FileAfter cfg.openOpts (bytes ++ taken) (w.files (T.file w)) (overlay cfg.openOpts old (bytes ++ taken)) ∧
      Nat.min (bytes ++ taken).length u64Max = (bytes ++ taken).length ∧ s.unread = (bytes ++ taken) ++ t.unread := by
    intro bytes taken old s1 h1 h2 h3 h4
    have h5 := h1.trans h2
    exact ⟨h4.at, hws ▸ fileAfter h3, min_of_le (Nat.le_trans (h5.shorter hi) hb), h5.unread hi⟩
  rcases h with h | h
  · cases Target.save_spec hi h with
    | file h1 h2 h3 h4 h5 =>
      cases h5 with
      | full g1 g2 g3 g4 =>
        obtain ⟨k1, k2, k3, k4⟩ := key h1 g1.1 g2 g3
        obtain ⟨_, u, hu, heof, _⟩ := TookAll.after h1 g1
        obtain ⟨os, hos⟩ := hu.run hi
        exact ⟨rfl, _, _, k1, k2, k3, _, k4, List.prefix_refl _, fun _ => ⟨rfl, os, by rw [hos]; exact heof, by rw [hos]⟩⟩
  · have hnf : ¬ T.save cfg fuel w s = (.full (.file p n), w', t) := by rw [h]; simp
    cases Target.save_spec hi h with
    | file h1 h2 h3 h4 h5 =>
      cases h5 with
      | cut g1 g2 g3 g4 g5 g6 =>
        subst g1
        exact ⟨rfl, _, _, g6.at, hws ▸ fileAfter g2, by rw [List.length_take]; omega, _, h1.unread hi, List.take_prefix _ _, fun hf => absurd hf hnf⟩
      | part g1 g2 g3 g4 g5 =>
        obtain ⟨k1, k2, k3, k4⟩ := key h1 g1 g2 g3
        exact ⟨rfl, _, _, k1, k2, k3, _, k4, List.prefix_refl _, fun hf => absurd hf hnf⟩

/-- C113, as far as it holds: with `truncate` or `create_new`, or if the file did not exist. Missing: other options and a file that exists. -/
theorem C113_holds_partial (hD : D.Sane) (hr : Reachable D evs b s) (hsz : (Ev.bytes evs).length ≤ u64Max) (ho : OpensEmpty cfg w (T.file w)) {p : Path} {n : Nat}
    (h : T.save cfg fuel w s = (.full (.file p n), w', t)) : ∃ c, w'.files p = some c ∧ s.unread = c ++ t.unread ∧ n = c.length := by
  obtain ⟨-, c, h1, h2, taken, h3, -, h4⟩ := C45_file_size (r := .sizeLimit) hD hr hsz ho (.inl h)
  exact ⟨c, h1, h4 h ▸ h3, h2⟩

/-- C113: other files are not touched, and the file itself only if the options allow to open it. -/
theorem C113_others (hD : D.Sane) (hr : Reachable D evs b s) : (∀ q, q ≠ T.file w → (T.save cfg fuel w s).2.1.files q = w.files q) ∧
    (∀ e, OpenRefused w cfg.openOpts (T.file w) e → (T.save cfg fuel w s).2.1.files = w.files) := by
  have hi := (hr.spec hD).1
  have hws := (T.world_same w).1
  rcases hsv : T.save cfg fuel w s with ⟨r, w', t⟩
  simp only
  have hsame : w'.files = w.files → (∀ q, q ≠ T.file w → w'.files q = w.files q) ∧ ∀ e, OpenRefused w cfg.openOpts (T.file w) e → w'.files = w.files :=
    fun h => ⟨fun q _ => by rw [h], fun _ _ => h⟩
  have honly : ∀ {old c}, Opened (T.world w) cfg.openOpts (T.file w) old → OnlyFile (T.world w) w' (T.file w) c →
      (∀ q, q ≠ T.file w → w'.files q = w.files q) ∧ ∀ e, OpenRefused w cfg.openOpts (T.file w) e → w'.files = w.files := by
    intro old c h1 h2
    refine ⟨fun q hq => by rw [h2]; simp only [if_neg hq]; rw [hws], fun e he => ?_⟩
    exfalso
    cases h1 with
    | new k1 k2 k3 =>
      rw [hws] at k1
      cases he with
      | «exists» _ h => exact h k1
      | missing _ _ h h' => rcases k2 with k | k <;> simp_all
      | invalid h => exact h k3
    | old k1 k2 k3 =>
      rw [hws] at k1
      cases he with
      | «exists» _ _ h => rw [k2] at h; simp at h
      | missing _ h => rw [k1] at h; simp at h
      | invalid h => exact h k3
  cases Target.save_spec hi hsv with
  | hang h1 => exact hsame (by rw [h1, hws])
  | text h1 => exact hsame (by rw [h1, hws])
  | bytes h1 => exact hsame (by rw [h1, hws])
  | partText h1 => exact hsame (by rw [h1, hws])
  | partBytes h1 => exact hsame (by rw [h1, hws])
  | error h1 => exact hsame (by rw [h1, hws])
  | file _ _ _ _ h5 =>
    cases h5 with
    | hang g1 g2 => exact honly g1 g2
    | noFile _ g => exact hsame (by rw [g, hws])
    | cut _ g1 _ _ _ g2 => exact honly g1 g2
    | cut0 _ g1 _ _ g2 => exact honly g1 g2
    | full _ g1 g2 => exact honly g1 g2
    | part _ g1 g2 => exact honly g1 g2
    | error _ g1 g2 => exact honly g1 g2

/-- C113: a field that does not fit in memory is refused with the error that belongs to the options, if the stream and the disk do not fail and the text is not forced. -/
theorem C113_refused (hD : D.Sane) (hr : Reachable D evs b s) (he : OnlyInterrupted evs) (hsz : (Ev.bytes evs).length ≤ u64Max) (hm : ∀ e, some e ∉ w.mkdirs) (hop : ∀ e, some e ∉ w.opens) {e : IoErr}
    (ho : OpenRefused w cfg.openOpts (T.file w) e) (hl : cfg.memoryThreshold < cfg.sizeLimit) (hp : cfg.textPolicy ≠ .force)
    (hlen : ∀ os, (s.run os).2.AtEof → cfg.memoryThreshold < (s.run os).1.length) : (T.save cfg fuel w s).1 = .hang ∨ (T.save cfg fuel w s).1 = .error e := by
  have hi := (hr.spec hD).1
  have hb := hr.small hD hsz
  have hws := (T.world_same w).1
  have hml : cfg.memLimit 0 = cfg.memoryThreshold := Nat.min_eq_right (Nat.le_of_lt hl)
  have hse : ∀ {e}, ¬ StreamErr s e := fun g => g.2 (he _ ((hr.spec hD).2.2.2.subset g.1))
  rcases hsv : T.save cfg fuel w s with ⟨r, w', t⟩
  simp only
  have hbig : ∀ {x}, TookAll s x t → Nat.min x.length u64Max ≤ cfg.memLimit 0 → False := by
    rintro x ⟨h0, u, hu, heof, _⟩ hx
    obtain ⟨os, hos⟩ := hu.run hi
    have := hlen os (by rw [hos]; exact heof)
    rw [hos] at this
    rw [min_of_le (Nat.le_trans (h0.shorter hi) hb), hml] at hx
    simp only at this
    omega
  have hno : ∀ {old}, ¬ Opened (T.world w) cfg.openOpts (T.file w) old := by
    intro old h
    cases h with
    | new k1 k2 k3 =>
      rw [hws] at k1
      cases ho with
      | «exists» _ h => exact h k1
      | missing _ _ h h' => rcases k2 with k | k <;> simp_all
      | invalid h => exact h k3
    | old k1 k2 k3 =>
      rw [hws] at k1
      cases ho with
      | «exists» _ _ h => rw [k2] at h; simp at h
      | missing _ h => rw [k1] at h; simp at h
      | invalid h => exact h k3
  have hlt : ∀ {x}, Took s x t → Nat.min x.length u64Max ≤ cfg.memLimit 0 → x.length < cfg.sizeLimit := by
    intro x h0 hx
    rw [min_of_le (Nat.le_trans (h0.shorter hi) hb), hml] at hx
    omega
  cases Target.save_spec hi hsv with
  | hang => exact .inl rfl
  | text _ h _ _ h' => exact (hbig h h').elim
  | bytes _ h h' => exact (hbig h h').elim
  | partText _ h _ _ h' h6 =>
    rcases h6 with ⟨_, g, -⟩ | ⟨_, -, -, g⟩ | ⟨-, g, -⟩
    · have := hlt h h'; omega
    · exact absurd g hse
    · exact absurd g hp
  | partBytes _ h h' h4 =>
    rcases h4 with ⟨_, g, -⟩ | ⟨_, -, -, g⟩
    · have := hlt h h'; omega
    · exact absurd g hse
  | error _ _ g => exact absurd g hse
  | file _ _ _ _ h5 =>
    cases h5 with
    | hang => exact .inl rfl
    | noFile _ _ g =>
      have hwm : (T.world w).mkdirs = w.mkdirs ∧ (T.world w).opens = w.opens := by cases T <;> exact ⟨rfl, rfl⟩
      rcases g with g | g | g
      · exact absurd (hwm.1 ▸ g) (hm _)
      · exact absurd (hwm.2 ▸ g) (hop _)
      · refine .inr ?_
        congr 1
        cases g with
        | «exists» k1 k2 k3 =>
          cases ho with
          | «exists» => rfl
          | missing _ _ h => rw [k3] at h; simp at h
          | invalid h => exact absurd k1 h
        | missing k1 k2 k3 =>
          cases ho with
          | «exists» _ _ h => rw [k3] at h; simp at h
          | missing => rfl
          | invalid h => exact absurd k1 h
        | invalid h =>
          cases ho with
          | «exists» h' => exact absurd h' h
          | missing h' => exact absurd h' h
          | invalid => rfl
    | cut _ g => exact absurd g hno
    | cut0 _ g => exact absurd g hno
    | full _ g => exact absurd g hno
    | part _ g => exact absurd g hno
    | error _ g => exact absurd g hno

namespace Sample

/-- `create_new` replaced by `create`: what somebody may do who does not want saves to fail. -/
def reuse : Settings := { Settings.default with memoryThreshold := 4, openOpts := { write := true, append := false, truncate := false, create := true, createNew := false } }

def oldDisk : World := { disk with files := fun _ => some b!"old contents" }

end Sample

/-- C113 is false of the code: if an existing file is opened without `truncate`, its old end stays behind the data. -/
theorem C113_false : ¬ FileHoldsField refDeps := by
  intro h
  obtain ⟨c, h1, -, h3⟩ := h Sample.evs Sample.bnd Sample.s1 Sample.reuse 10 (.path [b!"x"]) Sample.oldDisk _ _ [b!"x"] 5 ⟨by decide, by decide, by decide, rfl⟩ Sample.s1_reachable (Sample.save_eq (by decide +kernel))
  have h4 : (Target.save (.path [b!"x"]) Sample.reuse 10 Sample.oldDisk Sample.s1).2.1.files [b!"x"] = some b!"helloontents" := by decide +kernel
  rw [h4] at h1
  cases h1
  simp at h3

/-- C113_exact and C113_others: the same file, with the old end, and appended to. -/
example : (Target.save (.path [b!"x"]) Sample.reuse 10 Sample.oldDisk Sample.s1).1 = .full (.file [b!"x"] 5) ∧ FileAfter Sample.reuse.openOpts b!"hello" (some b!"old contents") b!"helloontents" ∧
    (Target.save (.path [b!"x"]) (Sample.reuse.modOpenOpts ({ · with append := true })) 10 Sample.oldDisk Sample.s1).1 = .full (.file [b!"x"] 5) ∧
    (Target.save (.path [b!"x"]) (Sample.reuse.modOpenOpts ({ · with append := true })) 10 Sample.oldDisk Sample.s1).2.1.files [b!"x"] = some b!"old contentshello" :=
  ⟨by decide +kernel, .tail (start := b!"old c") rfl rfl rfl, by decide +kernel, by decide +kernel⟩

/-- C113_holds_partial: with `truncate`. -/
example : OpensEmpty (Sample.reuse.modOpenOpts ({ · with truncate := true })) Sample.oldDisk [b!"x"] ∧
    (Target.save (.path [b!"x"]) (Sample.reuse.modOpenOpts ({ · with truncate := true })) 10 Sample.oldDisk Sample.s1).1 = .full (.file [b!"x"] 5) := ⟨.inr (.inl rfl), by decide +kernel⟩

/-- C113_refused: a file that exists, with the default options. -/
example : (Target.save (.path [b!"x"]) { Settings.default with memoryThreshold := 4 } 10 Sample.oldDisk Sample.s1).1 = .error .alreadyExists := by
  refine (C113_refused (T := .path [b!"x"]) (cfg := { Settings.default with memoryThreshold := 4 }) (fuel := 10) (w := Sample.oldDisk) refDeps_sane Sample.s1_reachable (fun e h => by simp [Sample.evs] at h) (by decide +kernel) (by simp [Sample.oldDisk, Sample.disk])
    (by simp [Sample.oldDisk, Sample.disk]) (.exists ⟨.inl rfl, fun _ _ => rfl⟩ (by simp [Sample.oldDisk]) rfl) (by decide) (by simp [Settings.default]) ?_).resolve_left (by decide +kernel)
  intro os h
  rcases C01_field_bytes_partial (dat := b!"hello") refDeps_sane (by decide +kernel) ⟨[], rfl⟩ Sample.entry1 (.crlf (by decide +kernel) ⟨b!"--b--\r\nepi", by decide +kernel⟩) os h with h | ⟨h, -⟩ <;> rw [h] <;> decide

end Multipart

import Verif.Props.Success
import Verif.Props.Iron
/-!
# C89: cleared limits
-/
namespace Multipart

variable {D : Deps} {evs : List Ev} {b : Bytes} {s t : BR} {cfg : Settings} {fuel : Nat} {w w' : World} {e : Entries} {T : Target}

/-- C89: `None` and the greatest number are the same. -/
theorem C89_max : cfg.setSizeLimit (some u64Max) = cfg.setSizeLimit none ∧ cfg.setCountLimit (some u32Max) = cfg.setCountLimit none := ⟨rfl, rfl⟩

/-- C89: with the size limit cleared, saving a field never stops for the size of the field. -/
theorem C89_no_size_limit (hD : D.Sane) (hr : Reachable D evs b s) (hsz : (Ev.bytes evs).length ≤ u64Max) {d : SavedData} :
    T.save (cfg.setSizeLimit none) fuel w s ≠ (.part d .sizeLimit, w', t) := by
  intro h
  have hi := (hr.spec hD).1
  have hb := hr.small hD hsz
  have hlim : (cfg.setSizeLimit none).sizeLimit = u64Max := rfl
  have hml : (cfg.setSizeLimit none).memLimit 0 ≤ u64Max := Nat.min_le_left _ _
  cases Target.save_spec hi h with
  | partText h1 h2 h3 h4 h5 h6 =>
    rcases h6 with ⟨-, h6, more, t', h7, h8⟩ | ⟨_, h6, -⟩ | ⟨h6, -⟩
    · have := h8.shorter hi
      have := List.length_pos_iff.mpr h7
      rw [List.length_append] at *
      omega
    · simp at h6
    · simp at h6
  | @partBytes taken _ h1 h2 h3 h4 =>
    rcases h4 with ⟨-, h4, more, t', h7, h8⟩ | ⟨_, h6, -⟩
    · have := h7.shorter hi
      have := h2.shorter hi
      rw [min_of_le (by omega)] at h3
      rw [List.length_append] at *
      omega
    · simp at h6
  | file h1 h2 h3 h4 h5 =>
    cases h5 with
    | part g1 g2 g3 g4 g5 =>
      rcases g5 with ⟨-, more, t', h7, h8⟩ | ⟨_, h6, -⟩
      · have := (h1.trans h7).shorter hi
        rw [List.length_append] at this
        omega
      · simp at h6

/-- The full claim about `memory_threshold(u64::MAX)`: it "effectively forces fields to always save to memory". -/
def MaxThresholdKeepsInMemory (D : Deps) : Prop :=
  ∀ (evs : List Ev) (b : Bytes) (s : BR) (cfg : Settings) (fuel : Nat) (T : Target) (w w' : World) (t : BR) (d : SavedData), (Ev.bytes evs).length ≤ u64Max →
    cfg.Typed → Reachable D evs b s → T.save (cfg.setMemoryThreshold u64Max) fuel w s = (.full d, w', t) → d.isMemory = true

/-- C89, as far as it holds: with the greatest memory threshold the disk is not touched and all that is saved is in memory, if the size limit is cleared or the field has no more bytes.
Missing for the full claim: fields longer than the size limit. -/
theorem C89_memory_partial (hD : D.Sane) (hr : Reachable D evs b s) (hsz : (Ev.bytes evs).length ≤ u64Max) (hs : cfg.sizeLimit = u64Max ∨ ∀ os, (s.run os).1.length ≤ cfg.sizeLimit)
    {r : SaveRes SavedData SavedData} (h : T.save (cfg.setMemoryThreshold u64Max) fuel w s = (r, w', t)) :
    SameDisk w w' ∧ ∀ d, (r = .full d ∨ ∃ reason, r = .part d reason) → d.isMemory = true := by
  have hi := (hr.spec hD).1
  have hb := hr.small hD hsz
  have hl : ∀ os, (s.run os).1.length ≤ u64Max ∧ (s.run os).1.length ≤ cfg.sizeLimit := by
    intro os
    have h1 : (s.run os).1.length ≤ u64Max := Nat.le_trans (by rw [← BR.run_unread os hi]; simp) hb
    exact ⟨h1, hs.elim (fun h => by rw [h]; exact h1) fun h => h os⟩
  constructor
  · have := C41_no_disk_partial (cfg := cfg.setMemoryThreshold u64Max) (T := T) (fuel := fuel) (w := w) hD hr hl
    rw [h] at this
    exact this
  · cases Target.save_spec hi h with
    | hang => simp
    | text => simp [SavedData.isMemory]
    | bytes => simp [SavedData.isMemory]
    | partText => simp [SavedData.isMemory]
    | partBytes => simp [SavedData.isMemory]
    | error => simp
    | file h1 h2 h3 h4 h5 =>
      exfalso
      obtain ⟨more, t', ht', hlt⟩ := h4
      obtain ⟨os, hos⟩ := ht'.run hi
      have := hl os
      rw [hos] at this
      simp only at this
      have h : min cfg.sizeLimit u64Max - 0 < _ := hlt
      omega

/-- The hypotheses of C89_no_size_limit are met: a field saved without a size limit, in memory and in a file. -/
example : (Target.save (.path [b!"x"]) ((Settings.default.setSizeLimit none).setMemoryThreshold u64Max) 10 Sample.disk Sample.sLong).1 = .full (.text (Sample.big ++ Sample.big ++ Sample.big)) ∧
    (Settings.default.setSizeLimit none).sizeLimit = u64Max ∧ (Ev.bytes Sample.evsLong).length ≤ u64Max := by decide +kernel

/-- C89 is false of the code: with the greatest memory threshold and `size_limit` 3000 a field of 3300 bytes is saved in a file (and in full: C38). -/
theorem C89_false : ¬ MaxThresholdKeepsInMemory refDeps := by
  intro h
  have := h Sample.evsLong Sample.bnd Sample.sLong (Settings.default.setSizeLimit (some 3000)) 10 (.path [b!"x"]) Sample.disk _ _ (.file [b!"x"] 3300)
    (by decide +kernel) ⟨by decide, by decide, by decide, rfl⟩ Sample.sLong_reachable (Sample.save_eq (by decide +kernel))
  simp [SavedData.isMemory] at this

/-- C89: with the size limit cleared, saving a whole request never stops for the size of a field; with the count limit cleared, not for the number of fields either. (Bodies of up to 4 GiB.) -/
theorem C89_request (hD : D.Sane) (hr : Reachable D evs b s) (hc : cfg.Typed) (hsz : (Ev.bytes evs).length < u32Max) {p : PartialEntries} {dir : SaveDir} :
    withEntries D (cfg.setSizeLimit none) fuel e w s ≠ (.part p .sizeLimit, w', t) ∧
    withEntries D (cfg.setCountLimit none) fuel (Entries.new dir) w s ≠ (.part p .countLimit, w', t) := by
  have h64 : u32Max ≤ u64Max := by decide
  constructor
  · intro h
    obtain ⟨fs, w1, s1, h1, h2, h3⟩ := withEntries_spec h
    have hr1 := h1.reachable hD hr
    rcases h3 with h3 | ⟨h3, -⟩
    · cases h3 with
      | part h4 _ h5 =>
        exact C89_no_size_limit (cfg := { cfg with textPolicy := _ }) hD (hr1.entry h4) (by omega) h5
    · simp at h3
  · intro h
    obtain ⟨fs, s1, h1, h2, -⟩ := count_spec (cfg := cfg.setCountLimit none) ⟨hc.1, hc.2, Nat.le_refl _, hc.write⟩ (e := Entries.new dir) (by simp [Entries.new, total]) h (count_no_part hD hr h)
    obtain ⟨-, h3, -⟩ := h1.shrinks hD (hr.spec hD).1
    have h4 : fs.length = u32Max := by simpa [Entries.new, total, Settings.setCountLimit] using h2
    have h5 : s.unread.length ≤ (Ev.bytes evs).length := (hr.spec hD).2.1.length_le
    omega

example : (withEntries refDeps (Settings.default.setSizeLimit (some 2)) 10 (Entries.new (.temp [b!"tmp"])) Sample.disk (withBody Sample.evsTwo Sample.bnd)).1 ≠
      (withEntries refDeps (Settings.default.setSizeLimit none) 10 (Entries.new (.temp [b!"tmp"])) Sample.disk (withBody Sample.evsTwo Sample.bnd)).1 ∧
    (withEntries refDeps (Settings.default.setCountLimit none) 10 (Entries.new (.temp [b!"tmp"])) Sample.disk (withBody Sample.evsTwo Sample.bnd)).1 =
      .full { fields := [(b!"a", [⟨Sample.fh, .text b!"one"⟩, ⟨Sample.fh, .text b!"two"⟩])], saveDir := .temp [b!"tmp"], fieldsCount := 2 } := by decide +kernel

theorem Parts.short {d u : Bytes} {es : List (FieldHeaders × Bytes)} {fin : Ending} (hd : 2 ≤ d.length) (h : Parts D d u es fin) : es.length ≤ u.length ∧ ∀ p ∈ es, p.2.length + 2 ≤ u.length := by
  induction h with
  | close => simp
  | damaged => simp
  | truncated => simp
  | refused => simp
  | @part u rest X dat fh es fin h1 h2 h3 ih =>
    obtain ⟨H, hs, hb, -⟩ := h2.headers
    have hr : rest.length = H.length + X.length := by rw [hb.split, List.length_append]
    have hu : X.length < u.length := by
      cases h1 with
      | @part p _ g1 g2 =>
        have := congrArg List.length g2
        rw [List.length_append, List.length_drop] at this
        have : crlf.length = 2 := rfl
        omega
    have hdat : dat.length + 2 ≤ X.length := by
      have key : ∀ {n}, FirstAt d X n → n + 2 ≤ X.length := by
        intro n hn
        have := hn.1.length_le
        rw [List.length_drop] at this
        omega
      cases h2.data with
      | crlf g1 g2 => have := key g1; omega
      | bare g1 g2 => exact key g1
    refine ⟨by rw [List.length_cons]; omega, fun p hp => ?_⟩
    rcases List.mem_cons.mp hp with rfl | hp
    · simp only; omega
    · have := ih.2 p hp; omega

/-- C89: with both limits cleared, every well-formed request (of less than 4 GiB) is saved fully, with all its fields, if the disk works (and the
parts that are text by their headers are UTF-8, if text is forced). -/
theorem C89_saves_all (hD : D.Sane) (hn : NoStall evs) (hne : NoErr evs) (hc : cfg.Typed) (ho : cfg.openOpts.createNew = true) {es : List (FieldHeaders × Bytes)}
    (hp : cfg.textPolicy = .force → ∀ p ∈ es, p.1.isText = true → IsUtf8 p.2) (ht : cfg.memoryThreshold < u64Max ∨ cfg.textPolicy = .ignore) (hsz : (Ev.bytes evs).length < u32Max)
    (hP : Parts D (dashes ++ b) (Ev.bytes evs) es .closed) (dir : SaveDir) (hw : DiskReady w dir.asPath es.length) :
    ∃ n, ∀ fuel, n ≤ fuel → ∃ e w' t fs, withEntries D ((cfg.setSizeLimit none).setCountLimit none) fuel (Entries.new dir) w (withBody evs b) = (.full e, w', t) ∧
      GroupedByName e.fields fs ∧ e.fieldsCount = es.length ∧ All2 (SavedAs b evs w') fs es := by
  have h64 : u32Max ≤ u64Max := by decide
  obtain ⟨h1, h2⟩ := hP.short (by rw [List.length_append]; exact Nat.le_add_right 2 _)
  refine C77_request_succeeds (cfg := (cfg.setSizeLimit none).setCountLimit none) hD hn hne ⟨Nat.le_refl _, hc.2, Nat.le_refl _, hc.write⟩ ho hp ?_ hP dir ?_ ?_ hw
  · rcases ht with ht | ht
    · exact .inl (Nat.lt_of_le_of_lt (Nat.min_le_right _ _) ht)
    · exact .inr ht
  · show es.length < u32Max
    omega
  · intro p hp
    have : p.2.length + 2 ≤ u64Max := by have := h2 p hp; omega
    exact .inl this

example : Settings.default.Typed ∧ Settings.default.openOpts.createNew = true ∧ Settings.default.textPolicy ≠ .force ∧ Settings.default.memoryThreshold < u64Max ∧
    (Ev.bytes Sample.evsTwo).length < u32Max ∧ Parts refDeps (dashes ++ Sample.bnd) (Ev.bytes Sample.evsTwo) [(Sample.fh, b!"one"), (Sample.fh, b!"two")] .closed :=
  ⟨⟨by decide, by decide, by decide, rfl⟩, rfl, by decide, by decide, by decide +kernel, Sample.partsTwo⟩

end Multipart

import Verif.Lemmas.SaveField
import Verif.Lemmas.Whole
import Verif.Props.Reading
/-!
# Properties of saving one field (C37-C48, C54, C58)

`Target.save` is any of `with_path`, `with_dir`, `temp`, `with_filename` of a field's `SaveBuilder`, with settings `cfg`, in a file system `w`.
All theorems are for every amount of fuel; that the calls return is C44.
-/
namespace Multipart

variable {D : Deps} {evs : List Ev} {b : Bytes} {s s0 t : BR} {cfg : Settings} {fuel : Nat} {T : Target} {w w' : World}

/-- The random name that `with_dir` and `temp` use up. -/
def Target.world (T : Target) (w : World) : World :=
  match T with
  | .dir _ | .temp _ => w.randName.2
  | _ => w

theorem Target.save_eq (T : Target) (cfg : Settings) (fuel : Nat) (w : World) (s : BR) :
    T.save cfg fuel w s = withPath cfg fuel (T.file w) (T.world w) s := by
  cases T <;> rfl

theorem Target.world_same (T : Target) (w : World) : (T.world w).files = w.files ∧ (T.world w).dirs = w.dirs ∧ (T.world w).writes = w.writes := by
  cases T <;> exact ⟨rfl, rfl, rfl⟩

theorem Target.save_spec (hi : s.Inv) {r : SaveRes SavedData SavedData} (h : T.save cfg fuel w s = (r, w', t)) :
    PathOut cfg (T.file w) (T.world w) s w' t r := by
  have := withPath_spec cfg fuel (T.file w) (T.world w) hi
  rw [← T.save_eq, h] at this
  exact this

theorem OpensEmpty.overlay {p : Path} {old : Bytes} (h : OpensEmpty cfg w p) (ho : Opened w cfg.openOpts p old) (c : Bytes) : overlay cfg.openOpts old c = c := by
  have h0 : old = [] := by
    cases ho with
    | new => rfl
    | old h1 h2 =>
      rcases h with h | h | h
      · rw [h2] at h; simp at h
      · simp [h]
      · rw [h1] at h; simp at h
  subst h0
  simp [Multipart.overlay]

theorem OpensEmpty.world {p : Path} (h : OpensEmpty cfg w p) : OpensEmpty cfg (T.world w) p := by
  unfold OpensEmpty at *; rw [(T.world_same w).1]; exact h

theorem OnlyFile.at {p : Path} {c : Bytes} (h : OnlyFile w w' p c) : w'.files p = some c := by rw [h]; simp

theorem Took.shorter {x : Bytes} (hi : s.Inv) (h : Took s x t) : x.length ≤ s.unread.length := by
  rw [h.unread hi]; simp

theorem Reachable.small (hD : D.Sane) (hr : Reachable D evs b s) (h : (Ev.bytes evs).length ≤ u64Max) : s.unread.length ≤ u64Max :=
  Nat.le_trans (hr.spec hD).2.1.length_le h

theorem min_of_le {n m : Nat} (h : n ≤ m) : Nat.min n m = n := Nat.min_eq_left h

namespace Sample

/-- An empty disk on which everything works. -/
def disk : World := { files := fun _ => none, dirs := [], mkdirs := [], opens := [], writes := [], names := [b!"rnd"] }

theorem save_eq {cfg : Settings} {fuel : Nat} {T : Target} {w : World} {s : BR} {r : SaveRes SavedData SavedData} (h : (T.save cfg fuel w s).1 = r) :
    T.save cfg fuel w s = (r, (T.save cfg fuel w s).2.1, (T.save cfg fuel w s).2.2) := by rw [← h]

theorem s1_reachable : Reachable refDeps Sample.evs bnd s1 := ⟨[.readEntry], rfl⟩

/-- 3300 bytes of data in three reads. -/
def evsLong : List Ev := [.data (b!"--b\r\n" ++ hdr ++ big), .data big, .data (big ++ b!"\r\n--b--\r\n")]
def sLong : BR := ((withBody evsLong bnd).readEntry refDeps).2
theorem sLong_reachable : Reachable refDeps evsLong bnd sLong := ⟨[.readEntry], rfl⟩

/-- Seven bytes that are not text. -/
def evsBin : List Ev := [.data (b!"--b\r\n" ++ hdr ++ [0xFF, 0xFF, 0xFF, 0xFF] ++ b!"abc\r\n--b--\r\n")]
def sBin : BR := ((withBody evsBin bnd).readEntry refDeps).2
theorem sBin_reachable : Reachable refDeps evsBin bnd sBin := ⟨[.readEntry], rfl⟩

/-- An empty field. -/
def evsNone : List Ev := [.data (b!"--b\r\n" ++ hdr ++ b!"\r\n--b--\r\n")]
def sNone : BR := ((withBody evsNone bnd).readEntry refDeps).2
theorem sNone_reachable : Reachable refDeps evsNone bnd sNone := ⟨[.readEntry], rfl⟩

end Sample

/-! ## C37 -/

theorem Target.save_complete (hi : s.Inv) (ho : OpensEmpty cfg w (T.file w)) {d : SavedData}
    (h : T.save cfg fuel w s = (.full d, w', t)) : ∃ x s1, Took s x s1 ∧ s1.AtEof ∧ d.readable w' = .ok x := by
  have key : ∀ {x : Bytes}, TookAll s x t → d.readable w' = .ok x → ∃ x s1, Took s x s1 ∧ s1.AtEof ∧ d.readable w' = .ok x := by
    rintro x ⟨_, s1, hs1, heof, _⟩ hx
    exact ⟨x, s1, hs1, heof, hx⟩
  cases Target.save_spec hi h with
  | text h1 h2 h3 h4 h5 => exact key h2 rfl
  | bytes h1 h2 h3 => exact key h2 rfl
  | file h1 h2 h3 h4 h5 =>
    cases h5 with
    | full g1 g2 g3 g4 =>
      refine key (TookAll.after h1 g1) ?_
      simp only [SavedData.readable]
      rw [g3.at, (ho.world (T := T)).overlay g2]

/-- C37: a full save holds exactly the bytes of the field: those that some calls take from it until it reports its end. -/
theorem C37_full_complete (hD : D.Sane) (hr : Reachable D evs b s) (ho : OpensEmpty cfg w (T.file w)) {d : SavedData}
    (h : T.save cfg fuel w s = (.full d, w', t)) : ∃ os, (s.run os).2.AtEof ∧ d.readable w' = .ok (s.run os).1 := by
  have hi := (hr.spec hD).1
  obtain ⟨x, s1, hs1, heof, hx⟩ := Target.save_complete hi ho h
  obtain ⟨os, hos⟩ := hs1.run hi
  exact ⟨os, by rw [hos]; exact heof, by rw [hos]; exact hx⟩

theorem SavedOk.dataOk {d dat x : Bytes} (h : SavedOk d evs dat x) : DataOk d evs dat x := h.imp_right fun h => ⟨h.1, h.2.1⟩

/-- What calls of `fill_buf` and `consume` take from a field until it reports its end. -/
theorem Took.savedOk {fh : FieldHeaders} {dat x : Bytes} (hD : D.Sane) (hn : NoStall evs) (hr : Reachable D evs b s0) (he : s0.readEntry D = (.ok (some fh), s))
    (hd : FieldData (dashes ++ b) s.unread dat) (ht : Took s x t) (heof : t.AtEof) : SavedOk (dashes ++ b) evs dat x := by
  have hr' : Reachable D evs b s := by have := hr.step .readEntry; simp only [BR.sop, he] at this; exact this
  obtain ⟨hi, hu, hdl, hev⟩ := hr'.spec hD
  obtain ⟨os, hos⟩ := ht.run hi
  have h1 := C01_field_bytes_partial hD hn hr he hd os (by rw [hos]; exact heof)
  have h2 := fun hc => C01_field_bytes_cleanSplit_partial hD hn hc hr he hd os (by rw [hos]; exact heof)
  rw [hos] at h1 h2
  simp only at h1 h2
  rcases h1 with h1 | ⟨h1, gone, hg, -, -, hf⟩
  · exact .inl h1
  by_cases hx0 : x = dat
  · exact .inl hx0
  refine .inr ⟨h1, fun hc => hx0 (h2 hc), Nat.lt_of_not_le fun hl => ?_⟩
  have hrun := ht.unread hi
  have hd' : t.delim = s.delim := by have := (BR.run_skipped os hi).2.2.1; rw [hos] at this; exact this
  have hx : s.unread.drop (dat.length + 2) = t.unread := by
    rw [hrun, h1, show dat.length + 2 = (dat ++ crlf).length by simp [crlf], List.drop_left]
  have hcr : OccursAt crlf s.unread dat.length := by
    unfold OccursAt; rw [hrun, h1, List.append_assoc, List.drop_left]; exact List.prefix_append _ _
  have hw := BR.readEntry_whole hD (hr.spec hD).1 he (by rw [hdl]; exact hf) hcr
  have hmin : entryBuf (dashes ++ b) ≤ s.min := by
    have := BR.readEntry_entryMin hD (hr.spec hD).1
    rw [he] at this
    rw [← hdl]
    exact Nat.max_le.mpr this
  have hfit : s.Fits s.unread := ⟨hi, hn.suffix hev, .inl ⟨_, hw, Nat.le_trans hl hmin, rfl⟩⟩
  rcases (ht.keeps (BR.Fits.kept _) hfit).fits with ⟨p, g1, g2, g3⟩ | ⟨q, g1⟩
  · have := congrArg List.length (g3.trans hrun)
    rw [h1, List.length_append, List.length_append, show crlf.length = 2 from rfl] at this
    omega
  · have g2 := g1.first
    rw [← hx, hd', hdl] at g2
    have := g2.unique (hf.drop (Nat.le_refl _))
    have := g1.two
    omega

/-- C37, in terms of the body: with the data of the field as defined by C01; without the CRLF of the delimiter line also for every field of at most `entryBuf` bytes with this CRLF, however the
body arrives. (For longer ones see C77_leaks.) -/
theorem C37_full_data (hD : D.Sane) (hn : NoStall evs) (hr : Reachable D evs b s0) {fh : FieldHeaders}
    (he : s0.readEntry D = (.ok (some fh), s)) {dat : Bytes} (hd : FieldData (dashes ++ b) s.unread dat)
    (ho : OpensEmpty cfg w (T.file w)) {d : SavedData} (h : T.save cfg fuel w s = (.full d, w', t)) :
    ∃ c, d.readable w' = .ok c ∧ (c = dat ∨ c = dat ++ crlf) ∧ (CleanSplit (dashes ++ b) evs ∨ dat.length + 2 ≤ entryBuf (dashes ++ b) → c = dat) := by
  have hr' : Reachable D evs b s := by have := hr.step .readEntry; simp only [BR.sop, he] at this; exact this
  obtain ⟨x, s1, hs1, heof, hx⟩ := Target.save_complete (hr'.spec hD).1 ho h
  refine ⟨x, hx, ?_⟩
  rcases hs1.savedOk hD hn hr he hd heof with h1 | ⟨h1, h2, h3⟩
  · exact ⟨.inl h1, fun _ => h1⟩
  · exact ⟨.inr h1, fun h => h.elim (fun hc => absurd hc h2) fun hl => by omega⟩

example : (Target.save (.temp [b!"tmp"]) .default 100 Sample.disk Sample.s1).1 = .full (.text b!"hello") ∧
    (Target.save (.temp [b!"tmp"]) { Settings.default with memoryThreshold := 4 } 100 Sample.disk Sample.s1).1 = .full (.file [b!"tmp", b!"rnd"] 5) ∧
    OpensEmpty .default Sample.disk (Target.file (.temp [b!"tmp"]) Sample.disk) ∧ FieldData (dashes ++ Sample.bnd) Sample.s1.unread b!"hello" :=
  ⟨by decide +kernel, by decide +kernel, .inl rfl, .crlf (by decide +kernel) ⟨b!"--b--\r\nepi", by decide +kernel⟩⟩

/-- C37_full_data: a short field that arrives in two reads, the first of which ends between the CR and the LF of its delimiter line. -/
example : ∃ c, (SavedData.text b!"hello").readable (Target.save (.temp [b!"tmp"]) .default 100 Sample.disk Sample.s1Cr).2.1 = .ok c ∧ c = b!"hello" :=
  let ⟨c, h1, _, h2⟩ := C37_full_data (b := Sample.bnd) (T := .temp [b!"tmp"]) (w := Sample.disk) (cfg := .default) (fuel := 100) refDeps_sane (by decide +kernel) (s0 := withBody Sample.evsSmallCr Sample.bnd)
    ⟨[], rfl⟩ Sample.entrySmallCr (dat := b!"hello") (.crlf (by decide +kernel) ⟨b!"--b--\r\n", by decide +kernel⟩) (.inl rfl) (Sample.save_eq (by decide +kernel))
  ⟨c, h1, h2 (.inr (by decide +kernel))⟩

/-- C37_full_complete: a field saved to a file. -/
example : ∃ os, (Sample.s1.run os).2.AtEof ∧ (SavedData.file [b!"x"] 5).readable (Target.save (.path [b!"x"]) { Settings.default with memoryThreshold := 4 } 100 Sample.disk Sample.s1).2.1 = .ok (Sample.s1.run os).1 :=
  C37_full_complete (T := .path [b!"x"]) (cfg := { Settings.default with memoryThreshold := 4 }) (fuel := 100) (w := Sample.disk) refDeps_sane Sample.s1_reachable (.inl rfl) (Sample.save_eq (by decide +kernel))

/-! ## C39, C38 -/

/-- C39: what is kept in memory is never more than `memory_threshold` nor `size_limit`. -/
theorem C39_memory_bound (hD : D.Sane) (hr : Reachable D evs b s) (hsz : (Ev.bytes evs).length ≤ u64Max) {d : SavedData} {r : Reason}
    (h : T.save cfg fuel w s = (.full d, w', t) ∨ T.save cfg fuel w s = (.part d r, w', t)) (hm : d.isMemory = true) :
    d.size ≤ cfg.memoryThreshold ∧ d.size ≤ cfg.sizeLimit := by
  have hi := (hr.spec hD).1
  have hb := hr.small hD hsz
  have key : ∀ {x : Bytes}, Took s x t → Nat.min x.length u64Max ≤ cfg.memLimit 0 → x.length ≤ cfg.memoryThreshold ∧ x.length ≤ cfg.sizeLimit := by
    intro x h1 h2
    rw [min_of_le (Nat.le_trans (h1.shorter hi) hb)] at h2
    exact ⟨Nat.le_trans h2 (Nat.min_le_right _ _), Nat.le_trans h2 (Nat.min_le_left _ _)⟩
  rcases h with h | h
  · cases Target.save_spec hi h with
    | text h1 h2 h3 h4 h5 => exact key h2.1 h5
    | bytes h1 h2 h3 => exact key h2.1 h3
    | file h1 h2 h3 h4 h5 => cases h5; simp [SavedData.isMemory] at hm
  · cases Target.save_spec hi h with
    | partText h1 h2 h3 h4 h5 h6 => exact key h2 h5
    | partBytes h1 h2 h3 h4 => exact key h2 h3
    | file h1 h2 h3 h4 h5 => cases h5 <;> simp [SavedData.isMemory] at hm

/-- The full claim C38. -/
def SizeLimitRespected (D : Deps) : Prop :=
  ∀ (evs : List Ev) (b : Bytes) (s : BR) (cfg : Settings) (fuel : Nat) (T : Target) (w w' : World) (t : BR) (d : SavedData) (r : Reason),
    cfg.Typed → (Ev.bytes evs).length ≤ u64Max → Reachable D evs b s → cfg.sizeLimit < u64Max →
    (T.save cfg fuel w s = (.full d, w', t) ∨ T.save cfg fuel w s = (.part d r, w', t)) → d.size ≤ cfg.sizeLimit

/-- C38, as far as it holds: `size_limit` bounds what is kept in memory; a file may hold as much again as was in memory before. Missing for the
full claim: the file phase counts from zero. -/
theorem C38_size_limit_partial (hD : D.Sane) (hr : Reachable D evs b s) (hsz : (Ev.bytes evs).length ≤ u64Max) (hl : cfg.sizeLimit < u64Max)
    {d : SavedData} {r : Reason} (h : T.save cfg fuel w s = (.full d, w', t) ∨ T.save cfg fuel w s = (.part d r, w', t)) :
    (d.isMemory = true → d.size ≤ cfg.sizeLimit) ∧ d.size ≤ cfg.sizeLimit + Nat.min cfg.sizeLimit cfg.memoryThreshold := by
  refine ⟨fun hm => (C39_memory_bound hD hr hsz h hm).2, ?_⟩
  by_cases hm : d.isMemory = true
  · exact Nat.le_trans (C39_memory_bound hD hr hsz h hm).2 (Nat.le_add_right _ _)
  have hi := (hr.spec hD).1
  have hb := hr.small hD hsz
  have hml : cfg.memLimit 0 = Nat.min cfg.sizeLimit cfg.memoryThreshold := rfl
  rcases h with h | h
  · cases Target.save_spec hi h with
    | text => simp [SavedData.isMemory] at hm
    | bytes => simp [SavedData.isMemory] at hm
    | @file bytes s1 _ h1 h2 h3 h4 h5 =>
      have := h1.shorter hi
      rw [min_of_le (by omega)] at h2
      cases h5 with
      | full g1 g2 g3 g4 =>
        simp only [SavedData.size]
        refine Nat.le_trans (Nat.min_le_left _ _) ?_
        have := g4 hl
        rw [List.length_append]; omega
  · cases Target.save_spec hi h with
    | partText => simp [SavedData.isMemory] at hm
    | partBytes => simp [SavedData.isMemory] at hm
    | @file bytes s1 _ h1 h2 h3 h4 h5 =>
      have := h1.shorter hi
      rw [min_of_le (by omega)] at h2
      cases h5 with
      | cut g1 g2 g3 => simp only [SavedData.size]; omega
      | part g1 g2 g3 g4 =>
        simp only [SavedData.size]
        refine Nat.le_trans (Nat.min_le_left _ _) ?_
        have := g4 hl
        rw [List.length_append]; omega

/-- C38 is false of the code: with `size_limit` 3000 and `memory_threshold` 1500 a field of 3300 bytes is saved in full. -/
theorem C38_false : ¬ SizeLimitRespected refDeps := by
  intro h
  have := h Sample.evsLong Sample.bnd Sample.sLong { Settings.default with sizeLimit := 3000, memoryThreshold := 1500 } 10 (.path [b!"x"]) Sample.disk _ _
    (.file [b!"x"] 3300) .sizeLimit ⟨by decide, by decide, by decide, rfl⟩ (by decide +kernel) Sample.sLong_reachable (by decide) (.inl (Sample.save_eq (by decide +kernel)))
  exact absurd this (by decide)

example : (Target.save (.path [b!"x"]) { Settings.default with sizeLimit := 3000, memoryThreshold := 2000 } 10 Sample.disk Sample.sLong).1 =
    .full (.file [b!"x"] 3300) := by decide +kernel
example : (Target.save (.path [b!"x"]) { Settings.default with sizeLimit := 2000, memoryThreshold := 2000 } 10 Sample.disk Sample.sLong).1 =
    .part (.file [b!"x"] 2200) .sizeLimit ∧ (Ev.bytes Sample.evsLong).length ≤ u64Max := by decide +kernel

/-- C39_memory_bound and C38_size_limit_partial, in memory and in a file that is as long as it may be. -/
example : (5 ≤ Settings.default.memoryThreshold ∧ 5 ≤ Settings.default.sizeLimit) ∧ 3300 ≤ 3000 + Nat.min 3000 1500 :=
  ⟨C39_memory_bound (d := .text b!"hello") (r := .sizeLimit) (T := .path [b!"x"]) (fuel := 100) (w := Sample.disk) refDeps_sane Sample.s1_reachable (by decide +kernel) (.inl (Sample.save_eq (by decide +kernel))) rfl,
    (C38_size_limit_partial (d := .file [b!"x"] 3300) (r := .sizeLimit) (cfg := { Settings.default with sizeLimit := 3000, memoryThreshold := 1500 }) (T := .path [b!"x"]) (fuel := 10) (w := Sample.disk)
      refDeps_sane Sample.sLong_reachable (by decide +kernel) (by decide) (.inl (Sample.save_eq (by decide +kernel)))).2⟩

/-! ## C40, C41 -/

/-- The full claim C40. -/
def ThresholdZeroForcesFiles (D : Deps) : Prop :=
  ∀ (evs : List Ev) (b : Bytes) (s : BR) (cfg : Settings) (fuel : Nat) (T : Target) (w w' : World) (t : BR) (d : SavedData),
    cfg.Typed → Reachable D evs b s → cfg.memoryThreshold = 0 → T.save cfg fuel w s = (.full d, w', t) → d.isMemory = false

/-- C40, as far as it holds: with threshold 0 only an empty field is saved in memory. Missing for the full claim: empty fields get no file. -/
theorem C40_threshold_zero_partial (hD : D.Sane) (hr : Reachable D evs b s) (hm : cfg.memoryThreshold = 0) (hs : 0 < cfg.sizeLimit) {d : SavedData} :
    (T.save cfg fuel w s = (.full d, w', t) → d.isMemory = true → d.size = 0 ∧ ∃ os, (s.run os).2.AtEof ∧ (s.run os).1 = []) ∧
    (∀ r, T.save cfg fuel w s = (.part d r, w', t) → d.isMemory = false) := by
  have hi := (hr.spec hD).1
  have h0 : cfg.memLimit 0 = 0 := by simp [Settings.memLimit, hm]
  have hnil : ∀ {x : Bytes}, Nat.min x.length u64Max ≤ cfg.memLimit 0 → x = [] := by
    intro x h
    rw [h0] at h
    have h : min x.length u64Max ≤ 0 := h
    simp only [u64Max] at h
    exact List.length_eq_zero_iff.mp (by omega)
  constructor
  · intro h hd
    have key : ∀ {x : Bytes}, TookAll s x t → Nat.min x.length u64Max ≤ cfg.memLimit 0 → x.length = 0 ∧ ∃ os, (s.run os).2.AtEof ∧ (s.run os).1 = [] := by
      rintro x ⟨_, s1, hs1, heof, _⟩ hx
      obtain ⟨os, hos⟩ := hs1.run hi
      have := hnil hx
      subst this
      exact ⟨rfl, os, by rw [hos]; exact heof, by rw [hos]⟩
    cases Target.save_spec hi h with
    | text h1 h2 h3 h4 h5 => exact key h2 h5
    | bytes h1 h2 h3 => exact key h2 h3
    | file h1 h2 h3 h4 h5 => cases h5; simp [SavedData.isMemory] at hd
  · intro r h
    cases Target.save_spec hi h with
    | partText h1 h2 h3 h4 h5 h6 =>
      exfalso
      have hn := hnil h5
      subst hn
      rcases h6 with ⟨_, h6, _⟩ | ⟨e, _, h6, _⟩ | ⟨_, _, buf, t', h6, h7, _⟩
      · simp at h6; omega
      · exact h6 rfl
      · have := hnil h6
        rw [List.nil_append] at this
        subst this
        exact h7 .nil
    | partBytes h1 h2 h3 h4 =>
      exfalso
      have hn := hnil h3
      subst hn
      rcases h4 with ⟨_, h6, _⟩ | ⟨e, _, h6, _⟩
      · simp at h6; omega
      · exact h6 rfl
    | file h1 h2 h3 h4 h5 => cases h5 <;> rfl

/-- C40 is false of the code: an empty field is saved in memory even then. -/
theorem C40_false : ¬ ThresholdZeroForcesFiles refDeps := by
  intro h
  have := h Sample.evsNone Sample.bnd Sample.sNone { Settings.default with memoryThreshold := 0 } 10 (.path [b!"x"]) Sample.disk _ _
    (.text []) ⟨by decide, by decide, by decide, rfl⟩ Sample.sNone_reachable rfl (Sample.save_eq (by decide +kernel))
  simp [SavedData.isMemory] at this

example : (Target.save (.path [b!"x"]) { Settings.default with memoryThreshold := 0 } 10 Sample.disk Sample.s1).1 = .full (.file [b!"x"] 5) := by
  decide +kernel

/-- C40_threshold_zero_partial: an empty field, and one that is cut off by the size limit. -/
example : (Target.save (.path [b!"x"]) { Settings.default with memoryThreshold := 0 } 10 Sample.disk Sample.sNone).1 = .full (.text []) ∧
    (Target.save (.path [b!"x"]) { Settings.default with memoryThreshold := 0, sizeLimit := 2000 } 10 Sample.disk Sample.sLong).1 = .part (.file [b!"x"] 1100) .sizeLimit := by decide +kernel

/-- The full claim C41. -/
def SmallLimitNoDisk (D : Deps) : Prop :=
  ∀ (evs : List Ev) (b : Bytes) (s : BR) (cfg : Settings) (fuel : Nat) (T : Target) (w : World),
    cfg.Typed → Reachable D evs b s → cfg.sizeLimit ≤ cfg.memoryThreshold → SameDisk w (T.save cfg fuel w s).2.1

/-- C41, as far as it holds: if also the field has no more than `size_limit` bytes. (More generally: no more than `memory_threshold` nor `size_limit`.)
Missing for the full claim: longer fields. -/
theorem C41_no_disk_partial (hD : D.Sane) (hr : Reachable D evs b s)
    (hs : ∀ os, (s.run os).1.length ≤ cfg.memoryThreshold ∧ (s.run os).1.length ≤ cfg.sizeLimit) : SameDisk w (T.save cfg fuel w s).2.1 := by
  have hi := (hr.spec hD).1
  have hw : ∀ w', w' = T.world w → SameDisk w w' := by
    rintro _ rfl; exact ⟨(T.world_same w).1, (T.world_same w).2.1⟩
  rcases hsv : T.save cfg fuel w s with ⟨r, w', t⟩
  simp only
  cases Target.save_spec hi hsv with
  | hang h1 => exact hw _ h1
  | text h1 => exact hw _ h1
  | bytes h1 => exact hw _ h1
  | partText h1 => exact hw _ h1
  | partBytes h1 => exact hw _ h1
  | error h1 => exact hw _ h1
  | file h1 h2 h3 h4 h5 =>
    exfalso
    obtain ⟨more, t', ht', hlt⟩ := h4
    obtain ⟨os, hos⟩ := ht'.run hi
    have := hs os
    rw [hos] at this
    simp only at this
    have h : min cfg.sizeLimit cfg.memoryThreshold - 0 < _ := hlt
    omega

/-- C41 is false of the code: a field of five bytes with both limits 3 creates an empty file. -/
theorem C41_false : ¬ SmallLimitNoDisk refDeps := by
  intro h
  have := h Sample.evs Sample.bnd Sample.s1 { Settings.default with sizeLimit := 3, memoryThreshold := 3 } 10 (.path [b!"x"]) Sample.disk
    ⟨by decide, by decide, by decide, rfl⟩ Sample.s1_reachable (by decide)
  have h1 := congrFun this.1 [b!"x"]
  have h2 : (Target.save (.path [b!"x"]) { Settings.default with sizeLimit := 3, memoryThreshold := 3 } 10 Sample.disk Sample.s1).2.1.files [b!"x"] = some [] := by
    decide +kernel
  rw [h2] at h1
  simp [Sample.disk] at h1

example : ∀ os, (Sample.s1.run os).1.length ≤ 10 := by
  intro os
  have := (C02_never_past_delimiter refDeps_sane Sample.s1_reachable os (p := 7) (by decide +kernel)).1.length_le
  rw [List.length_take] at this
  omega

/-- C41_no_disk_partial. -/
example : SameDisk Sample.disk (Target.save (.path [b!"x"]) { Settings.default with sizeLimit := 10, memoryThreshold := 10 } 10 Sample.disk Sample.s1).2.1 :=
  C41_no_disk_partial refDeps_sane Sample.s1_reachable fun os => by
    have := (C02_never_past_delimiter refDeps_sane Sample.s1_reachable os (p := 7) (by decide +kernel)).1.length_le
    rw [List.length_take] at this
    simp only
    omega

/-! ## C42, C43 -/

/-- C42: a text result is valid UTF-8 and exactly the bytes taken from the field; all of them if it is full. -/
theorem C42_text_exact (hD : D.Sane) (hr : Reachable D evs b s) {x : Bytes} :
    (T.save cfg fuel w s = (.full (.text x), w', t) →
      IsUtf8 x ∧ s.unread = x ++ t.unread ∧ ∃ os, (s.run os).2.AtEof ∧ (s.run os).1 = x) ∧
    (∀ r, T.save cfg fuel w s = (.part (.text x) r, w', t) → IsUtf8 x ∧ s.unread = x ++ t.unread ∧ ∃ os, s.run os = (x, t)) := by
  have hi := (hr.spec hD).1
  constructor
  · intro h
    cases Target.save_spec hi h with
    | text h1 h2 h3 h4 h5 =>
      obtain ⟨h6, s1, hs1, heof, _⟩ := h2
      obtain ⟨os, hos⟩ := hs1.run hi
      exact ⟨h3, h6.unread hi, os, by rw [hos]; exact heof, by rw [hos]⟩
    | file h1 h2 h3 h4 h5 => nomatch h5
  · intro r h
    cases Target.save_spec hi h with
    | partText h1 h2 h3 h4 h5 h6 => exact ⟨h3, h2.unread hi, h2.run hi⟩
    | file h1 h2 h3 h4 h5 => nomatch h5

/-- The full claim C43. -/
def ForceTextRejects (D : Deps) : Prop :=
  ∀ (evs : List Ev) (b : Bytes) (s : BR) (cfg : Settings) (fuel : Nat) (T : Target) (w w' : World) (t : BR) (d : SavedData) (c : Bytes),
    cfg.Typed → Reachable D evs b s → cfg.textPolicy = .force → OpensEmpty cfg w (T.file w) →
    (∀ os, (s.run os).1.length ≤ cfg.memoryThreshold ∧ (s.run os).1.length ≤ cfg.sizeLimit) →
    T.save cfg fuel w s = (.full d, w', t) → d.readable w' = .ok c → IsUtf8 c

/-- C43, as far as it holds: no text result has invalid UTF-8 in it, and a result that stops for invalid UTF-8 is never followed by
saving as bytes or in a file. Missing for the full claim: see `C43_false`. -/
theorem C43_force_text_partial (hD : D.Sane) (hr : Reachable D evs b s) {d : SavedData} :
    (T.save cfg fuel w s = (.full d, w', t) → ∀ x, d = .text x → IsUtf8 x) ∧
    (T.save cfg fuel w s = (.part d .utf8, w', t) → cfg.textPolicy = .force ∧ (∃ x, d = .text x ∧ IsUtf8 x) ∧ SameDisk w w') := by
  have hi := (hr.spec hD).1
  constructor
  · rintro h x rfl
    exact ((C42_text_exact hD hr).1 h).1
  · intro h
    cases Target.save_spec hi h with
    | partText h1 h2 h3 h4 h5 h6 =>
      subst h1
      rcases h6 with ⟨h6, _⟩ | ⟨e, h6, _⟩ | ⟨_, h6, _⟩
      · simp at h6
      · simp at h6
      · exact ⟨h6, ⟨_, rfl, h3⟩, (T.world_same w).1, (T.world_same w).2.1⟩
    | partBytes h1 h2 h3 h4 =>
      rcases h4 with ⟨h6, _⟩ | ⟨e, h6, _⟩ <;> simp at h6
    | file h1 h2 h3 h4 h5 =>
      cases h5 with
      | part g1 g2 g3 g4 g5 => rcases g5 with ⟨h6, _⟩ | ⟨e, h6, _⟩ <;> simp at h6

/-- C43 is false of the code: bytes that are not UTF-8 are counted again and again until the limit is reached, and then saved as bytes. -/
theorem C43_false : ¬ ForceTextRejects refDeps := by
  intro h
  have := h Sample.evsBin Sample.bnd Sample.sBin { Settings.default with sizeLimit := 30, memoryThreshold := 20, textPolicy := .force } 10 (.path [b!"x"]) Sample.disk _ _
    (.bytes ([0xFF, 0xFF, 0xFF, 0xFF] ++ b!"abc")) ([0xFF, 0xFF, 0xFF, 0xFF] ++ b!"abc") ⟨by decide, by decide, by decide, rfl⟩ Sample.sBin_reachable rfl (.inl rfl)
    (fun os => by
      have := (C02_never_past_delimiter refDeps_sane Sample.sBin_reachable os (p := 9) (by decide +kernel)).1.length_le
      rw [List.length_take] at this
      simp only; omega)
    (Sample.save_eq (by decide +kernel)) rfl
  rw [← utf8Valid_iff] at this
  revert this
  decide +kernel

/-- C42_text_exact: text that is saved fully, and text of which only a part is saved. -/
example : (Target.save (.path [b!"x"]) Settings.default 10 Sample.disk Sample.s1).1 = .full (.text b!"hello") ∧
    (Target.save (.path [b!"x"]) Settings.default 10 Sample.disk ((withBody [.data (b!"--b\r\n" ++ Sample.hdr ++ Sample.big), .err (.other 5)] b!"b").readEntry refDeps).2).1 =
      .part (.text Sample.big) (.io (.other 5)) := by
  decide +kernel

/-- C43_force_text_partial: two bytes that are not text. -/
example : (Target.save (.path [b!"x"]) { Settings.default with textPolicy := .force } 10 Sample.disk
    ((withBody [.data (b!"--b\r\n" ++ Sample.hdr ++ [0x61, 0xFF] ++ b!"\r\n--b--\r\n")] b!"b").readEntry refDeps).2).1 = .part (.text []) .utf8 := by
  decide +kernel

/-- A character split over two reads. -/
example : (Target.save (.path [b!"x"]) Settings.default 10 Sample.disk
    ((withBody [.data (b!"--b\r\n" ++ Sample.hdr ++ Sample.big ++ [0xC3]), .data ([0xA9] ++ b!"\r\n--b--\r\n")] b!"b").readEntry refDeps).2).1 =
    .full (.text (Sample.big ++ [0xC3, 0xA9])) := by
  decide +kernel

/-! ## C44 -/

/-- The full claim C44. -/
def SavingTerminates (D : Deps) : Prop :=
  ∀ (evs : List Ev) (b : Bytes) (s : BR) (cfg : Settings) (T : Target) (w : World), cfg.Typed → Reachable D evs b s →
    ∃ n, ∀ fuel, n ≤ fuel → (T.save cfg fuel w s).1 ≠ .hang

/-- C44, as far as it holds: saving returns if one of `size_limit` and `memory_threshold` is less than `u64::MAX` (as by default), or if text is ignored, or
if the field is text. It never panics. Missing for the full claim: no limits and data that are not UTF-8. -/
theorem C44_terminates_partial (hD : D.Sane) (hr : Reachable D evs b s)
    (h : Nat.min cfg.sizeLimit cfg.memoryThreshold < u64Max ∨ cfg.textPolicy = .ignore ∨ ∃ p, FirstAt (dashes ++ b) s.unread p ∧ IsUtf8 (s.unread.take p)) :
    (∃ n, ∀ fuel, n ≤ fuel → (T.save cfg fuel w s).1 ≠ .hang) ∧ ∀ fuel, (T.save cfg fuel w s).1 ≠ .panic := by
  have hi := (hr.spec hD).1
  constructor
  · refine ⟨s.enough (cfg.memLimit 0) + 1, fun fuel hf => ?_⟩
    rw [T.save_eq]
    refine withPath_ends cfg _ _ hi hf ?_
    rcases h with h | h | ⟨p, hp, hu⟩
    · exact .inr (.inl h)
    · exact .inl h
    · refine .inr (.inr fun x y s1 h1 h2 h3 h4 => ?_)
      obtain ⟨os, hos⟩ := h1.run hi
      have hpre : x ++ y <+: s.unread.take p := by
        have := (C02_never_past_delimiter hD hr os hp).2 y s1.readToBoundary.2 (by rw [hos]; exact Sample.pair_eq h3 rfl)
        rw [hos] at this
        exact this
      obtain ⟨z, hz⟩ := hpre
      rw [← hz, List.append_assoc] at hu
      exact validUpTo_pos hu h2 h4
  · intro fuel hp
    rcases hsv : T.save cfg fuel w s with ⟨r, w', t⟩
    rw [hsv] at hp
    simp only at hp
    subst hp
    cases Target.save_spec hi hsv with
    | file h1 h2 h3 h4 h5 => nomatch h5

/-- The loop that never ends: both limits are absent, and `fill_buf` shows, again and again, the same bytes: at least four, and they do not start
with a character. -/
theorem C44_diverges {s1 : BR} (hp : cfg.textPolicy ≠ .ignore) (hl : Nat.min cfg.sizeLimit cfg.memoryThreshold = u64Max) {buf : Bytes}
    (hb : s.readToBoundary = (.ok buf, s1)) (hb1 : s1.readToBoundary = (.ok buf, s1)) (h4 : 4 ≤ buf.length)
    (hv : ∀ k, k ≤ buf.length → IsUtf8 (buf.take k) → k = 0) : (T.save cfg fuel w s).1 = .hang := by
  have h0 : validUpTo buf = 0 := hv _ (validUpTo_spec buf).1 (validUpTo_spec buf).2.1
  have hne : utf8Valid buf = false := by unfold utf8Valid; rw [h0]; simp; omega
  have hbn : buf ≠ [] := by intro h; subst h; simp at h4
  have hcl : cfg.memLimit 0 = u64Max := hl
  have hf : ∀ copied, limited textStep (cfg.memLimit 0) (copied, []) buf = (.full 0, Nat.min (copied + buf.length) u64Max, []) := by
    intro copied
    unfold limited
    simp only
    rw [if_neg (by rw [hcl]; exact Nat.not_lt.mpr (Nat.min_le_right _ _))]
    unfold textStep
    rw [hne, if_neg (by simp), if_neg (by omega), h0]
    simp
  have hc : s1.consume 0 = s1 := by simp [BR.consume]
  have loop : ∀ (n total copied : Nat) (s : BR), s.readToBoundary = (.ok buf, s1) →
      (tryReadBuf (limited textStep (cfg.memLimit 0)) n total (copied, []) s).1 = .hang := by
    intro n
    induction n with
    | zero => intro _ _ _ _; rfl
    | succ n ih =>
      intro total copied s hb
      unfold tryReadBuf
      rw [hb]
      simp only
      rw [if_neg hbn, hf]
      simp only
      rw [hc]
      exact ih _ _ _ hb1
  have ht : (saveText cfg fuel s).1 = .hang := by
    have := loop fuel 0 0 s hb
    unfold saveText tryCopyLimited
    simp only
    generalize tryReadBuf (limited textStep (cfg.memLimit 0)) fuel 0 (0, []) s = x at this
    obtain ⟨r, ⟨n, a⟩, t⟩ := x
    simp only at this
    subst this
    rfl
  rw [T.save_eq]
  unfold withPath
  rw [if_pos hp]
  generalize saveText cfg fuel s = x at ht
  obtain ⟨r, t⟩ := x
  simp only at ht
  subst ht
  rfl

/-- C44 is false of the code. -/
theorem C44_false : ¬ SavingTerminates refDeps := by
  intro h
  obtain ⟨n, hn⟩ := h Sample.evsBin Sample.bnd Sample.sBin { Settings.default with sizeLimit := u64Max, memoryThreshold := u64Max } (.path [b!"x"]) Sample.disk
    ⟨by decide, by decide, by decide, rfl⟩ Sample.sBin_reachable
  refine hn n (Nat.le_refl _) ?_
  refine C44_diverges (s1 := Sample.sBin.readToBoundary.2) (buf := [0xFF, 0xFF, 0xFF, 0xFF] ++ b!"abc") (by simp [Settings.default]) (by decide)
    (by decide +kernel) (by decide +kernel) (by decide) ?_
  intro k hk hu
  have := (validUpTo_spec _).2.2 k hk hu
  have h0 : validUpTo ([0xFF, 0xFF, 0xFF, 0xFF] ++ b!"abc") = 0 := by decide +kernel
  omega

/-- C44_terminates_partial: the default settings have a memory threshold; this field is text. (C44_diverges is used by C44_false.) -/
example : Nat.min Settings.default.sizeLimit Settings.default.memoryThreshold < u64Max := by decide

example : FirstAt (dashes ++ Sample.bnd) Sample.s1.unread 7 ∧ IsUtf8 (Sample.s1.unread.take 7) :=
  ⟨by decide +kernel, (utf8Valid_iff _).mp (by decide +kernel)⟩

/-! ## C45, C46 -/

/-- C45: a file result, full or not, names a file that exists and holds a prefix of the bytes taken from the field, and its size is reported. -/
theorem C45_file_size (hD : D.Sane) (hr : Reachable D evs b s) (hsz : (Ev.bytes evs).length ≤ u64Max) (ho : OpensEmpty cfg w (T.file w))
    {p : Path} {n : Nat} {r : Reason}
    (h : T.save cfg fuel w s = (.full (.file p n), w', t) ∨ T.save cfg fuel w s = (.part (.file p n) r, w', t)) :
    p = T.file w ∧ ∃ c, w'.files p = some c ∧ n = c.length ∧ ∃ taken, s.unread = taken ++ t.unread ∧ c <+: taken ∧
      (T.save cfg fuel w s = (.full (.file p n), w', t) → c = taken) := by
  have hi := (hr.spec hD).1
  have hb := hr.small hD hsz
  have key : ∀ {bytes taken old : Bytes} {s1 : BR}, Took s bytes s1 → Took s1 taken t → Opened (T.world w) cfg.openOpts (T.file w) old →
      OnlyFile (T.world w) w' (T.file w) (overlay cfg.openOpts old (bytes ++ taken)) →
      w'.files (T.file w) = some (bytes ++ taken) ∧ Nat.min (bytes ++ taken).length u64Max = (bytes ++ taken).length ∧ s.unread = (bytes ++ taken) ++ t.unread := by
    intro bytes taken old s1 h1 h2 h3 h4
    rw [(ho.world (T := T)).overlay h3] at h4
    have h5 := h1.trans h2
    exact ⟨h4.at, min_of_le (Nat.le_trans (h5.shorter hi) hb), h5.unread hi⟩
  rcases h with h | h
  · cases Target.save_spec hi h with
    | file h1 h2 h3 h4 h5 =>
      cases h5 with
      | full g1 g2 g3 g4 =>
        obtain ⟨k1, k2, k3⟩ := key h1 g1.1 g2 g3
        exact ⟨rfl, _, k1, k2, _, k3, List.prefix_refl _, fun _ => rfl⟩
  · have hnf : ¬ T.save cfg fuel w s = (.full (.file p n), w', t) := by rw [h]; simp
    cases Target.save_spec hi h with
    | file h1 h2 h3 h4 h5 =>
      cases h5 with
      | cut g1 g2 g3 g4 g5 g6 =>
        subst g1
        rw [(ho.world (T := T)).overlay g2] at g6
        exact ⟨rfl, _, g6.at, by rw [List.length_take]; omega, _, h1.unread hi, List.take_prefix _ _, fun hf => absurd hf hnf⟩
      | part g1 g2 g3 g4 g5 =>
        obtain ⟨k1, k2, k3⟩ := key h1 g1 g2 g3
        exact ⟨rfl, _, k1, k2, _, k3, List.prefix_refl _, fun hf => absurd hf hnf⟩

/-- C46: with the default open options no file that exists is changed, whatever happens, and no file result is reported for an existing path. -/
theorem C46_no_overwrite (hD : D.Sane) (hr : Reachable D evs b s) (ho : cfg.openOpts.createNew = true) :
    (∀ q c, w.files q = some c → (T.save cfg fuel w s).2.1.files q = some c) ∧
    (∀ q n, w.files q ≠ none → ((T.save cfg fuel w s).1 ≠ .full (.file q n) ∧ ∀ r, (T.save cfg fuel w s).1 ≠ .part (.file q n) r)) := by
  have hi := (hr.spec hD).1
  have hws := (T.world_same w).1
  have hopen : ∀ {old}, Opened (T.world w) cfg.openOpts (T.file w) old → w.files (T.file w) = none := by
    intro old h
    cases h with
    | new h => rw [← hws]; exact h
    | old h h' => rw [ho] at h'; simp at h'
  have hkeep : ∀ {w' : World} {old c}, Opened (T.world w) cfg.openOpts (T.file w) old → OnlyFile (T.world w) w' (T.file w) c →
      ∀ q c, w.files q = some c → w'.files q = some c := by
    intro w' old c h h' q c' hq
    have hne : q ≠ T.file w := by rintro rfl; rw [hopen h] at hq; simp at hq
    rw [h']; simp only [if_neg hne]; rw [hws]; exact hq
  rcases hsv : T.save cfg fuel w s with ⟨r, w', t⟩
  simp only
  have hsame : w' = T.world w → ∀ q c, w.files q = some c → w'.files q = some c := by rintro rfl q c h; rw [hws]; exact h
  cases Target.save_spec hi hsv with
  | hang h1 => exact ⟨hsame h1, by simp⟩
  | text h1 => exact ⟨hsame h1, by simp⟩
  | bytes h1 => exact ⟨hsame h1, by simp⟩
  | partText h1 => exact ⟨hsame h1, by simp⟩
  | partBytes h1 => exact ⟨hsame h1, by simp⟩
  | error h1 => exact ⟨hsame h1, by simp⟩
  | file h1 h2 h3 h4 h5 =>
    have hno : ∀ {old n q}, Opened (T.world w) cfg.openOpts (T.file w) old → w.files q ≠ none → SavedData.file (T.file w) n ≠ SavedData.file q n := by
      rintro old n q h hq hh
      simp only [SavedData.file.injEq, and_true] at hh
      subst hh
      exact hq (hopen h)
    cases h5 with
    | hang g1 g2 => exact ⟨hkeep g1 g2, by simp⟩
    | noFile g1 g2 _ => exact ⟨fun q c h => by rw [g2, hws]; exact h, by simp⟩
    | cut g1 g2 g3 g4 g5 g6 =>
      refine ⟨hkeep g2 g6, fun q n hq => ⟨by simp, fun r hh => ?_⟩⟩
      simp only [SaveRes.part.injEq, SavedData.file.injEq] at hh
      obtain ⟨⟨rfl, _⟩, _⟩ := hh
      exact hq (hopen g2)
    | cut0 g1 g2 g3 g4 g5 => exact ⟨hkeep g2 g5, by simp⟩
    | full g1 g2 g3 g4 =>
      refine ⟨hkeep g2 g3, fun q n hq => ⟨fun hh => ?_, by simp⟩⟩
      simp only [SaveRes.full.injEq, SavedData.file.injEq] at hh
      obtain ⟨rfl, _⟩ := hh
      exact hq (hopen g2)
    | part g1 g2 g3 g4 g5 =>
      refine ⟨hkeep g2 g3, fun q n hq => ⟨by simp, fun r hh => ?_⟩⟩
      simp only [SaveRes.part.injEq, SavedData.file.injEq] at hh
      obtain ⟨⟨rfl, _⟩, _⟩ := hh
      exact hq (hopen g2)
    | error g1 g2 g3 g4 => exact ⟨hkeep g2 g3, by simp⟩

/-- C45_file_size and C46_no_overwrite: a file that could not be written completely, and one that exists. -/
example : (Target.save (.path [b!"x"]) { Settings.default with memoryThreshold := 4 } 10 { Sample.disk with writes := [.accept 2, .err (.other 7)] } Sample.s1).1 =
    .part (.file [b!"x"] 2) (.io (.other 7)) ∧
    (Target.save (.path [b!"x"]) { Settings.default with memoryThreshold := 4 } 10 { Sample.disk with files := fun _ => some b!"old" } Sample.s1).1 =
    .error .alreadyExists := by decide +kernel

/-! ## C47 -/

/-- C47: `write_to` returns, and it is a full copy of the whole field, or a copy of the part taken, in which case the reader continues behind it:
because the field has more bytes than the limit, or because the stream or the destination failed. The count reported is exact, never more than the limit, and an error
without a count means that nothing was copied. -/
theorem C47_write_to (hD : D.Sane) (hr : Reachable D evs b s) (k : Sink) :
    (∃ n, ∀ fuel, n ≤ fuel → (writeTo cfg fuel k s).1 ≠ .hang) ∧
    ∀ fuel r k' t, writeTo cfg fuel k s = (r, k', t) → r ≠ .hang →
      ∃ taken, k'.got = k.got ++ taken ∧ s.unread = taken ++ t.unread ∧ (∃ os, s.run os = (taken, t)) ∧
        (cfg.sizeLimit < u64Max → taken.length ≤ cfg.sizeLimit) ∧
        ((r = .full taken.length ∧ ∃ os, (s.run os).2.AtEof ∧ (s.run os).1 = taken) ∨
         (r = .part taken.length .sizeLimit ∧ cfg.sizeLimit < u64Max ∧ ∃ os more, (s.run os).1 = taken ++ more ∧ cfg.sizeLimit < (taken ++ more).length) ∨
         (∃ e, r = .part taken.length (.io e) ∧ ((Ev.err e ∈ s.evs ∧ e ≠ .interrupted) ∨ ∃ ev ∈ k.script, ev.FailsWith e)) ∨
         (∃ e, r = .error e ∧ taken = [] ∧ Ev.err e ∈ s.evs ∧ e ≠ .interrupted)) := by
  have hi := (hr.spec hD).1
  refine ⟨⟨s.enough 0 + 1, fun fuel hf => writeTo_ends cfg k hi hf⟩, fun fuel r k' t h hh => ?_⟩
  have hs := writeTo_spec cfg fuel k hi
  rw [h] at hs
  simp only at hs
  cases hs with
  | hang => exact absurd rfl hh
  | full h1 h2 h3 =>
    obtain ⟨h4, s1, hs1, heof, _⟩ := h1
    obtain ⟨os, hos⟩ := hs1.run hi
    exact ⟨_, h2.1, h4.unread hi, h4.run hi, h3, .inl ⟨rfl, os, by rw [hos]; exact heof, by rw [hos]⟩⟩
  | limit h1 h2 h3 h4 h5 =>
    obtain ⟨more, t', ht', hlt⟩ := h5
    obtain ⟨os, hos⟩ := ht'.run hi
    exact ⟨_, h2.1, h1.unread hi, h1.run hi, fun _ => h3, .inr (.inl ⟨rfl, h4, os, more, by rw [hos], hlt⟩)⟩
  | io h1 h2 h3 h4 => exact ⟨_, h2.1, h1.unread hi, h1.run hi, h3, .inr (.inr (.inl ⟨_, rfl, h4⟩))⟩
  | error h1 h2 h3 => exact ⟨_, h2.1, h1.unread hi, h1.run hi, fun _ => Nat.zero_le _, .inr (.inr (.inr ⟨_, rfl, rfl, h3⟩))⟩

example : (writeTo { Settings.default with sizeLimit := 5 } 10 { script := [.accept 2, .err .interrupted, .accept 1], got := b!">" } Sample.s1).1 = .full 5 ∧
    (writeTo { Settings.default with sizeLimit := 5 } 10 { script := [.accept 2, .err .interrupted, .accept 1], got := b!">" } Sample.s1).2.1.got = b!">hello" ∧
    (writeTo { Settings.default with sizeLimit := 4 } 10 { script := [], got := [] } Sample.s1).1 = .part 0 .sizeLimit := by decide +kernel

/-! ## C48 -/

/-- C48 for partial results: what was saved followed by what is still unread is what was unread before. -/
def PartialLosesNothing (D : Deps) : Prop :=
  ∀ (evs : List Ev) (b : Bytes) (s : BR) (cfg : Settings) (fuel : Nat) (T : Target) (w w' : World) (t : BR),
    cfg.Typed → Reachable D evs b s → OpensEmpty cfg w (T.file w) →
    ∀ d r c, T.save cfg fuel w s = (.part d r, w', t) → d.readable w' = .ok c → s.unread = c ++ t.unread

/-- C48 for errors, after which nothing is saved: what is still unread is what was unread before. -/
def ErrorLosesNothing (D : Deps) : Prop :=
  ∀ (evs : List Ev) (b : Bytes) (s : BR) (cfg : Settings) (fuel : Nat) (T : Target) (w w' : World) (t : BR),
    cfg.Typed → Reachable D evs b s → OpensEmpty cfg w (T.file w) →
    ∀ e, T.save cfg fuel w s = (.error e, w', t) → s.unread = t.unread

/-- The full claim C48: both. -/
def UnfinishedLosesNothing (D : Deps) : Prop := PartialLosesNothing D ∧ ErrorLosesNothing D

/-- C48, as far as it holds: for every partial result, except a file of which not even the part that was in memory could be written; for an error
unless the disk was needed. Missing for the full claim: these two cases. -/
theorem C48_no_loss_partial (hD : D.Sane) (hr : Reachable D evs b s) (ho : OpensEmpty cfg w (T.file w)) :
    (∀ d r, T.save cfg fuel w s = (.part d r, w', t) → ∃ c, d.readable w' = .ok c ∧
      (s.unread = c ++ t.unread ∨
       (d.isMemory = false ∧ (∃ lost, lost ≠ [] ∧ s.unread = c ++ lost ++ t.unread) ∧ ∃ e, r = .io e ∧ ∃ ev ∈ w.writes, ev.FailsWith e))) ∧
    (∀ e, T.save cfg fuel w s = (.error e, w', t) → s.unread = t.unread ∨ ∃ os, Nat.min cfg.sizeLimit cfg.memoryThreshold < (s.run os).1.length) := by
  have hi := (hr.spec hD).1
  have hwr := (T.world_same w).2.2
  constructor
  · intro d r h
    cases Target.save_spec hi h with
    | partText h1 h2 h3 h4 h5 h6 => exact ⟨_, rfl, .inl (h2.unread hi)⟩
    | partBytes h1 h2 h3 h4 => exact ⟨_, rfl, .inl (h2.unread hi)⟩
    | @file bytes s1 _ h1 h2 h3 h4 h5 =>
      cases h5 with
      | @cut old k e g1 g2 g3 g4 g5 g6 =>
        subst g1
        rw [(ho.world (T := T)).overlay g2] at g6
        refine ⟨_, by simp only [SavedData.readable]; rw [g6.at], .inr ⟨rfl, ⟨bytes.drop k, ?_, ?_⟩, _, rfl, hwr ▸ g5⟩⟩
        · intro h
          have := congrArg List.length h
          rw [List.length_drop, List.length_nil] at this
          omega
        · rw [List.take_append_drop]; exact h1.unread hi
      | part g1 g2 g3 g4 g5 =>
        rw [(ho.world (T := T)).overlay g2] at g3
        exact ⟨_, by simp only [SavedData.readable]; rw [g3.at], .inl ((h1.trans g1).unread hi)⟩
  · intro e h
    cases Target.save_spec hi h with
    | error h1 h2 h3 => exact .inl (h2.unread hi)
    | file h1 h2 h3 h4 h5 =>
      obtain ⟨more, t', ht', hlt⟩ := h4
      obtain ⟨os, hos⟩ := ht'.run hi
      exact .inr ⟨os, by rw [hos]; exact hlt⟩

/-- C48 is false of the code: if the file cannot be created, the bytes read into memory are gone. -/
theorem C48_false : ¬ ErrorLosesNothing refDeps := by
  intro h
  have := (h Sample.evsLong Sample.bnd Sample.sLong { Settings.default with memoryThreshold := 1500 } 10 (.path [b!"x"])
    { Sample.disk with opens := [some (.other 28)] } _ _ ⟨by decide, by decide, by decide, rfl⟩ Sample.sLong_reachable (.inl rfl)) (.other 28)
    (Sample.save_eq (by decide +kernel))
  have := congrArg List.length this
  revert this
  decide +kernel

/-- C48 is false of the code also for a partial result: if writing what is in memory to the file fails in the middle, the rest of it is gone. -/
theorem C48_false_partial_result : ¬ PartialLosesNothing refDeps := by
  intro h
  have h5 : (Target.save (.path [b!"x"]) { Settings.default with memoryThreshold := 1500 } 10
    { Sample.disk with writes := [.accept 5, .err (.other 28)] } Sample.sLong).2.1.files [b!"x"] = some b!"aaaaa" := by decide +kernel
  have := (h Sample.evsLong Sample.bnd Sample.sLong { Settings.default with memoryThreshold := 1500 } 10 (.path [b!"x"])
    { Sample.disk with writes := [.accept 5, .err (.other 28)] } _ _ ⟨by decide, by decide, by decide, rfl⟩ Sample.sLong_reachable (.inl rfl))
    (.file [b!"x"] 5) (.io (.other 28)) b!"aaaaa" (Sample.save_eq (by decide +kernel)) (by rw [SavedData.readable, h5])
  have := congrArg List.length this
  revert this
  decide +kernel

/-- C48_no_loss_partial: nothing is lost by the size limit. -/
example : ∃ c, (SavedData.file [b!"x"] 2200).readable (Target.save (.path [b!"x"]) { Settings.default with sizeLimit := 2000, memoryThreshold := 2000 } 10 Sample.disk Sample.sLong).2.1 = .ok c ∧
    Sample.sLong.unread = c ++ (Target.save (.path [b!"x"]) { Settings.default with sizeLimit := 2000, memoryThreshold := 2000 } 10 Sample.disk Sample.sLong).2.2.unread := by
  obtain ⟨c, hc, h⟩ := (C48_no_loss_partial (T := .path [b!"x"]) (cfg := { Settings.default with sizeLimit := 2000, memoryThreshold := 2000 }) (fuel := 10) (w := Sample.disk) refDeps_sane Sample.sLong_reachable (.inl rfl)).1
    (.file [b!"x"] 2200) .sizeLimit (Sample.save_eq (by decide +kernel))
  refine ⟨c, hc, h.resolve_right ?_⟩
  rintro ⟨_, _, e, he, _⟩
  cases he

/-! ## C54, C58 -/

/-- C54: whatever a save reports can be read back, and its size is the number of bytes that come out. -/
theorem C54_readable (hD : D.Sane) (hr : Reachable D evs b s) (hsz : (Ev.bytes evs).length ≤ u64Max) (ho : OpensEmpty cfg w (T.file w))
    {d : SavedData} {r : Reason} (h : T.save cfg fuel w s = (.full d, w', t) ∨ T.save cfg fuel w s = (.part d r, w', t)) :
    ∃ c, d.readable w' = .ok c ∧ d.size = c.length ∧ ∀ x, (d = .text x ∨ d = .bytes x) → c = x := by
  cases d with
  | text x => exact ⟨x, rfl, rfl, by simp⟩
  | bytes x => exact ⟨x, rfl, rfl, by simp⟩
  | file p n =>
    obtain ⟨_, c, h1, h2, _⟩ := C45_file_size hD hr hsz ho h
    exact ⟨c, by simp only [SavedData.readable]; rw [h1], h2, by simp⟩

/-- The full claim C58. -/
def FilenameInTempDir (D : Deps) : Prop :=
  ∀ (evs : List Ev) (b : Bytes) (s : BR) (cfg : Settings) (fuel : Nat) (tmp : Path) (name : Bytes) (w w' : World) (t : BR) (p : Path) (n : Nat),
    cfg.Typed → Reachable D evs b s → withFilename cfg fuel tmp name w s = (.full (.file p n), w', t) → p = tmp ++ [name]

/-- C58, as far as it holds: the file has the name given. Missing for the full claim: it is beside the temporary directory, not inside it. -/
theorem C58_filename_partial (hD : D.Sane) (hr : Reachable D evs b s) {tmp : Path} {name : Bytes} {p : Path} {n : Nat}
    (h : withFilename cfg fuel tmp name w s = (.full (.file p n), w', t)) : p.getLast? = some name ∧ p.dropLast = tmp.dropLast := by
  have hi := (hr.spec hD).1
  have h : (Target.filename tmp name).save cfg fuel w s = (.full (.file p n), w', t) := h
  cases Target.save_spec hi h with
  | file h1 h2 h3 h4 h5 =>
    cases h5 with
    | full => simp [Target.file]

/-- C58 is false of the code. -/
theorem C58_false : ¬ FilenameInTempDir refDeps := by
  intro h
  have h1 : (Target.save (.filename [b!"tmp"] b!"x") { Settings.default with memoryThreshold := 4 } 10 Sample.disk Sample.s1).1 = .full (.file [b!"x"] 5) := by
    decide +kernel
  have := h Sample.evs Sample.bnd Sample.s1 { Settings.default with memoryThreshold := 4 } 10 [b!"tmp"] b!"x" Sample.disk _ _ [b!"x"] 5
    ⟨by decide, by decide, by decide, rfl⟩ Sample.s1_reachable (Sample.save_eq h1)
  simp at this

/-- C54_readable and C58_filename_partial: a file, full and cut off by a failing disk. -/
example : (withFilename { Settings.default with memoryThreshold := 4 } 10 [b!"tmp", b!"dir"] b!"name" Sample.disk Sample.s1).1 = .full (.file [b!"tmp", b!"name"] 5) ∧
    (Target.save (.path [b!"x"]) { Settings.default with memoryThreshold := 4 } 10 { Sample.disk with writes := [.accept 2, .err (.other 7)] } Sample.s1).1 = .part (.file [b!"x"] 2) (.io (.other 7)) ∧
    (Ev.bytes Sample.evs).length ≤ u64Max ∧ OpensEmpty { Settings.default with memoryThreshold := 4 } { Sample.disk with writes := [.accept 2, .err (.other 7)] } [b!"x"] :=
  ⟨by decide +kernel, by decide +kernel, by decide +kernel, .inl rfl⟩

end Multipart

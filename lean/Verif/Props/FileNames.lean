import Verif.Model.FileNames
import Verif.Spec.FileNames
import Verif.Props.Collisions
import Verif.Props.OpenOpts
import Verif.Props.Success
/-!
# Random file names that are taken (C115)
-/
namespace Multipart

variable {D : Deps} {evs : List Ev} {b : Bytes} {s t : BR} {cfg : Settings} {w w' : World} {n m : Nat} {names names' used : List Bytes} {rs rs' : List UInt32}

/-! ## All sequences of names -/

theorem randomAlphanumeric_add {y : Bytes} {rest rest' : List UInt32} : ∀ {n : Nat} {rs : List UInt32} {x : Bytes}, randomAlphanumeric n rs = some (x, rest) → randomAlphanumeric m rest = some (y, rest') →
    randomAlphanumeric (n + m) rs = some (x ++ y, rest') := by
  intro n
  induction n with
  | zero =>
    intro rs x h1 h2
    simp only [randomAlphanumeric, Option.some.injEq, Prod.mk.injEq] at h1
    obtain ⟨rfl, rfl⟩ := h1
    simpa using h2
  | succ n ih =>
    intro rs x h1 h2
    rw [show n + 1 + m = (n + m) + 1 by omega]
    simp only [randomAlphanumeric] at h1 ⊢
    cases hs : sampleAlnum rs with
    | none => rw [hs] at h1; simp at h1
    | some p =>
      rw [hs] at h1
      simp only [Option.map_eq_some_iff] at h1 ⊢
      obtain ⟨⟨u, v⟩, h3, h4⟩ := h1
      simp only [Prod.mk.injEq] at h4
      obtain ⟨rfl, rfl⟩ := h4
      exact ⟨_, ih h3 h2, rfl⟩

theorem randomAlphanumeric_split {rest' : List UInt32} : ∀ {n : Nat} {rs : List UInt32} {z : Bytes}, randomAlphanumeric (n + m) rs = some (z, rest') →
    ∃ x y rest, z = x ++ y ∧ randomAlphanumeric n rs = some (x, rest) ∧ randomAlphanumeric m rest = some (y, rest') := by
  intro n
  induction n with
  | zero => intro rs z h; exact ⟨[], z, rs, rfl, rfl, by simpa using h⟩
  | succ n ih =>
    intro rs z h
    rw [show n + 1 + m = (n + m) + 1 by omega] at h
    simp only [randomAlphanumeric] at h
    cases hs : sampleAlnum rs with
    | none => rw [hs] at h; simp at h
    | some p =>
      rw [hs] at h
      simp only [Option.map_eq_some_iff] at h
      obtain ⟨⟨u, v⟩, h3, h4⟩ := h
      simp only [Prod.mk.injEq] at h4
      obtain ⟨rfl, rfl⟩ := h4
      obtain ⟨x, y, rest, rfl, g1, g2⟩ := ih h3
      exact ⟨p.1 :: x, y, rest, rfl, by simp only [randomAlphanumeric, hs, g1, Option.map_some], g2⟩

/-- C115: the random names have 12 letters or digits. -/
theorem C115_names : ∀ {n : Nat} {names : List Bytes} {rs : List UInt32}, randFilenames n rs = some (names, rs') → FileNames n names := by
  intro n
  induction n with
  | zero =>
    intro names rs h
    simp only [randFilenames, Option.some.injEq, Prod.mk.injEq] at h
    obtain ⟨rfl, -⟩ := h
    exact ⟨rfl, by simp⟩
  | succ n ih =>
    intro names rs h
    simp only [randFilenames] at h
    cases hs : randFilename rs with
    | none => rw [hs] at h; simp at h
    | some p =>
      rw [hs] at h
      simp only [Option.map_eq_some_iff] at h
      obtain ⟨⟨u, v⟩, h3, h4⟩ := h
      simp only [Prod.mk.injEq] at h4
      obtain ⟨rfl, rfl⟩ := h4
      obtain ⟨g1, g2⟩ := ih h3
      exact ⟨by simp [g1], fun name hn => (List.mem_cons.mp hn).elim (fun e => e ▸ randomAlphanumeric_alnum hs) (g2 name)⟩

theorem randFilenames_iff : ∀ {n : Nat} {names : List Bytes} {rs : List UInt32}, FileNames n names →
    (randFilenames n rs = some (names, rs') ↔ randomAlphanumeric (12 * n) rs = some (names.flatten, rs')) := by
  intro n
  induction n with
  | zero =>
    intro names rs h
    have : names = [] := List.length_eq_zero_iff.mp h.1
    subst this
    simp [randFilenames, randomAlphanumeric]
  | succ n ih =>
    intro names rs h
    obtain ⟨x, l, rfl⟩ : ∃ x l, names = x :: l := by
      cases names with
      | nil => exact absurd h.1 (by simp)
      | cons x l => exact ⟨x, l, rfl⟩
    have hl : FileNames n l := ⟨by simpa using h.1, fun y hy => h.2 y (by simp [hy])⟩
    have hx := h.2 x (by simp)
    rw [show 12 * (n + 1) = 12 + 12 * n by omega]
    simp only [randFilenames, List.flatten_cons]
    constructor
    · intro g
      cases hs : randFilename rs with
      | none => rw [hs] at g; simp at g
      | some p =>
        rw [hs] at g
        simp only [Option.map_eq_some_iff] at g
        obtain ⟨⟨u, v⟩, h3, h4⟩ := g
        simp only [Prod.mk.injEq, List.cons.injEq] at h4
        obtain ⟨⟨rfl, rfl⟩, rfl⟩ := h4
        exact randomAlphanumeric_add hs ((ih hl).mp h3)
    · intro g
      obtain ⟨x', y', rest, e, g1, g2⟩ := randomAlphanumeric_split g
      obtain ⟨rfl, rfl⟩ := List.append_inj e (by rw [hx.1, (randomAlphanumeric_alnum g1).1])
      rw [show randFilename rs = some (x, rest) from g1]
      simp only [(ih hl).mpr g2, Option.map_some]

theorem FileNames.flatten (h : FileNames n names) : names.flatten.length = 12 * n ∧ ∀ c ∈ names.flatten, isAlnum c := by
  constructor
  · obtain ⟨rfl, h⟩ := h
    induction names with
    | nil => rfl
    | cons x l ih =>
      rw [List.flatten_cons, List.length_append, List.length_cons, (h x (by simp)).1, ih fun y hy => h y (by simp [hy])]
      omega
  · intro c hc
    obtain ⟨x, hx, hc⟩ := List.mem_flatten.mp hc
    exact (h.2 x hx).2 c hc

/-- C115: all sequences of names are equally likely. The sequences of random numbers that give one correspond one to one to those, of the same length and with the same numbers left, that give another. -/
theorem C115_uniform (h : FileNames n names) (h' : FileNames n names') : ∃ f g : List UInt32 → List UInt32,
    (∀ rs rest, randFilenames n rs = some (names, rest) → (f rs).length = rs.length ∧ randFilenames n (f rs) = some (names', rest) ∧ g (f rs) = rs) ∧
    (∀ rs rest, randFilenames n rs = some (names', rest) → (g rs).length = rs.length ∧ randFilenames n (g rs) = some (names, rest) ∧ f (g rs) = rs) := by
  obtain ⟨l1, a1⟩ := h.flatten
  obtain ⟨l2, a2⟩ := h'.flatten
  refine ⟨retarget selecting names'.flatten, retarget selecting names.flatten, fun rs rest hr => ?_, fun rs rest hr => ?_⟩
  · have := retarget_spec selecting_top selecting_back (b := names.flatten) (b' := names'.flatten) (rs := rs) (rest := rest) (by rw [l1]; exact (randFilenames_iff h).mp hr) a1 a2 (by rw [l1, l2])
    rw [l2] at this
    exact ⟨this.1, (randFilenames_iff h').mpr this.2.1, this.2.2⟩
  · have := retarget_spec selecting_top selecting_back (b := names'.flatten) (b' := names.flatten) (rs := rs) (rest := rest) (by rw [l2]; exact (randFilenames_iff h').mp hr) a2 a1 (by rw [l1, l2])
    rw [l1] at this
    exact ⟨this.1, (randFilenames_iff h).mpr this.2.1, this.2.2⟩

/-- The hypotheses of C115_names and C115_uniform are met: two names, and two equal ones. -/
example : FileNames 2 [b!"ABCDEFGHabcd", b!"012345678901"] ∧ ∃ rs rest, randFilenames 2 rs = some (List.replicate 2 (List.replicate 12 0x45), rest) :=
  ⟨⟨rfl, by unfold isAlnum; decide⟩, List.replicate 17 0xFFFFFFFF ++ List.replicate 30 0x12345678, List.replicate 6 0x12345678, by decide +kernel⟩

/-! ## Few of them clash -/

theorem sequences (n : Nat) : ∃ l : List (List Bytes), l.Nodup ∧ l.length = (62 ^ 12) ^ n ∧ ∀ names, names ∈ l ↔ FileNames n names := by
  obtain ⟨l0, k1, k2, k3⟩ := strings 12
  induction n with
  | zero => exact ⟨[[]], by simp, by simp, fun names => by simp [FileNames]; rintro rfl; simp⟩
  | succ n ih =>
    obtain ⟨l, h1, h2, h3⟩ := ih
    refine ⟨l0.flatMap fun c => l.map (c :: ·), ?_, ?_, ?_⟩
    · refine List.pairwise_flatMap.mpr ⟨fun c _ => List.pairwise_map.mpr (h1.imp fun h h' => h (List.cons.inj h').2), k1.imp ?_⟩
      intro c c' hc x hx y hy hxy
      simp only [List.mem_map] at hx hy
      obtain ⟨x, -, rfl⟩ := hx
      obtain ⟨y, -, rfl⟩ := hy
      exact hc (List.cons.inj hxy).1
    · rw [List.length_flatMap]
      simp only [List.length_map, h2, List.map_const', List.sum_replicate_nat, k2, Nat.pow_succ (n := 62 ^ 12)]
      exact Nat.mul_comm _ _
    · intro names
      simp only [List.mem_flatMap, List.mem_map, h3, k3]
      constructor
      · rintro ⟨c, hc, x, ⟨hx, hx'⟩, rfl⟩
        exact ⟨by simp [hx], fun d hd => (List.mem_cons.mp hd).elim (fun e => e ▸ hc) (hx' d)⟩
      · rintro ⟨hb, hb'⟩
        cases names with
        | nil => simp at hb
        | cons c x => exact ⟨c, hb' c (by simp), x, ⟨by simpa using hb, fun d hd => hb' d (by simp [hd])⟩, rfl⟩

theorem clashes : ∀ (n : Nat) (used : List Bytes), ∃ bad : List (List Bytes), 2 * 62 ^ 12 * bad.length ≤ (2 * (n * used.length) + n * (n - 1)) * (62 ^ 12) ^ n ∧
    ∀ names, FileNames n names → names ∉ bad → NoClash used names := by
  obtain ⟨l0, k1, k2, k3⟩ := strings 12
  intro n
  induction n with
  | zero =>
    intro used
    refine ⟨[], by simp, fun names h _ => ?_⟩
    have : names = [] := List.length_eq_zero_iff.mp h.1
    subst this
    exact ⟨List.nodup_nil, by simp⟩
  | succ n ih =>
    intro used
    obtain ⟨l, -, h2, h3⟩ := sequences n
    generalize 62 ^ 12 = N at *
    have hf : ∃ f : Bytes → List (List Bytes), ∀ c, 2 * N * (f c).length ≤ (2 * (n * (used.length + 1)) + n * (n - 1)) * N ^ n ∧ ∀ names, FileNames n names → names ∉ f c → NoClash (c :: used) names :=
      ⟨fun c => Classical.choose (ih (c :: used)), fun c => Classical.choose_spec (ih (c :: used))⟩
    obtain ⟨f, hf⟩ := hf
    refine ⟨(used.flatMap fun c => l.map (c :: ·)) ++ l0.flatMap fun c => (f c).map (c :: ·), ?_, ?_⟩
    · have e1 : (used.flatMap fun c => l.map (c :: ·)).length = used.length * N ^ n := by
        rw [List.length_flatMap]
        simp only [List.length_map, h2, List.map_const', List.sum_replicate_nat]
      have e2 : 2 * N * (l0.flatMap fun c => (f c).map (c :: ·)).length ≤ l0.length * ((2 * (n * (used.length + 1)) + n * (n - 1)) * N ^ n) := by
        rw [List.length_flatMap]
        simp only [List.length_map]
        clear k1 k2 k3
        induction l0 with
        | nil => simp
        | cons c l0 ih =>
          rw [List.map_cons, List.sum_cons, Nat.mul_add, List.length_cons, Nat.add_mul]
          have := (hf c).1
          omega
      rw [k2] at e2
      rw [List.length_append, e1, Nat.mul_add]
      refine Nat.le_trans (Nat.add_le_add_left e2 _) (Nat.le_of_eq ?_)
      have e3 : n * (n - 1) + 2 * n = (n + 1) * n := by
        cases n with
        | zero => rfl
        | succ n => simp only [Nat.add_sub_cancel, Nat.add_mul, Nat.mul_add]; omega
      rw [Nat.pow_succ, Nat.add_sub_cancel]
      have e4 : 2 * N * (used.length * N ^ n) = (2 * used.length) * (N ^ n * N) := by ac_rfl
      have e5 : N * ((2 * (n * (used.length + 1)) + n * (n - 1)) * N ^ n) = (2 * (n * (used.length + 1)) + n * (n - 1)) * (N ^ n * N) := by ac_rfl
      rw [e4, e5, ← Nat.add_mul]
      congr 1
      rw [← e3, Nat.add_mul n 1, Nat.mul_add n]
      omega
    · intro names h hb
      simp only [List.mem_append, List.mem_flatMap, List.mem_map, not_or, not_exists, not_and] at hb
      obtain ⟨b1, b2⟩ := hb
      obtain ⟨x, y, rfl⟩ : ∃ x y, names = x :: y := by
        cases names with
        | nil => exact absurd h.1 (by simp)
        | cons x y => exact ⟨x, y, rfl⟩
      have hy : FileNames n y := ⟨by simpa using h.1, fun z hz => h.2 z (by simp [hz])⟩
      have hx : x ∉ used := fun g => b1 x g y ((h3 y).mpr hy) rfl
      obtain ⟨g1, g2⟩ := (hf x).2 y hy fun g => b2 x ((k3 x).mpr (h.2 x (by simp))) y g rfl
      refine ⟨List.nodup_cons.mpr ⟨fun g => g2 x g (by simp), g1⟩, fun z hz => ?_⟩
      rcases List.mem_cons.mp hz with rfl | hz
      · exact hx
      · exact fun g => g2 z hz (by simp [g])

/-- C115: there are 62 to the power of 12 names, and so many sequences of `n` names; of these, at most the share of n·k + n(n-1)/2 in 62 to the power of 12 has two equal names or one of the `k` names that are in use. -/
theorem C115_few (n : Nat) (used : List Bytes) : ∃ all bad : List (List Bytes), all.Nodup ∧ all.length = (62 ^ 12) ^ n ∧ (∀ names, names ∈ all ↔ FileNames n names) ∧
    2 * 62 ^ 12 * bad.length ≤ (2 * (n * used.length) + n * (n - 1)) * all.length ∧ ∀ names ∈ all, names ∉ bad → NoClash used names := by
  obtain ⟨all, h1, h2, h3⟩ := sequences n
  obtain ⟨bad, h4, h5⟩ := clashes n used
  exact ⟨all, bad, h1, h2, h3, by rw [h2]; exact h4, fun names hn => h5 names ((h3 names).mp hn)⟩

/-- C115: so a request within the limits (see C77) is saved fully with all sequences of names but the share of n·k + n(n-1)/2 in 62 to the power of 12, if `k` files are in the directory and nothing else fails. -/
theorem C115_saved (hD : D.Sane) (hn : NoStall evs) (hne : NoErr evs) (hc : cfg.Typed) (ho : cfg.openOpts.createNew = true) {es : List (FieldHeaders × Bytes)}
    (hp : cfg.textPolicy = .force → ∀ p ∈ es, p.1.isText = true → IsUtf8 p.2) (ht : Nat.min cfg.sizeLimit cfg.memoryThreshold < u64Max ∨ cfg.textPolicy = .ignore)
    (hP : Parts D (dashes ++ b) (Ev.bytes evs) es .closed) (dir : SaveDir) (hl : es.length < cfg.countLimit)
    (hz : ∀ p ∈ es, p.2.length + 2 ≤ cfg.sizeLimit ∨ ((CleanSplit (dashes ++ b) evs ∨ p.2.length + 2 ≤ entryBuf (dashes ++ b)) ∧ p.2.length ≤ cfg.sizeLimit)) (used : List Bytes) :
    ∃ bad : List (List Bytes), 2 * 62 ^ 12 * bad.length ≤ (2 * (es.length * used.length) + es.length * (es.length - 1)) * (62 ^ 12) ^ es.length ∧
      ∀ rs rs' names, randFilenames es.length rs = some (names, rs') → names ∉ bad →
        ∀ w : World, names <+: w.names → (∀ name, w.files (dir.asPath ++ [name]) ≠ none → name ∈ used) → (∀ e, some e ∉ w.mkdirs) → (∀ e, some e ∉ w.opens) → WritesFine w.writes →
          ∃ n, ∀ fuel, n ≤ fuel → ∃ e w' t fs, withEntries D cfg fuel (Entries.new dir) w (withBody evs b) = (.full e, w', t) ∧
            GroupedByName e.fields fs ∧ e.fieldsCount = es.length ∧ All2 (SavedAs b evs w') fs es := by
  obtain ⟨bad, h1, h2⟩ := clashes es.length used
  refine ⟨bad, h1, fun rs rs' names hr hb w hw hu hm hop hwr => ?_⟩
  have hf := C115_names hr
  obtain ⟨g1, g2⟩ := h2 names hf hb
  obtain ⟨more, hmore⟩ := hw
  have htake : w.names.take es.length = names := by rw [← hmore, List.take_left' hf.1]
  exact C77_request_succeeds hD hn hne hc ho hp ht hP dir hl hz
    ⟨hm, hop, hwr, by rw [← hmore, List.length_append, hf.1]; omega, by rw [htake]; exact g1, fun name hnm => Decidable.byContradiction fun g => g2 name (htake ▸ hnm) (hu name g)⟩

/-- The hypotheses are met: two parts that are both saved in files, into a directory with one file. Of 62^24 sequences of names, at most 3·62^12 are bad. -/
example : ∃ bad : List (List Bytes), 2 * 62 ^ 12 * bad.length ≤ (2 * (2 * 1) + 2 * 1) * (62 ^ 12) ^ 2 ∧ ∀ rs rs' names, randFilenames 2 rs = some (names, rs') → names ∉ bad →
    ∀ w : World, names <+: w.names → (∀ name, w.files ([b!"d"] ++ [name]) ≠ none → name ∈ [b!"ABCDEFGHabcd"]) → (∀ e, some e ∉ w.mkdirs) → (∀ e, some e ∉ w.opens) → WritesFine w.writes →
      ∃ n, ∀ fuel, n ≤ fuel → ∃ e w' t fs, withEntries refDeps { Settings.default with memoryThreshold := 0, sizeLimit := 5, countLimit := 3 } fuel (Entries.new (.perm [b!"d"])) w
        (withBody Sample.evsTwo Sample.bnd) = (.full e, w', t) ∧ GroupedByName e.fields fs ∧ e.fieldsCount = 2 ∧ All2 (SavedAs Sample.bnd Sample.evsTwo w') fs [(Sample.fh, b!"one"), (Sample.fh, b!"two")] :=
  C115_saved refDeps_sane (by decide +kernel) (by intro e; simp [Sample.evsTwo]) ⟨by decide, by decide, by decide, rfl⟩ rfl (fun h => by simp [Settings.default] at h) (.inl (by decide)) Sample.partsTwo (.perm [b!"d"])
    (by decide) (by intro p hp; simp at hp; rcases hp with rfl | rfl <;> exact .inl (by decide)) [b!"ABCDEFGHabcd"]

/-- C115: with a name that is taken, a field that does not fit in memory is refused with "already exists" (no other name is tried), and the file that has this name stays as it is. -/
theorem C115_taken (hD : D.Sane) (hr : Reachable D evs b s) (he : OnlyInterrupted evs) (hsz : (Ev.bytes evs).length ≤ u64Max) (hm : ∀ e, some e ∉ w.mkdirs) (hop : ∀ e, some e ∉ w.opens)
    (ho : cfg.openOpts.createNew = true) (hv : cfg.openOpts.Valid) (hl : cfg.memoryThreshold < cfg.sizeLimit) (hmax : cfg.memoryThreshold < u64Max) (hp : cfg.textPolicy ≠ .force)
    (hlen : ∀ os, (s.run os).2.AtEof → cfg.memoryThreshold < (s.run os).1.length) {d : Path} {name : Bytes} {more : List Bytes} {c : Bytes} (hname : w.names = name :: more) (hfile : w.files (d ++ [name]) = some c) :
    ∃ n, ∀ fuel, n ≤ fuel → (Target.save (.dir d) cfg fuel w s).1 = .error .alreadyExists ∧ (Target.save (.dir d) cfg fuel w s).2.1.files = w.files ∧
      (Target.save (.temp d) cfg fuel w s).1 = .error .alreadyExists ∧ (Target.save (.temp d) cfg fuel w s).2.1.files = w.files := by
  have hmem : Nat.min cfg.sizeLimit cfg.memoryThreshold < u64Max := Nat.lt_of_le_of_lt (Nat.min_le_right _ _) hmax
  have key : ∀ T : Target, T.file w = d ++ [name] → ∃ n, ∀ fuel, n ≤ fuel → (T.save cfg fuel w s).1 = .error .alreadyExists ∧ (T.save cfg fuel w s).2.1.files = w.files := by
    intro T hT
    have href : OpenRefused w cfg.openOpts (T.file w) .alreadyExists := .exists hv (by rw [hT, hfile]; simp) ho
    obtain ⟨⟨n, hn⟩, -⟩ := C44_terminates_partial (T := T) (w := w) (cfg := cfg) hD hr (.inl hmem)
    exact ⟨n, fun fuel hf => ⟨(C113_refused hD hr he hsz hm hop href hl hp hlen).resolve_left (hn fuel hf), (C113_others hD hr).2 _ href⟩⟩
  obtain ⟨n1, h1⟩ := key (.dir d) (by simp [Target.file, hname])
  obtain ⟨n2, h2⟩ := key (.temp d) (by simp [Target.file, hname])
  exact ⟨Nat.max n1 n2, fun fuel hf => ⟨(h1 fuel (Nat.le_trans (Nat.le_max_left _ _) hf)).1, (h1 fuel (Nat.le_trans (Nat.le_max_left _ _) hf)).2,
    (h2 fuel (Nat.le_trans (Nat.le_max_right _ _) hf)).1, (h2 fuel (Nat.le_trans (Nat.le_max_right _ _) hf)).2⟩⟩

/-- The hypotheses are met: five bytes that do not fit into four. -/
example : ∃ n, ∀ fuel, n ≤ fuel → (Target.save (.dir [b!"d"]) { Settings.default with memoryThreshold := 4 } fuel { Sample.oldDisk with names := [b!"ABCDEFGHabcd"] } Sample.s1).1 = .error .alreadyExists ∧
    (Target.save (.dir [b!"d"]) { Settings.default with memoryThreshold := 4 } fuel { Sample.oldDisk with names := [b!"ABCDEFGHabcd"] } Sample.s1).2.1.files = Sample.oldDisk.files ∧
    (Target.save (.temp [b!"d"]) { Settings.default with memoryThreshold := 4 } fuel { Sample.oldDisk with names := [b!"ABCDEFGHabcd"] } Sample.s1).1 = .error .alreadyExists ∧
    (Target.save (.temp [b!"d"]) { Settings.default with memoryThreshold := 4 } fuel { Sample.oldDisk with names := [b!"ABCDEFGHabcd"] } Sample.s1).2.1.files = Sample.oldDisk.files := by
  refine C115_taken (w := { Sample.oldDisk with names := [b!"ABCDEFGHabcd"] }) refDeps_sane Sample.s1_reachable (fun e h => by simp [Sample.evs] at h) (by decide +kernel) (by simp [Sample.oldDisk, Sample.disk]) (by simp [Sample.oldDisk, Sample.disk]) rfl
    ⟨.inl rfl, fun _ _ => rfl⟩ (by decide) (by decide) (by simp [Settings.default]) ?_ rfl rfl
  intro os h
  rcases C01_field_bytes_partial (dat := b!"hello") refDeps_sane (by decide +kernel) ⟨[], rfl⟩ Sample.entry1 (.crlf (by decide +kernel) ⟨b!"--b--\r\nepi", by decide +kernel⟩) os h with h | ⟨h, -⟩ <;> rw [h] <;> decide

end Multipart

import Verif.Spec.ServerLife
import Verif.Props.Whole
import Verif.Props.Success
/-!
# C119: one request after the other
-/
namespace Multipart

variable {D : Deps} {evs : List Ev} {b : Bytes} {s t : BR} {cfg : Settings} {fuel : Nat} {w w' : World} {e : Entries} {r : SaveRes Entries PartialEntries} {dir : Path}

def SaveRes.returns {α β : Type} : SaveRes α β → Bool
  | .hang => false
  | .panic => false
  | _ => true

/-- Saving a request changes no file that exists. -/
theorem withEntries_keeps (hD : D.Sane) (hr : Reachable D evs b s) (ho : cfg.openOpts.createNew = true) (h : withEntries D cfg fuel e w s = (r, w', t)) (hh : r ≠ .hang) (hp : r ≠ .panic)
    {q : Path} {c : Bytes} (hq : w.files q = some c) : w'.files q = some c := by
  obtain ⟨fs, w1, s1, h1, -, h3⟩ := withEntries_spec h
  have hq1 := h1.keeps hD ho hr hq
  have hr1 := h1.reachable hD hr
  rcases h3 with h3 | ⟨h3, -⟩
  · cases h3 with
    | full => exact hq1
    | count => exact hq1
    | read => exact hq1
    | part h4 _ h5 => exact Target.save_keeps _ hD (hr1.entry h4) h5 ho hq1
    | error h4 _ h5 => exact Target.save_keeps _ hD (hr1.entry h4) h5 ho hq1
    | panic => exact absurd rfl hp
    | hang => exact absurd rfl hh
  · exact absurd h3 hh

theorem ServerStep.Does.keeps (hD : D.Sane) {x : ServerStep} (h : x.Does D w w') {q : Path} {c : Bytes} (hs : x.Spares q) (hq : w.files q = some c) : w'.files q = some c := by
  cases h with
  | @withDir cfg fuel dir evs b r _ t h1 h2 h3 =>
    unfold requestWithDir at h1
    rcases hm : w.createDirAll dir with ⟨o, w1⟩
    have hw1 : w1.files q = some c := by
      have := (World.createDirAll_same w dir).1
      rw [hm] at this
      simp only at this
      rw [this]; exact hq
    rw [hm] at h1
    cases o with
    | some er => simp only [Prod.mk.injEq] at h1; rw [← h1.2.1]; exact hw1
    | none => exact withEntries_keeps hD ⟨[], rfl⟩ hs h1 h2 h3 hw1
  | @temp cfg fuel made evs b r _ t h1 h2 h3 =>
    unfold requestTemp at h1
    cases made with
    | error er => simp only [Prod.mk.injEq] at h1; rw [← h1.2.1]; exact hq
    | ok dir => exact withEntries_keeps hD ⟨[], rfl⟩ hs h1 h2 h3 hq
  | @drop d fail =>
    cases d with
    | temp p => rw [(SaveDir.drop_temp (fail := fail) (w := w) (.temp p) rfl).2 q hs]; exact hq
    | perm p => exact hq

/-- C119: a file stays as it is whatever requests the server saves, with whatever results, and whatever temporary directories it removes that are not above the file. (New files only, which is the default.) -/
theorem C119_files_kept (hD : D.Sane) {xs : List ServerStep} (h : Serves D w xs w') {q : Path} {c : Bytes} (hq : w.files q = some c) (hx : ∀ x ∈ xs, x.Spares q) : w'.files q = some c := by
  induction h with
  | nil => exact hq
  | cons h1 _ ih => exact ih (h1.keeps hD (hx _ (List.mem_cons_self ..)) hq) (fun x hm => hx x (List.mem_cons_of_mem _ hm))

/-- C119: what was saved can be read back later as it could at first. -/
theorem C119_kept (hD : D.Sane) {xs : List ServerStep} (h : Serves D w xs w') {d : SavedData} {c : Bytes} (hd : d.readable w = .ok c)
    (hx : ∀ p n, d = .file p n → ∀ x ∈ xs, x.Spares p) : d.readable w' = .ok c := by
  cases d with
  | text => exact hd
  | bytes => exact hd
  | file p n =>
    simp only [SavedData.readable] at hd ⊢
    cases hp : w.files p with
    | none => rw [hp] at hd; simp at hd
    | some c' => rw [hp] at hd; rw [C119_files_kept hD h hp (hx p n rfl)]; exact hd

theorem SaveRes.returns_ne {α β : Type} {r : SaveRes α β} (h : r.returns = true) : r ≠ .hang ∧ r ≠ .panic := by
  cases r <;> simp_all [SaveRes.returns]

theorem ServerStep.does_withDir {dir : Path} (h : (requestWithDir D cfg fuel dir w (withBody evs b)).1.returns = true) (hw : w' = (requestWithDir D cfg fuel dir w (withBody evs b)).2.1) :
    (ServerStep.withDir cfg fuel dir evs b).Does D w w' := by
  rcases hr : requestWithDir D cfg fuel dir w (withBody evs b) with ⟨r, w1, t⟩
  rw [hr] at h hw
  subst hw
  exact .withDir hr (SaveRes.returns_ne h).1 (SaveRes.returns_ne h).2

theorem ServerStep.does_temp {made : Except IoErr Path} (h : (requestTemp D cfg fuel made w (withBody evs b)).1.returns = true) (hw : w' = (requestTemp D cfg fuel made w (withBody evs b)).2.1) :
    (ServerStep.temp cfg fuel made evs b).Does D w w' := by
  rcases hr : requestTemp D cfg fuel made w (withBody evs b) with ⟨r, w1, t⟩
  rw [hr] at h hw
  subst hw
  exact .temp hr (SaveRes.returns_ne h).1 (SaveRes.returns_ne h).2

def Sample.life : World := { Sample.disk with files := fun q => if q = [b!"d", b!"x"] then some b!"one" else none, names := [b!"y", b!"x", b!"x", b!"z"] }
def Sample.life1 : World := (requestWithDir refDeps { Settings.default with memoryThreshold := 0 } 40 [b!"d"] Sample.life (withBody Sample.evsTwo Sample.bnd)).2.1
def Sample.life2 : World := (requestTemp refDeps { Settings.default with memoryThreshold := 0 } 40 (.ok [b!"t"]) Sample.life1 (withBody Sample.evsTwo Sample.bnd)).2.1

theorem Sample.lives : Serves refDeps Sample.life
    [.withDir { Settings.default with memoryThreshold := 0 } 40 [b!"d"] Sample.evsTwo Sample.bnd, .temp { Settings.default with memoryThreshold := 0 } 40 (.ok [b!"t"]) Sample.evsTwo Sample.bnd, .drop (.temp [b!"t"]) none]
    ((SaveDir.temp [b!"t"]).drop none Sample.life2) :=
  .cons (ServerStep.does_withDir (w' := Sample.life1) (by decide +kernel) Sample.life1.eq_1) (.cons (ServerStep.does_temp (w' := Sample.life2) (by decide +kernel) Sample.life2.eq_1) (.cons .drop .nil))

/-- A file with one saved field; then a request is saved to the same directory, and another one to a temporary directory, which is removed (C119_files_kept, C119_kept). -/
example : ∃ w' : World, Serves refDeps Sample.life
      [.withDir { Settings.default with memoryThreshold := 0 } 40 [b!"d"] Sample.evsTwo Sample.bnd, .temp { Settings.default with memoryThreshold := 0 } 40 (.ok [b!"t"]) Sample.evsTwo Sample.bnd, .drop (.temp [b!"t"]) none] w' ∧
    (SavedData.file [b!"d", b!"x"] 3).readable w' = .ok b!"one" := by
  have h := Sample.lives
  exact ⟨_, h, C119_kept refDeps_sane h rfl (by
    intro p n hp x hx
    cases hp
    simp at hx
    rcases hx with rfl | rfl | rfl
    · rfl
    · rfl
    · rintro ⟨r, hr⟩; simp at hr)⟩

theorem SavedAs.mono {f : SavedField} {p : FieldHeaders × Bytes} (h : SavedAs b evs w f p) (hk : ∀ q c, w.files q = some c → w'.files q = some c) : SavedAs b evs w' f p := by
  obtain ⟨h1, c, h2, h3⟩ := h
  exact ⟨h1, c, SavedData.readable_mono h2 hk, h3⟩

theorem SavesAll.keeps (hD : D.Sane) (ho : cfg.openOpts.createNew = true) {dir : SaveDir} {us : List Upload} {es : List Entries} (h : SavesAll D cfg fuel dir w us es w') {q : Path} {c : Bytes} (hq : w.files q = some c) :
    w'.files q = some c := by
  induction h with
  | nil => exact hq
  | cons h1 _ ih => exact ih (withEntries_keeps hD ⟨[], rfl⟩ ho h1 (by simp) (by simp) hq)

/-- C119: if the disk works and the random names are new, then any number of requests within the limits are all saved fully, one after the other, to the same directory, and after the last one all parts of all of them are
there with their headers and their data. -/
theorem C119_all_saved (hD : D.Sane) (hc : cfg.Typed) (ho : cfg.openOpts.createNew = true) (ht : Nat.min cfg.sizeLimit cfg.memoryThreshold < u64Max ∨ cfg.textPolicy = .ignore) (dir : SaveDir) {us : List Upload}
    (hu : ∀ u ∈ us, u.Within D cfg) (hw : DiskReady w dir.asPath (us.map fun u => u.parts.length).sum) :
    ∃ n es w', (∀ fuel, n ≤ fuel → SavesAll D cfg fuel dir w us es w') ∧
      All2 (fun (e : Entries) (u : Upload) => e.fieldsCount = u.parts.length ∧ ∃ fs, GroupedByName e.fields fs ∧ All2 (SavedAs u.b u.evs w') fs u.parts) es us := by
  induction us generalizing w with
  | nil => exact ⟨0, [], w, fun _ _ => .nil, .nil⟩
  | cons u us ih =>
    have h0 := hu u (List.mem_cons_self ..)
    simp only [List.map_cons, List.sum_cons] at hw
    have hw0 : DiskReady w dir.asPath u.parts.length :=
      ⟨hw.mkdirs, hw.opens, hw.writes, by have := hw.names; omega, hw.distinct.sublist (List.take_sublist_take_left (Nat.le_add_right ..)),
        fun n hn => hw.fresh n (List.take_subset_take_left _ (Nat.le_add_right ..) hn)⟩
    obtain ⟨n, hn⟩ := C77_request_succeeds hD h0.noStall h0.noErr hc ho h0.text ht h0.parts dir h0.count (fun p hp => .inl (h0.sizes p hp)) hw0
    obtain ⟨e, w1, t, fs, h1, h2, h3, h4⟩ := hn n (Nat.le_refl n)
    obtain ⟨fs', s1, k1, -, k2, k3, -⟩ := C53_all_read hc dir h1
    have hlen : fs'.length = u.parts.length := by omega
    have hw1 : DiskReady w1 dir.asPath (us.map fun u => u.parts.length).sum := DiskReady.seq k1 (by rw [hlen]; exact hw)
    obtain ⟨n', es, w', i1, i2⟩ := ih (fun x hx => hu x (List.mem_cons_of_mem _ hx)) hw1
    refine ⟨n + n', e :: es, w', fun fuel hf => .cons (t := t) ?_ (i1 fuel (by omega)), .cons ⟨h3, fs, h2, h4.imp fun f p hfp => SavedAs.mono hfp fun q c hq => (i1 n' (Nat.le_refl _)).keeps hD ho hq⟩ i2⟩
    rw [withEntries_fuel (fuel := n) (by rw [h1]; simp) (by omega), h1]

/-- Two requests of two fields each, saved to files. -/
example : ∃ n es w', (∀ fuel, n ≤ fuel → SavesAll refDeps { Settings.default with memoryThreshold := 0, sizeLimit := 5, countLimit := 3 } fuel (.perm [b!"d"])
      { Sample.disk with names := [b!"x", b!"y", b!"z", b!"u"] } [⟨Sample.evsTwo, Sample.bnd, [(Sample.fh, b!"one"), (Sample.fh, b!"two")]⟩, ⟨Sample.evsTwo, Sample.bnd, [(Sample.fh, b!"one"), (Sample.fh, b!"two")]⟩] es w') ∧
    All2 (fun (e : Entries) (u : Upload) => e.fieldsCount = u.parts.length ∧ ∃ fs, GroupedByName e.fields fs ∧ All2 (SavedAs u.b u.evs w') fs u.parts) es
      [⟨Sample.evsTwo, Sample.bnd, [(Sample.fh, b!"one"), (Sample.fh, b!"two")]⟩, ⟨Sample.evsTwo, Sample.bnd, [(Sample.fh, b!"one"), (Sample.fh, b!"two")]⟩] :=
  C119_all_saved refDeps_sane ⟨by decide, by decide, by decide, rfl⟩ rfl (.inl (by decide)) _
    (by intro u hu
        simp at hu
        subst hu
        exact ⟨by decide +kernel, by intro e; simp [Sample.evsTwo], Sample.partsTwo, fun h => by simp [Settings.default] at h, by decide, by decide⟩)
    ⟨by simp [Sample.disk], by simp [Sample.disk], by simp [Sample.disk, WritesFine], by decide, by decide, fun _ _ => rfl⟩

end Multipart

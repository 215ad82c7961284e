import Verif.Props.Store
/-!
# C155: what is saved does not depend on how it is sent and saved
-/
namespace Multipart
variable {D : Deps} {b b' : Bytes} {evs evs' : List Ev} {es es' : List (FieldHeaders × Bytes)}

/-- What a caller finds in the map under the name `n`: these headers and contents, in this order (nothing, if the name is no key). -/
def SavedUnder (w : World) (e : Entries) (n : Bytes) (xs : List (FieldHeaders × Bytes)) : Prop :=
  ∃ fs, ((n, fs) ∈ e.fields ∨ (fs = [] ∧ n ∉ e.fields.map Prod.fst)) ∧ All2 (fun (f : SavedField) x => f.headers = x.1 ∧ f.data.readable w = .ok x.2) fs xs

/-- The fields with the name `n`. -/
def named (n : Bytes) (es : List (FieldHeaders × Bytes)) : List (FieldHeaders × Bytes) := es.filter fun a => a.1.name = n

theorem All2.named {w : World} {fs : List SavedField} (n : Bytes) (h : All2 (fun (f : SavedField) x => f.headers = x.1 ∧ f.data.readable w = .ok x.2) fs es) :
    All2 (fun (f : SavedField) x => f.headers = x.1 ∧ f.data.readable w = .ok x.2) (fs.filter fun f => f.headers.name = n) (named n es) := by
  unfold Multipart.named
  induction h with
  | nil => exact .nil
  | @cons f x fs es hx _ ih =>
    by_cases hc : f.headers.name = n
    · have hc' : x.1.name = n := by rw [← hx.1]; exact hc
      have h3 := All2.cons (R := fun (f : SavedField) (x : FieldHeaders × Bytes) => f.headers = x.1 ∧ f.data.readable w = .ok x.2) hx ih
      simpa [List.filter_cons, hc, hc'] using h3
    · have hc' : ¬ x.1.name = n := by rw [← hx.1]; exact hc
      simpa [List.filter_cons, hc, hc'] using ih

theorem All2.readable_inj {w : World} {fs : List SavedField} {xs ys : List (FieldHeaders × Bytes)} (h : All2 (fun (f : SavedField) x => f.headers = x.1 ∧ f.data.readable w = .ok x.2) fs xs)
    (h' : All2 (fun (f : SavedField) x => f.headers = x.1 ∧ f.data.readable w = .ok x.2) fs ys) : xs = ys := by
  induction h generalizing ys with
  | nil => cases h'; rfl
  | @cons f x fs xs hx _ ih =>
    cases h' with
    | @cons _ y _ ys hy h2 =>
      have h1 := hx.2
      rw [hy.2] at h1
      rw [ih h2, Prod.ext (hx.1.symm.trans hy.1) (Except.ok.inj h1).symm]

theorem GroupedByName.under {w : World} {e : Entries} {fs : List SavedField} (h : GroupedByName e.fields fs) (h2 : All2 (fun (f : SavedField) x => f.headers = x.1 ∧ f.data.readable w = .ok x.2) fs es)
    (n : Bytes) (xs : List (FieldHeaders × Bytes)) : SavedUnder w e n xs ↔ xs = named n es := by
  have hkey : ∀ gs, ((n, gs) ∈ e.fields ∨ (gs = [] ∧ n ∉ e.fields.map Prod.fst)) ↔ gs = fs.filter fun f => f.headers.name = n := by
    intro gs
    constructor
    · rintro (hm | ⟨rfl, hm⟩)
      · exact ((h.groups _ _).mp hm).2
      · refine Decidable.byContradiction fun hne => hm ?_
        exact List.mem_map.mpr ⟨(n, fs.filter fun f => f.headers.name = n), (h.groups _ _).mpr ⟨fun h0 => hne h0.symm, rfl⟩, rfl⟩
    · rintro rfl
      by_cases h0 : (fs.filter fun f => f.headers.name = n) = []
      · refine .inr ⟨h0, fun hm => ?_⟩
        obtain ⟨⟨k, g⟩, hk, rfl⟩ := List.mem_map.mp hm
        obtain ⟨q1, q2⟩ := (h.groups _ _).mp hk
        exact q1 (q2.trans h0)
      · exact .inl ((h.groups _ _).mpr ⟨h0, rfl⟩)
  constructor
  · rintro ⟨gs, hg, ha⟩
    rw [(hkey gs).mp hg] at ha
    exact ha.readable_inj (h2.named n)
  · rintro rfl
    exact ⟨_, (hkey _).mpr rfl, h2.named n⟩

/-- With the same fields of every name, two requests have the same fields. -/
theorem perm_of_named (h : ∀ n, named n es = named n es') : es.Perm es' := by
  refine List.perm_iff_count.mpr fun a => ?_
  have key : ∀ l : List (FieldHeaders × Bytes), l.count a = (named a.1.name l).count a := by
    intro l
    unfold named
    rw [List.count_filter (by simp)]
  rw [key, key es', h]

/-- C155: after a full save, what is found under a name are the fields of the body with this name, in their order. -/
theorem C155_under_a_name {cfg : Settings} {w w' : World} {e : Entries} {fuel : Nat} {t : BR} {dir : SaveDir} (hD : D.Sane) (hP : Parts D (dashes ++ b) (Ev.bytes evs) es .closed) (hn : NoStall evs) (hne : NoErr evs)
    (hcl : CleanSplit (dashes ++ b) evs) (hc : cfg.Typed) (ho : cfg.openOpts.createNew = true) (h : withEntries D cfg fuel (Entries.new dir) w (withBody evs b) = (.full e, w', t)) (n : Bytes)
    (xs : List (FieldHeaders × Bytes)) : SavedUnder w' e n xs ↔ xs = named n es := by
  obtain ⟨-, fs, h1, -, h2⟩ := C53_full_has_every_field hD hn hne hc ho hP dir h
  refine h1.under ?_ n xs
  clear h h1 hP
  induction h2 with
  | nil => exact .nil
  | cons ha _ ih =>
    refine .cons ⟨ha.1, ?_⟩ ih
    obtain ⟨c, a2, a3 | ⟨-, a3, -⟩⟩ := ha.2
    · rw [← a3]; exact a2
    · exact absurd hcl a3

namespace Sample

/-- The body of `evsFwd` with its two parts the other way round, in two reads. -/
def evsSwap : List Ev := [.data (b!"--b\r\n" ++ hdr ++ b!"y"), .data (b!"o\r\n--b\r\n" ++ fwdHdr ++ b!"hi\r\n--b--")]

theorem swap_parts : Parts refDeps (dashes ++ bnd) (Ev.bytes evsSwap) [(Sample.fh, b!"yo"), (fhFwd, b!"hi")] .closed :=
  .part (rest := hdr ++ b!"yo\r\n--b\r\n" ++ fwdHdr ++ b!"hi\r\n--b--") (X := b!"yo\r\n--b\r\n" ++ fwdHdr ++ b!"hi\r\n--b--") (.part (p := 0) (findSub_some (by decide +kernel)) (by decide +kernel))
    ⟨⟨hdr, _, headerBlock (by decide +kernel), by decide +kernel, by decide, fun h => absurd h (by decide)⟩, .crlf (by decide) ⟨b!"--b\r\n" ++ fwdHdr ++ b!"hi\r\n--b--", rfl⟩⟩
    (.part (rest := fwdHdr ++ b!"hi\r\n--b--") (X := b!"hi\r\n--b--") (.part (p := 4) (findSub_some (by decide +kernel)) (by decide +kernel))
      ⟨⟨fwdHdr, _, ⟨rfl, by decide, refDeps_incremental _ _ [⟨b!"Content-Disposition", b!"form-data; name=a\"b; filename=\"x y\""⟩] (by decide +kernel), by simp only [← utf8Valid_iff]; decide +kernel, by decide +kernel⟩, by decide +kernel, by decide, fun h => absurd h (by decide)⟩, .crlf (by decide) ⟨b!"--b--", rfl⟩⟩
      (.close (rest := []) (.close (p := 4) (findSub_some (by decide +kernel)) (by decide +kernel))))

theorem swap_named (n : Bytes) : named n [(fhFwd, b!"hi"), (Sample.fh, b!"yo")] = named n [(Sample.fh, b!"yo"), (fhFwd, b!"hi")] := by
  by_cases h1 : fhFwd.name = n
  · subst h1; decide
  · simp [named, List.filter_cons, h1]

/-- The fields stay in memory. -/
def memCfg : Settings := { Settings.default with countLimit := 3 }

/-- The first body, saved to files. -/
theorem store_full : ∃ e w t, withEntries refDeps storeCfg 1000 (Entries.new (.perm [b!"d"])) storeDisk (withBody evsFwd bnd) = (.full e, w, t) := by
  rcases h : withEntries refDeps storeCfg 1000 (Entries.new (.perm [b!"d"])) storeDisk (withBody evsFwd bnd) with ⟨r, w, t⟩
  have h1 : (match (withEntries refDeps storeCfg 1000 (Entries.new (.perm [b!"d"])) storeDisk (withBody evsFwd bnd)).1 with | .full _ => true | _ => false) = true := by decide +kernel
  rw [h] at h1
  cases r <;> simp at h1
  exact ⟨_, _, _, rfl⟩

end Sample

/-- C155_under_a_name. -/
example : ∃ e w t, withEntries refDeps Sample.storeCfg 1000 (Entries.new (.perm [b!"d"])) Sample.storeDisk (withBody Sample.evsFwd Sample.bnd) = (.full e, w, t) ∧ SavedUnder w e b!"a" [(Sample.fh, b!"yo")] := by
  obtain ⟨e, w, t, h⟩ := Sample.store_full
  exact ⟨e, w, t, h, (C155_under_a_name (es := [(Sample.fhFwd, b!"hi"), (Sample.fh, b!"yo")]) refDeps_sane Sample.fwd_parts (by decide +kernel) (by intro e; simp [Sample.evsFwd]) (.of_small (by decide +kernel))
    ⟨by decide, by decide, by decide, rfl⟩ rfl h _ _).mpr (by decide)⟩

/-- C155: two bodies with the same fields of every name, in any order of the names, with any boundaries, saved fully with any settings, to any directories: a caller finds the same in both. -/
theorem C155_same_saved {cfg cfg' : Settings} {v w v' w' : World} {e e' : Entries} {fuel fuel' : Nat} {t t' : BR} {dir dir' : SaveDir} (hD : D.Sane) (hsame : ∀ n, named n es = named n es')
    (hP : Parts D (dashes ++ b) (Ev.bytes evs) es .closed) (hn : NoStall evs) (hne : NoErr evs) (hcl : CleanSplit (dashes ++ b) evs) (hc : cfg.Typed) (ho : cfg.openOpts.createNew = true)
    (h : withEntries D cfg fuel (Entries.new dir) v (withBody evs b) = (.full e, w, t))
    (hP' : Parts D (dashes ++ b') (Ev.bytes evs') es' .closed) (hn' : NoStall evs') (hne' : NoErr evs') (hcl' : CleanSplit (dashes ++ b') evs') (hc' : cfg'.Typed) (ho' : cfg'.openOpts.createNew = true)
    (h' : withEntries D cfg' fuel' (Entries.new dir') v' (withBody evs' b') = (.full e', w', t')) :
    (∀ n xs, SavedUnder w e n xs ↔ SavedUnder w' e' n xs) ∧ e.fieldsCount = e'.fieldsCount := by
  obtain ⟨-, -, -, h2, -⟩ := C53_full_has_every_field hD hn hne hc ho hP dir h
  obtain ⟨-, -, -, h2', -⟩ := C53_full_has_every_field hD hn' hne' hc' ho' hP' dir' h'
  refine ⟨fun n xs => ?_, by rw [h2, h2', (perm_of_named hsame).length_eq]⟩
  rw [C155_under_a_name hD hP hn hne hcl hc ho h, C155_under_a_name hD hP' hn' hne' hcl' hc' ho' h', hsame]

/-- C155: and if a request was saved, and is within the limits of another server, whose disk works, then this server saves it as well, whatever the order of the names is there, and a caller finds the same. -/
theorem C155_also_saved {cfg cfg' : Settings} {v w v' : World} {e : Entries} {fuel : Nat} {t : BR} {dir dir' : SaveDir} (hD : D.Sane) (hsame : ∀ n, named n es = named n es')
    (hP : Parts D (dashes ++ b) (Ev.bytes evs) es .closed) (hn : NoStall evs) (hne : NoErr evs) (hcl : CleanSplit (dashes ++ b) evs) (hc : cfg.Typed) (ho : cfg.openOpts.createNew = true)
    (h : withEntries D cfg fuel (Entries.new dir) v (withBody evs b) = (.full e, w, t))
    (hP' : Parts D (dashes ++ b') (Ev.bytes evs') es' .closed) (hn' : NoStall evs') (hne' : NoErr evs') (hcl' : CleanSplit (dashes ++ b') evs') (hc' : cfg'.Typed) (ho' : cfg'.openOpts.createNew = true)
    (hp : cfg'.textPolicy = .force → ∀ p ∈ es, p.1.isText = true → IsUtf8 p.2) (ht : Nat.min cfg'.sizeLimit cfg'.memoryThreshold < u64Max ∨ cfg'.textPolicy = .ignore)
    (hl : es.length < cfg'.countLimit) (hz : ∀ p ∈ es, p.2.length ≤ cfg'.sizeLimit) (hw : DiskReady v' dir'.asPath es.length) :
    ∃ m, ∀ fuel', m ≤ fuel' → ∃ e' w' t', withEntries D cfg' fuel' (Entries.new dir') v' (withBody evs' b') = (.full e', w', t') ∧ (∀ n xs, SavedUnder w e n xs ↔ SavedUnder w' e' n xs) ∧ e.fieldsCount = e'.fieldsCount := by
  have hperm := perm_of_named hsame
  obtain ⟨m, hm⟩ := C77_request_succeeds (w := v') hD hn' hne' hc' ho' (fun hf p hp' => hp hf p (hperm.mem_iff.mpr hp')) ht hP' dir' (by rw [← hperm.length_eq]; exact hl)
    (fun p hp' => .inr ⟨.inl hcl', hz p (hperm.mem_iff.mpr hp')⟩) (by rw [← hperm.length_eq]; exact hw)
  refine ⟨m, fun fuel' hf => ?_⟩
  obtain ⟨e', w', t', fs, h1, -⟩ := hm fuel' hf
  exact ⟨e', w', t', h1, C155_same_saved hD hsame hP hn hne hcl hc ho h hP' hn' hne' hcl' hc' ho' h1⟩

/-- C155_also_saved and C155_same_saved: two fields with different names, the other way round, once saved to files and once to memory. -/
example : ∃ e w t, withEntries refDeps Sample.storeCfg 1000 (Entries.new (.perm [b!"d"])) Sample.storeDisk (withBody Sample.evsFwd Sample.bnd) = (.full e, w, t) ∧
    ∃ m, ∀ fuel, m ≤ fuel → ∃ e' w' t', withEntries refDeps Sample.memCfg fuel (Entries.new (.perm [b!"d"])) Sample.storeDisk (withBody Sample.evsSwap Sample.bnd) = (.full e', w', t') ∧
      (∀ n xs, SavedUnder w e n xs ↔ SavedUnder w' e' n xs) ∧ e.fieldsCount = e'.fieldsCount := by
  obtain ⟨e, w, t, h⟩ := Sample.store_full
  exact ⟨e, w, t, h, C155_also_saved (cfg := Sample.storeCfg) (cfg' := Sample.memCfg) refDeps_sane Sample.swap_named Sample.fwd_parts (by decide +kernel) (by intro e; simp [Sample.evsFwd]) (.of_small (by decide +kernel))
    ⟨by decide, by decide, by decide, rfl⟩ rfl h Sample.swap_parts (by decide +kernel) (by intro e; simp [Sample.evsSwap]) (.of_small (by decide +kernel)) ⟨by decide, by decide, by decide, rfl⟩ rfl
    (fun h => by simp [Sample.memCfg, Settings.default] at h) (.inl (by decide)) (by decide) (by decide) Sample.storeDisk_ready⟩

end Multipart

import Verif.Props.Examples
import Verif.Props.Cut
/-!
# Saving a request is reading it (C105), and broken uploads to the example servers (C104)
-/
namespace Multipart

variable {D : Deps} {evs : List Ev} {b : Bytes} {cfg : Settings} {w : World} {T : TempEnv} {S : Surroundings} {es : List (FieldHeaders × Bytes)}

/-- How the result of saving tells the end of the entries: full, or partial because of the error. -/
def Ending.saved (e : Entries) : Ending → SaveRes Entries PartialEntries
  | .closed => .full e
  | .failed er => .part ⟨e, none⟩ (.io er)

/-- Whatever way the body is read, there are fewer entries than `count_limit`, and none has more bytes than `size_limit`. -/
def WithinLimits (D : Deps) (cfg : Settings) (b : Bytes) (evs : List Ev) : Prop :=
  ∀ got fin, Reads D (withBody evs b) got fin → got.length < cfg.countLimit ∧ ∀ g ∈ got, g.2.length ≤ cfg.sizeLimit

/-- C105: if the disk works, the body is within the limits, and the stream does not fail, then saving a request is reading its entries one after the other to their ends: all that were read are saved,
with exactly the bytes that were read, and the result is full if `read_entry` reported the end, and otherwise partial because of the error of `read_entry`. -/
theorem C105_saved_as_read (hD : D.Sane) (hn : NoStall evs) (he : OnlyInterrupted evs) (hc : cfg.Typed) (ho : cfg.openOpts.createNew = true) (hp : cfg.textPolicy ≠ .force)
    (ht : Nat.min cfg.sizeLimit cfg.memoryThreshold < u64Max ∨ cfg.textPolicy = .ignore) (dir : SaveDir) (hlim : WithinLimits D cfg b evs)
    (hw : DiskReady w dir.asPath cfg.countLimit) :
    ∃ n, ∀ fuel, n ≤ fuel → ∃ e w' t fs got fin, withEntries D cfg fuel (Entries.new dir) w (withBody evs b) = (fin.saved e, w', t) ∧ Reads D (withBody evs b) got fin ∧
      GroupedByName e.fields fs ∧ e.fieldsCount = got.length ∧ All2 (fun f g => f.headers = g.1 ∧ f.data.readable w' = .ok g.2) fs got := by
  have hr : Reachable D evs b (withBody evs b) := ⟨[], rfl⟩
  refine ⟨(withBody evs b).enough (cfg.memLimit 0) + 1, fun fuel hf => ?_⟩
  obtain ⟨e1, e2⟩ := withEntries_ends (e := Entries.new dir) (w := w) (fuel := fuel) hD hr ht
  have e1 := e1 (by omega)
  rcases h : withEntries D cfg fuel (Entries.new dir) w (withBody evs b) with ⟨r, w', t⟩
  rw [h] at e1 e2
  obtain ⟨fs, w1, s1, h1, h2, h3⟩ := withEntries_spec h
  have h3 : LoopEnd D cfg fuel ((Entries.new dir).recountFields.pushAll fs) w1 s1 r w' t := by
    rcases h3 with h3 | ⟨rfl, -⟩
    · exact h3
    · exact absurd rfl e1
  have hs1 := h1.reachable hD hr
  obtain ⟨got, g1, g3⟩ := h1.reads hD hn ho hr
  have hgr : GroupedByName ((Entries.new dir).recountFields.pushAll fs).fields fs := by
    have := Entries.pushAll_grouped fs (Entries.new dir).recountFields [] .nil
    rwa [List.nil_append] at this
  have hcount : ((Entries.new dir).recountFields.pushAll fs).fieldsCount < cfg.countLimit → ((Entries.new dir).recountFields.pushAll fs).fieldsCount = got.length := by
    intro h5
    rw [(Entries.count_lt hc _ _ h5).2, ← g1.length]
    simp [Entries.new, total]
  have hfine : ∀ {hd : FieldHeaders} {s2 : BR} {r : SaveRes SavedData SavedData} {w2 : World} {t2 : BR}, ((Entries.new dir).recountFields.pushAll fs).fieldsCount < cfg.countLimit →
      s1.readEntry D = (.ok (some hd), s2) →
      (Target.dir dir.asPath).save { cfg with textPolicy := if hd.isText then cfg.textPolicy else .ignore } fuel w1 s2 = (r, w2, t2) → r = .hang ∨ ∃ d, r = .full d := by
    intro hd s2 r w2 t2 g0 g1 g2
    have hs2 := (hs1.entry g1).spec hD
    have g4 : fs.length < cfg.countLimit := by
      have := (Entries.count_lt hc _ _ g0).1
      omega
    have hw1 : DiskReady w1 dir.asPath (cfg.countLimit - fs.length - 1 + 1) := DiskReady.seq h1 (by
      have : fs.length + (cfg.countLimit - fs.length - 1 + 1) = cfg.countLimit := by omega
      show DiskReady w dir.asPath _
      rw [this]; exact hw)
    have hbound : ∀ x u, Took s2 x u → x.length ≤ cfg.sizeLimit := by
      intro x u hx
      obtain ⟨os, hx⟩ := hx.run hs2.1
      have hu : u.Inv := by have := BR.run_inv os hs2.1; rw [hx] at this; exact this
      obtain ⟨k, -, hk⟩ := BR.reaches_eof (n := 1) (by omega) _ hu (Nat.le_refl _)
      obtain ⟨rest, fin, hR⟩ := reads_total hD _ (BR.run_inv (List.replicate k (.read 1)) hu) (Nat.le_refl _)
      have hrun : s2.run (os ++ List.replicate k (.read 1)) = (x ++ (u.run (List.replicate k (.read 1))).1, (u.run (List.replicate k (.read 1))).2) := by
        rw [BR.run_append, hx]
      have := (hlim _ _ (g3 _ _ (.entry g1 (by rw [hrun]; exact hk) (by rw [hrun]; exact hR)))).2 _ (List.mem_append_right _ (List.mem_cons_self ..))
      rw [hrun, List.length_append] at this
      omega
    rcases Target.save_fine (cfg := { cfg with textPolicy := if hd.isText then cfg.textPolicy else .ignore }) hs2.1 ⟨hc.size, hc.mem, hc.count, hc.write⟩
      (fun e g => he e (hs2.2.2.2.subset g)) (hw1.works ho hc.write) hbound g2 with g | g | ⟨g, -⟩
    · exact .inl g
    · exact .inr g
    · simp only at g
      split at g
      · exact absurd g hp
      · simp at g
  have hdir : ((Entries.new dir).recountFields.pushAll fs).saveDir.asPath = dir.asPath := by rw [Entries.pushAll_dir]; rfl
  cases h3 with
  | full h4 h5 => exact ⟨_, _, _, fs, _, .closed, rfl, g3 [] .closed (.close h4), hgr, by simpa using hcount h5, by simpa using g1⟩
  | count h4 =>
    have h4 := Entries.count_ge _ _ h4
    simp only [Entries.new, total, List.map_nil, List.sum_nil, Nat.zero_add] at h4
    obtain ⟨rest, fin, hR⟩ := reads_total hD _ (hs1.spec hD).1 (Nat.le_refl _)
    have := (hlim _ _ (g3 _ _ hR)).1
    rw [List.length_append, ← g1.length] at this
    omega
  | @read er _ h4 h5 => exact ⟨_, _, _, fs, _, .failed er, rfl, g3 [] _ (.fail h4), hgr, by simpa using hcount h5, by simpa using g1⟩
  | part h4 h6 h5 =>
    rw [hdir] at h5
    rcases hfine h6 h4 h5 with g | ⟨_, g⟩ <;> simp at g
  | error h4 h6 h5 =>
    rw [hdir] at h5
    rcases hfine h6 h4 h5 with g | ⟨_, g⟩ <;> simp at g
  | panic => exact absurd rfl e2
  | hang => exact absurd rfl e1

/-- Small bodies are within the limits. -/
theorem WithinLimits.small (hD : D.Sane) (hz : (Ev.bytes evs).length ≤ cfg.sizeLimit) (hl : (Ev.bytes evs).length < cfg.countLimit * (b.length + 4)) : WithinLimits D cfg b evs := by
  have key : ∀ {s : BR} {got : List (FieldHeaders × Bytes)} {fin : Ending}, Reads D s got fin → Reachable D evs b s →
      got.length * (b.length + 4) ≤ s.unread.length ∧ ∀ g ∈ got, g.2.length ≤ s.unread.length := by
    intro s got fin h
    induction h with
    | close => simp
    | fail => simp
    | @entry s t fh os es fin h1 h2 h3 ih =>
      intro hr
      obtain ⟨i1, i2⟩ := ih ((hr.entry h1).run os)
      have k1 := hr.line hD h1
      have k2 := (BR.run_unread os ((hr.entry h1).spec hD).1).symm
      have k3 := congrArg List.length k2
      rw [List.length_append] at k3
      refine ⟨?_, ?_⟩
      · rw [List.length_cons, Nat.add_mul]
        omega
      · intro g hg
        rcases List.mem_cons.mp hg with rfl | hg
        · simp only; omega
        · have := i2 g hg; omega
  intro got fin h
  obtain ⟨h1, h2⟩ := key h ⟨[], rfl⟩
  have hu : (withBody evs b).unread.length = (Ev.bytes evs).length := by simp [withBody, BR.fromReader, BR.unread]
  rw [hu] at h1 h2
  refine ⟨?_, fun g hg => Nat.le_trans (h2 g hg) hz⟩
  refine Nat.lt_of_not_le fun h3 => ?_
  have := Nat.mul_le_mul_right (b.length + 4) h3
  omega

theorem WithinLimits.cut (hD : D.Sane) (hI : D.Incremental) (hn : NoStall evs) (hne : NoErr evs) (hcut : CutOff D (dashes ++ b) (Ev.bytes evs) es) (hl : es.length < cfg.countLimit)
    (hz : ∀ p ∈ es, p.2.length + b.length + 4 ≤ cfg.sizeLimit) : WithinLimits D cfg b evs := by
  intro got fin hR
  obtain ⟨k, v, got1, got2, k1, -, -, rfl, k5, -, k7⟩ := C86_cut hD hI hn hne hcut hR
  have hlen := k5.length
  rw [List.length_take] at hlen
  have h1 : ∀ g ∈ got1, g.2.length ≤ cfg.sizeLimit := by
    have : ∀ {gs : List (FieldHeaders × Bytes)} {ps : List (FieldHeaders × Bytes)}, All2 (fun a p => a.1 = p.1 ∧ DataOk (dashes ++ b) evs p.2 a.2) gs ps → (∀ p ∈ ps, p ∈ es) → ∀ g ∈ gs, g.2.length ≤ cfg.sizeLimit := by
      intro gs ps h
      induction h with
      | nil => simp
      | @cons a p as ps ha _ ih =>
        intro hps g hg
        rcases List.mem_cons.mp hg with rfl | hg
        · have := hz p (hps p (List.mem_cons_self ..))
          rcases ha.2 with h | ⟨h, -⟩ <;> rw [h]
          · omega
          · rw [List.length_append]
            have : crlf.length = 2 := rfl
            omega
        · exact ih (fun p hp => hps p (List.mem_cons_of_mem _ hp)) g hg
    exact this k5 (fun p hp => List.mem_of_mem_take hp)
  rcases k7 with rfl | ⟨fh, dat, x, l1, rfl, l3⟩
  · rw [List.append_nil]
    exact ⟨by omega, h1⟩
  · obtain ⟨hk, l1⟩ := List.getElem?_eq_some_iff.mp l1
    have hd := hz _ (l1 ▸ List.getElem_mem hk)
    refine ⟨by rw [List.length_append, List.length_singleton]; omega, fun g hg => ?_⟩
    rcases List.mem_append.mp hg with hg | hg
    · exact h1 g hg
    · rw [List.mem_singleton] at hg
      subst hg
      have c2 : crlf.length = 2 := rfl
      have d2 : dashes.length = 2 := rfl
      rcases l3 with l3 | l3
      · have := l3.length_le
        simp only [List.length_append] at this hd ⊢
        omega
      · have := l3.length_le
        simp only [List.length_append] at this hd ⊢
        omega

/-- C105 for a body that is cut off: all parts whose delimiter was received are saved, and possibly a piece of the next part, which looks as if it was a whole field. That something is missing is
told by the result only: it is partial, with an I/O error, without a partial field. -/
theorem C105_cut (hD : D.Sane) (hI : D.Incremental) (hn : NoStall evs) (hne : NoErr evs) (hc : cfg.Typed) (ho : cfg.openOpts.createNew = true) (hp : cfg.textPolicy ≠ .force)
    (ht : Nat.min cfg.sizeLimit cfg.memoryThreshold < u64Max ∨ cfg.textPolicy = .ignore) (dir : SaveDir) (hl : es.length < cfg.countLimit)
    (hz : ∀ p ∈ es, p.2.length + b.length + 4 ≤ cfg.sizeLimit) (hw : DiskReady w dir.asPath cfg.countLimit) (hcut : CutOff D (dashes ++ b) (Ev.bytes evs) es) :
    ∃ n, ∀ fuel, n ≤ fuel → ∃ e er w' t fs1 fs2 k v, withEntries D cfg fuel (Entries.new dir) w (withBody evs b) = (.part ⟨e, none⟩ (.io er), w', t) ∧
      (er = .unexpectedEof ∨ er = .invalidData) ∧ GroupedByName e.fields (fs1 ++ fs2) ∧
      PartsTo D (dashes ++ b) (Ev.bytes evs) (es.take k) v ∧ LastPart (dashes ++ b) v ∧ All2 (fun (f : SavedField) p => f.headers = p.1 ∧ ∃ c, f.data.readable w' = .ok c ∧ DataOk (dashes ++ b) evs p.2 c) fs1 (es.take k) ∧
      (fs2 = [] ∨ ∃ f fh dat x, fs2 = [f] ∧ es[k]? = some (fh, dat) ∧ f.headers = fh ∧ f.data.readable w' = .ok x ∧ (x <+: dat ++ crlf ++ (dashes ++ b) ∨ x <+: dat ++ (dashes ++ b))) := by
  obtain ⟨n, h⟩ := C105_saved_as_read hD hn (fun e h => absurd h (hne e)) hc ho hp ht dir (.cut hD hI hn hne hcut hl hz) hw
  refine ⟨n, fun fuel hf => ?_⟩
  obtain ⟨e, w', t, fs, got, fin, h1, h2, h3, -, h5⟩ := h fuel hf
  obtain ⟨k, v, got1, got2, -, k2, k3, rfl, k5, k6, k7⟩ := C86_cut hD hI hn hne hcut h2
  have hsp : ∃ fs1 fs2, fs = fs1 ++ fs2 ∧ All2 (fun (f : SavedField) g => f.headers = g.1 ∧ f.data.readable w' = .ok g.2) fs1 got1 ∧
      All2 (fun (f : SavedField) g => f.headers = g.1 ∧ f.data.readable w' = .ok g.2) fs2 got2 := by
    clear h1 h2 h3 k5 k6 k7
    induction got1 generalizing fs with
    | nil => exact ⟨[], fs, rfl, .nil, h5⟩
    | cons g got1 ih =>
      cases h5 with
      | cons a h5 =>
        obtain ⟨fs1, fs2, rfl, i1, i2⟩ := ih _ h5
        exact ⟨_ :: fs1, fs2, rfl, .cons a i1, i2⟩
  obtain ⟨fs1, fs2, rfl, i1, i2⟩ := hsp
  have hsaved : All2 (fun (f : SavedField) p => f.headers = p.1 ∧ ∃ c, f.data.readable w' = .ok c ∧ DataOk (dashes ++ b) evs p.2 c) fs1 (es.take k) := (i1.trans k5).imp (by
    rintro f p ⟨g, ⟨a1, a2⟩, a3, a4⟩
    exact ⟨a1.trans a3, _, a2, a4⟩)
  have hlast : fs2 = [] ∨ ∃ f fh dat x, fs2 = [f] ∧ es[k]? = some (fh, dat) ∧ f.headers = fh ∧ f.data.readable w' = .ok x ∧ (x <+: dat ++ crlf ++ (dashes ++ b) ∨ x <+: dat ++ (dashes ++ b)) := by
    rcases k7 with rfl | ⟨fh, dat, x, l1, rfl, l3⟩
    · cases i2; exact .inl rfl
    · cases i2 with
      | cons a i2 => cases i2; exact .inr ⟨_, fh, dat, x, rfl, l1, a.1, a.2, l3⟩
  rcases k6 with rfl | ⟨rfl, -⟩
  · exact ⟨e, _, w', t, fs1, fs2, k, v, h1, .inl rfl, h3, k2, k3, hsaved, hlast⟩
  · exact ⟨e, _, w', t, fs1, fs2, k, v, h1, .inr rfl, h3, k2, k3, hsaved, hlast⟩

/-- The hypotheses of C105_saved_as_read are met, too. -/
example : refDeps.Sane ∧ NoStall Sample.evsShort ∧ OnlyInterrupted Sample.evsShort ∧ Settings.default.Typed ∧
    WithinLimits refDeps .default Sample.bnd Sample.evsShort ∧ DiskReady (Sample.bigDisk 256) [b!"tmp"] Settings.default.countLimit ∧
    CutOff refDeps (dashes ++ Sample.bnd) (Ev.bytes Sample.evsShort) [(Sample.fh, b!"one"), (Sample.fh, b!"two")] :=
  ⟨refDeps_sane, by decide +kernel, by intro e; simp [Sample.evsShort], Settings.default_typed, .small refDeps_sane (by decide +kernel) (by decide +kernel), Sample.bigDisk_ready _ 256, Sample.evsShort_off⟩

/-! ## C104 -/

theorem SavedField.contents_of {f : SavedField} {c : Bytes} (h : f.data.readable w = .ok c) : f.contents w = c := by
  unfold SavedField.contents
  unfold SavedData.readable at h
  cases hd : f.data with
  | text t => rw [hd] at h; simpa using h
  | bytes t => rw [hd] at h; simpa using h
  | file p n =>
    rw [hd] at h
    simp only at h ⊢
    cases hp : w.files p with
    | none => rw [hp] at h; simp at h
    | some c' => rw [hp] at h; simpa using h

/-- C104: a request that is not a multipart request is answered with a status that says so. -/
theorem C104_not_multipart {fuel : Nat} (hS : S.connected = true) :
    (∀ req, tinyBoundary req = none → tinyAnswer D fuel T S w req = .ok ⟨400, b!"The request is not multipart"⟩) ∧
    (∀ req, ironBoundary req = none → ironAnswer D fuel T S w req = .ok ⟨400, b!"The request is not multipart"⟩) ∧
    (∀ req, nickelBoundary req = none → nickelAnswer D fuel T S w req = .ok ⟨400, b!"Request seems not was a multipart request"⟩) ∧
    (∀ req, hyperBoundary req = none → hyperAnswer D fuel T S w req = .ok ⟨418, b!"Please send a multipart req :(\n"⟩) ∧
    (∀ req, req.isFormData = false → rocketAnswer D fuel T S w req = .ok ⟨400, b!"Content-Type not multipart/form-data"⟩) ∧
    (∀ req, req.isFormData = true → (∀ v, (b!"boundary", v) ∉ req.params) → rocketAnswer D fuel T S w req = .ok ⟨400, b!"`Content-Type: multipart/form-data` boundary param not provided"⟩) := by
  refine ⟨?_, ?_, ?_, ?_, ?_, ?_⟩
  · intro req h
    have : fromRequest tinyHttp req = .error req := by simp only [fromRequest, tinyHttp, h]
    simp only [tinyAnswer, tinyProcess, this]
  · intro req h
    have : fromRequest ironHttp req = .error req := by simp only [fromRequest, ironHttp, h]
    simp only [ironAnswer, this]
  · intro req h
    have : fromRequest nickelHttp req = .error req := by simp only [fromRequest, nickelHttp, h]
    simp only [nickelAnswer, multipartBody, this]
  · intro req h
    have : fromRequest hyperHttp req = .error req := by simp only [fromRequest, hyperHttp, h]
    simp only [hyperAnswer, switchHandle, this, hyperSend, hS, if_true]
  · intro req h
    simp [rocketAnswer, h]
  · intro req h h'
    have : req.params.find? (fun p => p.1 = b!"boundary") = none := by
      rw [List.find?_eq_none]
      rintro ⟨k, v⟩ hp hk
      simp only [decide_eq_true_eq] at hk
      subst hk
      exact h' v hp
    simp only [rocketAnswer, h, if_true, this]

example : tinyBoundary ⟨.post, [⟨b!"Content-Type", b!"text/plain"⟩], []⟩ = none ∧ hyperBoundary ⟨.ext b!"GET", none, []⟩ = none ∧ Sample.shown.connected = true := by decide +kernel

/-- C104: if no temporary directory can be made, the answer tells the error, but for Hyper's example with status 200. -/
theorem C104_no_directory {fuel : Nat} {er : IoErr} (ht : T.tempdir b!"multipart-rs" = .error er) (hS : S.connected = true) (b : Bytes) :
    (∀ req, tinyBoundary req = some b → tinyAnswer D fuel T S w req = .ok ⟨500, b!"The received data was not correctly proccessed on the server"⟩) ∧
    (∀ req, ironBoundary req = some b → ironAnswer D fuel T S w req = .ok ⟨400, b!"error reading request: " ++ S.error er⟩) ∧
    (∀ req, nickelBoundary req = some b → nickelAnswer D fuel T S w req = .ok ⟨500, b!"Server could not handle multipart POST! " ++ S.error er⟩) ∧
    (∀ req, hyperBoundary req = some b → hyperAnswer D fuel T S w req = .ok ⟨200, b!"An error occurred " ++ S.error er⟩) ∧
    (∀ params body, params.find? (fun p => p.1 = b!"boundary") = some (b!"boundary", b) → rocketAnswer D fuel T S w ⟨true, params, body⟩ = .ok ⟨500, S.error er⟩) := by
  have hs : ∀ m, ∃ t, tempSave D .default fuel T w m = (.error er, w, t) := by
    intro m
    unfold tempSave tempWithPrefix requestTemp
    rw [ht]
    exact ⟨_, rfl⟩
  refine ⟨?_, ?_, ?_, ?_, ?_⟩
  · intro req h
    have : fromRequest tinyHttp req = .ok (withBody req.body b) := by simp only [fromRequest, tinyHttp, h]
    obtain ⟨t, h2⟩ := hs (withBody req.body b)
    simp only [tinyAnswer, tinyProcess, this, h2]
  · intro req h
    have : fromRequest ironHttp req = .ok (withBody req.body b) := by simp only [fromRequest, ironHttp, h]
    obtain ⟨t, h2⟩ := hs (withBody req.body b)
    simp only [ironAnswer, this, h2]
  · intro req h
    have : fromRequest nickelHttp req = .ok (withBody req.body b) := by simp only [fromRequest, nickelHttp, h]
    obtain ⟨t, h2⟩ := hs (withBody req.body b)
    simp only [nickelAnswer, multipartBody, this, h2]
  · intro req h
    have : fromRequest hyperHttp req = .ok (withBody req.body b) := by simp only [fromRequest, hyperHttp, h]
    obtain ⟨t, h2⟩ := hs (withBody req.body b)
    simp only [hyperAnswer, switchHandle, hyperMultipart, this, h2, hyperSend, hS, if_true]
  · intro params body h
    obtain ⟨t, h2⟩ := hs (withBody body b)
    simp only [rocketAnswer, if_true, h, rocketProcess, h2]

example : ({ Sample.temp with fail := some (.other 28) } : TempEnv).tempdir b!"multipart-rs" = .error (.other 28) ∧ tinyBoundary (Sample.tinyReq []) = some Sample.bnd := ⟨rfl, by decide +kernel⟩

/-- The full claim C104: an upload that is cut off is not answered with success. -/
def BrokenRefused (D : Deps) : Prop := ∀ (T : TempEnv) (S : Surroundings) (w : World) (evs : List Ev) (b : Bytes) (es : List (FieldHeaders × Bytes)) (fuel : Nat) (a : Answer),
  S.Works → NoStall evs → NoErr evs → CutOff D (dashes ++ b) (Ev.bytes evs) es →
    (∀ req, tinyBoundary req = some b → req.body = evs → tinyAnswer D fuel T S w req = .ok a → a.status ≠ 200) ∧
    (∀ req, ironBoundary req = some b → req.body = evs → ironAnswer D fuel T S w req = .ok a → a.status ≠ 200) ∧
    (∀ req, nickelBoundary req = some b → req.body = evs → nickelAnswer D fuel T S w req = .ok a → a.status ≠ 200) ∧
    (∀ req, hyperBoundary req = some b → req.body = evs → hyperAnswer D fuel T S w req = .ok a → a.status ≠ 200) ∧
    (∀ req : RocketReq, req.params.find? (fun p => p.1 = b!"boundary") = some (b!"boundary", b) → req.body = evs → rocketAnswer D fuel T S w req = .ok a → a.status ≠ 200)

/-- C104, as far as it holds: the examples for `tiny_http` and Iron do not answer an upload that is cut off with success. -/
theorem C104_refused_partial (hD : D.Sane) (hI : D.Incremental) (hn : NoStall evs) (hne : NoErr evs) (hcut : CutOff D (dashes ++ b) (Ev.bytes evs) es) {fuel : Nat} {a : Answer} :
    (∀ req, tinyBoundary req = some b → req.body = evs → tinyAnswer D fuel T S w req = .ok a → a.status = 500) ∧
    (∀ req, ironBoundary req = some b → req.body = evs → ironAnswer D fuel T S w req = .ok a → a.status = 400 ∨ a.status = 500) := by
  have hs : ∀ e w' t, tempSave D .default fuel T w (withBody evs b) ≠ (.full e, w', t) := by
    intro e w' t h
    unfold tempSave tempWithPrefix requestTemp withTempDir at h
    cases ht : T.tempdir b!"multipart-rs" with
    | error er => rw [ht] at h; simp at h
    | ok dir =>
      rw [ht] at h
      exact C86_never_full hD hI hn hne hcut Settings.default_typed rfl (.temp dir) h
  refine ⟨?_, ?_⟩
  · rintro req h2 rfl h
    have : fromRequest tinyHttp req = .ok (withBody req.body b) := by simp only [fromRequest, tinyHttp, h2]
    simp only [tinyAnswer, tinyProcess, this] at h
    generalize tempSave D .default fuel T w (withBody req.body b) = x at hs h
    obtain ⟨r, w', t⟩ := x
    cases r with
    | full e => exact absurd rfl (hs e w' t)
    | part p r =>
      simp only at h
      generalize S.print w' p.keepPartial = y at h
      cases y with
      | error er => simp only at h; cases h; rfl
      | ok x =>
        simp only at h
        cases hr : r.unwrapErr with
        | ok => rw [hr] at h; cases h; rfl
        | err => rw [hr] at h; cases h
        | panic => rw [hr] at h; cases h
        | hang => rw [hr] at h; cases h
    | error er => simp only at h; cases h; rfl
    | panic => simp at h
    | hang => simp at h
  · rintro req h2 rfl h
    have : fromRequest ironHttp req = .ok (withBody req.body b) := by simp only [fromRequest, ironHttp, h2]
    simp only [ironAnswer, this] at h
    generalize tempSave D .default fuel T w (withBody req.body b) = x at hs h
    obtain ⟨r, w', t⟩ := x
    cases r with
    | full e => exact absurd rfl (hs e w' t)
    | part p r =>
      simp only [ironEntries] at h
      generalize S.entries w' p.keepPartial = y at h
      rcases y with ⟨x, _ | er⟩
      · simp only at h
        cases hr : r.unwrapErr with
        | ok => rw [hr] at h; cases h; exact .inl rfl
        | err => rw [hr] at h; cases h
        | panic => rw [hr] at h; cases h
        | hang => rw [hr] at h; cases h
      · simp only at h; cases h; exact .inr rfl
    | error er => simp only at h; cases h; exact .inl rfl
    | panic => simp at h
    | hang => simp at h

/-- C104: what each of the examples answers to an upload that is cut off, if it is within the limits and everything else works. All fields that were received completely are saved, and a piece of the next one
perhaps; the examples for Nickel, Hyper and Rocket show them with status 200, and only Rocket's says that something is missing. -/
theorem C104_cut_off {F : DebugFmt} {dir : Path} (hD : D.Sane) (hI : D.Incremental) (hn : NoStall evs) (hne : NoErr evs) (hcut : CutOff D (dashes ++ b) (Ev.bytes evs) es) (hl : es.length < 256)
    (hz : ∀ p ∈ es, p.2.length + b.length + 4 ≤ 8 * 1024 * 1024) (ht : T.tempdir b!"multipart-rs" = .ok dir) (hw : DiskReady w dir 256) (hS : S.Shows F) :
    ∃ n, ∀ fuel, n ≤ fuel → ∃ m er w' fs1 fs2 k v, (er = .unexpectedEof ∨ er = .invalidData) ∧ GroupedByName m (fs1 ++ fs2) ∧
      PartsTo D (dashes ++ b) (Ev.bytes evs) (es.take k) v ∧ LastPart (dashes ++ b) v ∧
      All2 (fun x p => x.headers = p.1 ∧ DataOk (dashes ++ b) evs p.2 (x.contents w')) fs1 (es.take k) ∧
      (fs2 = [] ∨ ∃ f fh dat, fs2 = [f] ∧ es[k]? = some (fh, dat) ∧ f.headers = fh ∧ (f.contents w' <+: dat ++ crlf ++ (dashes ++ b) ∨ f.contents w' <+: dat ++ (dashes ++ b))) ∧
      (∀ req, tinyBoundary req = some b → req.body = evs → tinyAnswer D fuel T S w req = .ok ⟨500, b!"The received data was not correctly proccessed on the server"⟩) ∧
      (∀ req, ironBoundary req = some b → req.body = evs → ironAnswer D fuel T S w req = .ok ⟨400, b!"error reading request: " ++ S.error er⟩) ∧
      (∀ req, nickelBoundary req = some b → req.body = evs → nickelAnswer D fuel T S w req = .ok ⟨200, debugText F (·.contents w') m⟩) ∧
      (∀ req, hyperBoundary req = some b → req.body = evs → hyperAnswer D fuel T S w req = .ok ⟨200, debugText F (·.contents w') m⟩) ∧
      (∀ params, params.find? (fun p => p.1 = b!"boundary") = some (b!"boundary", b) → rocketAnswer D fuel T S w ⟨true, params, evs⟩ =
        .ok ⟨200, b!"Request partially processed: " ++ S.reason (.io er) ++ b!"\n" ++ (debugText F (·.contents w') m ++ b!"Entries processed\n")⟩) := by
  obtain ⟨n, h⟩ := C105_cut (cfg := .default) (w := { w with dirs := w.dirs ++ [dir] }) hD hI hn hne Settings.default_typed rfl (by decide) (.inl (by decide)) (.temp dir) hl hz hw.dirs hcut
  refine ⟨n, fun fuel hf => ?_⟩
  obtain ⟨e, er, w', t, fs1, fs2, k, v, h1, h2, h3, h4, h5, h6, h7⟩ := h fuel hf
  have ht' : tempSave D .default fuel T w (withBody evs b) = (.part ⟨e, none⟩ (.io er), w', t) := by
    simp only [tempSave, tempWithPrefix, requestTemp, ht, withTempDir, h1]
  have hx := hS.full (w := w') h3 (by
    intro f hf
    rcases List.mem_append.mp hf with hf | hf
    · exact h6.left (P := fun f => ∃ c, f.data.readable w' = .ok c) (fun f p h => by obtain ⟨-, c, h, -⟩ := h; exact ⟨c, h⟩) f hf
    · rcases h7 with rfl | ⟨f', _, _, x, rfl, -, -, g, -⟩
      · simp at hf
      · simp only [List.mem_singleton] at hf; subst hf; exact ⟨x, g⟩)
  refine ⟨e.fields, er, w', fs1, fs2, k, v, h2, h3, h4, h5, h6.imp ?_, ?_, ?_, ?_, ?_, ?_, ?_⟩
  · rintro f p ⟨k1, c, k2, k3⟩
    exact ⟨k1, by rw [SavedField.contents_of k2]; exact k3⟩
  · rcases h7 with h7 | ⟨f, fh, dat, x, g1, g2, g3, g4, g5⟩
    · exact .inl h7
    · exact .inr ⟨f, fh, dat, g1, g2, g3, by rw [SavedField.contents_of g4]; exact g5⟩
  · rintro req h2 rfl
    have : fromRequest tinyHttp req = .ok (withBody req.body b) := by simp only [fromRequest, tinyHttp, h2]
    simp only [tinyAnswer, tinyProcess, this, ht', PartialEntries.keepPartial, Surroundings.print, hx, Reason.unwrapErr]
  · rintro req h2 rfl
    have : fromRequest ironHttp req = .ok (withBody req.body b) := by simp only [fromRequest, ironHttp, h2]
    simp only [ironAnswer, this, ht', PartialEntries.keepPartial, ironEntries, hx, Reason.unwrapErr]
  · rintro req h2 rfl
    have : fromRequest nickelHttp req = .ok (withBody req.body b) := by simp only [fromRequest, nickelHttp, h2]
    simp only [nickelAnswer, multipartBody, this, ht', PartialEntries.keepPartial, nickelEntries, hx]
  · rintro req h2 rfl
    have : fromRequest hyperHttp req = .ok (withBody req.body b) := by simp only [fromRequest, hyperHttp, h2]
    simp only [hyperAnswer, switchHandle, hyperMultipart, this, ht', PartialEntries.into, hyperEntries, hx]
  · intro params h2
    simp only [rocketAnswer, if_true, h2, rocketProcess, ht', Surroundings.print, hx, List.append_nil]

/-- The hypotheses of C104_refused_partial are met, too. -/
example : CutOff refDeps (dashes ++ Sample.bnd) (Ev.bytes Sample.evsShort) [(Sample.fh, b!"one"), (Sample.fh, b!"two")] ∧ Sample.temp.tempdir b!"multipart-rs" = .ok [b!"tmp", b!"multipart-rs1"] ∧ DiskReady (Sample.bigDisk 256) [b!"tmp", b!"multipart-rs1"] 256 ∧
    Sample.shown.Shows Sample.fmt := ⟨Sample.evsShort_off, rfl, Sample.bigDisk_ready _ 256, fun _ _ => rfl⟩

/-- C104 is false of the code: half of a field, confirmed with status 200. -/
theorem C104_false : ¬ BrokenRefused refDeps := by
  intro h
  have := (h Sample.temp Sample.silent Sample.disk Sample.evsShort Sample.bnd _ 20 ⟨200, []⟩ ⟨fun _ _ => rfl, rfl⟩ (by decide +kernel) (by intro e; simp [Sample.evsShort]) Sample.evsShort_off).2.2.1
    (Sample.ironReq Sample.evsShort) (by decide +kernel) rfl (by decide +kernel)
  exact this rfl

end Multipart

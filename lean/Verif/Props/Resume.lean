import Verif.Spec.Resume
import Verif.Props.SavedReads
import Verif.Props.SmallBodies
import Verif.Props.IronOversize
/-!
# Resuming a save (C124, C125)
-/
namespace Multipart

variable {D : Deps} {evs : List Ev} {b : Bytes} {s t : BR} {cfg : Settings} {fuel : Nat} {w w' : World} {e e' : Entries} {es : List (FieldHeaders × Bytes)} {fin : Ending}

/-! ## C124 -/

theorem SavedSeq.script (hD : D.Sane) {dir : Path} {fs : List SavedField} (h : SavedSeq D cfg fuel dir w s fs w' t) (hi : s.Inv) : t.evs <:+ s.evs := by
  induction h with
  | nil => exact List.suffix_rfl
  | @cons w w1 w2 s s1 s2 t hd d fs h1 h2 h3 ih =>
    have hi1 : s1.Inv := by have := BR.readEntry_inv hD hi; rw [h1] at this; exact this
    have he1 : s1.evs <:+ s.evs := by have := BR.readEntry_evs hD hi; rw [h1] at this; exact this
    obtain ⟨x, hx⟩ := Target.save_took _ hi1 h2 (by simp)
    exact (ih (hx.inv hi1)).trans ((hx.evs hi1).trans he1)

/-- Fields saved one after the other were read one after the other to their ends, also by callers that try again. -/
theorem SavedSeq.retries (hD : D.Sane) (hn : NoStall evs) (ho : cfg.openOpts.createNew = true) {dir : Path} {fs : List SavedField}
    (h : SavedSeq D cfg fuel dir w s fs w' t) (hr : Reachable D evs b s) :
    ∃ got : List (FieldHeaders × Bytes), All2 (fun (f : SavedField) g => f.headers = g.1 ∧ f.data.readable w' = .ok g.2) fs got ∧
      ∀ es fin, RetryReads D t es fin → RetryReads D s (got ++ es) fin := by
  induction h with
  | nil => exact ⟨[], .nil, fun es fin h => h⟩
  | @cons w w1 w2 s s1 s2 t hd d fs h1 h2 h3 ih =>
    have hr1 := hr.entry h1
    obtain ⟨x, hx, heof, hread⟩ := Target.save_full (.dir dir) hD hn hr1 h2 (.inl ho)
    have hr2 := hx.reachable hr1
    obtain ⟨got, g1, g2⟩ := ih hr2
    obtain ⟨os, hos⟩ := hx.run (hr1.spec hD).1
    refine ⟨(hd, x) :: got, .cons ⟨rfl, SavedData.readable_mono hread (fun q c => h3.keeps hD ho hr2)⟩ g1, fun es fin hR => ?_⟩
    have := RetryReads.entry (os := os) h1 (by rw [hos]; exact heof) (by rw [hos]; exact g2 es fin hR)
    rw [hos] at this
    exact this

theorem resumed_reads (hD : D.Sane) (hn : NoStall evs) (ho : cfg.openOpts.createNew = true) {r : SaveRes Entries PartialEntries} (h : ResumedSave D cfg e w s r w') :
    ∀ {fs0 : List SavedField} {e' : Entries} {fin : Ending}, Reachable D evs b s → GroupedByName e.fields fs0 → r = fin.saved e' →
    ∃ fs got, GroupedByName e'.fields (fs0 ++ fs) ∧ All2 (fun (f : SavedField) g => f.headers = g.1 ∧ f.data.readable w' = .ok g.2) fs got ∧ RetryReads D s got fin ∧
      ∀ q c, w.files q = some c → w'.files q = some c := by
  induction h with
  | @done e w w' s t r fuel h hown =>
    intro fs0 e' fin hr hg hfin
    subst hfin
    obtain ⟨fs, w1, s1, h1, h2, h3⟩ := withEntries_spec h
    obtain ⟨got, g1, g2⟩ := h1.retries hD hn ho hr
    have hgr := Entries.pushAll_grouped fs e.recountFields fs0 hg
    rcases h3 with h3 | ⟨h3, -⟩
    case inr => cases fin <;> simp [Ending.saved] at h3
    cases fin with
    | closed =>
      simp only [Ending.saved] at h3
      cases h3 with
      | full h4 h5 =>
        have := g2 [] _ (.close h4)
        rw [List.append_nil] at this
        exact ⟨fs, got, hgr, g1, this, fun q c hq => h1.keeps hD ho hr hq⟩
    | failed er =>
      simp only [Ending.saved] at h3 hown
      have hown' : er.Own := (hown _ _ rfl).resolve_right fun h => h rfl
      cases h3 with
      | read h4 h5 =>
        have := g2 [] _ (.fail h4 hown')
        rw [List.append_nil] at this
        exact ⟨fs, got, hgr, g1, this, fun q c hq => h1.keeps hD ho hr hq⟩
  | @again e e1 w w1 w' s t1 r fuel er h hown _ ih =>
    intro fs0 e' fin hr hg hfin
    obtain ⟨fs, w1', s1, h1, h2, h3⟩ := withEntries_spec h
    obtain ⟨got, g1, g2⟩ := h1.retries hD hn ho hr
    have hgr := Entries.pushAll_grouped fs e.recountFields fs0 hg
    rcases h3 with h3 | ⟨h3, -⟩
    case inr => simp at h3
    cases h3 with
    | read h4 h5 =>
      have hr1 := h1.reachable hD hr
      obtain ⟨fs', got', i1, i2, i3, i4⟩ := ih (hr1.entry h4) hgr hfin
      rw [List.append_assoc] at i1
      exact ⟨fs ++ fs', got ++ got', i1, (g1.imp fun f g hfg => ⟨hfg.1, SavedData.readable_mono hfg.2 i4⟩).append i2, g2 _ _ (.retry h4 hown i3),
        fun q c hq => i4 q c (h1.keeps hD ho hr hq)⟩

/-- Saved fields and parts of the body: same headers, and the saved contents can be read back and are the data (`DataOk`: up to the CRLF of C01). -/
def KeptAs (b : Bytes) (evs : List Ev) (w : World) (f : SavedField) (p : FieldHeaders × Bytes) : Prop :=
  f.headers = p.1 ∧ ∃ c, f.data.readable w = .ok c ∧ DataOk (dashes ++ b) evs p.2 c

theorem KeptAs.of {fs : List SavedField} {got : List (FieldHeaders × Bytes)} (h : All2 (fun (f : SavedField) g => f.headers = g.1 ∧ f.data.readable w = .ok g.2) fs got)
    (h' : All2 (fun a p => a.1 = p.1 ∧ DataOk (dashes ++ b) evs p.2 a.2) got es) : All2 (KeptAs b evs w) fs es :=
  (h.trans h').imp fun _ _ ⟨_, h1, h2⟩ => ⟨h1.1.trans h2.1, _, h1.2, h2.2⟩

/-- C124 in full: a caller that resumes after each error of the stream has, when `with_entries` comes to an end with all fields it began saved, all parts of the body, and the right end. -/
def ResumeSavesAll (D : Deps) (b : Bytes) (evs : List Ev) : Prop :=
  ∀ (cfg : Settings) (dir : SaveDir) (w w' : World) (es : List (FieldHeaders × Bytes)) (fin fin' : Ending) (e : Entries), cfg.openOpts.createNew = true → Parts D (dashes ++ b) (Ev.bytes evs) es fin →
    ResumedSave D cfg (Entries.new dir) w (withBody evs b) (fin'.saved e) w' → fin' = fin ∧ ∃ fs, GroupedByName e.fields fs ∧ All2 (KeptAs b evs w') fs es

/-- C124, what holds: a caller that resumes a save after each error of the stream ends with all parts of the body saved, in order and completely, and the right result; or else with
"invalid data" and the first parts of the body. Missing: without the second case the statement is false, see `C124_false`. -/
theorem C124_resume_partial (hD : D.Sane) (hn : NoStall evs) (hf : ForeignErrs evs) (ho : cfg.openOpts.createNew = true) (hP : Parts D (dashes ++ b) (Ev.bytes evs) es fin) (dir : SaveDir)
    {fin' : Ending} (h : ResumedSave D cfg (Entries.new dir) w (withBody evs b) (fin'.saved e) w') :
    ∃ fs, GroupedByName e.fields fs ∧ ((fin' = fin ∧ All2 (KeptAs b evs w') fs es) ∨
      (fin' = .failed .invalidData ∧ (∃ er, Ev.err er ∈ evs) ∧ ∃ k, k < es.length ∧ All2 (KeptAs b evs w') fs (es.take k))) := by
  obtain ⟨fs, got, h1, h2, h3, -⟩ := resumed_reads hD hn ho h (fs0 := []) ⟨[], rfl⟩ .nil rfl
  rw [List.nil_append] at h1
  refine ⟨fs, h1, ?_⟩
  rcases C85_retry_partial hD hn hf hP h3 with ⟨k1, k2⟩ | ⟨k1, k2, k, k3, k4⟩
  · exact .inl ⟨k1, KeptAs.of h2 k2⟩
  · exact .inr ⟨k1, k2, k, k3, KeptAs.of h2 k4⟩

/-- C124 for `Full`: resuming does not lose or double anything. If the save, resumed after each error of the stream, reports `Full`, the body ended with the closing delimiter and all its parts are
saved, each once. -/
theorem C124_full (hD : D.Sane) (hn : NoStall evs) (hf : ForeignErrs evs) (ho : cfg.openOpts.createNew = true) (hP : Parts D (dashes ++ b) (Ev.bytes evs) es fin) (dir : SaveDir)
    (h : ResumedSave D cfg (Entries.new dir) w (withBody evs b) (.full e) w') :
    fin = .closed ∧ ∃ fs, GroupedByName e.fields fs ∧ All2 (KeptAs b evs w') fs es := by
  obtain ⟨fs, h1, h2⟩ := C124_resume_partial hD hn hf ho hP dir (fin' := .closed) h
  rcases h2 with ⟨h2, h3⟩ | ⟨h2, -⟩
  · exact ⟨h2.symm, fs, h1, h3⟩
  · cases h2

theorem OnlyInterrupted.foreign (h : OnlyInterrupted evs) : ForeignErrs evs := by
  intro e he
  rw [h e he]
  rintro (g | g) <;> cases g

theorem resumed_total (hD : D.Sane) (hn : NoStall evs) (he : OnlyInterrupted evs) (hc : cfg.Typed) (ho : cfg.openOpts.createNew = true) (hp : cfg.textPolicy ≠ .force)
    (ht : Nat.min cfg.sizeLimit cfg.memoryThreshold < u64Max ∨ cfg.textPolicy = .ignore) : ∀ (n : Nat) {e : Entries} {w : World} {s : BR}, s.evs.length = n → Reachable D evs b s → s.Drained →
    (∀ got fin, RetryReads D s got fin → total e.fields + got.length < cfg.countLimit ∧ ∀ g ∈ got, g.2.length ≤ cfg.sizeLimit) → DiskReady w e.saveDir.asPath (cfg.countLimit - total e.fields) →
    ∃ (fin : Ending) (e' : Entries) (w' : World), ResumedSave D cfg e w s (fin.saved e') w' := by
  intro n
  induction n using Nat.strongRecOn with
  | ind n ih =>
    intro e w s hle hr hdr hlim hw
    obtain ⟨e1, e2⟩ := withEntries_ends (e := e) (w := w) (fuel := s.enough (cfg.memLimit 0) + 1) hD hr ht
    have e1 := e1 (by omega)
    generalize hfuel : s.enough (cfg.memLimit 0) + 1 = fuel at e1 e2
    rcases h : withEntries D cfg fuel e w s with ⟨r, w', t⟩
    rw [h] at e1 e2
    obtain ⟨fs, w1, s1, h1, h2, h3⟩ := withEntries_spec h
    have h3 : LoopEnd D cfg fuel (e.recountFields.pushAll fs) w1 s1 r w' t := by
      rcases h3 with h3 | ⟨rfl, -⟩
      · exact h3
      · exact absurd rfl e1
    have hs1 := h1.reachable hD hr
    have hdr1 : s1.Drained := by
      rcases h1.drained hD hn ho hr with g | ⟨-, rfl⟩
      · exact g
      · exact hdr
    obtain ⟨got, g1, g3⟩ := h1.retries hD hn ho hr
    have hfor : ∀ {u : BR}, Reachable D evs b u → NoStall u.evs ∧ ForeignErrs u.evs := fun hu =>
      ⟨hn.suffix (hu.spec hD).2.2.2, fun er hx => he.foreign er ((hu.spec hD).2.2.2.subset hx)⟩
    have hcnt : ∀ x, (e.recountFields.pushAll fs).fieldsCount < cfg.countLimit → x = fs.length → total e.fields + x < cfg.countLimit := by
      intro x g0 hx
      have := (Entries.count_lt hc _ _ g0).1
      omega
    have hfine : ∀ {hd : FieldHeaders} {s2 : BR} {r : SaveRes SavedData SavedData} {w2 : World} {t2 : BR}, (e.recountFields.pushAll fs).fieldsCount < cfg.countLimit →
        s1.readEntry D = (.ok (some hd), s2) →
        (Target.dir e.saveDir.asPath).save { cfg with textPolicy := if hd.isText then cfg.textPolicy else .ignore } fuel w1 s2 = (r, w2, t2) → r = .hang ∨ ∃ d, r = .full d := by
      intro hd s2 r w2 t2 g0 k1 k2
      have hs2r := hs1.entry k1
      have hs2 := hs2r.spec hD
      have g4 := hcnt _ g0 rfl
      have hw1 : DiskReady w1 e.saveDir.asPath (cfg.countLimit - total e.fields - fs.length - 1 + 1) := DiskReady.seq h1 (by
        have : fs.length + (cfg.countLimit - total e.fields - fs.length - 1 + 1) = cfg.countLimit - total e.fields := by omega
        rw [this]; exact hw)
      have hbound : ∀ x u, Took s2 x u → x.length ≤ cfg.sizeLimit := by
        intro x u hx
        have hur := hx.reachable hs2r
        obtain ⟨os, hx⟩ := hx.run hs2.1
        have hu : u.Inv := (hur.spec hD).1
        obtain ⟨k, -, hk⟩ := BR.reaches_eof (n := 1) (by omega) _ hu (Nat.le_refl _)
        have hev := (BR.run_skipped (List.replicate k (.read 1)) hu).2.2.2.1
        have hri := BR.run_inv (List.replicate k (.read 1)) hu
        obtain ⟨rest, fin, hR⟩ := retryReads_total hD _ hri (Nat.le_refl _) ((hfor hur).1.suffix hev) (fun e he => (hfor hur).2 e (hev.subset he)) (BR.AtEof.drained hri hk)
        have hrun : s2.run (os ++ List.replicate k (.read 1)) = (x ++ (u.run (List.replicate k (.read 1))).1, (u.run (List.replicate k (.read 1))).2) := by
          rw [BR.run_append, hx]
        have := (hlim _ _ (g3 _ _ (.entry k1 (by rw [hrun]; exact hk) (by rw [hrun]; exact hR)))).2 _ (List.mem_append_right _ (List.mem_cons_self ..))
        rw [hrun, List.length_append] at this
        omega
      rcases Target.save_fine (cfg := { cfg with textPolicy := if hd.isText then cfg.textPolicy else .ignore }) hs2.1 ⟨hc.size, hc.mem, hc.count, hc.write⟩
        (fun e g => he e (hs2.2.2.2.subset g)) (hw1.works ho hc.write) hbound k2 with g | g | ⟨g, -⟩
      · exact .inl g
      · exact .inr g
      · simp only at g
        split at g
        · exact absurd g hp
        · simp at g
    have hdir : (e.recountFields.pushAll fs).saveDir.asPath = e.saveDir.asPath := by rw [Entries.pushAll_dir]; rfl
    cases h3 with
    | full h4 h5 => exact ⟨.closed, _, _, .done h (by intro p er hh; cases hh)⟩
    | count h4 =>
      have h4 := Entries.count_ge _ _ h4
      obtain ⟨rest, fin, hR⟩ := retryReads_total hD _ (hs1.spec hD).1 (Nat.le_refl _) (hfor hs1).1 (hfor hs1).2 hdr1
      have := (hlim _ _ (g3 _ _ hR)).1
      rw [List.length_append, ← g1.length] at this
      omega
    | @read er _ h4 h5 =>
      by_cases hown : er.Own
      · exact ⟨.failed er, _, _, .done h (by rintro _ _ ⟨⟩; exact .inl hown)⟩
      have hi1 := (hs1.spec hD).1
      have hst : s1.st ≠ .atEnd := by
        intro hst
        have := BR.readEntry_spec hD hi1
        rw [h4] at this
        simp only at this
        cases this with
        | badHeaders a => exact absurd hst a
        | noBoundary a => exact absurd hst a
      rcases BR.readEntry_faulty hD hi1 hst hdr1 (hfor hs1).1 with ⟨_, _, _, k3⟩ | ⟨k1, -⟩
      case inr => exact absurd (k1 er (by rw [h4])) hown
      rw [h4] at k3
      simp only at k3
      have hlen : t.evs.length < n := by
        have := (h1.script hD (hr.spec hD).1).length_le
        have := k3.shorter
        omega
      have htot : total (e.recountFields.pushAll fs).fields = total e.fields + fs.length := Entries.pushAll_total fs e.recountFields
      obtain ⟨fin, e', w'', hR⟩ := ih _ hlen (e := e.recountFields.pushAll fs) rfl (hs1.entry h4) (k3.drained hdr1) (by
          intro got' fin' hR
          obtain ⟨k4, k5⟩ := hlim _ _ (g3 _ _ (.retry h4 hown hR))
          rw [List.length_append, ← g1.length] at k4
          rw [htot]
          exact ⟨by omega, fun g hg => k5 g (List.mem_append_right _ hg)⟩) (by
          rw [hdir, htot]
          have := hcnt _ h5 rfl
          exact DiskReady.seq h1 (by
            have : fs.length + (cfg.countLimit - (total e.fields + fs.length)) = cfg.countLimit - total e.fields := by omega
            rw [this]; exact hw))
      exact ⟨fin, e', w'', .again h hown hR⟩
    | part h4 h6 h5 =>
      rw [hdir] at h5
      rcases hfine h6 h4 h5 with g | ⟨_, g⟩ <;> simp at g
    | error h4 h6 h5 =>
      rw [hdir] at h5
      rcases hfine h6 h4 h5 with g | ⟨_, g⟩ <;> simp at g
    | panic => exact absurd rfl e2
    | hang => exact absurd rfl e1

/-- C124: resuming comes to an end. If the disk works and reading, with another call after each error, meets the limits, then a save of a stream whose errors are interruptions, resumed after each
of them, ends with the result of `read_entry`: full at the end of the body, or partial because of an error of `read_entry` itself; no field is left unfinished. -/
theorem C124_ends (hD : D.Sane) (hn : NoStall evs) (he : OnlyInterrupted evs) (hc : cfg.Typed) (ho : cfg.openOpts.createNew = true) (hp : cfg.textPolicy ≠ .force)
    (ht : Nat.min cfg.sizeLimit cfg.memoryThreshold < u64Max ∨ cfg.textPolicy = .ignore) (dir : SaveDir)
    (hlim : ∀ got fin, RetryReads D (withBody evs b) got fin → got.length < cfg.countLimit ∧ ∀ g ∈ got, g.2.length ≤ cfg.sizeLimit) (hw : DiskReady w dir.asPath cfg.countLimit) :
    ∃ (fin : Ending) (e : Entries) (w' : World), ResumedSave D cfg (Entries.new dir) w (withBody evs b) (fin.saved e) w' :=
  resumed_total hD hn he hc ho hp ht _ rfl ⟨[], rfl⟩ (by intro h; simp [withBody, BR.fromReader] at h) (by simpa [Entries.new, total] using hlim) (by simpa [Entries.new, total] using hw)

/-- C124 for bodies shorter than the minimum buffer (1024 bytes, or twice the delimiter), if the limits are kept and the disk works: wherever reads are interrupted, resuming the save after each
interruption saves exactly the parts of the body, with exactly their data, and gives the right result. -/
theorem C124_small_partial (hD : D.Sane) (hn : NoStall evs) (he : OnlyInterrupted evs) (hl : (Ev.bytes evs).length < entryBuf (dashes ++ b)) (hP : Parts D (dashes ++ b) (Ev.bytes evs) es fin)
    (hc : cfg.Typed) (ho : cfg.openOpts.createNew = true) (hp : cfg.textPolicy ≠ .force) (ht : Nat.min cfg.sizeLimit cfg.memoryThreshold < u64Max ∨ cfg.textPolicy = .ignore) (dir : SaveDir)
    (hcount : es.length < cfg.countLimit) (hsize : ∀ e ∈ es, e.2.length ≤ cfg.sizeLimit) (hw : DiskReady w dir.asPath cfg.countLimit) :
    (∃ e w', ResumedSave D cfg (Entries.new dir) w (withBody evs b) (fin.saved e) w') ∧
    ∀ (fin' : Ending) e w', ResumedSave D cfg (Entries.new dir) w (withBody evs b) (fin'.saved e) w' → fin' = fin ∧
      ∃ fs, GroupedByName e.fields fs ∧ All2 (fun (f : SavedField) p => f.headers = p.1 ∧ f.data.readable w' = .ok p.2) fs es := by
  have hall : ∀ (fin' : Ending) e w', ResumedSave D cfg (Entries.new dir) w (withBody evs b) (fin'.saved e) w' → fin' = fin ∧
      ∃ fs, GroupedByName e.fields fs ∧ All2 (fun (f : SavedField) p => f.headers = p.1 ∧ f.data.readable w' = .ok p.2) fs es := by
    intro fin' e w' h
    obtain ⟨fs, got, h1, h2, h3, -⟩ := resumed_reads hD hn ho h (fs0 := []) ⟨[], rfl⟩ .nil rfl
    obtain ⟨rfl, rfl⟩ := C85_small_partial hD hn he.foreign hl hP h3
    exact ⟨rfl, fs, h1, h2⟩
  refine ⟨?_, hall⟩
  obtain ⟨fin', e, w', h⟩ := C124_ends (w := w) hD hn he hc ho hp ht dir (by
    intro got fin' hR
    obtain ⟨rfl, rfl⟩ := C85_small_partial hD hn he.foreign hl hP hR
    exact ⟨hcount, hsize⟩) hw
  obtain ⟨rfl, -⟩ := hall _ _ _ h
  exact ⟨e, w', h⟩

/-- C124 is false in full: the part whose headers were being read when the stream was interrupted is reported as invalid data, and nothing is saved. -/
theorem C124_false : NoStall Sample.evsLost ∧ OnlyInterrupted Sample.evsLost ∧ ¬ ResumeSavesAll refDeps Sample.bnd Sample.evsLost := by
  refine ⟨C85_false.1, C85_false.2.1, fun h => ?_⟩
  have h1 : withEntries refDeps Settings.default 10 (Entries.new (.temp [b!"tmp"])) Sample.disk (withBody Sample.evsLost Sample.bnd) =
      ((Ending.failed .invalidData).saved (Entries.new (.temp [b!"tmp"])), _, _) := Sample.entries_eq (by decide +kernel)
  have := h _ _ _ _ _ _ _ _ rfl Sample.evsLost_parts (.done h1 (by rintro _ _ ⟨⟩; exact .inl (.inr rfl)))
  cases this.1

namespace Sample

def smallCfg : Settings := { Settings.default with sizeLimit := 8, countLimit := 3 }

theorem smallCfg_typed : smallCfg.Typed := ⟨by decide, by decide, by decide, rfl⟩

theorem evsInt_only : OnlyInterrupted evsInt := by intro e h; simp [evsInt] at h; exact h

/-- The save of `evsInt` is interrupted, and resumed. -/
theorem resumed : ∃ w', ResumedSave refDeps smallCfg (Entries.new (.temp [b!"tmp"])) readyDisk (withBody evsInt bnd)
    (.full { fields := [(b!"a", [⟨fh, .text b!"hello"⟩])], saveDir := .temp [b!"tmp"], fieldsCount := 1 }) w' := by
  have h1 : withEntries refDeps smallCfg 20 (Entries.new (.temp [b!"tmp"])) readyDisk (withBody evsInt bnd) = (.part ⟨Entries.new (.temp [b!"tmp"]), none⟩ (.io .interrupted), _, _) :=
    entries_eq (by decide +kernel)
  have h2 : withEntries refDeps smallCfg 20 (Entries.new (.temp [b!"tmp"])) (withEntries refDeps smallCfg 20 (Entries.new (.temp [b!"tmp"])) readyDisk (withBody evsInt bnd)).2.1
      (withEntries refDeps smallCfg 20 (Entries.new (.temp [b!"tmp"])) readyDisk (withBody evsInt bnd)).2.2 =
      (.full { fields := [(b!"a", [⟨fh, .text b!"hello"⟩])], saveDir := .temp [b!"tmp"], fieldsCount := 1 }, _, _) := entries_eq (by decide +kernel)
  exact ⟨_, .again h1 (by rintro (h | h) <;> cases h) (.done h2 (by intro p er h; cases h))⟩

end Sample

/-- The hypotheses of C124_resume_partial and C124_full are met: the save is resumed once. -/
example : NoStall Sample.evsInt ∧ ForeignErrs Sample.evsInt ∧ Parts refDeps (dashes ++ Sample.bnd) (Ev.bytes Sample.evsInt) [(Sample.fh, b!"hello")] .closed ∧
    ∃ e w', ResumedSave refDeps Sample.smallCfg (Entries.new (.temp [b!"tmp"])) Sample.readyDisk (withBody Sample.evsInt Sample.bnd) (Ending.closed.saved e) w' :=
  ⟨by decide +kernel, Sample.evsInt_foreign, Sample.parts, _, Sample.resumed⟩

/-- C124_ends and C124_small_partial: what is saved is read back, and exact. -/
example : (∃ (fin : Ending) (e : Entries) (w' : World), ResumedSave refDeps Sample.smallCfg (Entries.new (.temp [b!"tmp"])) Sample.readyDisk (withBody Sample.evsInt Sample.bnd) (fin.saved e) w') ∧
    ∃ e w' fs, ResumedSave refDeps Sample.smallCfg (Entries.new (.temp [b!"tmp"])) Sample.readyDisk (withBody Sample.evsInt Sample.bnd) (.full e) w' ∧
      GroupedByName e.fields fs ∧ All2 (fun (f : SavedField) p => f.headers = p.1 ∧ f.data.readable w' = .ok p.2) fs [(Sample.fh, b!"hello")] := by
  have hsm : (Ev.bytes Sample.evsInt).length < entryBuf (dashes ++ Sample.bnd) := by decide +kernel
  obtain ⟨⟨e, w', h1⟩, h2⟩ := C124_small_partial refDeps_sane (by decide +kernel) Sample.evsInt_only hsm Sample.parts Sample.smallCfg_typed rfl (by decide) (.inl (by decide)) (.temp [b!"tmp"])
    (by decide) (by decide) (Sample.readyDisk_ready (by decide) _)
  obtain ⟨-, fs, h3, h4⟩ := h2 _ _ _ h1
  refine ⟨C124_ends refDeps_sane (by decide +kernel) Sample.evsInt_only Sample.smallCfg_typed rfl (by decide) (.inl (by decide)) _ ?_ (Sample.readyDisk_ready (by decide) _), e, w', fs, h1, h3, h4⟩
  intro got fin hR
  obtain ⟨rfl, rfl⟩ := C85_small_partial refDeps_sane (by decide +kernel) Sample.evsInt_foreign hsm Sample.parts hR
  exact ⟨by decide, by decide⟩

/-! ## C125 -/

theorem Without.refl : ∀ es : List (FieldHeaders × Bytes), Without es [] es
  | [] => .nil
  | _ :: es => .keep (Without.refl es)

theorem Without.after {hs : List FieldHeaders} {ks : List (FieldHeaders × Bytes)} (h : Without es hs ks) : ∀ l : List (FieldHeaders × Bytes), Without (l ++ es) hs (l ++ ks)
  | [] => h
  | _ :: l => .keep (h.after l)

theorem goesOn_parts (hD : D.Sane) (hn : NoStall evs) (hne : NoErr evs) {ok : Settings → Prop} (hok : ∀ c, ok c → c.openOpts.createNew = true) {hs : List FieldHeaders}
    {r : SaveRes Entries PartialEntries} (h : GoesOn D ok e w s hs r w') : ∀ {fs0 : List SavedField} {es : List (FieldHeaders × Bytes)}, Reachable D evs b s → AtParts D (dashes ++ b) evs s es fin →
    GroupedByName e.fields fs0 → r = .full e' →
    fin = .closed ∧ (∃ fs ks, GroupedByName e'.fields (fs0 ++ fs) ∧ Without es hs ks ∧ All2 (SavedAs b evs w') fs ks) ∧ ∀ q c, w.files q = some c → w'.files q = some c := by
  induction h with
  | @stop e w w' s t r cfg fuel hcfg h =>
    intro fs0 es hr ha hg hfull
    subst hfull
    obtain ⟨fs, w1, s1, h1, h2, h3⟩ := withEntries_spec h
    rcases h3 with h3 | ⟨h3, -⟩
    case inr => simp at h3
    cases h3 with
    | full h4 h5 =>
      have hdr : s.Drained ∨ (s.readEntry D).1 ≠ .err .unexpectedEof := by
        refine .inr fun hx => ?_
        cases h1 with
        | nil => rw [h4] at hx; simp at hx
        | cons k1 => rw [k1] at hx; simp at hx
      have ho := hok _ hcfg
      obtain ⟨q1, q2⟩ := h1.savedAs hD hn hne ho hr ha hdr
      have q3 := h1.atParts hD hn hne ho hr ha hdr
      obtain ⟨z1, z2⟩ := q3.reads hD hn hne (.inr (by rw [h4]; simp)) (.close h4)
      have z3 := z2.length
      rw [List.take_of_length_le (by simp at z3; omega)] at q1
      exact ⟨z1.symm, ⟨fs, es, Entries.pushAll_grouped fs e.recountFields fs0 hg, .refl es, q1⟩, fun q c hq => h1.keeps hD ho hr hq⟩
  | @on e w w1 w' s t1 p pf reason r hs cfg fuel hcfg h hpf _ ih =>
    intro fs0 es hr ha hg hfull
    obtain ⟨fs, w1', s1, h1, h2, h3⟩ := withEntries_spec h
    have ho := hok _ hcfg
    rcases h3 with h3 | ⟨h3, -⟩
    case inr => simp at h3
    have key : ∀ {hd : FieldHeaders} {s2 : BR} {r2 : SaveRes SavedData SavedData}, s1.readEntry D = (.ok (some hd), s2) → r2 ≠ .hang →
        (Target.dir (e.recountFields.pushAll fs).saveDir.asPath).save { cfg with textPolicy := if hd.isText then cfg.textPolicy else .ignore } fuel w1' s2 = (r2, w1, t1) →
        p.entries = e.recountFields.pushAll fs → pf.headers = hd →
        fin = .closed ∧ (∃ fs ks, GroupedByName e'.fields (fs0 ++ fs) ∧ Without es (pf.headers :: hs) ks ∧ All2 (SavedAs b evs w') fs ks) ∧ ∀ q c, w.files q = some c → w'.files q = some c := by
      rintro hd s2 r2 h4 hne2 h6 hpe rfl
      have hdr : s.Drained ∨ (s.readEntry D).1 ≠ .err .unexpectedEof := by
        refine .inr fun hx => ?_
        cases h1 with
        | nil => rw [h4] at hx; simp at hx
        | cons k1 => rw [k1] at hx; simp at hx
      obtain ⟨q1, q2⟩ := h1.savedAs hD hn hne ho hr ha hdr
      have q3 := h1.atParts hD hn hne ho hr ha hdr
      obtain ⟨dat, es', d1, d2⟩ := q3.entry hD hn hne (.inr (by rw [h4]; simp)) h4
      have hr1 := h1.reachable hD hr
      have hr2 := hr1.entry h4
      obtain ⟨x, hx⟩ := Target.save_took _ (hr2.spec hD).1 h6 hne2
      rw [hpe] at ih
      obtain ⟨i1, ⟨fs', ks', i2, i3, i4⟩, i5⟩ := ih (hx.reachable hr2) (d2.took hx) (Entries.pushAll_grouped fs e.recountFields fs0 hg) hfull
      have hk : ∀ q c, w1'.files q = some c → w'.files q = some c := fun q c hq => i5 q c (Target.save_keeps _ hD hr2 h6 ho hq)
      refine ⟨i1, ⟨fs ++ fs', es.take fs.length ++ ks', by rw [← List.append_assoc]; exact i2, ?_, ?_⟩, fun q c hq => hk q c (h1.keeps hD ho hr hq)⟩
      · have := (Without.drop (fh := pf.headers) (dat := dat) i3).after (es.take fs.length)
        rw [← d1, List.take_append_drop] at this
        exact this
      · refine (q1.imp ?_).append i4
        rintro f q ⟨k1, c, k2, k3⟩
        exact ⟨k1, c, SavedData.readable_mono k2 hk, k3⟩
    cases h3 with
    | count => simp at hpf
    | read => simp at hpf
    | part h4 h5 h6 => simp only [Option.some.injEq] at hpf; subst hpf; exact key h4 (by simp) h6 rfl rfl
    | error h4 h5 h6 => simp only [Option.some.injEq] at hpf; subst hpf; exact key h4 (by simp) h6 rfl rfl

/-- C125: a field that cannot be saved costs only itself. If a caller saves a request, and whenever the result is partial and names a field (it was too large, the disk failed, it was not text
though text was forced) goes on with another `with_entries` on the entries saved so far, and in the end gets `Full`, then the body ended with the closing delimiter, and all parts of the body are
saved, in order and completely, except exactly the ones the partial results named. -/
theorem C125_only_itself (hD : D.Sane) (hn : NoStall evs) (hne : NoErr evs) (hP : Parts D (dashes ++ b) (Ev.bytes evs) es fin) (dir : SaveDir) {hs : List FieldHeaders}
    (h : GoesOn D (fun c => c.openOpts.createNew = true) (Entries.new dir) w (withBody evs b) hs (.full e) w') :
    fin = .closed ∧ ∃ fs ks, GroupedByName e.fields fs ∧ Without es hs ks ∧ All2 (SavedAs b evs w') fs ks := by
  obtain ⟨h1, ⟨fs, ks, h2, h3⟩, -⟩ := goesOn_parts hD hn hne (fun _ h => h) h (fs0 := []) ⟨[], rfl⟩ (.start hP) .nil rfl
  exact ⟨h1, fs, ks, h2, h3⟩

theorem goesOn_full (hD : D.Sane) (hn : NoStall evs) (hne : NoErr evs) (ho : cfg.openOpts.createNew = true)
    (ht : Nat.min cfg.sizeLimit cfg.memoryThreshold < u64Max ∨ cfg.textPolicy = .ignore) : ∀ (n : Nat) {e : Entries} {w : World} {s : BR} {es : List (FieldHeaders × Bytes)}, es.length = n →
    (¬ CutLine (dashes ++ b) evs ∨ ((∀ e ∈ es, ¬ LongField (dashes ++ b) e.2) ∧ s.Near (dashes ++ b))) → Reachable D evs b s → AtParts D (dashes ++ b) evs s es .closed →
    total e.fields + es.length < cfg.countLimit → ∃ hs e' w', GoesOn D (· = cfg) e w s hs (.full e') w' := by
  intro n
  induction n using Nat.strongRecOn with
  | ind n ih =>
    intro e w s es hlen hcut hr ha hlim
    obtain ⟨e1, e2⟩ := withEntries_ends (e := e) (w := w) (fuel := s.enough (cfg.memLimit 0) + 1) hD hr ht
    have e1 := e1 (by omega)
    generalize hfuel : s.enough (cfg.memLimit 0) + 1 = fuel at e1 e2
    rcases h : withEntries D cfg fuel e w s with ⟨r, w', t⟩
    rw [h] at e1 e2
    have hdr : s.Drained ∨ (s.readEntry D).1 ≠ .err .unexpectedEof := by
      right
      intro g
      rcases hx : s.readEntry D with ⟨r, s'⟩
      rw [hx] at g
      simp only at g
      subst g
      exact ha.no_error hD hn hne (hcut.imp_right (·.2)) hr hx
    obtain ⟨fs, w1, s1, h1, h2, h3⟩ := withEntries_spec h
    have h3 : LoopEnd D cfg fuel (e.recountFields.pushAll fs) w1 s1 r w' t := by
      rcases h3 with h3 | ⟨rfl, -⟩
      · exact h3
      · exact absurd rfl e1
    have hr1 := h1.reachable hD hr
    have ha1 := h1.atParts hD hn hne ho hr ha hdr
    have hfs := (h1.savedAs hD hn hne ho hr ha hdr).2
    have htot : total (e.recountFields.pushAll fs).fields = total e.fields + fs.length := Entries.pushAll_total fs e.recountFields
    have key : ∀ {hd : FieldHeaders} {s2 : BR} {r2 : SaveRes SavedData SavedData} {p : PartialEntries} {pf : PartialField} {reason : Reason} {w' : World}, s1.readEntry D = (.ok (some hd), s2) → r2 ≠ .hang →
        (Target.dir (e.recountFields.pushAll fs).saveDir.asPath).save { cfg with textPolicy := if hd.isText then cfg.textPolicy else .ignore } fuel w1 s2 = (r2, w', t) →
        withEntries D cfg fuel e w s = (.part p reason, w', t) → p.entries = e.recountFields.pushAll fs → p.part = some pf → ∃ hs e' w', GoesOn D (· = cfg) e w s hs (.full e') w' := by
      intro hd s2 r2 p pf reason w' h4 hne2 h6 h hpe hpf
      have hr2 := hr1.entry h4
      obtain ⟨dat, es', d1, d2⟩ := ha1.entry hD hn hne (.inr (by rw [h4]; simp)) h4
      obtain ⟨x, hx⟩ := Target.save_took _ (hr2.spec hD).1 h6 hne2
      have hl := congrArg List.length d1
      rw [List.length_drop, List.length_cons] at hl
      obtain ⟨hs, e', w'', hG⟩ := ih es'.length (by omega) (e := p.entries) (w := w') (s := t) (es := es') rfl (by
        refine hcut.imp_right fun g => ?_
        have hsub : ∀ e ∈ es.drop fs.length, ¬ LongField (dashes ++ b) e.2 := fun e he => g.1 e (List.drop_subset _ _ he)
        refine ⟨fun e he => hsub e (by rw [d1]; exact List.mem_cons_of_mem _ he), .inr fun p hp => ?_⟩
        obtain ⟨os, hos⟩ := hx.run (hr2.spec hD).1
        obtain ⟨r1, r2, r3, -⟩ := BR.run_skipped os (hr2.spec hD).1
        rw [hos] at r1 r2
        simp only at r1 r2
        rw [r1] at hp
        have := ha1.near hD hn hne hsub h4 _ (hp.of_drop (by rw [(hr2.spec hD).2.2.1] at r2; exact r2))
        omega) (hx.reachable hr2) (d2.took hx) (by rw [hpe, htot]; omega)
      exact ⟨_, e', w'', .on rfl h hpf hG⟩
    cases h3 with
    | full h4 h5 => exact ⟨_, _, _, .stop rfl h⟩
    | count h4 =>
      have h4 := Entries.count_ge _ _ h4
      omega
    | read h4 => exact absurd h4 (ha1.no_error hD hn hne (hcut.imp_right (fun g => h1.near hD hn ho hr g.2)) hr1)
    | part h4 h5 h6 => exact key h4 (by simp) h6 h rfl rfl
    | error h4 h5 h6 => exact key h4 (by simp) h6 h rfl rfl
    | panic => exact absurd rfl e2
    | hang => exact absurd rfl e1

/-- C125, the other direction: going on in this way reaches `Full`. This is so for every well-formed body with fewer parts than `count_limit`, whatever the size limit and whatever the disk does, unless a
read of the body ends in a delimiter line and there is a field of about the size of the buffer or more (then C07's "unexpected EOF" is possible). -/
theorem C125_reaches_full (hD : D.Sane) (hn : NoStall evs) (hne : NoErr evs) (ho : cfg.openOpts.createNew = true)
    (ht : Nat.min cfg.sizeLimit cfg.memoryThreshold < u64Max ∨ cfg.textPolicy = .ignore) (hP : Parts D (dashes ++ b) (Ev.bytes evs) es .closed) (dir : SaveDir) (hl : es.length < cfg.countLimit)
    (hcut : ¬ CutLine (dashes ++ b) evs ∨ ∀ e ∈ es, ¬ LongField (dashes ++ b) e.2) :
    ∃ hs e w', GoesOn D (· = cfg) (Entries.new dir) w (withBody evs b) hs (.full e) w' :=
  goesOn_full hD hn hne ho ht _ rfl (hcut.imp_right fun h => ⟨h, .inl (by intro h; simp [withBody, BR.fromReader] at h)⟩) ⟨[], rfl⟩ (.start hP) (by simpa [Entries.new, total] using hl)

namespace Sample

/-- Three fields, the second of them with ten bytes. -/
def evsThree : List Ev := [.data (b!"--b\r\n" ++ hdr ++ b!"one\r\n--b\r\n" ++ hdr ++ b!"0123456789\r\n--b\r\n"), .data (hdr ++ b!"two\r\n--b--\r\n")]

theorem partsThree : Parts refDeps (dashes ++ bnd) (Ev.bytes evsThree) [(fh, b!"one"), (fh, b!"0123456789"), (fh, b!"two")] .closed := by
  have hb : Ev.bytes evsThree = b!"--b\r\n" ++ (hdr ++ (b!"one\r\n--b\r\n" ++ (hdr ++ (b!"0123456789\r\n--b\r\n" ++ (hdr ++ b!"two\r\n--b--\r\n"))))) := by decide +kernel
  rw [hb]
  refine .part (rest := hdr ++ (b!"one\r\n--b\r\n" ++ (hdr ++ (b!"0123456789\r\n--b\r\n" ++ (hdr ++ b!"two\r\n--b--\r\n")))))
    (X := b!"one\r\n--b\r\n" ++ (hdr ++ (b!"0123456789\r\n--b\r\n" ++ (hdr ++ b!"two\r\n--b--\r\n")))) (.part (p := 0) (by decide +kernel) (by decide +kernel))
    ⟨⟨hdr, _, headerBlock (by decide +kernel), by decide +kernel, by decide, fun h => absurd h.1 (by decide +kernel)⟩, .crlf (findSub_some (by decide +kernel)) (List.isPrefixOf_iff_prefix.mp (by decide +kernel))⟩ ?_
  refine .part (rest := hdr ++ (b!"0123456789\r\n--b\r\n" ++ (hdr ++ b!"two\r\n--b--\r\n"))) (X := b!"0123456789\r\n--b\r\n" ++ (hdr ++ b!"two\r\n--b--\r\n"))
    (.part (p := 5) (findSub_some (by decide +kernel)) (by decide +kernel))
    ⟨⟨hdr, _, headerBlock (by decide +kernel), by decide +kernel, by decide, fun h => absurd h.1 (by decide +kernel)⟩, .crlf (findSub_some (by decide +kernel)) (List.isPrefixOf_iff_prefix.mp (by decide +kernel))⟩ ?_
  exact .part (.part (p := 12) (findSub_some (by decide +kernel)) (by decide +kernel)) wellFormed2 (.close (.close (p := 5) (rest := b!"\r\n") (findSub_some (by decide +kernel)) (by decide +kernel)))

end Sample

/-- C125_only_itself: the second field is larger than the size limit, and given up. -/
example : ∃ w', GoesOn refDeps (fun c => c.openOpts.createNew = true) (Entries.new (.temp [b!"tmp"])) Sample.readyDisk (withBody Sample.evsThree Sample.bnd) [Sample.fh]
    (.full { fields := [(b!"a", [⟨Sample.fh, .text b!"one"⟩, ⟨Sample.fh, .text b!"two"⟩])], saveDir := .temp [b!"tmp"], fieldsCount := 2 }) w' := by
  have h1 : withEntries refDeps Sample.smallCfg 20 (Entries.new (.temp [b!"tmp"])) Sample.readyDisk (withBody Sample.evsThree Sample.bnd) =
      (.part ⟨{ fields := [(b!"a", [⟨Sample.fh, .text b!"one"⟩])], saveDir := .temp [b!"tmp"], fieldsCount := 1 }, some ⟨Sample.fh, some (.file [b!"tmp", b!"y"] 0)⟩⟩ .sizeLimit, _, _) :=
    Sample.entries_eq (by decide +kernel)
  have h2 : withEntries refDeps Sample.smallCfg 20 { fields := [(b!"a", [⟨Sample.fh, .text b!"one"⟩])], saveDir := .temp [b!"tmp"], fieldsCount := 1 }
      (withEntries refDeps Sample.smallCfg 20 (Entries.new (.temp [b!"tmp"])) Sample.readyDisk (withBody Sample.evsThree Sample.bnd)).2.1
      (withEntries refDeps Sample.smallCfg 20 (Entries.new (.temp [b!"tmp"])) Sample.readyDisk (withBody Sample.evsThree Sample.bnd)).2.2 =
      (.full { fields := [(b!"a", [⟨Sample.fh, .text b!"one"⟩, ⟨Sample.fh, .text b!"two"⟩])], saveDir := .temp [b!"tmp"], fieldsCount := 2 }, _, _) := Sample.entries_eq (by decide +kernel)
  exact ⟨_, .on (ok := fun c => c.openOpts.createNew = true) (cfg := Sample.smallCfg) rfl h1 rfl (.stop (cfg := Sample.smallCfg) rfl h2)⟩

/-- C125_reaches_full. -/
example (w : World) : ∃ hs e w', GoesOn refDeps (· = { Settings.default with sizeLimit := 8, countLimit := 4 }) (Entries.new (.temp [b!"tmp"])) w (withBody Sample.evsThree Sample.bnd) hs (.full e) w' :=
  C125_reaches_full refDeps_sane (by decide +kernel) (by intro e; simp [Sample.evsThree]) rfl (.inl (by decide)) Sample.partsThree _ (by decide) (.inr (by unfold LongField; decide +kernel))

end Multipart

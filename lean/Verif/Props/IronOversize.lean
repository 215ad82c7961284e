import Verif.Props.InterceptExample
import Verif.Props.Oversize
import Verif.Props.Tools
/-!
# Requests with fields that are too long, and Iron's `Intercept` (C110, and more on C59 and C106)
-/
namespace Multipart

variable {D : Deps} {evs : List Ev} {b : Bytes} {s t : BR} {cfg : Settings} {fuel : Nat} {T : Target} {w w' : World} {e : Entries} {es : List (FieldHeaders × Bytes)} {i : Intercept}
  {fail : Option (IoErr × (Path → Bool))} {dir : Path}

/-! ## Strict mode -/

/-- C59: a request whose first `k` parts are within the limits and whose next part is longer than `file_size_limit` and (if smaller) 10 KiB together is rejected in strict mode, with the error that names
the headers of this part, whatever follows in the body. -/
theorem C59_too_large (hD : D.Sane) (hn : NoStall evs) (hne : NoErr evs) (ht : i.Typed) (hsz : (Ev.bytes evs).length ≤ u64Max) (hs : i.fileSizeLimit < u64Max) {fin : Ending}
    (hP : Parts D (dashes ++ b) (Ev.bytes evs) es fin) {k : Nat} {fh : FieldHeaders} {dat : Bytes} (hk : es[k]? = some (fh, dat)) (hl : k < i.fileCountLimit)
    (hz : ∀ p ∈ es.take k, p.2.length + 2 ≤ i.fileSizeLimit ∨ ((CleanSplit (dashes ++ b) evs ∨ p.2.length + 2 ≤ entryBuf (dashes ++ b)) ∧ p.2.length ≤ i.fileSizeLimit))
    (hbig : i.fileSizeLimit + Nat.min i.fileSizeLimit (10 * 1024) < dat.length) (hw : DiskReady w dir (k + 1)) :
    ∃ n, ∀ fuel, n ≤ fuel → (i.readRequestStrict D fuel fail dir w (withBody evs b)).1 = .ok (.error (.size fh)) := by
  obtain ⟨n, h⟩ := C108_too_large (cfg := i.settings) hD hn hne ht.settings rfl hsz hs hP (.temp dir) hk (fun h => by cases h) hl hz hbig hw
  refine ⟨n, fun fuel hf => ?_⟩
  obtain ⟨e, d, w', t, fs, c, h1, -⟩ := h fuel hf
  unfold Intercept.readRequestStrict withTempDir
  rw [h1]

/-- C106: such a request to the example server, with its limit of 2 MiB, is answered with the error that names the field. -/
theorem C106_too_large {T : TempEnv} {debug : Entries → Bytes} {req : HyperReq} (hD : D.Sane) (hb : ironBoundary req = some b) (ht : T.tempdir b!"multipart-iron" = .ok dir) (hn : NoStall req.body)
    (hne : NoErr req.body) (hsz : (Ev.bytes req.body).length ≤ u64Max) {fin : Ending} (hP : Parts D (dashes ++ b) (Ev.bytes req.body) es fin) {k : Nat} {fh : FieldHeaders} {dat : Bytes}
    (hk : es[k]? = some (fh, dat)) (hl : k < 16) (hz : ∀ p ∈ es.take k, p.2.length + 2 ≤ 2 * 1024 * 1024) (hbig : 2 * 1024 * 1024 + 10 * 1024 < dat.length) (hw : DiskReady w dir (k + 1)) :
    ∃ n, ∀ fuel, n ≤ fuel → (interceptExample D fuel T fail debug w req).1 = .ok ⟨404, (IronErr.size fh).text⟩ := by
  obtain ⟨n, h⟩ := C59_too_large (i := .default) (w := { w with dirs := w.dirs ++ [dir] }) (fail := fail) hD hn hne Intercept.default_typed hsz (by decide) hP hk hl (fun p hp => .inl (hz p hp)) hbig hw.dirs
  refine ⟨n, fun fuel hf => ?_⟩
  have h := h fuel hf
  rw [interceptExample_some hb ht]
  rcases hc : Intercept.default.readRequestStrict D fuel fail dir { w with dirs := w.dirs ++ [dir] } (withBody req.body b) with ⟨r, w1, t⟩
  rw [hc] at h
  simp only at h
  subst h
  rfl

/-- The hypotheses of C59_too_large and C106_too_large are met: a small field and one of three million bytes. -/
example : NoStall (Sample.evsLarge 3000000) ∧ NoErr (Sample.evsLarge 3000000) ∧ (Ev.bytes (Sample.evsLarge 3000000)).length ≤ u64Max ∧
    Parts refDeps (dashes ++ Sample.bnd) (Ev.bytes (Sample.evsLarge 3000000)) [Sample.small.asRead none, (Sample.large 3000000).asRead none] .closed ∧
    (∀ p ∈ [Sample.small.asRead none, (Sample.large 3000000).asRead none].take 1, p.2.length + 2 ≤ 2 * 1024 * 1024) ∧ 2 * 1024 * 1024 + 10 * 1024 < ((Sample.large 3000000).asRead none).2.length ∧
    ironBoundary (Sample.ironReq (Sample.evsLarge 3000000)) = some Sample.bnd ∧ Sample.temp.tempdir b!"multipart-iron" = .ok [b!"tmp", b!"multipart-iron1"] ∧
    DiskReady (Sample.bigDisk 2) [b!"tmp", b!"multipart-iron1"] 2 :=
  ⟨(Sample.evsLarge_fine _).1, (Sample.evsLarge_fine _).2, by rw [Sample.evsLarge_length]; decide, Sample.partsLarge _, by
    intro p hp; simp only [List.take_succ_cons, List.take_zero, List.mem_singleton] at hp; subst hp; decide, by simp only [OutField.asRead, Sample.large, List.length_replicate]; decide, rfl, rfl, Sample.bigDisk_ready _ 2⟩

/-! ## Lenient mode -/

/-- A save that meets no trouble with the stream or the disk is full, or stopped by the size limit. -/
theorem Target.save_quiet (hi : s.Inv) (he : OnlyInterrupted s.evs) (hw : DiskWorks w cfg.openOpts (T.file w)) (hp : cfg.textPolicy ≠ .force) {r : SaveRes SavedData SavedData}
    (h : T.save cfg fuel w s = (r, w', t)) : r = .hang ∨ (∃ d, r = .full d) ∨ ∃ d, r = .part d .sizeLimit := by
  have hse : ∀ {e}, ¬ StreamErr s e := fun g => g.2 (he _ g.1)
  have hwf : ∀ {e}, ¬ ∃ ev ∈ (T.world w).writes, ev.FailsWith e := by
    rintro e ⟨ev, g1, g2⟩; exact (hw.world (T := T)).writes ev g1 e g2
  cases Target.save_spec hi h with
  | hang => exact .inl rfl
  | text => exact .inr (.inl ⟨_, rfl⟩)
  | bytes => exact .inr (.inl ⟨_, rfl⟩)
  | partText h1 h2 h3 h4 h5 h6 =>
    rcases h6 with ⟨rfl, -⟩ | ⟨e, -, -, g⟩ | ⟨-, g, -⟩
    · exact .inr (.inr ⟨_, rfl⟩)
    · exact absurd g hse
    · exact absurd g hp
  | partBytes h1 h2 h3 h4 =>
    rcases h4 with ⟨rfl, -⟩ | ⟨e, -, -, g⟩
    · exact .inr (.inr ⟨_, rfl⟩)
    · exact absurd g hse
  | error _ _ g => exact absurd g hse
  | file h1 h2 h3 h4 h5 =>
    cases h5 with
    | hang => exact .inl rfl
    | noFile _ _ g => exact absurd g (hw.world (T := T)).not_fails
    | cut _ _ _ _ g => exact absurd g hwf
    | cut0 _ _ _ g => exact absurd g hwf
    | full => exact .inr (.inl ⟨_, rfl⟩)
    | part _ _ _ _ g =>
      rcases g with ⟨rfl, -⟩ | ⟨e, -, g | g⟩
      · exact .inr (.inr ⟨_, rfl⟩)
      · exact absurd (g.after hi h1) hse
      · exact absurd g hwf
    | error _ _ _ g => exact absurd (g.after hi h1) hse

theorem AtParts.near (hD : D.Sane) (hn : NoStall evs) (hne : NoErr evs) {fin : Ending} {fh : FieldHeaders} (ha : AtParts D (dashes ++ b) evs s es fin)
    (hs : ∀ e ∈ es, ¬ LongField (dashes ++ b) e.2) (he : s.readEntry D = (.ok (some fh), t)) : ∀ p, FirstAt (dashes ++ b) t.unread p → p + (dashes ++ b).length + 2 ≤ entryBuf (dashes ++ b) := by
  intro p hp
  have hv := BR.readEntry_verdict hD ha.inv ha.st (.inr (by rw [he]; simp)) hn hne ha.script ha.unread
  rw [ha.delim, he] at hv
  cases ha.parts with
  | close g => have := hv.1.1 _ g; simp at this
  | damaged g => have := hv.1.2.1 g; simp at this
  | truncated g => have := hv.1.2.2 g; simp at this
  | refused g g' =>
    have := BR.readEntry_refused hD ha.inv ha.st (.inr (by rw [he]; simp)) hn hne ha.script (ha.delim.symm ▸ g) (ha.delim.symm ▸ g')
    rw [he] at this; simp at this
  | part g w _ =>
    obtain ⟨H, hs', w1, w2, w3, w4⟩ := w.headers
    have h1 := (hv.2 _ _ _ _ _ _ g w1 w.data w4 w3 w2).2
    simp only at h1
    rw [h1] at hp
    have h2 := hs _ List.mem_cons_self
    have h3 := w.data.longField hp
    by_cases h4 : entryBuf (dashes ++ b) < p + (dashes ++ b).length + 2
    · exact absurd (h3 h4) h2
    · omega

theorem SavedSeq.near (hD : D.Sane) (hn : NoStall evs) (ho : cfg.openOpts.createNew = true) {fs : List SavedField} {d : Bytes} (h : SavedSeq D cfg fuel dir w s fs w' t) (hr : Reachable D evs b s)
    (hs : s.Near d) : t.Near d := by
  induction h with
  | nil => exact hs
  | @cons w w1 w2 s s1 s2 t hd d fs h1 h2 h3 ih =>
    have hr1 := hr.entry h1
    obtain ⟨x, hx, heof, -⟩ := Target.save_full (.dir dir) hD hn hr1 h2 (.inl ho)
    have hr2 := hx.reachable hr1
    exact ih hr2 (.inl (BR.AtEof.drained (hr2.spec hD).1 heof))

/-- In a request with a complete body, no call of `read_entry` fails, also if it skips the rest of a field, unless a read of the body ends in a delimiter line and the field is long. -/
theorem AtParts.no_error (hD : D.Sane) (hn : NoStall evs) (hne : NoErr evs) (hcut : ¬ CutLine (dashes ++ b) evs ∨ s.Near (dashes ++ b)) (hr : Reachable D evs b s) (ha : AtParts D (dashes ++ b) evs s es .closed) {er : IoErr} :
    s.readEntry D ≠ (.err er, t) := by
  intro h
  rcases skip_outcome hD hn hne hr ha with g | ⟨-, -, g⟩ | ⟨-, g, hdr, p, hp, hl⟩
  · have := (ha.reads hD hn hne (.inr g) (.fail h)).1
    simp at this
  · exact absurd rfl g
  · rcases hcut with hcut | hcut | hcut
    · exact hcut g
    · exact hdr hcut
    · have := hcut p hp; omega

theorem Intercept.lenientLoop_no_error (hD : D.Sane) (ht : i.Typed) (hn : NoStall evs) (hne : NoErr evs) {n : Nat} {er : IronErr}
    (hcut : ¬ CutLine (dashes ++ b) evs ∨ ((∀ e ∈ es, ¬ LongField (dashes ++ b) e.2) ∧ s.Near (dashes ++ b))) (hr : Reachable D evs b s)
    (ha : AtParts D (dashes ++ b) evs s es .closed) (hw : DiskReady w e.saveDir.asPath es.length) :
    i.lenientLoop D fuel fail n e w s ≠ (.ok (.error er), w', t) := by
  induction n generalizing e w s es with
  | zero => simp [Intercept.lenientLoop]
  | succ n ih =>
    intro h
    have hi := (hr.spec hD).1
    rcases hc : withEntries D i.settings fuel e w s with ⟨r, w1, t1⟩
    simp only [Intercept.lenientLoop, hc] at h
    cases r with
    | panic => simp at h
    | hang => simp at h
    | error er => exact Intercept.no_error hc
    | full e1 => simp at h
    | part p reason =>
      have hdr : s.Drained ∨ (s.readEntry D).1 ≠ .err .unexpectedEof := by
        right
        intro g
        rcases hx : s.readEntry D with ⟨r, s'⟩
        rw [hx] at g
        simp only at g
        subst g
        exact ha.no_error hD hn hne (hcut.imp_right (·.2)) hr hx
      obtain ⟨fs, w2, s1, h1, h2, h3⟩ := withEntries_spec hc
      have h3 : LoopEnd D i.settings fuel (e.recountFields.pushAll fs) w2 s1 (.part p reason) w1 t1 := by
        rcases h3 with h3 | ⟨h3, -⟩
        · exact h3
        · simp at h3
      have hr1 := h1.reachable hD hr
      have ha1 := h1.atParts hD hn hne rfl hr ha hdr
      have hfs : fs.length ≤ es.length := (h1.enters hD hi .zero).parts hD hn hne ha
      have hdir : (e.recountFields.pushAll fs).saveDir = e.saveDir := Entries.pushAll_dir _ _
      have hstep : ∀ {hd : FieldHeaders} {s2 : BR}, s1.readEntry D = (.ok (some hd), s2) →
          ∃ dat es', es.drop fs.length = (hd, dat) :: es' ∧ fs.length + es'.length + 1 = es.length ∧ AtParts D (dashes ++ b) evs s2 es' .closed ∧ DiskReady w2 e.saveDir.asPath (es'.length + 1) := by
        intro hd s2 g1
        obtain ⟨dat, es', g2, g3⟩ := ha1.entry hD hn hne (.inr (by rw [g1]; simp)) g1
        have g4 := congrArg List.length g2
        rw [List.length_drop, List.length_cons] at g4
        exact ⟨dat, es', g2, by omega, g3, DiskReady.seq h1 (by
          have : fs.length + (es'.length + 1) = es.length := by omega
          show DiskReady w e.saveDir.asPath _
          rw [this]; exact hw)⟩
      have hquiet : ∀ {hd : FieldHeaders} {s2 : BR} {r : SaveRes SavedData SavedData} {w3 : World} {t2 : BR}, s1.readEntry D = (.ok (some hd), s2) →
          (Target.dir (e.recountFields.pushAll fs).saveDir.asPath).save { i.settings with textPolicy := if hd.isText then i.settings.textPolicy else .ignore } fuel w2 s2 = (r, w3, t2) →
          r = .hang ∨ (∃ d, r = .full d) ∨ ∃ d, r = .part d .sizeLimit := by
        intro hd s2 r w3 t2 g1 g2
        obtain ⟨dat, es', -, -, -, g3⟩ := hstep g1
        have hs2 := (hr1.entry g1).spec hD
        rw [hdir] at g2
        refine Target.save_quiet hs2.1 (fun e g => absurd (hs2.2.2.2.subset g) (hne e)) (g3.works rfl rfl) ?_ g2
        simp only
        split
        · show TextPolicy.try_ ≠ .force; simp
        · simp
      cases h3 with
      | count h4 =>
        have h5 := Entries.count_ge _ _ h4
        have := Intercept.lenient_stuck (D := D) (fuel := fuel) (fail := fail) (w := w1) (s := (s1.readEntry D).2) ht (n := n) (e := e.recountFields.pushAll fs) (by
          rw [Entries.pushAll_total]; exact h5)
        simp only [PartialEntries.keepPartial] at h
        rw [h] at this
        simp at this
      | read h4 => exact ha1.no_error hD hn hne (hcut.imp_right (fun g => h1.near hD hn rfl hr g.2)) hr1 h4
      | error h4 _ h5 => rcases hquiet h4 h5 with g | ⟨_, g⟩ | ⟨_, g⟩ <;> simp at g
      | @part hd d _ _ s2 _ h4 h5 h6 =>
        rcases hquiet h4 h6 with g | ⟨_, g⟩ | ⟨_, g⟩
        · simp at g
        · simp at g
        simp only [SaveRes.part.injEq] at g
        obtain ⟨-, rfl⟩ := g
        obtain ⟨dat, es', k1, k2, k3, k4⟩ := hstep h4
        have hr2 := hr1.entry h4
        obtain ⟨x, hos⟩ := Target.save_took _ (hr2.spec hD).1 h6 (by simp)
        obtain ⟨os, hos⟩ := hos.run (hr2.spec hD).1
        rw [hdir] at h6
        have hx := k3.run os
        rw [hos] at hx
        have hrt := hr2.run os
        rw [hos] at hrt
        have hkp : (PartialEntries.keepPartial ⟨e.recountFields.pushAll fs, some ⟨hd, some d⟩⟩) = (e.recountFields.pushAll fs).pushField hd d := rfl
        refine ih (e := PartialEntries.keepPartial ⟨e.recountFields.pushAll fs, some ⟨hd, some d⟩⟩) ?_ hrt hx ?_ h
        · refine hcut.imp_right fun g => ?_
          have hsub : ∀ e ∈ es.drop fs.length, ¬ LongField (dashes ++ b) e.2 := fun e he => g.1 e (List.drop_subset _ _ he)
          refine ⟨fun e he => hsub e (by rw [k1]; exact List.mem_cons_of_mem _ he), .inr fun p hp => ?_⟩
          obtain ⟨r1, r2, r3, -⟩ := BR.run_skipped os (hr2.spec hD).1
          rw [hos] at r1 r2
          simp only at r1 r2
          rw [r1] at hp
          have := ha1.near hD hn hne hsub h4 _ (hp.of_drop (by rw [(hr2.spec hD).2.2.1] at r2; exact r2))
          omega
        · rw [hkp]
          show DiskReady w1 (e.recountFields.pushAll fs).saveDir.asPath es'.length
          rw [hdir]
          exact k4.saved h6

/-- Lenient interception returns entries, fails with one of its errors, panics, or never returns; no other outcome is possible. -/
theorem Intercept.lenientLoop_some {n : Nat} {r : Res (Except IronErr (Option Entries))} (hr : r = .ok (.ok none) ∨ ∃ er, r = .err er) : i.lenientLoop D fuel fail n e w s ≠ (r, w', t) := by
  induction n generalizing e w s with
  | zero => rcases hr with rfl | ⟨_, rfl⟩ <;> simp [Intercept.lenientLoop]
  | succ n ih =>
    unfold Intercept.lenientLoop
    split
    · rcases hr with rfl | ⟨_, rfl⟩ <;> simp
    · rcases hr with rfl | ⟨_, rfl⟩ <;> simp
    · exact ih
    · rcases hr with rfl | ⟨_, rfl⟩ <;> simp
    · rcases hr with rfl | ⟨_, rfl⟩ <;> simp
    · rcases hr with rfl | ⟨_, rfl⟩ <;> simp

/-- The full claim C110: in `Continue` mode, a request with a complete body and fewer parts than `file_count_limit` is accepted, however long they are, if the disk works. -/
def LenientAccepts (D : Deps) : Prop :=
  ∀ (i : Intercept) (evs : List Ev) (b : Bytes) (fail : Option (IoErr × (Path → Bool))) (dir : Path) (w : World) (es : List (FieldHeaders × Bytes)),
    i.Typed → NoStall evs → NoErr evs → Parts D (dashes ++ b) (Ev.bytes evs) es .closed → (Ev.bytes evs).length ≤ u64Max → es.length < i.fileCountLimit → DiskReady w dir es.length →
    ∃ n, ∀ fuel, n ≤ fuel → ∃ e w' t, i.readRequestLenient D fuel fail dir w (withBody evs b) = (.ok (.ok (some e)), w', t)

/-- C110, as far as it holds: if no field is long, or no read of the body ends directly behind the delimiter of a delimiter line, or inside what follows it there. Then the entries are all parts of the request, in order, each
with its contents or, if it is longer than `file_size_limit`, the beginning of them. Missing: other ways to divide a body with long fields into reads. -/
theorem C110_accepts_partial (hD : D.Sane) (ht : i.Typed) (hn : NoStall evs) (hne : NoErr evs) (hP : Parts D (dashes ++ b) (Ev.bytes evs) es .closed) (hsz : (Ev.bytes evs).length ≤ u64Max)
    (hl : es.length < i.fileCountLimit) (hw : DiskReady w dir es.length) (hcut : CutLine (dashes ++ b) evs → ∀ e ∈ es, ¬ LongField (dashes ++ b) e.2) :
    ∃ n, ∀ fuel, n ≤ fuel → ∃ e w' t fs, i.readRequestLenient D fuel fail dir w (withBody evs b) = (.ok (.ok (some e)), w', t) ∧ e.saveDir = .temp dir ∧ GroupedByName e.fields fs ∧
      All2 (Kept i.fileSizeLimit b evs w') fs es := by
  obtain ⟨n, h⟩ := C60_returns_parts_partial (i := i) (fail := fail) (dir := dir) (w := w) hD hn hne hP hl
  refine ⟨n, fun fuel hf => ?_⟩
  obtain ⟨out, w', t, h1, h2⟩ := h fuel hf
  rcases out with er | _ | e
  · rw [Intercept.lenient_eq] at h1
    have hcut' : ¬ CutLine (dashes ++ b) evs ∨ ((∀ e ∈ es, ¬ LongField (dashes ++ b) e.2) ∧ (withBody evs b).Near (dashes ++ b)) := by
      by_cases h : CutLine (dashes ++ b) evs
      · exact .inr ⟨hcut h, .inl (by intro h; simp [withBody, BR.fromReader] at h)⟩
      · exact .inl h
    exact absurd h1 (Intercept.lenientLoop_no_error hD ht hn hne (s := withBody evs b) hcut' ⟨[], rfl⟩ (.start hP) hw)
  · exact absurd rfl h2
  · obtain ⟨-, -, h3, fs, h4, h5⟩ := C60_entries hD hn hne ht hsz hP h1
    exact ⟨e, w', t, fs, h1, h3, h4, h5⟩

/-- The same for the middleware: such a request passes it, and has the entries among its extensions. -/
theorem C110_passes_partial {req : HyperReq} {m : HMime} (hD : D.Sane) (hm : m.Parsed) (h1 : req.contentType = some m) (h2 : m.IsFormData) (h3 : m.HasBoundary b) (hi : i.limitBehavior = .continue_)
    (ht : i.Typed) (hn : NoStall req.body) (hne : NoErr req.body) (hP : Parts D (dashes ++ b) (Ev.bytes req.body) es .closed) (hsz : (Ev.bytes req.body).length ≤ u64Max)
    (hl : es.length < i.fileCountLimit) (hw : DiskReady w dir es.length) (hcut : CutLine (dashes ++ b) req.body → ∀ e ∈ es, ¬ LongField (dashes ++ b) e.2) (ext : Option Entries) :
    ∃ n, ∀ fuel, n ≤ fuel → ∃ e w' fs, i.before D fuel (.ok dir) fail w req ext = (.ok (.ok ()), some e, w') ∧ e.saveDir = .temp dir ∧ GroupedByName e.fields fs ∧
      All2 (Kept i.fileSizeLimit b req.body w') fs es := by
  have hb : ironBoundary req = some b := (C61_iron (by rw [h1]; rintro _ ⟨⟩; exact hm)).mpr ⟨m, h1, h2, h3⟩
  obtain ⟨n, h⟩ := C110_accepts_partial (i := i) (fail := fail) (w := { w with dirs := w.dirs ++ [dir] }) hD ht hn hne hP hsz hl hw.dirs hcut
  refine ⟨n, fun fuel hf => ?_⟩
  obtain ⟨e, w', t, fs, a1, a2, a3, a4⟩ := h fuel hf
  refine ⟨e, w', fs, ?_, a2, a3, a4⟩
  unfold Intercept.before Intercept.readRequest fromRequest ironHttp
  simp only [hb, hi, a1]

/-- The hypotheses of C110_accepts_partial and C110_passes_partial are met: a field of 5000 bytes, with a limit of 10. -/
example : ∃ n, ∀ fuel, n ≤ fuel → ∃ e w' fs,
    (Intercept.mk none 10 3 .continue_).before refDeps fuel (.ok [b!"tmp"]) none (Sample.bigDisk 2) (Sample.ironReq (Sample.evsLarge 5000)) none = (.ok (.ok ()), some e, w') ∧ e.saveDir = .temp [b!"tmp"] ∧
      GroupedByName e.fields fs ∧ All2 (Kept 10 Sample.bnd (Sample.evsLarge 5000) w') fs [Sample.small.asRead none, (Sample.large 5000).asRead none] :=
  C110_passes_partial (b := Sample.bnd) (req := Sample.ironReq (Sample.evsLarge 5000)) (i := ⟨none, 10, 3, .continue_⟩) refDeps_sane (m := ⟨.multipart, .formData, [(.boundary, .ext b!"b")]⟩)
    ⟨by simp, by simp, by simp, by intro p hp; simp only [List.mem_singleton] at hp; subst hp; decide⟩ rfl ⟨rfl, rfl⟩ ⟨[], .boundary, .ext b!"b", [], rfl, rfl, rfl, by simp⟩ rfl
    ⟨by decide, by decide⟩ (Sample.evsLarge_fine _).1 (Sample.evsLarge_fine _).2 (Sample.partsLarge _) (by show (Ev.bytes (Sample.evsLarge 5000)).length ≤ _; rw [Sample.evsLarge_length]; decide)
    (by decide) (Sample.bigDisk_ready _ 2) (fun h => absurd h (single_not_cutLine (by decide))) none

/-- C60 fails for all requests with `file_count_limit` parts or more (16 by default), if nothing else stops the interception: it never returns. -/
theorem C60_never_returns (hD : D.Sane) (ht : i.Typed) (hn : NoStall evs) (hne : NoErr evs) (hP : Parts D (dashes ++ b) (Ev.bytes evs) es .closed) (hsz : (Ev.bytes evs).length ≤ u64Max)
    (hl : i.fileCountLimit ≤ es.length) (hw : DiskReady w dir es.length) (hcut : CutLine (dashes ++ b) evs → ∀ e ∈ es, ¬ LongField (dashes ++ b) e.2) (fuel : Nat) :
    (i.readRequestLenient D fuel fail dir w (withBody evs b)).1 = .hang := by
  rcases h : i.readRequestLenient D fuel fail dir w (withBody evs b) with ⟨r, w', t⟩
  rcases r with (er | _ | e) | er | _ | _
  · rw [Intercept.lenient_eq] at h
    have hcut' : ¬ CutLine (dashes ++ b) evs ∨ ((∀ e ∈ es, ¬ LongField (dashes ++ b) e.2) ∧ (withBody evs b).Near (dashes ++ b)) := by
      by_cases h : CutLine (dashes ++ b) evs
      · exact .inr ⟨hcut h, .inl (by intro h; simp [withBody, BR.fromReader] at h)⟩
      · exact .inl h
    exact absurd h (Intercept.lenientLoop_no_error hD ht hn hne (s := withBody evs b) hcut' ⟨[], rfl⟩ (.start hP) hw)
  · rw [Intercept.lenient_eq] at h; exact absurd h (Intercept.lenientLoop_some (by simp))
  · have := (C60_entries hD hn hne ht hsz hP h).2.1; omega
  · rw [Intercept.lenient_eq] at h; exact absurd h (Intercept.lenientLoop_some (by simp))
  · exact absurd (congrArg (·.1) h) (C60_no_panic hD ⟨[], rfl⟩)
  · rfl

/-- Two fields and a limit of two. -/
example (fuel : Nat) : (Intercept.readRequestLenient refDeps ⟨none, 10, 2, .continue_⟩ fuel none [b!"tmp"] (Sample.bigDisk 2) (withBody (Sample.evsLarge 5000) Sample.bnd)).1 = .hang :=
  C60_never_returns refDeps_sane ⟨by decide, by decide⟩ (Sample.evsLarge_fine _).1 (Sample.evsLarge_fine _).2 (Sample.partsLarge _) (by rw [Sample.evsLarge_length]; decide) (by decide)
    (Sample.bigDisk_ready _ 2) (fun h => absurd h (single_not_cutLine (by decide))) fuel

/-- C110 is false of the code: the body is divided into two reads, the first one ending behind the last boundary, and the field is longer than the limit. What was not saved of it must be skipped, and this
fails (see C07), so the middleware rejects the request. -/
theorem C110_false : ¬ LenientAccepts refDeps := by
  intro h
  obtain ⟨n, hn⟩ := h ⟨none, 10, 8, .continue_⟩ Sample.evsCut Sample.bnd none [b!"tmp"] (Sample.bigDisk 2) [(Sample.fh, Sample.big)] ⟨by decide, by decide⟩ (by decide +kernel)
    (by intro e; simp [Sample.evsCut]) (by have := Sample.parts_big; simpa [Sample.evsCut, Ev.bytes] using this) (by decide +kernel) (by decide)
    ⟨(Sample.bigDisk_ready [b!"tmp"] 2).mkdirs, (Sample.bigDisk_ready [b!"tmp"] 2).opens, (Sample.bigDisk_ready [b!"tmp"] 2).writes, by decide, by decide, by decide⟩
  obtain ⟨e, w', t, hn⟩ := hn (n + 10) (by omega)
  have h1 := Sample.entries_eq (D := refDeps) (cfg := Intercept.settings ⟨none, 10, 8, .continue_⟩) (fuel := 10) (e := Entries.new (.temp [b!"tmp"])) (w := Sample.bigDisk 2)
    (s := withBody Sample.evsCut Sample.bnd) (r := .part { entries := Entries.new (.temp [b!"tmp"]), part := some ⟨Sample.fh, some (.file [b!"tmp", []] 0)⟩ } .sizeLimit) (by decide +kernel)
  generalize hw : withEntries refDeps (Intercept.settings ⟨none, 10, 8, .continue_⟩) 10 (Entries.new (.temp [b!"tmp"])) (Sample.bigDisk 2) (withBody Sample.evsCut Sample.bnd) = x at h1
  have h2 : ∃ p, (withEntries refDeps (Intercept.settings ⟨none, 10, 8, .continue_⟩) 10
      { fields := [(b!"a", [⟨Sample.fh, .file [b!"tmp", []] 0⟩])], saveDir := .temp [b!"tmp"], fieldsCount := 1 } x.2.1 x.2.2).1 = .part p (.io .unexpectedEof) := by
    rw [← hw]
    exact ⟨{ entries := { fields := [(b!"a", [⟨Sample.fh, .file [b!"tmp", []] 0⟩])], saveDir := .temp [b!"tmp"], fieldsCount := 1 }, part := none }, by decide +kernel⟩
  obtain ⟨p, h2⟩ := h2
  have h2 := Sample.entries_eq h2
  rw [Intercept.lenient_eq, Intercept.lenientLoop, withEntries_fuel (fuel := 10) (by rw [hw, h1]; simp) (by omega), hw, h1] at hn
  simp only at hn
  have hk : PartialEntries.keepPartial { entries := Entries.new (.temp [b!"tmp"]), part := some ⟨Sample.fh, some (.file [b!"tmp", []] 0)⟩ } =
      { fields := [(b!"a", [⟨Sample.fh, .file [b!"tmp", []] 0⟩])], saveDir := .temp [b!"tmp"], fieldsCount := 1 } := by decide +kernel
  rw [hk, Intercept.lenientLoop, withEntries_fuel (fuel := 10) (by rw [h2]; simp) (by omega), h2] at hn
  simp at hn

end Multipart

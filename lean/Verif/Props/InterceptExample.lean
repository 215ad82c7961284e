import Verif.Model.InterceptExample
import Verif.Props.SavedReads
import Verif.Props.Whole
/-!
# C106: the example of the Iron middleware
-/
namespace Multipart

variable {D : Deps} {evs : List Ev} {b : Bytes} {w : World} {T : TempEnv} {fail : Option (IoErr × (Path → Bool))} {debug : Entries → Bytes} {req : HyperReq} {dir : Path}

theorem Intercept.default_typed : Intercept.default.Typed := ⟨by decide, by decide⟩

theorem interceptExample_none (hb : ironBoundary req = none) (fuel : Nat) : interceptExample D fuel T fail debug w req = (.ok ⟨404, b!"Not a multipart request"⟩, w) := by
  unfold interceptExample Intercept.beforeIn Intercept.before Intercept.readRequest fromRequest ironHttp
  simp only [hb]
  rfl

theorem interceptExample_tempdir {er : IoErr} (hb : ironBoundary req = some b) (ht : T.tempdir b!"multipart-iron" = .error er) (fuel : Nat) :
    interceptExample D fuel T fail debug w req = (.ok ⟨404, b!"Error opening temporary directory for request."⟩, w) := by
  unfold interceptExample Intercept.beforeIn Intercept.before Intercept.readRequest fromRequest ironHttp Intercept.tempdir Intercept.default
  simp only [hb, ht]
  rfl

theorem interceptExample_some (hb : ironBoundary req = some b) (ht : T.tempdir b!"multipart-iron" = .ok dir) (fuel : Nat) :
    interceptExample D fuel T fail debug w req =
      match Intercept.default.readRequestStrict D fuel fail dir { w with dirs := w.dirs ++ [dir] } (withBody req.body b) with
      | (.ok (.ok (some e)), w, _) => (.ok ⟨404, debug e⟩, e.saveDir.drop fail w)
      | (.ok (.ok none), w, _) => (.ok ⟨404, b!"Not a multipart request"⟩, w)
      | (.ok (.error er), w, _) => (.ok ⟨404, er.text⟩, w)
      | (.err e, w, _) => (.err e, w)
      | (.panic, w, _) => (.panic, w)
      | (.hang, w, _) => (.hang, w) := by
  have h1 : Intercept.default.tempdir T = .ok dir := ht
  unfold interceptExample Intercept.beforeIn Intercept.before Intercept.readRequest fromRequest ironHttp
  simp only [hb, h1]
  have h2 : Intercept.default.limitBehavior = .throwError := rfl
  simp only [h2]
  rcases Intercept.default.readRequestStrict D fuel fail dir { w with dirs := w.dirs ++ [dir] } (withBody req.body b) with ⟨r, w1, t⟩
  rcases r with (_ | _ | _) | _ | _ | _ <;> rfl

/-- C106: every request is answered, and the server does not panic. -/
theorem C106_answers (hD : D.Sane) :
    (∃ n, ∀ fuel, n ≤ fuel → ∃ a w', interceptExample D fuel T fail debug w req = (.ok a, w')) ∧ ∀ fuel, (interceptExample D fuel T fail debug w req).1 ≠ .panic := by
  cases hb : ironBoundary req with
  | none => simp only [interceptExample_none hb]; exact ⟨⟨0, fun _ _ => ⟨_, _, rfl⟩⟩, by simp⟩
  | some b =>
    cases ht : T.tempdir b!"multipart-iron" with
    | error er => simp only [interceptExample_tempdir hb ht]; exact ⟨⟨0, fun _ _ => ⟨_, _, rfl⟩⟩, by simp⟩
    | ok dir =>
      obtain ⟨⟨n, h1⟩, h2⟩ := C59_returns (i := .default) (fail := fail) (dir := dir) (w := { w with dirs := w.dirs ++ [dir] }) hD (s := withBody req.body b) (evs := req.body) (b := b) ⟨[], rfl⟩
      simp only [interceptExample_some hb ht]
      refine ⟨⟨n, fun fuel hf => ?_⟩, fun fuel => ?_⟩
      · obtain ⟨out, w', t, h3, -⟩ := h1 fuel hf
        rw [h3]
        rcases out with _ | _ | _ <;> exact ⟨_, _, rfl⟩
      · have := h2 fuel
        rcases hc : Intercept.default.readRequestStrict D fuel fail dir { w with dirs := w.dirs ++ [dir] } (withBody req.body b) with ⟨r, w1, t⟩
        rw [hc] at this
        rcases r with (_ | _ | _) | _ | _ | _ <;> simp_all

/-- C106: whatever is answered, it has status 404, since neither the middleware nor the handler sets one. -/
theorem C106_status {fuel : Nat} {a : Answer} {w' : World} (h : interceptExample D fuel T fail debug w req = (.ok a, w')) : a.status = 404 := by
  unfold interceptExample at h
  split at h
  · cases h; rfl
  · cases h; rfl
  · cases h; rfl
  all_goals cases h

/-- The full claim C106: an upload within the limits is confirmed with status 200. -/
def InterceptConfirms (D : Deps) : Prop := ∀ (T : TempEnv) (fail : Option (IoErr × (Path → Bool))) (debug : Entries → Bytes) (w w' : World) (req : HyperReq) (b : Bytes) (es : List (FieldHeaders × Bytes)) (dir : Path) (fuel : Nat) (a : Answer),
  ironBoundary req = some b → NoStall req.body → NoErr req.body → Parts D (dashes ++ b) (Ev.bytes req.body) es .closed → es.length < 16 → (∀ p ∈ es, p.2.length + 2 ≤ 2 * 1024 * 1024) →
    T.tempdir b!"multipart-iron" = .ok dir → DiskReady w dir es.length → interceptExample D fuel T fail debug w req = (.ok a, w') → a.status = 200

/-- C106 is false of the code: even the smallest upload is answered with 404. -/
theorem C106_false : ¬ InterceptConfirms refDeps := by
  intro h
  obtain ⟨⟨n, h1⟩, -⟩ := C106_answers (T := Sample.temp) (fail := none) (debug := fun _ => []) (w := Sample.bigDisk 2) (req := Sample.ironReq Sample.evsTwo) refDeps_sane
  obtain ⟨a, w', h1⟩ := h1 n (Nat.le_refl n)
  have := h Sample.temp none (fun _ => []) (Sample.bigDisk 2) w' (Sample.ironReq Sample.evsTwo) Sample.bnd _ _ n a (by decide +kernel) (by decide +kernel) (by intro e; simp [Sample.ironReq, Sample.evsTwo])
    Sample.partsTwo (by decide) (by decide) rfl (Sample.bigDisk_ready _ _) h1
  rw [C106_status h1] at this
  exact absurd this (by decide)

/-- C106, as far as it holds: an upload within the limits is answered with the text of its entries, which are all its parts with their contents. -/
theorem C106_shown_partial (hD : D.Sane) (hb : ironBoundary req = some b) (hn : NoStall req.body) (hne : NoErr req.body) {es : List (FieldHeaders × Bytes)}
    (hP : Parts D (dashes ++ b) (Ev.bytes req.body) es .closed) (hl : es.length < 16) (hz : ∀ p ∈ es, p.2.length + 2 ≤ 2 * 1024 * 1024) (ht : T.tempdir b!"multipart-iron" = .ok dir)
    (hw : DiskReady w dir es.length) :
    ∃ n, ∀ fuel, n ≤ fuel → ∃ e w1 w' fs, interceptExample D fuel T fail debug w req = (.ok ⟨404, debug e⟩, w') ∧ GroupedByName e.fields fs ∧ All2 (SavedAs b req.body w1) fs es := by
  obtain ⟨n, h⟩ := C77_request_succeeds (cfg := Intercept.default.settings) (w := { w with dirs := w.dirs ++ [dir] }) hD hn hne Intercept.default_typed.settings rfl (fun h => absurd h (by decide)) (.inl Intercept.default.settings_bound) hP
    (.temp dir) hl (fun p hp => .inl (hz p hp)) hw.dirs
  refine ⟨n, fun fuel hf => ?_⟩
  obtain ⟨e, w1, t, fs, h1, h2, h3, h4⟩ := h fuel hf
  refine ⟨e, w1, e.saveDir.drop fail w1, fs, ?_, h2, h4⟩
  rw [interceptExample_some hb ht]
  unfold Intercept.readRequestStrict withTempDir
  rw [h1]

example : ironBoundary (Sample.ironReq Sample.evsTwo) = some Sample.bnd ∧ NoStall Sample.evsTwo ∧ NoErr Sample.evsTwo ∧
    Parts refDeps (dashes ++ Sample.bnd) (Ev.bytes Sample.evsTwo) [(Sample.fh, b!"one"), (Sample.fh, b!"two")] .closed ∧ Sample.temp.tempdir b!"multipart-iron" = .ok [b!"tmp", b!"multipart-iron1"] ∧
    DiskReady (Sample.bigDisk 2) [b!"tmp", b!"multipart-iron1"] 2 :=
  ⟨by decide +kernel, by decide +kernel, by intro e; simp [Sample.evsTwo], Sample.partsTwo, rfl, Sample.bigDisk_ready _ 2⟩

/-- C106: what is answered to the other requests, and that these are answered so: requests that are not multipart; requests if no temporary directory can be made; requests with too many parts;
requests that are cut off. -/
theorem C106_others (hD : D.Sane) (hI : D.Incremental) :
    (ironBoundary req = none → ∀ fuel, interceptExample D fuel T fail debug w req = (.ok ⟨404, b!"Not a multipart request"⟩, w)) ∧
    (∀ b er, ironBoundary req = some b → T.tempdir b!"multipart-iron" = .error er →
      ∀ fuel, interceptExample D fuel T fail debug w req = (.ok ⟨404, b!"Error opening temporary directory for request."⟩, w)) ∧
    (∀ b dir es, ironBoundary req = some b → T.tempdir b!"multipart-iron" = .ok dir → NoStall req.body → NoErr req.body → Parts D (dashes ++ b) (Ev.bytes req.body) es .closed → 16 ≤ es.length →
      (∀ p ∈ es, p.2.length + 2 ≤ 2 * 1024 * 1024) → DiskReady w dir es.length →
      ∃ n, ∀ fuel, n ≤ fuel → (interceptExample D fuel T fail debug w req).1 = .ok ⟨404, b!"File count limit reached for request. Limit: 16"⟩) ∧
    (∀ b dir es, ironBoundary req = some b → T.tempdir b!"multipart-iron" = .ok dir → NoStall req.body → NoErr req.body → CutOff D (dashes ++ b) (Ev.bytes req.body) es →
      es.length < 16 → (∀ p ∈ es, p.2.length + b.length + 4 ≤ 2 * 1024 * 1024) → DiskReady w dir 16 →
      ∃ n, ∀ fuel, n ≤ fuel → (interceptExample D fuel T fail debug w req).1 = .ok ⟨404, b!"Error midway through request"⟩) := by
  refine ⟨interceptExample_none, fun b er hb ht => interceptExample_tempdir hb ht, fun b dir es hb ht hn hne hP hl hz hw => ?_, fun b dir es hb ht hn hne hcut hl hz hw => ?_⟩
  · obtain ⟨n, h⟩ := C50_stopped (cfg := Intercept.default.settings) (w := { w with dirs := w.dirs ++ [dir] }) hD hn hne Intercept.default_typed.settings rfl (fun h => absurd h (by decide)) (.inl Intercept.default.settings_bound) hP
      (.temp dir) hl (fun p hp => .inl (hz p hp)) hw.dirs
    refine ⟨n, fun fuel hf => ?_⟩
    obtain ⟨e, w1, t, fs, h1, -⟩ := h fuel hf
    rw [interceptExample_some hb ht]
    unfold Intercept.readRequestStrict withTempDir
    rw [h1]
    rfl
  · obtain ⟨n, h⟩ := C105_cut (cfg := Intercept.default.settings) (w := { w with dirs := w.dirs ++ [dir] }) hD hI hn hne Intercept.default_typed.settings rfl (fun h => absurd h (by decide)) (.inl Intercept.default.settings_bound)
      (.temp dir) hl hz hw.dirs hcut
    refine ⟨n, fun fuel hf => ?_⟩
    obtain ⟨e, er, w', t, fs1, fs2, k, v, h1, -⟩ := h fuel hf
    rw [interceptExample_some hb ht]
    unfold Intercept.readRequestStrict withTempDir
    rw [h1]
    rfl

example : NoStall (Sample.evsMany 20) ∧ NoErr (Sample.evsMany 20) ∧ Parts refDeps (dashes ++ Sample.bnd) (Ev.bytes (Sample.evsMany 20)) (List.replicate 20 (Sample.small.asRead none)) .closed ∧
    16 ≤ (List.replicate 20 (Sample.small.asRead none)).length ∧ (∀ p ∈ List.replicate 20 (Sample.small.asRead none), p.2.length + 2 ≤ 2 * 1024 * 1024) :=
  ⟨(Sample.evsMany_fine 20).1, (Sample.evsMany_fine 20).2, Sample.partsMany 20, by simp, fun p hp => by rw [List.eq_of_mem_replicate hp]; decide⟩

example : NoStall Sample.evsShort ∧ NoErr Sample.evsShort ∧ CutOff refDeps (dashes ++ Sample.bnd) (Ev.bytes Sample.evsShort) [(Sample.fh, b!"one"), (Sample.fh, b!"two")] ∧
    DiskReady (Sample.bigDisk 16) [b!"tmp", b!"multipart-iron1"] 16 :=
  ⟨by decide +kernel, by intro e; simp [Sample.evsShort], Sample.evsShort_off, Sample.bigDisk_ready _ 16⟩

/-- C106: a size error names the field: its name, and its file name if it has one. -/
theorem C106_size_text (f : FieldHeaders) :
    (∀ n, f.filename = some n → (IronErr.size f).text = b!"File size limit reached for field \"" ++ f.name ++ b!"\" (filename: \"" ++ n ++ b!"\")") ∧
    (f.filename = none → (IronErr.size f).text = b!"File size limit reached for field \"" ++ f.name ++ b!"\" (no filename)") := by
  constructor
  · intro n h; simp only [IronErr.text, h]
  · intro h; simp only [IronErr.text, h]

/-- C106: when a request was answered, no file outside of its temporary directory was changed, and nothing is left in it, unless it cannot be deleted. -/
theorem C106_clean (hD : D.Sane) {fuel : Nat} {a : Answer} {w' : World} (h : interceptExample D fuel T fail debug w req = (.ok a, w')) :
    (∀ q, (∀ dir, T.tempdir b!"multipart-iron" = .ok dir → ¬ Below dir q) → w'.files q = w.files q) ∧
    (fail = none → ∀ b dir, ironBoundary req = some b → T.tempdir b!"multipart-iron" = .ok dir → ∀ q, Below dir q → w'.files q = none ∧ q ∉ w'.dirs) := by
  cases hb : ironBoundary req with
  | none =>
    rw [interceptExample_none hb] at h
    cases h
    exact ⟨fun _ _ => rfl, fun _ _ _ h => by simp at h⟩
  | some b =>
    cases ht : T.tempdir b!"multipart-iron" with
    | error er =>
      rw [interceptExample_tempdir hb ht] at h
      cases h
      exact ⟨fun _ _ => rfl, fun _ _ _ _ h => by simp at h⟩
    | ok dir =>
      rw [interceptExample_some hb ht] at h
      have hr : Reachable D req.body b (withBody req.body b) := ⟨[], rfl⟩
      rcases hc : Intercept.default.readRequestStrict D fuel fail dir { w with dirs := w.dirs ++ [dir] } (withBody req.body b) with ⟨r, w1, t⟩
      rw [hc] at h
      rcases r with (er | _ | e) | _ | _ | _
      · obtain ⟨g1, g2⟩ := Intercept.strict_files hD hr hc
        cases h
        refine ⟨fun q hq => g2 q (hq dir rfl), ?_⟩
        rintro hf _ _ ⟨⟩ ⟨⟩ q hq
        exact g1 er rfl hf q hq
      · exact absurd hc (by
          intro hs
          unfold Intercept.readRequestStrict at hs
          split at hs <;> (try split at hs) <;> simp at hs)
      · obtain ⟨g1, g2⟩ := Intercept.strict_files hD hr hc
        have hd : e.saveDir = .temp dir := by
          unfold Intercept.readRequestStrict withTempDir at hc
          rcases hw : withEntries D Intercept.default.settings fuel (Entries.new (.temp dir)) { w with dirs := w.dirs ++ [dir] } (withBody req.body b) with ⟨r, w2, t2⟩
          rw [hw] at hc
          cases r with
          | full e' =>
            cases hc
            exact Option.some.inj (withEntries_made hw (by simp) (by simp)).2.1
          | part p reason =>
            cases reason with
            | sizeLimit => simp only at hc; split at hc <;> simp at hc
            | _ => simp at hc
          | _ => simp at hc
        obtain ⟨k1, k2⟩ := SaveDir.drop_temp (fail := fail) (w := w1) e.saveDir hd
        cases h
        refine ⟨fun q hq => (k2 q (hq dir rfl)).trans (g2 q (hq dir rfl)), ?_⟩
        rintro hf _ _ ⟨⟩ ⟨⟩ q hq
        exact k1 hf q hq
      all_goals cases h

/-- The hypotheses of C106_answers, C106_status and C106_clean are met: an upload of two fields through the middleware, answered with 404 and the text of the entries. -/
example : (interceptExample refDeps 20 Sample.temp none (fun _ => b!"entries") Sample.disk (Sample.ironReq Sample.evsTwo)).1 = .ok ⟨404, b!"entries"⟩ ∧
    ironBoundary (Sample.ironReq Sample.evsTwo) = some Sample.bnd ∧ Sample.temp.tempdir b!"multipart-iron" = .ok [b!"tmp", b!"multipart-iron1"] := ⟨by decide +kernel, by decide +kernel, rfl⟩

end Multipart

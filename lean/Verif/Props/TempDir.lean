import Verif.Model.TempDir
import Verif.Props.Whole
import Verif.Props.IronAccept
/-!
# C91: where temporary directories are made
-/
namespace Multipart

variable {D : Deps} {b : Bytes} {s t : BR} {cfg : Settings} {fuel : Nat} {w w' : World} {e e' : Entries} {r : SaveRes Entries PartialEntries} {dir : Path} {i : Intercept}
  {fail : Option (IoErr × (Path → Bool))} {T : TempEnv}

theorem PartialEntries.keepPartial_stored {p : PartialEntries} {reason : Reason} {d : SavedData} (h : d ∈ p.keepPartial.stored) : d ∈ (SaveRes.part p reason).stored := by
  obtain ⟨e, _ | ⟨hd, _ | d'⟩⟩ := p
  · exact h
  · exact h
  · rcases (pushInto_stored e.fields).mp h with rfl | h
    · simp [SaveRes.stored]
    · exact List.mem_append_left _ h

theorem PartialEntries.keepPartial_dir (p : PartialEntries) : p.keepPartial.saveDir = p.entries.saveDir := by
  obtain ⟨e, _ | ⟨hd, _ | d'⟩⟩ := p <;> rfl

/-- Files of `e'` that were not in `e` are in the directory. -/
def FilesIn (dir : Path) (w w' : World) (e e' : Entries) : Prop := ∀ p n, .file p n ∈ e'.stored → .file p n ∈ e.stored ∨ (RandomIn w dir p ∧ dir ∈ w'.dirs)

theorem Intercept.lenientLoop_made {n : Nat} (h : i.lenientLoop D fuel fail n e w s = (.ok (.ok (some e')), w', t)) :
    MadeIn e.saveDir.asPath w w' ∧ e'.saveDir = e.saveDir ∧ FilesIn e.saveDir.asPath w w' e e' := by
  induction n generalizing e w s with
  | zero => simp [Intercept.lenientLoop] at h
  | succ n ih =>
    rcases hc : withEntries D i.settings fuel e w s with ⟨r, w1, t1⟩
    simp only [Intercept.lenientLoop, hc] at h
    cases r with
    | panic => simp at h
    | hang => simp at h
    | error er => simp at h
    | full e1 =>
      simp only [Prod.mk.injEq, Res.ok.injEq, Except.ok.injEq, Option.some.injEq] at h
      obtain ⟨rfl, rfl, rfl⟩ := h
      obtain ⟨h1, h2, h3⟩ := withEntries_made hc (by simp) (by simp)
      exact ⟨h1, Option.some.inj h2, h3⟩
    | part p reason =>
      obtain ⟨h1, h2, h3⟩ := withEntries_made hc (by simp) (by simp)
      have hd : p.keepPartial.saveDir = e.saveDir := p.keepPartial_dir.trans (Option.some.inj h2)
      have h : i.lenientLoop D fuel fail n p.keepPartial w1 t1 = (.ok (.ok (some e')), w', t) := by
        cases reason with
        | io er => simp at h
        | _ => exact h
      obtain ⟨g1, g2, g3⟩ := ih h
      rw [hd] at g1 g2 g3
      refine ⟨h1.trans g1, g2, fun q m hq => ?_⟩
      rcases g3 q m hq with g | ⟨g, g'⟩
      · exact (h3 q m (PartialEntries.keepPartial_stored g)).imp_right fun k => ⟨k.1, g1.kept _ k.2⟩
      · exact .inr ⟨g.suffix h1.names, g'⟩

theorem Intercept.readRequest_made {req : HyperReq} (h : i.readRequest D fuel (.ok dir) fail w req = (.ok (.ok (some e)), w')) :
    e.saveDir = .temp dir ∧ dir ∈ w'.dirs ∧ ∀ p n, .file p n ∈ e.stored → RandomIn w dir p := by
  unfold Intercept.readRequest at h
  cases hf : fromRequest ironHttp req with
  | error _ => simp [hf] at h
  | ok s =>
    simp only [hf, Prod.mk.injEq] at h
    have key : ∀ {w'' : World}, (MadeIn dir { w with dirs := w.dirs ++ [dir] } w'' ∧ e.saveDir = .temp dir ∧ FilesIn dir { w with dirs := w.dirs ++ [dir] } w'' (Entries.new (.temp dir)) e) →
        w'' = w' → e.saveDir = .temp dir ∧ dir ∈ w'.dirs ∧ ∀ p n, .file p n ∈ e.stored → RandomIn w dir p := by
      rintro _ ⟨h1, h2, h3⟩ rfl
      refine ⟨h2, h1.kept _ (by simp), fun p n hp => ?_⟩
      rcases h3 p n hp with h | h
      · simp [Entries.stored, Entries.new] at h
      · exact h.1
    cases hl : i.limitBehavior with
    | throwError =>
      simp only [hl] at h
      unfold Intercept.readRequestStrict withTempDir at h
      rcases hw : withEntries D i.settings fuel (Entries.new (.temp dir)) { w with dirs := w.dirs ++ [dir] } s with ⟨r, w1, t1⟩
      simp only [hw] at h
      cases r with
      | full e1 =>
        simp only [Res.ok.injEq, Except.ok.injEq, Option.some.injEq] at h
        obtain ⟨rfl, h⟩ := h
        obtain ⟨h1, h2, h3⟩ := withEntries_made hw (by simp) (by simp)
        exact key ⟨h1, Option.some.inj h2, h3⟩ h
      | part p reason =>
        cases reason with
        | sizeLimit => obtain ⟨_, _ | _⟩ := p <;> simp at h
        | _ => simp at h
      | _ => simp at h
    | continue_ =>
      simp only [hl] at h
      rcases hw : i.readRequestLenient D fuel fail dir { w with dirs := w.dirs ++ [dir] } s with ⟨o, w1, t1⟩
      simp only [hw] at h
      obtain ⟨rfl, h⟩ := h
      rw [Intercept.lenient_eq] at hw
      exact key (Intercept.lenientLoop_made hw) h

/-- C91: the entries that Iron's middleware adds to a request own a temporary directory of their own directly in `temp_dir_path`, or in the directory of the system if that is not set, and all
their files are directly in it, under random names. -/
theorem C91_intercept {req : HyperReq} (h : i.beforeIn D fuel T fail w req none = (.ok (.ok ()), some e, w')) :
    ∃ dir, dir = i.tempDirPath.getD T.os ++ [b!"multipart-iron" ++ T.rand] ∧ e.saveDir = .temp dir ∧ dir ∈ w'.dirs ∧ ∀ p n, .file p n ∈ e.stored → RandomIn w dir p := by
  unfold Intercept.beforeIn Intercept.before at h
  have hm : i.tempdir T = T.tempdirIn b!"multipart-iron" (i.tempDirPath.getD T.os) := by
    unfold Intercept.tempdir
    cases i.tempDirPath <;> rfl
  rw [hm] at h
  have hok : ∀ dir, T.tempdirIn b!"multipart-iron" (i.tempDirPath.getD T.os) = .ok dir → dir = i.tempDirPath.getD T.os ++ [b!"multipart-iron" ++ T.rand] := by
    intro dir hd
    unfold TempEnv.tempdirIn at hd
    split at hd
    · simp at hd
    · split at hd
      · exact (Except.ok.inj hd).symm
      · simp at hd
  rcases hr : i.readRequest D fuel (T.tempdirIn b!"multipart-iron" (i.tempDirPath.getD T.os)) fail w req with ⟨o, w1⟩
  rw [hr] at h
  cases o with
  | ok o =>
    cases o with
    | error er => simp at h
    | ok o =>
      cases o with
      | none => simp at h
      | some e1 =>
        simp only [Prod.mk.injEq, Option.some.injEq, true_and] at h
        obtain ⟨rfl, rfl⟩ := h
        cases hd : T.tempdirIn b!"multipart-iron" (i.tempDirPath.getD T.os) with
        | ok dir =>
          rw [hd] at hr
          exact ⟨dir, hok dir hd, Intercept.readRequest_made hr⟩
        | error er =>
          rw [hd] at hr
          unfold Intercept.readRequest at hr
          cases hf : fromRequest ironHttp req <;> simp [hf] at hr
  | _ => simp at h

/-- C91: `temp_with_prefix` makes its directory directly in that of the system, with a name that begins with the prefix. It returns an error only if that is impossible, and then nothing happened. -/
theorem C91_temp_with_prefix {pre : Bytes} (h : tempWithPrefix D cfg fuel T pre w s = (r, w', t)) (hh : r ≠ .hang) (hp : r ≠ .panic) :
    (∀ d, r.saveDir = some d → d = .temp (T.os ++ [pre ++ T.rand])) ∧ (∀ p n, .file p n ∈ r.stored → RandomIn w (T.os ++ [pre ++ T.rand]) p) ∧
    ((∃ er, r = .error er) → (T.present T.os = false ∨ T.fail ≠ none) ∧ w' = w ∧ t = s) := by
  unfold tempWithPrefix at h
  have hok : T.tempdir pre = .ok (T.os ++ [pre ++ T.rand]) ∨ ((T.present T.os = false ∨ T.fail ≠ none) ∧ ∃ er, T.tempdir pre = .error er) := by
    unfold TempEnv.tempdir TempEnv.tempdirIn
    cases hf : T.fail with
    | some er => exact .inr ⟨.inr (by simp), er, rfl⟩
    | none =>
      cases ho : T.present T.os with
      | true => exact .inl rfl
      | false => exact .inr ⟨.inl rfl, _, rfl⟩
  rcases hok with hok | ⟨hno, er, hok⟩
  · rw [hok] at h
    obtain ⟨-, -, -, h4, h5⟩ := C88_temp h hh hp
    refine ⟨fun d hd => ?_, h4, ?_⟩
    · rw [h5] at hd; exact (Option.some.inj hd).symm
    · rintro ⟨er, rfl⟩
      simp [SaveRes.saveDir] at h5
  · rw [hok] at h
    simp only [requestTemp, Prod.mk.injEq] at h
    obtain ⟨rfl, rfl, rfl⟩ := h
    exact ⟨by simp [SaveRes.saveDir], by simp [SaveRes.stored], fun _ => ⟨hno, rfl, rfl⟩⟩

/-- C91: so does `temp`, with a name that begins with `multipart-rs`. -/
theorem C91_temp (h : tempSave D cfg fuel T w s = (r, w', t)) (hh : r ≠ .hang) (hp : r ≠ .panic) :
    (∀ d, r.saveDir = some d → d = .temp (T.os ++ [b!"multipart-rs" ++ T.rand])) ∧ (∀ p n, .file p n ∈ r.stored → RandomIn w (T.os ++ [b!"multipart-rs" ++ T.rand]) p) ∧
    ((∃ er, r = .error er) → (T.present T.os = false ∨ T.fail ≠ none) ∧ w' = w ∧ t = s) :=
  C91_temp_with_prefix h hh hp

/-- The full claim about `temp_dir_path`: "Will be created if it doesn't exist (lazy)". So, requests that pass if it exists also pass if not. -/
def TempDirPathCreated (D : Deps) : Prop := ∀ (i : Intercept) (fuel : Nat) (T : TempEnv) (fail : Option (IoErr × (Path → Bool))) (w : World) (req : HyperReq) (ext : Option Entries),
  (i.beforeIn D fuel { T with present := fun _ => true } fail w req ext).1 = .ok (.ok ()) → (i.beforeIn D fuel T fail w req ext).1 = .ok (.ok ())

/-- C91, as far as it holds: if the directory exists and a directory can be made in it, every request within the limits passes (see C84). Missing for the full claim: directories that do not
exist. -/
theorem C91_accepts_partial (hD : D.Sane) {req : HyperReq} {m : HMime} (hp : m.Parsed) (h1 : req.contentType = some m) (h2 : m.IsFormData) (h3 : m.HasBoundary b)
    (hn : NoStall req.body) (hne : NoErr req.body) (ht : i.Typed) {es : List (FieldHeaders × Bytes)} (hP : Parts D (dashes ++ b) (Ev.bytes req.body) es .closed)
    (hl : es.length < i.fileCountLimit)
    (hz : ∀ p ∈ es, p.2.length + 2 ≤ i.fileSizeLimit ∨ ((CleanSplit (dashes ++ b) req.body ∨ p.2.length + 2 ≤ entryBuf (dashes ++ b)) ∧ p.2.length ≤ i.fileSizeLimit))
    (hT : T.present (i.tempDirPath.getD T.os) = true) (hf : T.fail = none) (hw : DiskReady w (i.tempDirPath.getD T.os ++ [b!"multipart-iron" ++ T.rand]) es.length) :
    ∃ n, ∀ fuel, n ≤ fuel → ∃ e w' fs, i.beforeIn D fuel T fail w req none = (.ok (.ok ()), some e, w') ∧ GroupedByName e.fields fs ∧ e.fieldsCount = es.length ∧
      All2 (SavedAs b req.body w') fs es := by
  have hm : i.tempdir T = .ok (i.tempDirPath.getD T.os ++ [b!"multipart-iron" ++ T.rand]) := by
    unfold Intercept.tempdir TempEnv.tempdir TempEnv.tempdirIn
    cases hi : i.tempDirPath with
    | none => rw [hi] at hT; simp only [Option.getD] at hT ⊢; simp [hf, hT]
    | some p => rw [hi] at hT; simp only [Option.getD] at hT ⊢; simp [hf, hT]
  obtain ⟨n, h⟩ := C84_accepts (fail := fail) hD hp h1 h2 h3 hn hne ht hP hl hz hw none
  refine ⟨n, fun fuel hfu => ?_⟩
  obtain ⟨e, w', fs, a1, -, a3, a4, a5⟩ := h fuel hfu
  exact ⟨e, w', fs, by unfold Intercept.beforeIn; rw [hm]; exact a1, a3, a4, a5⟩

/-- C91: if it does not exist, every multipart request is refused with `NotFound`; nothing is read or written. -/
theorem C91_missing_dir {req : HyperReq} {ext : Option Entries} (hb : ironBoundary req = some b) (hT : T.present (i.tempDirPath.getD T.os) = false) (hf : T.fail = none) :
    i.beforeIn D fuel T fail w req ext = (.ok (.error (.io .tempdir .notFound)), ext, w) := by
  have hm : i.tempdir T = .error .notFound := by
    unfold Intercept.tempdir TempEnv.tempdir TempEnv.tempdirIn
    cases hi : i.tempDirPath with
    | none => rw [hi] at hT; simp only [Option.getD] at hT; simp [hf, hT]
    | some p => rw [hi] at hT; simp only [Option.getD] at hT; simp [hf, hT]
  have hb : ironHttp.multipartBoundary req = some b := hb
  unfold Intercept.beforeIn Intercept.before Intercept.readRequest fromRequest
  rw [hm]
  simp [hb]

/-- Temporary directories in a system where only `/tmp` exists. -/
def Sample.tempEnv : TempEnv := ⟨[b!"tmp"], fun p => p == [b!"tmp"], b!"x1", none⟩

/-- The hypotheses of C91_intercept, C91_temp_with_prefix, C91_temp and C91_accepts_partial are met; those of C91_missing_dir are met in C91_false. -/
example : ((Intercept.mk none 10 8 .throwError).beforeIn refDeps 10 Sample.tempEnv none Sample.disk (Sample.ironReq Sample.evsTwo) none).2.1 =
    some { fields := [(b!"a", [⟨Sample.fh, .text b!"one"⟩, ⟨Sample.fh, .text b!"two"⟩])], saveDir := .temp [b!"tmp", b!"multipart-ironx1"], fieldsCount := 2 } ∧
    (tempSave refDeps .default 10 Sample.tempEnv Sample.disk (withBody Sample.evsTwo Sample.bnd)).1.saveDir = some (.temp [b!"tmp", b!"multipart-rsx1"]) ∧
    Sample.tempEnv.present ((Intercept.mk none 10 8 .throwError).tempDirPath.getD Sample.tempEnv.os) = true := by decide +kernel

/-- C91 is false of the code: if the directory does not exist, requests are refused. -/
theorem C91_false : ¬ TempDirPathCreated refDeps := by
  intro h
  have := h ⟨some [b!"up"], 10, 8, .throwError⟩ 10 Sample.tempEnv none Sample.disk (Sample.ironReq Sample.evsTwo) none (by decide +kernel)
  rw [C91_missing_dir (b := b!"b") (by decide +kernel) (by decide +kernel) rfl] at this
  simp at this

end Multipart

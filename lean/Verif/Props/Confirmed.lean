import Verif.Props.EndMeansAll
import Verif.Props.SavedReads

/-! C161: the example servers for `tiny_http`, Iron and Rocket confirm an upload only if its client has sent all it had. -/
namespace Multipart

variable {D : Deps} {b : Bytes} {evs : List Ev} {T : TempEnv} {S : Surroundings} {w : World} {fuel : Nat}

theorem tempSave_end {w' : World} {e : Entries} {t : BR} (hD : D.Sane) (h : tempSave D .default fuel T w (withBody evs b) = (.full e, w', t)) : ∃ u, Reachable D evs b u ∧ (u.readEntry D).1 = .ok none := by
  unfold tempSave tempWithPrefix requestTemp withTempDir at h
  cases ht : T.tempdir b!"multipart-rs" with
  | error er => rw [ht] at h; simp at h
  | ok dir => rw [ht] at h; exact full_end hD h

theorem tiny_confirmed {req : TinyReq} {a : Answer} (hD : D.Sane) (hq : tinyBoundary req = some b) (h : tinyAnswer D fuel T S w req = .ok a) (ha : a.status = 200) :
    ∃ u, Reachable D req.body b u ∧ (u.readEntry D).1 = .ok none := by
  have : fromRequest tinyHttp req = .ok (withBody req.body b) := by simp only [fromRequest, tinyHttp, hq]
  simp only [tinyAnswer, tinyProcess, this] at h
  rcases hx : tempSave D .default fuel T w (withBody req.body b) with ⟨r, w', t⟩
  rw [hx] at h
  cases r with
  | full e => exact tempSave_end hD hx
  | part p r =>
    simp only at h
    generalize S.print w' p.keepPartial = y at h
    cases y with
    | error er => simp only at h; cases h; simp at ha
    | ok x =>
      simp only at h
      cases hr : r.unwrapErr with
      | ok => rw [hr] at h; cases h; simp at ha
      | err => rw [hr] at h; cases h
      | panic => rw [hr] at h; cases h
      | hang => rw [hr] at h; cases h
  | error er => simp only at h; cases h; simp at ha
  | panic => simp at h
  | hang => simp at h

theorem iron_confirmed {req : HyperReq} {a : Answer} (hD : D.Sane) (hq : ironBoundary req = some b) (h : ironAnswer D fuel T S w req = .ok a) (ha : a.status = 200) :
    ∃ u, Reachable D req.body b u ∧ (u.readEntry D).1 = .ok none := by
  have : fromRequest ironHttp req = .ok (withBody req.body b) := by simp only [fromRequest, ironHttp, hq]
  simp only [ironAnswer, this] at h
  rcases hx : tempSave D .default fuel T w (withBody req.body b) with ⟨r, w', t⟩
  rw [hx] at h
  cases r with
  | full e => exact tempSave_end hD hx
  | part p r =>
    simp only [ironEntries] at h
    generalize S.entries w' p.keepPartial = y at h
    rcases y with ⟨x, _ | er⟩
    · simp only at h
      cases hr : r.unwrapErr with
      | ok => rw [hr] at h; cases h; simp at ha
      | err => rw [hr] at h; cases h
      | panic => rw [hr] at h; cases h
      | hang => rw [hr] at h; cases h
    · simp only at h; cases h; simp at ha
  | error er => simp only at h; cases h; simp at ha
  | panic => simp at h
  | hang => simp at h

/-- C161: whatever became of a plain request: if the example for `tiny_http` answers what has arrived of it with status 200, or that for Iron does, the client has opened all files, read all streams to their
ends and written everything, of which at most the line break after the closing delimiter has not arrived. -/
theorem C161_confirmed {env : FileEnv} {creq : ClientReq} {os : List ClientOp} {r : Res Unit} {s : ClientStream} {a : Answer} (hD : D.Sane) (hb : SafeBoundary b)
    (hs : ∀ o ∈ os, ∀ f, StandsFor env o f → Absent (dashes ++ b) (f.headers ++ f.data)) (hr : plainRequest env creq b os = (r, some s)) (ha : Ev.bytes evs <+: s.sink.got) (h200 : a.status = 200)
    (h : (∃ req, tinyBoundary req = some b ∧ req.body = evs ∧ tinyAnswer D fuel T S w req = .ok a) ∨ (∃ req, ironBoundary req = some b ∧ req.body = evs ∧ ironAnswer D fuel T S w req = .ok a)) :
    ∃ fs, All2 (StandsFor env) os fs ∧ (∀ o ∈ os, ∀ evs, o.reads env evs → ReadsFine evs) ∧ Ev.bytes evs <+: encode b fs ∧ (encode b fs).length ≤ (Ev.bytes evs).length + 2 := by
  rcases h with ⟨req, hq, rfl, h⟩ | ⟨req, hq, rfl, h⟩
  · obtain ⟨u, h1, h2⟩ := tiny_confirmed hD hq h h200
    exact C160_end_means_all hD hb hs hr ha h1 h2
  · obtain ⟨u, h1, h2⟩ := iron_confirmed hD hq h h200
    exact C160_end_means_all hD hb hs hr ha h1 h2

/-- The hypotheses of C161_confirmed are met by the sample request, with both servers. -/
example : (∀ o ∈ Sample.ops, ∀ f, StandsFor Sample.env o f → Absent (dashes ++ b!"b") (f.headers ++ f.data)) ∧ plainRequest Sample.env Sample.req b!"b" Sample.ops = (.ok (), some Sample.sent) ∧
    Ev.bytes Sample.sentEvs <+: Sample.sent.sink.got ∧
    (tinyBoundary (Sample.tinyReq Sample.sentEvs) = some b!"b" ∧ tinyAnswer refDeps 20 Sample.temp Sample.silent Sample.disk (Sample.tinyReq Sample.sentEvs) = .ok ⟨200, b!"Entries processed\n"⟩) ∧
    (ironBoundary Sample.ironSent = some b!"b" ∧ ironAnswer refDeps 20 Sample.temp Sample.silent Sample.disk Sample.ironSent = .ok ⟨200, b!"Entries processed\n"⟩) :=
  ⟨Sample.ops_absent, Sample.sent_eq, by decide +kernel, ⟨by decide +kernel, by decide +kernel⟩, rfl, by decide +kernel⟩

/-- C161 for sized requests. -/
theorem C161_sized {env : FileEnv} {creq : ClientReq} {os : List ClientOp} {r : Res Unit} {applied : List (Bytes × Option Nat)} {s : ClientStream} {a : Answer} (hD : D.Sane) (hb : SafeBoundary b)
    (hs : ∀ o ∈ os, ∀ f, StandsFor env o f → Absent (dashes ++ b) (f.headers ++ f.data)) (hr : sizedRequest env creq b os = (r, applied, some s)) (ha : Ev.bytes evs <+: s.sink.got) (h200 : a.status = 200)
    (h : (∃ req, tinyBoundary req = some b ∧ req.body = evs ∧ tinyAnswer D fuel T S w req = .ok a) ∨ (∃ req, ironBoundary req = some b ∧ req.body = evs ∧ ironAnswer D fuel T S w req = .ok a)) :
    ∃ fs, All2 (StandsFor env) os fs ∧ (∀ o ∈ os, ∀ evs, o.reads env evs → ReadsFine evs) ∧ Ev.bytes evs <+: encode b fs ∧ (encode b fs).length ≤ (Ev.bytes evs).length + 2 := by
  rcases h with ⟨req, hq, rfl, h⟩ | ⟨req, hq, rfl, h⟩
  · obtain ⟨u, h1, h2⟩ := tiny_confirmed hD hq h h200
    exact C160_sized hD hb hs hr ha h1 h2
  · obtain ⟨u, h1, h2⟩ := iron_confirmed hD hq h h200
    exact C160_sized hD hb hs hr ha h1 h2

/-- The hypotheses of C161_sized are met. -/
example : (∀ o ∈ Sample.ops, ∀ f, StandsFor Sample.env o f → Absent (dashes ++ b!"b") (f.headers ++ f.data)) ∧
    (∃ applied s, sizedRequest Sample.env Sample.req b!"b" Sample.ops = (.ok (), applied, some s) ∧ Ev.bytes Sample.sentEvs <+: s.sink.got) ∧
    tinyBoundary (Sample.tinyReq Sample.sentEvs) = some b!"b" ∧ tinyAnswer refDeps 20 Sample.temp Sample.silent Sample.disk (Sample.tinyReq Sample.sentEvs) = .ok ⟨200, b!"Entries processed\n"⟩ :=
  ⟨Sample.ops_absent, ⟨[(b!"b", some Sample.sent.sink.got.length)], ⟨[(b!"b", some Sample.sent.sink.got.length)], ⟨[], Sample.sent.sink.got⟩, none⟩, by decide +kernel, by decide +kernel⟩, by decide +kernel,
    by decide +kernel⟩

theorem rocket_confirmed {req : RocketReq} {a : Answer} (hD : D.Sane) (hq : req.params.find? (fun p => p.1 = b!"boundary") = some (b!"boundary", b)) (h : rocketAnswer D fuel T S w req = .ok a)
    (ha : a.status = 200) (hp : ¬ b!"Request partially processed: " <+: a.body) : ∃ u, Reachable D req.body b u ∧ (u.readEntry D).1 = .ok none := by
  unfold rocketAnswer rocketProcess at h
  split at h
  · simp only [hq] at h
    rcases hx : tempSave D .default fuel T w (withBody req.body b) with ⟨r, w', t⟩
    rw [hx] at h
    cases r with
    | full e => exact tempSave_end hD hx
    | part p r =>
      simp only at h
      generalize S.print w' p.entries = y at h
      cases y with
      | error er => simp only at h; cases h; simp at ha
      | ok x =>
        simp only at h
        cases h
        exact absurd (by simp only [List.append_assoc]; exact List.prefix_append _ _) hp
    | error er => simp only at h; cases h; simp at ha
    | panic => simp at h
    | hang => simp at h
  · cases h; simp at ha

/-- C161 for the example for Rocket: if it answers with status 200 and a text that does not begin with the words for partial saves. -/
theorem C161_rocket {env : FileEnv} {creq : ClientReq} {os : List ClientOp} {r : Res Unit} {s : ClientStream} {req : RocketReq} {a : Answer} (hD : D.Sane) (hb : SafeBoundary b)
    (hs : ∀ o ∈ os, ∀ f, StandsFor env o f → Absent (dashes ++ b) (f.headers ++ f.data)) (hr : plainRequest env creq b os = (r, some s)) (ha : Ev.bytes req.body <+: s.sink.got)
    (hq : req.params.find? (fun p => p.1 = b!"boundary") = some (b!"boundary", b)) (h : rocketAnswer D fuel T S w req = .ok a) (h200 : a.status = 200)
    (hp : ¬ b!"Request partially processed: " <+: a.body) :
    ∃ fs, All2 (StandsFor env) os fs ∧ (∀ o ∈ os, ∀ evs, o.reads env evs → ReadsFine evs) ∧ Ev.bytes req.body <+: encode b fs ∧ (encode b fs).length ≤ (Ev.bytes req.body).length + 2 := by
  obtain ⟨u, h1, h2⟩ := rocket_confirmed hD hq h h200 hp
  exact C160_end_means_all hD hb hs hr ha h1 h2

/-- The hypotheses of C161_rocket are met. -/
example : (∀ o ∈ Sample.ops, ∀ f, StandsFor Sample.env o f → Absent (dashes ++ b!"b") (f.headers ++ f.data)) ∧ plainRequest Sample.env Sample.req b!"b" Sample.ops = (.ok (), some Sample.sent) ∧
    Ev.bytes Sample.sentEvs <+: Sample.sent.sink.got ∧ rocketAnswer refDeps 20 Sample.temp Sample.silent Sample.disk ⟨true, [(b!"boundary", b!"b")], Sample.sentEvs⟩ = .ok ⟨200, b!"Entries processed\n"⟩ ∧
    ¬ b!"Request partially processed: " <+: b!"Entries processed\n" :=
  ⟨Sample.ops_absent, Sample.sent_eq, by decide +kernel, by decide +kernel, by decide +kernel⟩

end Multipart

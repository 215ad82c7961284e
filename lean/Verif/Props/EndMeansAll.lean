import Verif.Props.FullMeansAll
import Verif.Props.IronAccept

/-! C160: the end of a request is reported only if its client has sent all it had. -/
namespace Multipart

variable {D : Deps} {b : Bytes} {evs : List Ev}

theorem occursAt_after {d xs ys : Bytes} {c : Byte} {p : Nat} (hd : d ≠ []) (hc : c ∉ d) (hx : Absent d xs) (h : OccursAt d (xs ++ c :: ys) p) : ∃ q, p = xs.length + 1 + q ∧ OccursAt d ys q := by
  rcases occursAt_sep hc h with h1 | h1 | h1
  · exact absurd (occursAt_of_append h h1) (hx p)
  · refine ⟨p - (xs.length + 1), by omega, ?_⟩
    have e : ys = List.drop (xs.length + 1) (xs ++ c :: ys) := by rw [List.drop_append]; simp
    rw [e, occursAt_drop, Nat.add_sub_cancel' h1]
    exact h
  · exact absurd h1 hd

/-- The delimiter followed by `--` is found at the end of a body only. -/
theorem closing_only (hb : SafeBoundary b) (tail : Bytes) : ∀ (fs : List OutField), (∀ f ∈ fs, Absent (dashes ++ b) (f.headers ++ f.data)) → ∀ p, OccursAt (dashes ++ b ++ dashes) (encodeWith b tail fs) p →
    (encodeWith b tail fs).length ≤ p + (dashes ++ b ++ dashes).length + tail.length := by
  have hd : dashes ++ b ++ dashes ≠ [] := by simp [dashes]
  have hmem : ∀ c : Byte, c ∈ b!"\r\n\"; :=" → c ≠ 0x2D → c ∉ dashes ++ b ++ dashes := by
    intro c hc hne h
    rcases List.mem_append.mp h with h | h
    · exact hb.notMem hc h
    · simp [dashes] at h; exact hne h
  have hcr := hmem 0x0D (by decide) (by decide)
  have hlf := hmem 0x0A (by decide) (by decide)
  have hnil : Absent (dashes ++ b ++ dashes) [] := fun q h => hd (by simpa [OccursAt] using h)
  have hshort : Absent (dashes ++ b ++ dashes) (dashes ++ b) := by
    intro q h
    have := h.length_le
    simp [dashes] at this
    omega
  intro fs
  induction fs with
  | nil => intro _ p _; simp only [encodeWith, List.length_append]; omega
  | cons f fs ih =>
    intro ha p h
    have hf := (ha f (by simp)).of_sub (List.prefix_append (dashes ++ b) dashes)
    have e : encodeWith b tail (f :: fs) = (dashes ++ b) ++ 0x0D :: ([] ++ 0x0A :: ((f.headers ++ f.data) ++ 0x0D :: ([] ++ 0x0A :: encodeWith b tail fs))) := by
      simp [encodeWith, crlf]
    rw [e] at h
    obtain ⟨q1, h1, g1⟩ := occursAt_after hd hcr hshort h
    obtain ⟨q2, h2, g2⟩ := occursAt_after hd hlf hnil g1
    obtain ⟨q3, h3, g3⟩ := occursAt_after hd hcr hf g2
    obtain ⟨q4, h4, g4⟩ := occursAt_after hd hlf hnil g3
    have := ih (fun g hg => ha g (by simp [hg])) q4 g4
    rw [e]
    simp only [List.length_append, List.length_cons, List.length_nil] at *
    omega

/-- A prefix of a body in which the delimiter followed by `--` is found has all but what follows it. -/
theorem closing_prefix (hb : SafeBoundary b) {pre tail got lost : Bytes} {fs : List OutField} (ha : ∀ f ∈ fs, Absent (dashes ++ b) (f.headers ++ f.data)) (he : pre ++ encodeWith b tail fs = got ++ lost)
    (hpre : ∀ p, OccursAt (dashes ++ b ++ dashes) (pre ++ encodeWith b tail fs) p → ∃ q, p = pre.length + q ∧ OccursAt (dashes ++ b ++ dashes) (encodeWith b tail fs) q) (h : dashes ++ b ++ dashes <:+: got) :
    lost.length ≤ tail.length := by
  obtain ⟨x, y, hxy⟩ := h
  have ho : OccursAt (dashes ++ b ++ dashes) (pre ++ encodeWith b tail fs) x.length := by
    rw [he, ← hxy]
    refine ⟨y ++ lost, ?_⟩
    simp [List.append_assoc]
  obtain ⟨q, hq, hoq⟩ := hpre _ ho
  have h1 := closing_only hb tail fs ha q hoq
  have h2 := congrArg List.length he
  have h3 := congrArg List.length hxy
  simp only [List.length_append] at *
  omega

theorem end_means_all {env : FileEnv} {os : List ClientOp} {got : Bytes} {t : BR} (hD : D.Sane) (hb : SafeBoundary b)
    (hs : ∀ o ∈ os, ∀ f, StandsFor env o f → Absent (dashes ++ b) (f.headers ++ f.data))
    (hg : (∃ fs, All2 (StandsFor env) os fs ∧ (∀ o ∈ os, ∀ evs, o.reads env evs → ReadsFine evs) ∧ got <+: encode b fs) ∨
      (∃ pre fs, pre <+: os ∧ (∀ o post, os = pre ++ o :: post → ∀ f, ¬ StandsFor env o f) ∧ All2 (StandsFor env) pre fs ∧ got <+: encodeOpen b false fs))
    (ha : Ev.bytes evs <+: got) (hr : Reachable D evs b t) (h : (t.readEntry D).1 = .ok none) :
    ∃ fs, All2 (StandsFor env) os fs ∧ (∀ o ∈ os, ∀ evs, o.reads env evs → ReadsFine evs) ∧ Ev.bytes evs <+: encode b fs ∧ (encode b fs).length ≤ (Ev.bytes evs).length + 2 := by
  have hreal := C09_end_is_real hD hr h
  have key : ∀ {os : List ClientOp} {fs : List OutField}, All2 (StandsFor env) os fs → (∀ o ∈ os, ∀ f, StandsFor env o f → Absent (dashes ++ b) (f.headers ++ f.data)) →
      ∀ f ∈ fs, Absent (dashes ++ b) (f.headers ++ f.data) := by
    intro os fs h
    induction h with
    | nil => intro _ f hf; simp at hf
    | cons a _ ih =>
      intro hs f hf
      rcases List.mem_cons.mp hf with rfl | hf
      · exact hs _ (by simp) _ a
      · exact ih (fun o ho => hs o (by simp [ho])) f hf
  have hnil : ∀ (fs : List OutField) (p : Nat), OccursAt (dashes ++ b ++ dashes) ([] ++ encodeWith b crlf fs) p → ∃ q, p = ([] : Bytes).length + q ∧ OccursAt (dashes ++ b ++ dashes) (encodeWith b crlf fs) q :=
    fun fs p h => ⟨p, by simp, h⟩
  rcases hg with ⟨fs, hf, hfine, hp⟩ | ⟨pre, fs, hsub, -, hf, hp⟩
  · obtain ⟨lost, hl⟩ := ha.trans hp
    have := closing_prefix (pre := []) (tail := crlf) hb (key hf hs) (by rw [← encode_with, List.nil_append]; exact hl.symm) (hnil fs) hreal
    refine ⟨fs, hf, hfine, ⟨lost, hl⟩, ?_⟩
    rw [← hl, List.length_append]
    simp only [crlf, List.length_cons, List.length_nil] at this
    omega
  · obtain ⟨lost, hl⟩ := ha.trans hp
    have he := encodeOpen_closed b fs false
    have hlead : lead false ++ encode b fs = encode b fs := by simp [lead]
    rw [hlead, ← hl, List.append_assoc] at he
    have := closing_prefix (pre := []) (tail := crlf) hb (key hf fun o ho => hs o (hsub.subset ho)) (by rw [← encode_with, List.nil_append]; exact he.symm) (hnil fs) hreal
    simp only [List.length_append, crlf, List.length_cons, List.length_nil, dashes] at this
    have : (b!"--\r\n").length = 4 := by decide
    omega

/-- C160: whatever became of a plain request, and whatever the server has done with the entries before: if it is told that there are no more entries, the client has opened all files, read all streams to
their ends and written everything, of which at most the line break after the closing delimiter has not arrived. -/
theorem C160_end_means_all {env : FileEnv} {req : ClientReq} {os : List ClientOp} {r : Res Unit} {s : ClientStream} {t : BR} (hD : D.Sane) (hb : SafeBoundary b)
    (hs : ∀ o ∈ os, ∀ f, StandsFor env o f → Absent (dashes ++ b) (f.headers ++ f.data)) (hr : plainRequest env req b os = (r, some s)) (ha : Ev.bytes evs <+: s.sink.got) (ht : Reachable D evs b t)
    (h : (t.readEntry D).1 = .ok none) :
    ∃ fs, All2 (StandsFor env) os fs ∧ (∀ o ∈ os, ∀ evs, o.reads env evs → ReadsFine evs) ∧ Ev.bytes evs <+: encode b fs ∧ (encode b fs).length ≤ (Ev.bytes evs).length + 2 :=
  end_means_all hD hb hs (plain_wrote hr) ha ht h

theorem Sample.ops_absent : ∀ o ∈ Sample.ops, ∀ f, StandsFor Sample.env o f → Absent (dashes ++ b!"b") (f.headers ++ f.data) := by
  intro o ho f hf
  obtain ⟨ct, h⟩ := Sample.ops_sendable o ho f hf
  exact f.headers_absent ⟨by simp, by decide⟩ h.oneLine

theorem full_end {cfg : Settings} {fuel : Nat} {dir : SaveDir} {w w' : World} {e : Entries} {t : BR} (hD : D.Sane) (h : withEntries D cfg fuel (Entries.new dir) w (withBody evs b) = (.full e, w', t)) :
    ∃ u, Reachable D evs b u ∧ (u.readEntry D).1 = .ok none := by
  obtain ⟨fs, w1, s1, h1, -, h3⟩ := withEntries_spec h
  rcases h3 with h3 | ⟨h3, -⟩
  · cases h3 with
    | full h4 h5 => exact ⟨s1, h1.reachable hD ⟨[], rfl⟩, by rw [h4]⟩
  · simp at h3

/-- The hypotheses of C160_end_means_all are met by the sample request. -/
example : (∀ o ∈ Sample.ops, ∀ f, StandsFor Sample.env o f → Absent (dashes ++ b!"b") (f.headers ++ f.data)) ∧ plainRequest Sample.env Sample.req b!"b" Sample.ops = (.ok (), some Sample.sent) ∧
    Ev.bytes Sample.sentEvs <+: Sample.sent.sink.got ∧ ∃ t, Reachable refDeps Sample.sentEvs b!"b" t ∧ (t.readEntry refDeps).1 = .ok none := by
  obtain ⟨fuel, e, w', t, h⟩ := Sample.sent_full
  exact ⟨Sample.ops_absent, Sample.sent_eq, by decide +kernel, full_end refDeps_sane h⟩

/-- C160 for sized requests. -/
theorem C160_sized {env : FileEnv} {req : ClientReq} {os : List ClientOp} {r : Res Unit} {applied : List (Bytes × Option Nat)} {s : ClientStream} {t : BR} (hD : D.Sane) (hb : SafeBoundary b)
    (hs : ∀ o ∈ os, ∀ f, StandsFor env o f → Absent (dashes ++ b) (f.headers ++ f.data)) (hr : sizedRequest env req b os = (r, applied, some s)) (ha : Ev.bytes evs <+: s.sink.got) (ht : Reachable D evs b t)
    (h : (t.readEntry D).1 = .ok none) :
    ∃ fs, All2 (StandsFor env) os fs ∧ (∀ o ∈ os, ∀ evs, o.reads env evs → ReadsFine evs) ∧ Ev.bytes evs <+: encode b fs ∧ (encode b fs).length ≤ (Ev.bytes evs).length + 2 := by
  refine end_means_all hD hb hs (.inl ?_) ha ht h
  rcases C27_outcome hr with ⟨h1, -⟩ | ⟨fs, h1, -, hf, ⟨-, -, h2⟩ | ⟨-, _, -, -, h2⟩ | ⟨-, -, s', _, h2, -, h3, -⟩⟩
  · cases h1
  · cases h2
  · cases h2
  · cases h2; exact ⟨fs, h1, hf, h3⟩

/-- The hypotheses of C160_sized are met. -/
example : (∀ o ∈ Sample.ops, ∀ f, StandsFor Sample.env o f → Absent (dashes ++ b!"b") (f.headers ++ f.data)) ∧
    (∃ applied s, sizedRequest Sample.env Sample.req b!"b" Sample.ops = (.ok (), applied, some s) ∧ Ev.bytes Sample.sentEvs <+: s.sink.got) ∧
    ∃ t, Reachable refDeps Sample.sentEvs b!"b" t ∧ (t.readEntry refDeps).1 = .ok none := by
  obtain ⟨fuel, e, w', t, h⟩ := Sample.sent_full
  exact ⟨Sample.ops_absent, ⟨[(b!"b", some Sample.sent.sink.got.length)], ⟨[(b!"b", some Sample.sent.sink.got.length)], ⟨[], Sample.sent.sink.got⟩, none⟩, by decide +kernel, by decide +kernel⟩,
    full_end refDeps_sane h⟩

/-- C159 for any caller: without interrupted reads, the end of a lazy request is reported only if the client has sent all it had, and all of it has arrived. -/
theorem C159_end_partial {env : LazyEnv} {os : List ClientOp} {n : Nat} {req : ClientReq} {r : SendRes} {m : LazyMp} {s : ClientStream} {t : BR} (hD : D.Sane) (hb : SafeBoundary b)
    (hs : ∀ o ∈ os, ∀ f, StandsFor env.toFileEnv.dropErrs o.dropErrs f → Absent (dashes ++ b) (f.headers ++ f.data)) (hn0 : n ≠ 0) (ho : os ≠ []) (hni : NoInterrupt env.toFileEnv os)
    (hr : (LazyMp.build os).send env b n req = (r, m, some s)) (ha : Ev.bytes evs <+: s.sink.got) (ht : Reachable D evs b t) (h : (t.readEntry D).1 = .ok none) :
    ∃ fs, All2 (StandsFor env.toFileEnv) os fs ∧ (∀ o ∈ os, ∀ evs, o.reads env.toFileEnv evs → ReadsFine evs) ∧ Ev.bytes evs = encodeLazy b (lazyOrder fs) := by
  obtain ⟨fs, hf, hp, hfine⟩ := lazy_wrote hn0 ho hni hr
  obtain ⟨lost, hl⟩ := ha.trans hp
  have hne0 : lazyOrder fs ≠ [] := fun hh => ho (List.map_eq_nil_iff.mp ((all2_nil_iff hf).mpr (lazyOrder_eq_nil.mp hh)))
  have key : ∀ {os : List ClientOp} {fs : List OutField}, All2 (fun o f => StandsFor env.toFileEnv.dropErrs o.dropErrs f) os fs →
      (∀ o ∈ os, ∀ f, StandsFor env.toFileEnv.dropErrs o.dropErrs f → Absent (dashes ++ b) (f.headers ++ f.data)) → ∀ f ∈ fs, Absent (dashes ++ b) (f.headers ++ f.data) := by
    intro os fs h
    induction h with
    | nil => intro _ f hf; simp at hf
    | cons a _ ih =>
      intro hs f hf
      rcases List.mem_cons.mp hf with rfl | hf
      · exact hs _ (by simp) _ a
      · exact ih (fun o ho => hs o (by simp [ho])) f hf
  have hd : dashes ++ b ++ dashes ≠ [] := by simp [dashes]
  have hnil : Absent (dashes ++ b ++ dashes) [] := fun q h => hd (by simpa [OccursAt] using h)
  have hmem : ∀ c : Byte, c ∈ b!"\r\n\"; :=" → c ≠ 0x2D → c ∉ dashes ++ b ++ dashes := by
    intro c hc hne h
    rcases List.mem_append.mp h with h | h
    · exact hb.notMem hc h
    · simp [dashes] at h; exact hne h
  have h1 := closing_prefix (pre := crlf) (tail := []) (fs := lazyOrder fs) (lost := lost) hb (fun f hf' => by
      refine key (all2_of_map hf) hs f ?_
      simp only [lazyOrder, List.mem_append, List.mem_filter, List.mem_reverse] at hf'
      rcases hf' with h | h <;> exact h.1) (by rw [← encodeLazy_with b _ hne0, hl]) (fun p hp => by
      have e : crlf ++ encodeWith b [] (lazyOrder fs) = [] ++ 0x0D :: ([] ++ 0x0A :: encodeWith b [] (lazyOrder fs)) := by simp [crlf]
      rw [e] at hp
      obtain ⟨q1, h1, g1⟩ := occursAt_after hd (hmem 0x0D (by decide) (by decide)) hnil hp
      obtain ⟨q2, h2, g2⟩ := occursAt_after hd (hmem 0x0A (by decide) (by decide)) hnil g1
      exact ⟨q2, by simp [crlf] at *; omega, g2⟩) (C09_end_is_real hD ht h)
  have hlost : lost = [] := List.length_eq_zero_iff.mp (by simpa using h1)
  rw [hlost, List.append_nil] at hl
  obtain ⟨hf', hall⟩ := hfine (hp.eq_of_length_le (by rw [← hl]; exact ha.length_le))
  exact ⟨fs, hf', hall, hl⟩

/-- The hypotheses of C159_end_partial are met. -/
example : (∀ o ∈ Sample.lops, ∀ f, StandsFor Sample.lenv.toFileEnv.dropErrs o.dropErrs f → Absent (dashes ++ b!"b") (f.headers ++ f.data)) ∧ Sample.lops ≠ [] ∧ NoInterrupt Sample.lenv.toFileEnv Sample.lops ∧
    (∃ s, (LazyMp.build Sample.lops).send Sample.lenv b!"b" 8192 Sample.req = (.ok, [], some s) ∧ Ev.bytes [.data Sample.lread] <+: s.sink.got) ∧
    ∃ t, Reachable refDeps [.data Sample.lread] b!"b" t ∧ (t.readEntry refDeps).1 = .ok none := by
  refine ⟨fun o ho f hf => ?_, by simp [Sample.lops], fun o ho evs hr => Sample.lops_noErr o ho evs hr _,
    ⟨((LazyMp.send Sample.lenv b!"b" 8192 (LazyMp.build Sample.lops) Sample.req).2.2).getD ⟨[], ⟨[], []⟩, none⟩, by decide +kernel, by decide +kernel⟩, ?_⟩
  · obtain ⟨ct, h⟩ := Sample.lops_sendable o ho f hf
    exact f.headers_absent ⟨by simp, by decide⟩ h.oneLine
  · have hP := prepared_parts (evs := [.data Sample.lread]) refDeps_tokenizes ⟨by simp, by decide⟩ (Sample.lprep_ok (os := Sample.lops) (by decide +kernel)) Sample.lops_noErr (by simp [Sample.lops]) Sample.lops_fields Sample.lsendable
      (ns := [7, 50, 300, 300]) (u := Sample.lread) ⟨by decide, by decide +kernel, rfl⟩ (by simp [Ev.bytes])
    obtain ⟨n, h⟩ := C77_request_succeeds (cfg := .default) (w := Sample.bigDisk 4) refDeps_sane (by decide +kernel) (by intro e; simp) Settings.default_typed rfl (fun h => by simp [Settings.default] at h)
      (.inl (by decide)) hP (.perm [b!"d"]) (by decide +kernel) (fun p hp => .inl (by revert p; decide +kernel)) (Sample.bigDisk_ready _ 4)
    obtain ⟨e, w', t, fs, h1, -⟩ := h n (Nat.le_refl _)
    exact full_end refDeps_sane h1

/-- If lenient interception returns entries, it was told that there are no more. -/
theorem Intercept.lenientLoop_end {i : Intercept} {fuel : Nat} {fail : Option (IoErr × (Path → Bool))} {n : Nat} {e e' : Entries} {w w' : World} {s t : BR} (hD : D.Sane) (ht : i.Typed)
    (hr : Reachable D evs b s) (h : i.lenientLoop D fuel fail n e w s = (.ok (.ok (some e')), w', t)) : ∃ u, Reachable D evs b u ∧ (u.readEntry D).1 = .ok none := by
  induction n generalizing e w s with
  | zero => simp [Intercept.lenientLoop] at h
  | succ n ih =>
    rcases hc : withEntries D i.settings fuel e w s with ⟨r, w1, t1⟩
    simp only [Intercept.lenientLoop, hc] at h
    cases r with
    | panic => simp at h
    | hang => simp at h
    | error er => simp at h
    | full e1 =>
      obtain ⟨fs, w1, s1, h1, -, h3⟩ := withEntries_spec hc
      rcases h3 with h3 | ⟨h3, -⟩
      · cases h3 with
        | full h4 h5 => exact ⟨s1, h1.reachable hD hr, by rw [h4]⟩
      · simp at h3
    | part p reason =>
      obtain ⟨h1, fs, w2, s1, h2, hpe, h3⟩ := Intercept.part_spec hD hr hc
      rcases h3 with ⟨rfl, -, -, -, h3, hk⟩ | ⟨rfl, h6, hd, d, s2, h4, -, hk, h5⟩ | ⟨er, rfl⟩
      · have := Intercept.lenient_stuck (D := D) (fuel := fuel) (fail := fail) (w := w1) (s := t1) ht (n := n) (e := p.keepPartial) (by
          rw [hk, hpe, Entries.pushAll_total]; exact h3)
        simp only at h
        rw [h] at this
        simp at this
      · simp only at h
        have hr2 := (h2.reachable hD hr).entry h4
        obtain ⟨x, hx⟩ := Target.save_took _ (hr2.spec hD).1 h5 (by simp)
        exact ih (hx.reachable hr2) h
      · simp at h

/-- If the middleware puts entries among the extensions of a request, it was told that there are no more. -/
theorem Intercept.before_end {i : Intercept} {fuel : Nat} {made : Except IoErr Path} {fail : Option (IoErr × (Path → Bool))} {w w' : World} {req : HyperReq} {e : Entries} (hD : D.Sane) (ht : i.Typed)
    (hq : ironBoundary req = some b) (h : i.before D fuel made fail w req none = (.ok (.ok ()), some e, w')) : ∃ u, Reachable D req.body b u ∧ (u.readEntry D).1 = .ok none := by
  unfold Intercept.before Intercept.readRequest fromRequest ironHttp at h
  simp only [hq] at h
  cases made with
  | error er => simp at h
  | ok dir =>
    cases hl : i.limitBehavior with
    | throwError =>
      simp only [hl] at h
      unfold Intercept.readRequestStrict withTempDir at h
      rcases hc : withEntries D i.settings fuel (Entries.new (.temp dir)) { w with dirs := w.dirs ++ [dir] } (withBody req.body b) with ⟨r, w1, t1⟩
      rw [hc] at h
      cases r with
      | full e1 =>
        obtain ⟨fs, w1, s1, h1, -, h3⟩ := withEntries_spec hc
        rcases h3 with h3 | ⟨h3, -⟩
        · cases h3 with
          | full h4 h5 => exact ⟨s1, h1.reachable hD ⟨[], rfl⟩, by rw [h4]⟩
        · simp at h3
      | part p reason =>
        cases reason with
        | sizeLimit => cases hp : p.part <;> simp [hp] at h
        | _ => simp at h
      | error er => simp at h
      | panic => simp at h
      | hang => simp at h
    | continue_ =>
      simp only [hl] at h
      rcases hc : i.readRequestLenient D fuel fail dir { w with dirs := w.dirs ++ [dir] } (withBody req.body b) with ⟨r, w1, t1⟩
      rw [hc] at h
      rw [Intercept.lenient_eq] at hc
      cases r with
      | ok x =>
        cases x with
        | ok y =>
          cases y with
          | some e' => exact Intercept.lenientLoop_end hD ht ⟨[], rfl⟩ hc
          | none => simp at h
        | error er => simp at h
      | err er => simp at h
      | panic => simp at h
      | hang => simp at h

/-- C160 for Iron: behind the middleware, in both modes, there are entries of a request only if its client has sent all it had. -/
theorem C160_iron {env : FileEnv} {creq : ClientReq} {os : List ClientOp} {r : Res Unit} {s : ClientStream} {i : Intercept} {fuel : Nat} {made : Except IoErr Path}
    {fail : Option (IoErr × (Path → Bool))} {w w' : World} {req : HyperReq} {e : Entries} (hD : D.Sane) (ht : i.Typed) (hb : SafeBoundary b)
    (hs : ∀ o ∈ os, ∀ f, StandsFor env o f → Absent (dashes ++ b) (f.headers ++ f.data)) (hr : plainRequest env creq b os = (r, some s)) (hq : ironBoundary req = some b)
    (ha : Ev.bytes req.body <+: s.sink.got) (h : i.before D fuel made fail w req none = (.ok (.ok ()), some e, w')) :
    ∃ fs, All2 (StandsFor env) os fs ∧ (∀ o ∈ os, ∀ evs, o.reads env evs → ReadsFine evs) ∧ Ev.bytes req.body <+: encode b fs ∧ (encode b fs).length ≤ (Ev.bytes req.body).length + 2 := by
  obtain ⟨u, hu, hu'⟩ := Intercept.before_end hD ht hq h
  exact C160_end_means_all hD hb hs hr ha hu hu'

def Sample.ironSent : HyperReq := ⟨.post, some ⟨.multipart, .formData, [(.boundary, .ext b!"b")]⟩, Sample.sentEvs⟩

theorem Sample.ironSent_kept : ∃ fuel e w', (Intercept.mk none 10 5 .continue_).before refDeps fuel (.ok [b!"tmp"]) none Sample.readyDisk Sample.ironSent none = (.ok (.ok ()), some e, w') := by
  obtain ⟨n, h⟩ := C84_upload (i := ⟨none, 10, 5, .continue_⟩) (q := ⟨.post, none, none⟩) (len := none) (m := ((⟨.post, none, none⟩ : HyperClientReq).applyHeaders b!"b" none).2.contentType.get rfl)
    (evs := Sample.sentEvs) (w := Sample.readyDisk) (dir := [b!"tmp"]) (fail := none) (m' := ⟨.multipart, .formData, [(.boundary, .ext b!"b")]⟩)
    refDeps_sane refDeps_tokenizes ⟨by simp, by decide⟩ Sample.sent_eq Sample.ops_fields Sample.sendable rfl rfl
    ⟨⟨by simp, by simp, by simp, by intro p hp; simp only [List.mem_singleton] at hp; subst hp; decide⟩, rfl, rfl, rfl⟩ (by decide +kernel) (by intro e; simp [Sample.sentEvs]) (by decide +kernel)
    ⟨by decide, by decide⟩ (by decide) (by decide) (Sample.readyDisk_ready (by decide) _) none
  obtain ⟨e, w', xs, h1, -⟩ := h n (Nat.le_refl _)
  exact ⟨n, e, w', h1⟩

/-- The hypotheses of C160_iron are met, with a lenient middleware. -/
example : (Intercept.mk none 10 5 .continue_).Typed ∧ (∀ o ∈ Sample.ops, ∀ f, StandsFor Sample.env o f → Absent (dashes ++ b!"b") (f.headers ++ f.data)) ∧
    plainRequest Sample.env Sample.req b!"b" Sample.ops = (.ok (), some Sample.sent) ∧ ironBoundary Sample.ironSent = some b!"b" ∧ Ev.bytes Sample.ironSent.body <+: Sample.sent.sink.got ∧
    ∃ fuel e w', (Intercept.mk none 10 5 .continue_).before refDeps fuel (.ok [b!"tmp"]) none Sample.readyDisk Sample.ironSent none = (.ok (.ok ()), some e, w') :=
  ⟨⟨by decide, by decide⟩, Sample.ops_absent, Sample.sent_eq, rfl, by decide +kernel, Sample.ironSent_kept⟩

/-- C160 for Iron and sized requests. -/
theorem C160_iron_sized {env : FileEnv} {creq : ClientReq} {os : List ClientOp} {r : Res Unit} {applied : List (Bytes × Option Nat)} {s : ClientStream} {i : Intercept} {fuel : Nat} {made : Except IoErr Path}
    {fail : Option (IoErr × (Path → Bool))} {w w' : World} {req : HyperReq} {e : Entries} (hD : D.Sane) (ht : i.Typed) (hb : SafeBoundary b)
    (hs : ∀ o ∈ os, ∀ f, StandsFor env o f → Absent (dashes ++ b) (f.headers ++ f.data)) (hr : sizedRequest env creq b os = (r, applied, some s)) (hq : ironBoundary req = some b)
    (ha : Ev.bytes req.body <+: s.sink.got) (h : i.before D fuel made fail w req none = (.ok (.ok ()), some e, w')) :
    ∃ fs, All2 (StandsFor env) os fs ∧ (∀ o ∈ os, ∀ evs, o.reads env evs → ReadsFine evs) ∧ Ev.bytes req.body <+: encode b fs ∧ (encode b fs).length ≤ (Ev.bytes req.body).length + 2 := by
  obtain ⟨u, hu, hu'⟩ := Intercept.before_end hD ht hq h
  exact C160_sized hD hb hs hr ha hu hu'

/-- The hypotheses of C160_iron_sized are met. -/
example : (Intercept.mk none 10 5 .continue_).Typed ∧ (∀ o ∈ Sample.ops, ∀ f, StandsFor Sample.env o f → Absent (dashes ++ b!"b") (f.headers ++ f.data)) ∧
    (∃ applied s, sizedRequest Sample.env Sample.req b!"b" Sample.ops = (.ok (), applied, some s) ∧ Ev.bytes Sample.sentEvs <+: s.sink.got) ∧ ironBoundary Sample.ironSent = some b!"b" ∧
    ∃ fuel e w', (Intercept.mk none 10 5 .continue_).before refDeps fuel (.ok [b!"tmp"]) none Sample.readyDisk Sample.ironSent none = (.ok (.ok ()), some e, w') :=
  ⟨⟨by decide, by decide⟩, Sample.ops_absent,
    ⟨[(b!"b", some Sample.sent.sink.got.length)], ⟨[(b!"b", some Sample.sent.sink.got.length)], ⟨[], Sample.sent.sink.got⟩, none⟩, by decide +kernel, by decide +kernel⟩, rfl, Sample.ironSent_kept⟩

/-- A body that lacks at most what follows the closing delimiter has all parts. -/
theorem short_parts (hT : D.Tokenizes) (hb : SafeBoundary b) {fs : List OutField} {cts : List (Option Mime)} (hs : All2 (Sendable D b) fs cts) {pre tail got lost : Bytes}
    (hpre : ∀ z, dashes ++ b <+: z → FirstAt (dashes ++ b) (pre ++ z) pre.length) (he : pre ++ encodeWith b tail fs = got ++ lost) (hl : lost.length ≤ tail.length) :
    Parts D (dashes ++ b) got (List.zipWith OutField.asRead fs cts) .closed := by
  have ht : tail = tail.take (tail.length - lost.length) ++ tail.drop (tail.length - lost.length) := (List.take_append_drop _ _).symm
  rw [ht, encodeWith_append, ← List.append_assoc] at he
  have := (List.append_inj' he (by simp; omega)).1
  rw [← this]
  obtain ⟨v, h1, h2⟩ := encodeWith_partsTo hT hb (tail.take (tail.length - lost.length)) hs pre (hpre _ (encodeWith_prefix b _ fs))
  exact h1.closed h2

/-- C160 for Iron with what is kept: the entries behind the middleware are those of all calls of the client, in order, with their headers and contents; in `Continue` mode, and if longer than `file_size_limit`,
with the beginning of them. -/
theorem C160_iron_entries {env : FileEnv} {creq : ClientReq} {os : List ClientOp} {r : Res Unit} {s : ClientStream} {i : Intercept} {fuel : Nat} {made : Except IoErr Path}
    {fail : Option (IoErr × (Path → Bool))} {w w' : World} {req : HyperReq} {e : Entries} {m : HMime} (hD : D.Sane) (hT : D.Tokenizes) (ht : i.Typed) (hb : SafeBoundary b)
    (hs : ∀ o ∈ os, ∀ f, StandsFor env o f → ∃ ct, Sendable D b f ct) (hr : plainRequest env creq b os = (r, some s)) (hm : m.Parsed) (h1 : req.contentType = some m) (h2 : m.IsFormData) (h3 : m.HasBoundary b)
    (ha : Ev.bytes req.body <+: s.sink.got) (hn : NoStall req.body) (hne : NoErr req.body) (hl : (Ev.bytes req.body).length ≤ u64Max)
    (h : i.before D fuel made fail w req none = (.ok (.ok ()), some e, w')) :
    ∃ fs cts saved, All2 (StandsFor env) os fs ∧ All2 (Sendable D b) fs cts ∧ (∀ o ∈ os, ∀ evs, o.reads env evs → ReadsFine evs) ∧ os.length < i.fileCountLimit ∧ GroupedByName e.fields saved ∧
      (i.limitBehavior = .throwError → All2 (SavedAs b req.body w') saved (List.zipWith OutField.asRead fs cts)) ∧
      All2 (Kept i.fileSizeLimit b req.body w') saved (List.zipWith OutField.asRead fs cts) := by
  have hq : ironBoundary req = some b := (C61_iron (by rw [h1]; rintro _ ⟨⟩; exact hm)).mpr ⟨m, h1, h2, h3⟩
  have habs : ∀ o ∈ os, ∀ f, StandsFor env o f → Absent (dashes ++ b) (f.headers ++ f.data) := fun o ho f hf => by
    obtain ⟨ct, hc⟩ := hs o ho f hf
    exact f.headers_absent hb hc.oneLine
  obtain ⟨fs, hf, hfine, hpre, hlen⟩ := C160_iron hD ht hb habs hr hq ha h
  obtain ⟨cts, hc⟩ := all2_can_send hf hs
  obtain ⟨lost, hlost⟩ := hpre
  have hlo : lost.length ≤ crlf.length := by
    have := congrArg List.length hlost
    simp only [List.length_append, crlf, List.length_cons, List.length_nil] at *
    omega
  have hP := short_parts (pre := []) (tail := crlf) hT hb hc first_nil (by rw [← encode_with, List.nil_append]; exact hlost.symm) hlo
  obtain ⟨dir, e', saved, -, he, -, -, g1, g2, g3, g4⟩ := (C74_extension hD hm h1 h2 h3 h).2 rfl hn hne ht hl _ _ hP
  cases he
  refine ⟨fs, cts, saved, hf, hc, hfine, ?_, g2, g3, g4⟩
  rw [List.length_zipWith, ← hc.length, Nat.min_self, ← hf.length] at g1
  exact g1

/-- The hypotheses of C160_iron_entries are met. -/
example : (Intercept.mk none 10 5 .continue_).Typed ∧ (∀ o ∈ Sample.ops, ∀ f, StandsFor Sample.env o f → ∃ ct, Sendable refDeps b!"b" f ct) ∧
    plainRequest Sample.env Sample.req b!"b" Sample.ops = (.ok (), some Sample.sent) ∧
    (∃ m : HMime, m.Parsed ∧ Sample.ironSent.contentType = some m ∧ m.IsFormData ∧ m.HasBoundary b!"b") ∧ Ev.bytes Sample.ironSent.body <+: Sample.sent.sink.got ∧
    NoStall Sample.ironSent.body ∧ NoErr Sample.ironSent.body ∧ (Ev.bytes Sample.ironSent.body).length ≤ u64Max ∧
    ∃ fuel e w', (Intercept.mk none 10 5 .continue_).before refDeps fuel (.ok [b!"tmp"]) none Sample.readyDisk Sample.ironSent none = (.ok (.ok ()), some e, w') := by
  have hp : (⟨.multipart, .formData, [(.boundary, .ext b!"b")]⟩ : HMime).Parsed := ⟨by simp, by simp, by simp, by intro p hp; simp only [List.mem_singleton] at hp; subst hp; decide⟩
  obtain ⟨m, h1, h2, h3⟩ := (C61_iron (r := Sample.ironSent) (b := b!"b") (by rintro _ ⟨⟩; exact hp)).mp rfl
  exact ⟨⟨by decide, by decide⟩, Sample.ops_sendable, Sample.sent_eq, ⟨m, by cases h1; exact hp, h1, h2, h3⟩, by decide +kernel, by decide +kernel, by intro e; simp [Sample.ironSent, Sample.sentEvs],
    by decide +kernel, Sample.ironSent_kept⟩

end Multipart

import Verif.Props.Limits
import Verif.Props.RoundTrip
import Verif.Props.Upload
import Verif.Props.Iron
import Verif.Props.DataReader
import Verif.Spec.Examples
/-!
# The example servers (C95)
-/
namespace Multipart

variable {D : Deps} {evs : List Ev} {b : Bytes} {w w' : World} {T : TempEnv} {S : Surroundings}

theorem Settings.default_typed : Settings.default.Typed := ⟨by decide, by decide, by decide, rfl⟩

/-- How `save().temp()` with default settings can end. -/
inductive Ended (D : Deps) (evs : List Ev) (b : Bytes) (fuel : Nat) (T : TempEnv) (w : World) : SaveRes Entries PartialEntries × World × BR → Prop
  | error {er : IoErr} {t : BR} : T.tempdir b!"multipart-rs" = .error er → Ended D evs b fuel T w (.error er, w, t)
  | full {dir : Path} {e : Entries} {w' : World} {t : BR} : T.tempdir b!"multipart-rs" = .ok dir →
      withEntries D .default fuel (Entries.new (.temp dir)) { w with dirs := w.dirs ++ [dir] } (withBody evs b) = (.full e, w', t) → Ended D evs b fuel T w (.full e, w', t)
  | part {dir : Path} {p : PartialEntries} {r : Reason} {w' : World} {t : BR} : T.tempdir b!"multipart-rs" = .ok dir →
      withEntries D .default fuel (Entries.new (.temp dir)) { w with dirs := w.dirs ++ [dir] } (withBody evs b) = (.part p r, w', t) → Ended D evs b fuel T w (.part p r, w', t)

theorem tempSave_ended_at (hD : D.Sane) (evs : List Ev) (b : Bytes) (T : TempEnv) (w : World) {fuel : Nat} (hf : (withBody evs b).enough (Settings.default.memLimit 0) < fuel) :
    Ended D evs b fuel T w (tempSave D .default fuel T w (withBody evs b)) := by
  have hr : Reachable D evs b (withBody evs b) := ⟨[], rfl⟩
  unfold tempSave tempWithPrefix requestTemp withTempDir
  cases ht : T.tempdir b!"multipart-rs" with
  | error er => exact .error ht
  | ok dir =>
    simp only
    obtain ⟨e1, e2⟩ := withEntries_ends (cfg := .default) (e := Entries.new (.temp dir)) (w := { w with dirs := w.dirs ++ [dir] }) (fuel := fuel) hD hr (.inl (by decide))
    have e1 := e1 (by omega)
    rcases h : withEntries D .default fuel (Entries.new (.temp dir)) { w with dirs := w.dirs ++ [dir] } (withBody evs b) with ⟨r, w', t⟩
    rw [h] at e1 e2
    have h3 := (withEntries_spec h)
    cases r with
    | full e => exact .full ht h
    | part p r => exact .part ht h
    | error er =>
      obtain ⟨fs, w1, s1, -, -, h3 | ⟨h3, -⟩⟩ := h3
      · cases h3
      · cases h3
    | panic => exact absurd rfl e2
    | hang => exact absurd rfl e1

theorem tempSave_ended (hD : D.Sane) (evs : List Ev) (b : Bytes) (T : TempEnv) (w : World) : ∃ n, ∀ fuel, n ≤ fuel → Ended D evs b fuel T w (tempSave D .default fuel T w (withBody evs b)) :=
  ⟨_, fun _ hf => tempSave_ended_at hD evs b T w hf⟩

theorem fromRequest_cases {ρ : Type} (H : HttpRequest ρ) (req : ρ) :
    (∃ b, H.multipartBoundary req = some b ∧ fromRequest H req = .ok (withBody (H.body req) b)) ∨ (H.multipartBoundary req = none ∧ fromRequest H req = .error req) := by
  unfold fromRequest
  cases H.multipartBoundary req with
  | none => exact .inr ⟨rfl, rfl⟩
  | some b => exact .inl ⟨b, rfl, rfl⟩

/-- C95: Nickel's example answers every request, if the response can be written. -/
theorem C95_nickel (hD : D.Sane) (hS : S.connected = true) (req : HyperReq) : Answers fun fuel => nickelAnswer D fuel T S w req := by
  have he : ∀ w e, ∃ a, nickelEntries S w e = .ok a := by
    intro w e
    unfold nickelEntries
    rcases S.entries w e with ⟨x, _ | er⟩
    · exact ⟨_, rfl⟩
    · simp only [hS, if_true]; exact ⟨_, rfl⟩
  unfold Answers nickelAnswer multipartBody
  rcases fromRequest_cases nickelHttp req with ⟨b, -, h⟩ | ⟨-, h⟩
  · obtain ⟨n, hn⟩ := tempSave_ended hD (nickelHttp.body req) b T w
    refine ⟨n, fun fuel hf => ?_⟩
    simp only [h]
    have hx := hn fuel hf
    generalize tempSave D .default fuel T w (withBody (nickelHttp.body req) b) = x at hx ⊢
    cases hx with
    | error => exact ⟨_, rfl⟩
    | full => exact he _ _
    | part => exact he _ _
  · simp only [h]; exact ⟨0, fun _ _ => ⟨_, rfl⟩⟩

/-- C95: Hyper's example answers every request, if the response can be written and the entries can be printed. -/
theorem C95_hyper (hD : D.Sane) (hS : S.Works) (req : HyperReq) : Answers fun fuel => hyperAnswer D fuel T S w req := by
  have he : ∀ w e, ∃ a, hyperEntries S w e = .ok a := by
    intro w e
    unfold hyperEntries
    have := hS.entries w e
    generalize S.entries w e = y at this ⊢
    obtain ⟨x, _ | er⟩ := y
    · exact ⟨_, rfl⟩
    · simp at this
  have hs : ∀ a, hyperSend S a = .ok a := by intro a; simp [hyperSend, hS.connected]
  unfold Answers hyperAnswer switchHandle
  rcases fromRequest_cases hyperHttp req with ⟨b, -, h⟩ | ⟨-, h⟩
  · obtain ⟨n, hn⟩ := tempSave_ended hD (hyperHttp.body req) b T w
    refine ⟨n, fun fuel hf => ?_⟩
    simp only [h, hyperMultipart]
    have hx := hn fuel hf
    generalize tempSave D .default fuel T w (withBody (hyperHttp.body req) b) = x at hx ⊢
    cases hx with
    | error => exact ⟨_, hs _⟩
    | full => exact he _ _
    | part => exact he _ _
  · simp only [h]; exact ⟨0, fun _ _ => ⟨_, hs _⟩⟩

/-- C95: Rocket's example answers every request. -/
theorem C95_rocket (hD : D.Sane) (req : RocketReq) : Answers fun fuel => rocketAnswer D fuel T S w req := by
  unfold Answers rocketAnswer
  by_cases hf : req.isFormData = true
  · simp only [if_pos hf]
    cases hb : req.params.find? fun p => p.1 = b!"boundary" with
    | none => exact ⟨0, fun _ _ => ⟨_, rfl⟩⟩
    | some q =>
      obtain ⟨k, b⟩ := q
      obtain ⟨n, hn⟩ := tempSave_ended hD req.body b T w
      refine ⟨n, fun fuel hf => ?_⟩
      simp only [rocketProcess]
      have hx := hn fuel hf
      generalize tempSave D .default fuel T w (withBody req.body b) = x at hx ⊢
      cases hx with
      | error => exact ⟨_, rfl⟩
      | @full _ e w' =>
        simp only
        cases S.print w' e with
        | ok => exact ⟨_, rfl⟩
        | error => exact ⟨_, rfl⟩
      | @part _ p _ w' =>
        simp only
        cases S.print w' p.entries with
        | ok => exact ⟨_, rfl⟩
        | error => exact ⟨_, rfl⟩
  · simp only [if_neg hf]; exact ⟨0, fun _ _ => ⟨_, rfl⟩⟩

/-- The body is within the default limits, whatever is in it: at most 8 MiB, and too short for 256 delimiter lines. -/
def SmallBody (b : Bytes) (evs : List Ev) : Prop := (Ev.bytes evs).length ≤ 8 * 1024 * 1024 ∧ (Ev.bytes evs).length < 256 * (b.length + 4)

theorem SmallBody.reason (hD : D.Sane) (hs : SmallBody b evs) {dir : SaveDir} {p : PartialEntries} {r : Reason} {fuel : Nat} {t : BR}
    (h : withEntries D .default fuel (Entries.new dir) w (withBody evs b) = (.part p r, w', t)) : ∃ er, r = .io er := by
  rcases C94_small (cfg := .default) hD Settings.default_typed dir hs.1 hs.2 h with h | ⟨-, h⟩
  · exact h
  · simp [Settings.default] at h

/-- C95, as far as it holds: the example of `tiny_http` answers every request with a small body (or none for us). Missing: bodies that hit one of the default limits, for which it panics. -/
theorem C95_tiny_partial (hD : D.Sane) {req : TinyReq} (hs : ∀ b, tinyBoundary req = some b → SmallBody b req.body) : Answers fun fuel => tinyAnswer D fuel T S w req := by
  unfold Answers tinyAnswer tinyProcess
  rcases fromRequest_cases tinyHttp req with ⟨b, hb, h⟩ | ⟨-, h⟩
  · obtain ⟨n, hn⟩ := tempSave_ended hD (tinyHttp.body req) b T w
    refine ⟨n, fun fuel hf => ?_⟩
    simp only [h]
    have hx := hn fuel hf
    generalize tempSave D .default fuel T w (withBody (tinyHttp.body req) b) = x at hx ⊢
    cases hx with
    | error => exact ⟨_, rfl⟩
    | @full _ e w' =>
      simp only
      cases S.print w' e with
      | ok => exact ⟨_, rfl⟩
      | error => exact ⟨_, rfl⟩
    | @part _ p r w' _ h1 h2 =>
      obtain ⟨er, rfl⟩ := SmallBody.reason hD (hs b hb) h2
      simp only [Reason.unwrapErr]
      cases S.print w' p.keepPartial with
      | ok => exact ⟨_, rfl⟩
      | error => exact ⟨_, rfl⟩
  · simp only [h]; exact ⟨0, fun _ _ => ⟨_, rfl⟩⟩

/-- The same for Iron. -/
theorem C95_iron_partial (hD : D.Sane) {req : HyperReq} (hs : ∀ b, ironBoundary req = some b → SmallBody b req.body) : Answers fun fuel => ironAnswer D fuel T S w req := by
  unfold Answers ironAnswer
  rcases fromRequest_cases ironHttp req with ⟨b, hb, h⟩ | ⟨-, h⟩
  · obtain ⟨n, hn⟩ := tempSave_ended hD (ironHttp.body req) b T w
    refine ⟨n, fun fuel hf => ?_⟩
    simp only [h]
    have hx := hn fuel hf
    generalize tempSave D .default fuel T w (withBody (ironHttp.body req) b) = x at hx ⊢
    cases hx with
    | error => exact ⟨_, rfl⟩
    | @full _ e w' =>
      simp only
      cases ironEntries S w' e with
      | ok => exact ⟨_, rfl⟩
      | error => exact ⟨_, rfl⟩
    | @part _ p r w' _ h1 h2 =>
      obtain ⟨er, rfl⟩ := SmallBody.reason hD (hs b hb) h2
      simp only [Reason.unwrapErr]
      cases ironEntries S w' p.keepPartial with
      | ok => exact ⟨_, rfl⟩
      | error => exact ⟨_, rfl⟩
  · simp only [h]; exact ⟨0, fun _ _ => ⟨_, rfl⟩⟩

theorem DiskReady.dirs {dir : Path} {n : Nat} {l : List Path} (h : DiskReady w dir n) : DiskReady { w with dirs := l } dir n := ⟨h.mkdirs, h.opens, h.writes, h.names, h.distinct, h.fresh⟩

/-- What the code does instead: every complete and well-formed request with 256 or more parts, none of them larger than 8 MiB, makes the examples of `tiny_http` and Iron panic, if
everything else works. -/
theorem C95_crash (hD : D.Sane) (hn : NoStall evs) (hne : NoErr evs) {es : List (FieldHeaders × Bytes)} (hP : Parts D (dashes ++ b) (Ev.bytes evs) es .closed) (hl : 256 ≤ es.length)
    (hz : ∀ p ∈ es, p.2.length + 2 ≤ 8 * 1024 * 1024) {dir : Path} (ht : T.tempdir b!"multipart-rs" = .ok dir) (hw : DiskReady w dir es.length) (hS : S.Works) :
    ∃ n, ∀ fuel, n ≤ fuel → (∀ req : TinyReq, tinyBoundary req = some b → req.body = evs → tinyAnswer D fuel T S w req = .panic) ∧
      (∀ req : HyperReq, ironBoundary req = some b → req.body = evs → ironAnswer D fuel T S w req = .panic) := by
  obtain ⟨n, h⟩ := C50_stopped (cfg := .default) (w := { w with dirs := w.dirs ++ [dir] }) hD hn hne Settings.default_typed rfl (fun h => by simp [Settings.default] at h) (.inl (by decide)) hP (.temp dir) hl
    (fun p hp => .inl (hz p hp)) hw.dirs
  refine ⟨n, fun fuel hf => ?_⟩
  obtain ⟨e, w', t, fs, h1, -⟩ := h fuel hf
  have ht' : tempSave D .default fuel T w (withBody evs b) = (.part ⟨e, none⟩ .countLimit, w', t) := by
    simp only [tempSave, tempWithPrefix, requestTemp, ht, withTempDir, h1]
  have hS := hS.entries w' e
  rcases hx : S.entries w' e with ⟨x, y⟩
  rw [hx] at hS
  simp only at hS
  subst hS
  constructor
  · rintro req h2 rfl
    have : fromRequest tinyHttp req = .ok (withBody req.body b) := by simp only [fromRequest, tinyHttp, h2]
    simp only [tinyAnswer, tinyProcess, this, ht', PartialEntries.keepPartial, Surroundings.print, hx, Reason.unwrapErr]
  · rintro req h2 rfl
    have : fromRequest ironHttp req = .ok (withBody req.body b) := by simp only [fromRequest, ironHttp, h2]
    simp only [ironAnswer, this, ht', PartialEntries.keepPartial, ironEntries, hx, Reason.unwrapErr]

theorem GroupedByName.mem {m : List (Bytes × List SavedField)} {fs : List SavedField} (h : GroupedByName m fs) {kv : Bytes × List SavedField} (hkv : kv ∈ m) {f : SavedField} (hf : f ∈ kv.2) : f ∈ fs := by
  have := ((h.groups kv.1 kv.2).mp hkv).2
  rw [this] at hf
  exact (List.mem_filter.mp hf).1

theorem All2.left {α β : Type} {R : α → β → Prop} {P : α → Prop} {as : List α} {bs : List β} (h : All2 R as bs) (hi : ∀ a b, R a b → P a) : ∀ a ∈ as, P a := by
  induction h with
  | nil => simp
  | cons hr _ ih =>
    intro a ha
    rcases List.mem_cons.mp ha with rfl | ha
    · exact hi _ _ hr
    · exact ih a ha

/-- The fields of a full save are printed with their contents. -/
theorem Surroundings.Shows.full {F : DebugFmt} (hS : S.Shows F) {e : Entries} {fs : List SavedField} (hg : GroupedByName e.fields fs) (hr : ∀ f ∈ fs, ∃ c, f.data.readable w = .ok c) :
    S.entries w e = (debugText F (·.contents w) e.fields, none) := by
  have hev : ∀ (p : Path) {x : List Ev}, w.opening p = .ok x → x = [] ∨ ∃ c, c ≠ [] ∧ x = [.data c] := by
    intro p x h
    simp only [World.opening] at h
    split at h
    · next c _ =>
      simp only [Except.ok.injEq] at h
      subst h
      by_cases hc : c = []
      · exact .inl (if_pos hc)
      · exact .inr ⟨c, hc, if_neg hc⟩
    · simp at h
  have hc : ∀ kv ∈ e.fields, ∀ f ∈ kv.2, Contents w.opening f.data (f.contents w) := by
    intro kv hkv f hf
    obtain ⟨c, hc⟩ := hr f (hg.mem hkv hf)
    obtain ⟨hd, d⟩ := f
    cases d with
    | text t => exact .text t
    | bytes x => exact .bytes x
    | file p n =>
      simp only [SavedData.readable] at hc
      cases hp : w.files p with
      | none => rw [hp] at hc; simp at hc
      | some c =>
        have ho : w.opening p = .ok (if c = [] then [] else [.data c]) := by simp only [World.opening, hp]
        have he : SavedField.contents w ⟨hd, .file p n⟩ = Ev.bytes (if c = [] then [] else [.data c]) := by
          simp only [SavedField.contents, hp, Option.getD_some]
          split
          · next h => rw [h]; rfl
          · simp [Ev.bytes]
        rw [he]
        refine .file ho ?_
        split
        · simp [NoStall]
        · next h => simp only [NoStall, List.mem_singleton, Ev.data.injEq]; exact fun h' => h h'.symm
  have hu : ∀ kv ∈ e.fields, ∀ f ∈ kv.2, ∀ er, ¬ Unreadable w.opening f.data er := by
    rintro kv hkv f hf er ⟨p, n, h1, h2⟩
    have := hc kv hkv f hf
    rw [h1] at this
    generalize f.contents w = c at this
    cases this with
    | file ho =>
      rcases h2 with h2 | ⟨x, h2, h3, -⟩
      · rw [ho] at h2; simp at h2
      · rcases hev p h2 with rfl | ⟨c, -, rfl⟩ <;> simp at h3
  have hs := hS w e
  rcases hd : debugMap F w.opening e.fields ⟨[], []⟩ with ⟨res, k⟩
  rw [hd] at hs
  rcases C80_output (cs := (·.contents w)) (fun kv hkv f hf => .inl (hc kv hkv f hf)) hd with ⟨rfl, h2, -⟩ | ⟨er, p, -, -, -, ⟨ev, h, -⟩ | ⟨kv, hkv, f, hf, h⟩⟩
  · rw [hs]
    simp only [h2, List.nil_append]
  · simp at h
  · exact absurd h (hu kv hkv f hf er)

/-- C95: a complete and well-formed request with fewer than 256 parts, none of them larger than 8 MiB, is answered with status 200 by each of the examples, and the answer shows all parts with
their contents, if everything else works. -/
theorem C95_uploads {F : DebugFmt} (hD : D.Sane) (hn : NoStall evs) (hne : NoErr evs) {es : List (FieldHeaders × Bytes)} (hP : Parts D (dashes ++ b) (Ev.bytes evs) es .closed) (hl : es.length < 256)
    (hz : ∀ p ∈ es, p.2.length + 2 ≤ 8 * 1024 * 1024) {dir : Path} (ht : T.tempdir b!"multipart-rs" = .ok dir) (hw : DiskReady w dir es.length) (hS : S.Shows F) :
    ∃ n, ∀ fuel, n ≤ fuel → ∃ m w' fs, GroupedByName m fs ∧ All2 (fun x p => x.headers = p.1 ∧ SavedOk (dashes ++ b) evs p.2 (x.contents w')) fs es ∧
      (∀ req, tinyBoundary req = some b → req.body = evs → tinyAnswer D fuel T S w req = .ok ⟨200, debugText F (·.contents w') m ++ b!"Entries processed\n"⟩) ∧
      (∀ req, ironBoundary req = some b → req.body = evs → ironAnswer D fuel T S w req = .ok ⟨200, debugText F (·.contents w') m ++ b!"Entries processed\n"⟩) ∧
      (∀ req, nickelBoundary req = some b → req.body = evs → nickelAnswer D fuel T S w req = .ok ⟨200, debugText F (·.contents w') m⟩) ∧
      (∀ req, hyperBoundary req = some b → req.body = evs → hyperAnswer D fuel T S w req = .ok ⟨200, debugText F (·.contents w') m⟩) ∧
      (∀ params, params.find? (fun p => p.1 = b!"boundary") = some (b!"boundary", b) →
        rocketAnswer D fuel T S w ⟨true, params, evs⟩ = .ok ⟨200, debugText F (·.contents w') m ++ b!"Entries processed\n"⟩) := by
  obtain ⟨n, h⟩ := C77_request_succeeds (cfg := .default) (w := { w with dirs := w.dirs ++ [dir] }) hD hn hne Settings.default_typed rfl (fun h => by simp [Settings.default] at h) (.inl (by decide)) hP (.temp dir) hl
    (fun p hp => .inl (hz p hp)) hw.dirs
  refine ⟨n, fun fuel hf => ?_⟩
  obtain ⟨e, w', t, fs, h1, h2, -, h3⟩ := h fuel hf
  have ht' : tempSave D .default fuel T w (withBody evs b) = (.full e, w', t) := by
    simp only [tempSave, tempWithPrefix, requestTemp, ht, withTempDir, h1]
  have hx := hS.full (w := w') h2 (h3.left fun f p h => by obtain ⟨-, c, h, -⟩ := h; exact ⟨c, h⟩)
  refine ⟨e.fields, w', fs, h2, h3.imp ?_, ?_, ?_, ?_, ?_, ?_⟩
  · rintro f p ⟨k1, c, k2, k3⟩
    refine ⟨k1, ?_⟩
    have : f.contents w' = c := by
      unfold SavedField.contents
      unfold SavedData.readable at k2
      cases hd : f.data with
      | text t => rw [hd] at k2; simpa using k2
      | bytes t => rw [hd] at k2; simpa using k2
      | file p n =>
        rw [hd] at k2
        simp only at k2 ⊢
        cases hp : w'.files p with
        | none => rw [hp] at k2; simp at k2
        | some c' => rw [hp] at k2; simpa using k2
    rw [this]; exact k3
  · rintro req h2 rfl
    have : fromRequest tinyHttp req = .ok (withBody req.body b) := by simp only [fromRequest, tinyHttp, h2]
    simp only [tinyAnswer, tinyProcess, this, ht', Surroundings.print, hx]
  · rintro req h2 rfl
    have : fromRequest ironHttp req = .ok (withBody req.body b) := by simp only [fromRequest, ironHttp, h2]
    simp only [ironAnswer, this, ht', ironEntries, hx]
  · rintro req h2 rfl
    have : fromRequest nickelHttp req = .ok (withBody req.body b) := by simp only [fromRequest, nickelHttp, h2]
    simp only [nickelAnswer, multipartBody, this, ht', nickelEntries, hx]
  · rintro req h2 rfl
    have : fromRequest hyperHttp req = .ok (withBody req.body b) := by simp only [fromRequest, hyperHttp, h2]
    simp only [hyperAnswer, switchHandle, hyperMultipart, this, ht', hyperEntries, hx]
  · intro params h2
    simp only [rocketAnswer, if_true, h2, rocketProcess, ht', Surroundings.print, hx]

namespace Sample

/-- A text field. -/
def small : OutField := ⟨b!"a", none, none, b!"x"⟩

/-- `n` text fields, as the client of this crate sends them. -/
def evsMany (n : Nat) : List Ev := [.data (encode bnd (List.replicate n small))]

theorem small_sendable : Sendable refDeps bnd small none :=
  ⟨nameText (by decide) (by decide) (by decide) (by decide) (by decide +kernel), by simp [small], by simp [small], by decide +kernel, by decide +kernel,
    findSub_eq_none_iff.mp (by decide +kernel), by simp [small], by simp [small], findSub_eq_none_iff.mp (by decide +kernel)⟩

theorem all2_replicate {α β : Type} {R : α → β → Prop} {a : α} {b : β} (h : R a b) (n : Nat) : All2 R (List.replicate n a) (List.replicate n b) := by
  induction n with
  | zero => exact .nil
  | succ n ih => exact .cons h ih

theorem partsMany (n : Nat) : Parts refDeps (dashes ++ bnd) (Ev.bytes (evsMany n)) (List.replicate n (small.asRead none)) .closed := by
  have : Ev.bytes (evsMany n) = encode bnd (List.replicate n small) := by simp [evsMany, Ev.bytes]
  rw [this]
  have := encoded_parts refDeps_tokenizes ⟨by decide, by decide⟩ (all2_replicate small_sendable n)
  rw [List.zipWith_replicate, Nat.min_self] at this
  exact this

theorem evsMany_fine (n : Nat) : NoStall (evsMany n) ∧ NoErr (evsMany n) := by
  refine ⟨?_, by intro e; simp [evsMany]⟩
  simp only [NoStall, evsMany, List.mem_singleton, Ev.data.injEq]
  cases n with
  | zero => simp [encode, dashes]
  | succ n => simp [List.replicate, encode, dashes]

/-- A disk with enough new names. -/
def bigDisk (n : Nat) : World := { disk with names := (List.range n).map fun n => List.replicate n 0x78 }

theorem bigDisk_ready (dir : Path) (n : Nat) : DiskReady (bigDisk n) dir n := by
  refine ⟨by simp [bigDisk, disk], by simp [bigDisk, disk], by simp [bigDisk, disk, WritesFine], by simp [bigDisk], ?_, fun _ _ => rfl⟩
  refine List.Nodup.sublist (List.take_sublist _ _) ?_
  simp only [bigDisk, List.Nodup, List.pairwise_map]
  refine List.Pairwise.imp ?_ List.nodup_range
  intro a c h h'
  have := congrArg List.length h'
  simp at this
  exact h this

def temp : TempEnv := ⟨[b!"tmp"], fun _ => true, b!"1", none⟩

/-- Prints nothing. -/
def silent : Surroundings := ⟨fun _ _ => ([], none), fun _ => [], fun _ => [], fun _ => [], true⟩

/-- `write_debug` -/
def shown : Surroundings :=
  { silent with entries := fun w e => match debugMap fmt w.opening e.fields ⟨[], []⟩ with
      | (.err er, k) => (k.got, some er)
      | (_, k) => (k.got, none) }

def tinyReq (evs : List Ev) : TinyReq := ⟨.post, [⟨b!"Content-Type", b!"multipart/form-data; boundary=b"⟩], evs⟩

theorem tinyReq_boundary (evs : List Ev) : tinyBoundary (tinyReq evs) = some bnd := by
  show tinyBoundary (tinyReq []) = some bnd
  decide +kernel

theorem ironReq_boundary (evs : List Ev) : ironBoundary (ironReq evs) = some bnd := by
  show ironBoundary (ironReq []) = some bnd
  decide +kernel

end Sample

/-- C95 is false of the code: 256 text fields of one byte each make the servers panic. -/
theorem C95_false : ¬ ExamplesAnswer refDeps := by
  intro h
  obtain ⟨⟨n1, h1⟩, -⟩ := (h Sample.temp Sample.silent (Sample.bigDisk 256) ⟨fun _ _ => rfl, rfl⟩).imp_left fun h => h (Sample.tinyReq (Sample.evsMany 256))
  obtain ⟨n2, h2⟩ := C95_crash (S := Sample.silent) (T := Sample.temp) (w := Sample.bigDisk 256) refDeps_sane (Sample.evsMany_fine 256).1 (Sample.evsMany_fine 256).2 (Sample.partsMany 256)
    (by rw [List.length_replicate]; omega) (by
      intro p hp
      rw [(List.mem_replicate.mp hp).2]
      decide) (dir := [b!"tmp", b!"multipart-rs1"]) rfl (by rw [List.length_replicate]; exact Sample.bigDisk_ready _ _) ⟨fun _ _ => rfl, rfl⟩
  obtain ⟨a, h1⟩ := h1 (n1 + n2) (by omega)
  have h3 := (h2 (n1 + n2) (by omega)).1 _ (Sample.tinyReq_boundary (Sample.evsMany 256)) rfl
  simp only [h3] at h1
  cases h1

/-- Two fields, answered by two of the examples, and with a part cut off. -/
example : tinyAnswer refDeps 20 Sample.temp Sample.shown Sample.disk (Sample.tinyReq Sample.evsTwo) =
      .ok ⟨200, b!"Field 'a' has 2 entries:\n0: - (-):\none1: - (-):\ntwoEntries processed\n"⟩ ∧
    nickelAnswer refDeps 20 Sample.temp Sample.shown Sample.disk (Sample.ironReq Sample.evsTwo) = .ok ⟨200, b!"Field 'a' has 2 entries:\n0: - (-):\none1: - (-):\ntwo"⟩ ∧
    tinyAnswer refDeps 20 Sample.temp Sample.shown Sample.disk (Sample.tinyReq (Sample.evsTwo.take 1)) = .ok ⟨500, b!"The received data was not correctly proccessed on the server"⟩ := by
  decide +kernel

/-- The hypotheses of C95_nickel, C95_hyper, C95_rocket, C95_tiny_partial, C95_iron_partial and C95_uploads are met; those of C95_crash are met in C95_false. -/
example : SmallBody Sample.bnd Sample.evsTwo ∧ Sample.shown.Shows Sample.fmt ∧ Sample.temp.tempdir b!"multipart-rs" = .ok [b!"tmp", b!"multipart-rs1"] ∧
    DiskReady Sample.readyDisk [b!"tmp", b!"multipart-rs1"] 2 :=
  ⟨⟨by decide +kernel, by decide +kernel⟩, fun _ _ => rfl, rfl, Sample.readyDisk_ready (by decide) _⟩

end Multipart

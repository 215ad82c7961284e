import Verif.Spec.Iron
import Verif.Props.Requests
import Verif.Props.Adapters
import Verif.Lemmas.Fuel
/-!
# C59, C60, C72, C73, C74: whole requests return; Iron's `Intercept`
-/
namespace Multipart

namespace Sample

theorem wellFormedLong : WellFormedPart refDeps (dashes ++ bnd) (hdr ++ (big ++ big ++ big) ++ b!"\r\n--b--\r\n") fh (big ++ big ++ big) ((big ++ big ++ big) ++ b!"\r\n--b--\r\n") :=
  ⟨⟨hdr, _, headerBlock (by decide +kernel), by decide +kernel, by decide, fun _ => by decide +kernel⟩, .crlf (findSub_some (by decide +kernel)) ⟨b!"--b--\r\n", by decide +kernel⟩⟩

theorem partsLong : Parts refDeps (dashes ++ bnd) (Ev.bytes evsLong) [(fh, big ++ big ++ big)] .closed :=
  .part (.part (p := 0) (findSub_some (by decide +kernel)) (by decide +kernel)) wellFormedLong
    (.close (.close (p := 3302) (rest := b!"\r\n") (findSub_some (by decide +kernel)) (by decide +kernel)))

end Sample

variable {D : Deps} {evs : List Ev} {b : Bytes} {s t s0 : BR} {cfg : Settings} {fuel : Nat} {e : Entries} {w w' : World} {r : SaveRes Entries PartialEntries}
  {i : Intercept} {fail : Option (IoErr × (Path → Bool))} {dir : Path}

/-! ## C72 -/

theorem BR.readEntry_enough (hD : D.Sane) (hi : s.Inv) {o : Res (Option FieldHeaders)} (h : s.readEntry D = (o, t)) :
    t.Inv ∧ t.unread.length ≤ s.unread.length ∧ ∀ k, t.enough k ≤ s.enough k := by
  have h1 := BR.session_spec hD [.readEntry] hi
  simp only [BR.session, BR.sop, h] at h1
  obtain ⟨h2, h3, -, h4⟩ := h1
  exact ⟨h2, h3.length_le, fun k => by have := h3.length_le; have := h4.length_le; unfold BR.enough; omega⟩

/-- Saving fields uses up the stream. -/
theorem SavedSeq.shrinks (hD : D.Sane) {fs : List SavedField} (h : SavedSeq D cfg fuel dir w s fs w' t) (hi : s.Inv) :
    t.Inv ∧ t.unread.length + fs.length ≤ s.unread.length ∧ ∀ k, t.enough k ≤ s.enough k := by
  induction h with
  | nil => exact ⟨hi, by simp, fun _ => Nat.le_refl _⟩
  | cons h1 h2 _ ih =>
    obtain ⟨a1, -, a3⟩ := BR.readEntry_enough hD hi h1
    have a2 := BR.readEntry_shrinks hD hi h1
    obtain ⟨x, hx⟩ := Target.save_took _ a1 h2 (by simp)
    obtain ⟨c1, c2, c3⟩ := ih (hx.inv a1)
    have := congrArg List.length (hx.unread a1)
    rw [List.length_append] at this
    exact ⟨c1, by simp only [List.length_cons]; omega, fun k => Nat.le_trans (c3 k) (Nat.le_trans (hx.enough a1 k) (a3 k))⟩

theorem withEntries_ends (hD : D.Sane) (hr : Reachable D evs b s) (hm : Nat.min cfg.sizeLimit cfg.memoryThreshold < u64Max ∨ cfg.textPolicy = .ignore) :
    (s.enough (cfg.memLimit 0) < fuel → (withEntries D cfg fuel e w s).1 ≠ .hang) ∧ (withEntries D cfg fuel e w s).1 ≠ .panic := by
  rcases h : withEntries D cfg fuel e w s with ⟨r, w', t⟩
  obtain ⟨fs, w1, s1, h1, h2, h3⟩ := withEntries_spec h
  have hi := (hr.spec hD).1
  obtain ⟨c1, c2, c3⟩ := h1.shrinks hD hi
  have hr1 := h1.reachable hD hr
  have hm' : ∀ hd : FieldHeaders, Nat.min cfg.sizeLimit cfg.memoryThreshold < u64Max ∨ (if hd.isText then cfg.textPolicy else TextPolicy.ignore) = .ignore := by
    intro hd
    rcases hm with hm | hm
    · exact .inl hm
    · right; rw [hm]; simp
  constructor
  · rintro hf rfl
    rcases h3 with h3 | ⟨-, h3⟩
    · cases h3 with
      | hang h4 =>
        rcases h4 with h4 | ⟨hd, s2, h4, h5⟩
        · exact (BR.readEntry_noPanic hD c1).2 h4
        · obtain ⟨d1, -, d3⟩ := BR.readEntry_enough hD c1 h4
          rw [Target.save_eq] at h5
          refine withPath_ends _ _ _ d1 ?_ ?_ h5
          · exact Nat.lt_of_le_of_lt (Nat.le_trans (d3 _) (c3 _)) hf
          · rcases hm' hd with h | h
            · exact .inr (.inl h)
            · exact .inl h
    · unfold BR.enough at hf; omega
  · rintro rfl
    rcases h3 with h3 | ⟨h3, -⟩
    · cases h3 with
      | panic h4 =>
        rcases h4 with h4 | ⟨hd, s2, h4, h5⟩
        · exact (BR.readEntry_noPanic hD c1).1 h4
        · exact (C44_terminates_partial (T := .dir _) (w := w1) hD (hr1.entry h4) ((hm' hd).imp_right .inl)).2 fuel h5
    · simp at h3

/-- C72: if the size limit or the memory threshold is below `u64::MAX` (as by default), or text is not tried, saving a whole request returns, whatever the stream and the file system do. -/
theorem C72_returns (hD : D.Sane) (hr : Reachable D evs b s) (hm : Nat.min cfg.sizeLimit cfg.memoryThreshold < u64Max ∨ cfg.textPolicy = .ignore) :
    (∃ n, ∀ fuel, n ≤ fuel → (withEntries D cfg fuel e w s).1 ≠ .hang) ∧ ∀ fuel, (withEntries D cfg fuel e w s).1 ≠ .panic :=
  ⟨⟨s.enough (cfg.memLimit 0) + 1, fun _ hf => (withEntries_ends hD hr hm).1 hf⟩, fun _ => (withEntries_ends hD hr hm).2⟩

example : Nat.min Settings.default.sizeLimit Settings.default.memoryThreshold < u64Max ∧ Reachable refDeps Sample.evsTwo Sample.bnd (withBody Sample.evsTwo Sample.bnd) := ⟨by decide, [], rfl⟩

/-! ## What a save stopped by the size limit took -/

theorem Target.save_over (T : Target) (hD : D.Sane) (hr : Reachable D evs b s) (hsz : (Ev.bytes evs).length ≤ u64Max) {d : SavedData}
    (h : T.save cfg fuel w s = (.part d .sizeLimit, w', t)) (ho : OpensEmpty cfg w (T.file w)) :
    ∃ c full u, d.readable w' = .ok c ∧ c <+: full ∧ cfg.sizeLimit < full.length ∧ Took s full u := by
  have hi := (hr.spec hD).1
  have hb := hr.small hD hsz
  cases Target.save_spec hi h with
  | partText h1 h2 h3 h4 h5 h6 =>
    rcases h6 with ⟨-, h6, more, u, h7, h8⟩ | ⟨e, h6, -⟩ | ⟨h6, -⟩
    · refine ⟨_, _, u, rfl, List.prefix_append _ _, ?_, h8⟩
      have := List.length_pos_iff.mpr h7
      rw [List.length_append]; omega
    · simp at h6
    · simp at h6
  | partBytes h1 h2 h3 h4 =>
    rcases h4 with ⟨-, h4, more, u, h5, h6⟩ | ⟨e, h6, -⟩
    · refine ⟨_, _, u, rfl, List.prefix_append _ _, ?_, h5⟩
      rename_i taken
      have h7 := congrArg List.length (h2.unread hi)
      rw [List.length_append] at h7
      rw [min_of_le (by omega)] at h3
      omega
    · simp at h6
  | file h1 h2 h3 h4 h5 =>
    cases h5 with
    | part g1 g2 g3 g4 g5 =>
      rcases g5 with ⟨-, more, u, g5, g6⟩ | ⟨e, g5, -⟩
      · rw [(ho.world (T := T)).overlay g2] at g3
        refine ⟨_, _, u, by simp only [SavedData.readable]; rw [g3.at], ?_, ?_, h1.trans g5⟩
        · rw [← List.append_assoc]; exact List.prefix_append _ _
        · rw [List.length_append]; omega
      · simp at g5

theorem AtParts.data (hD : D.Sane) (hn : NoStall evs) (hne : NoErr evs) {es : List (FieldHeaders × Bytes)} {fin : Ending} {fh : FieldHeaders} {s1 u : BR} {x : Bytes}
    (hr : Reachable D evs b s) (ha : AtParts D (dashes ++ b) evs s es fin) (h1 : s.readEntry D = (.ok (some fh), s1)) (hx : Took s1 x u) :
    ∃ dat es' y, es = (fh, dat) :: es' ∧ SavedOk (dashes ++ b) evs dat (x ++ y) := by
  obtain ⟨k, hk⟩ := C01_reaches_eof hD (hx.reachable (hr.entry h1)) (n := 1) (by omega)
  obtain ⟨dat, es', h2, -, h3⟩ := ha.entry_data hD hn hne (.inr (by rw [h1]; simp)) h1
  exact ⟨dat, es', _, h2, (hx.trans (Took.reads 1 k u)).savedOk hD hn hr h1 h3 hk⟩

theorem SavedSeq.enters (hD : D.Sane) {fs : List SavedField} {n : Nat} (h : SavedSeq D cfg fuel dir w s fs w' t) (hi : s.Inv) {u : BR} (hu : Enters D t n u) : Enters D s (fs.length + n) u := by
  induction h with
  | nil => simpa using hu
  | @cons w w1 w2 s s1 s2 t hd d fs h1 h2 _ ih =>
    obtain ⟨a1, -, -⟩ := BR.readEntry_enough hD hi h1
    obtain ⟨x, hx⟩ := Target.save_took _ a1 h2 (by simp)
    have := ih (hx.inv a1) hu
    obtain ⟨os, hx⟩ := hx.run a1
    rw [List.length_cons, Nat.add_right_comm]
    exact .entry os h1 (by rw [hx]; exact this)

theorem Enters.append {n m : Nat} {u : BR} (h : Enters D s n t) (h' : Enters D t m u) : Enters D s (n + m) u := by
  induction h with
  | zero => simpa using h'
  | @entry _ _ _ _ n os h1 _ ih => rw [Nat.add_right_comm]; exact .entry os h1 (ih h')

theorem Enters.le {n m : Nat} (h : Enters D s n t) (hm : m ≤ n) : ∃ u, Enters D s m u := by
  induction h generalizing m with
  | @zero s => exact ⟨s, by rw [Nat.le_zero.mp hm]; exact .zero⟩
  | @entry s _ _ _ n os h1 _ ih =>
    cases m with
    | zero => exact ⟨s, .zero⟩
    | succ m =>
      obtain ⟨u, hu⟩ := ih (Nat.le_of_succ_le_succ hm)
      exact ⟨u, .entry os h1 hu⟩

theorem Enters.parts (hD : D.Sane) (hn : NoStall evs) (hne : NoErr evs) {es : List (FieldHeaders × Bytes)} {fin : Ending} {n : Nat}
    (h : Enters D s n t) (ha : AtParts D (dashes ++ b) evs s es fin) : n ≤ es.length := by
  induction h generalizing es with
  | zero => omega
  | entry os h1 _ ih =>
    obtain ⟨dat, es', rfl, ha'⟩ := ha.entry hD hn hne (.inr (by rw [h1]; simp)) h1
    have := ih (ha'.run os)
    simp only [List.length_cons]; omega

/-! ## C59 -/

theorem Intercept.settings_size : i.settings.sizeLimit = i.fileSizeLimit := rfl
theorem Intercept.settings_count : i.settings.countLimit = i.fileCountLimit := rfl
theorem Intercept.settings_new : i.settings.openOpts.createNew = true := rfl

theorem Intercept.Typed.settings (h : i.Typed) : i.settings.Typed := ⟨h.size, show 10 * 1024 ≤ u64Max by decide, h.count, rfl⟩

theorem Intercept.settings_bound (i : Intercept) : Nat.min i.settings.sizeLimit i.settings.memoryThreshold < u64Max := by
  have : i.settings.memoryThreshold < u64Max := show 10 * 1024 < u64Max by decide
  exact Nat.lt_of_le_of_lt (Nat.min_le_right _ _) this

/-- What a partial result of `save()` with these settings looks like. -/
theorem Intercept.part_spec (hD : D.Sane) (hr : Reachable D evs b s) {p : PartialEntries} {reason : Reason} (h : withEntries D i.settings fuel e w s = (.part p reason, w', t)) :
    reason ≠ .utf8 ∧ ∃ fs w1 s1, SavedSeq D i.settings fuel e.saveDir.asPath w s fs w1 s1 ∧ p.entries = e.recountFields.pushAll fs ∧
      ((reason = .countLimit ∧ p.part = none ∧ w' = w1 ∧ t = (s1.readEntry D).2 ∧ i.fileCountLimit ≤ total e.fields + fs.length ∧ p.keepPartial = p.entries) ∨
       (reason = .sizeLimit ∧ (e.recountFields.pushAll fs).fieldsCount < i.fileCountLimit ∧ ∃ hd d s2, s1.readEntry D = (.ok (some hd), s2) ∧ p.part = some ⟨hd, some d⟩ ∧
          p.keepPartial = p.entries.pushField hd d ∧
          (Target.dir e.saveDir.asPath).save { i.settings with textPolicy := if hd.isText then i.settings.textPolicy else .ignore } fuel w1 s2 = (.part d .sizeLimit, w', t)) ∨
       ∃ er, reason = .io er) := by
  obtain ⟨fs, w1, s1, h1, h2, h3⟩ := withEntries_spec h
  rcases h3 with h3 | ⟨h3, -⟩
  · have hdir : (e.recountFields.pushAll fs).saveDir = e.saveDir := Entries.pushAll_dir _ _
    have hr1 := h1.reachable hD hr
    cases h3 with
    | count h4 => exact ⟨by simp, fs, _, s1, h1, rfl, .inl ⟨rfl, rfl, rfl, rfl, Entries.count_ge _ _ h4, rfl⟩⟩
    | read => exact ⟨by simp, fs, _, s1, h1, rfl, .inr (.inr ⟨_, rfl⟩)⟩
    | error => exact ⟨by simp, fs, _, s1, h1, rfl, .inr (.inr ⟨_, rfl⟩)⟩
    | @part hd d _ _ s2 _ h4 h5 h6 =>
      rw [hdir] at h6
      have hr2 := hr1.entry h4
      refine ⟨?_, fs, w1, s1, h1, rfl, ?_⟩
      · rintro rfl
        have := ((C43_force_text_partial hD hr2).2 h6).1
        simp only at this
        split at this
        · exact absurd (show TextPolicy.try_ = TextPolicy.force from this) (by simp)
        · simp at this
      · cases reason with
        | countLimit => exact absurd h6 (Target.save_not_count _ (hr2.spec hD).1)
        | utf8 =>
          exfalso
          have := ((C43_force_text_partial hD hr2).2 h6).1
          simp only at this
          split at this
          · exact absurd (show TextPolicy.try_ = TextPolicy.force from this) (by simp)
          · simp at this
        | sizeLimit => exact .inr (.inl ⟨rfl, h5, hd, d, s2, h4, rfl, rfl, h6⟩)
        | io er => exact .inr (.inr ⟨er, rfl⟩)
  · simp at h3

theorem Intercept.no_error {er : IoErr} : withEntries D cfg fuel e w s ≠ (.error er, w', t) := by
  intro h
  obtain ⟨fs, w1, s1, h1, h2, h3⟩ := withEntries_spec h
  rcases h3 with h3 | ⟨h3, -⟩
  · cases h3
  · simp at h3

/-- C59: strict interception never panics, and it returns. -/
theorem C59_returns (hD : D.Sane) (hr : Reachable D evs b s) :
    (∃ n, ∀ fuel, n ≤ fuel → ∃ out w' t, i.readRequestStrict D fuel fail dir w s = (.ok out, w', t) ∧ out ≠ .ok none) ∧
    ∀ fuel, (i.readRequestStrict D fuel fail dir w s).1 ≠ .panic := by
  have key : ∀ fuel, ((withEntries D i.settings fuel (Entries.new (.temp dir)) w s).1 = .hang ∧ (i.readRequestStrict D fuel fail dir w s).1 = .hang) ∨
      ∃ out w' t, i.readRequestStrict D fuel fail dir w s = (.ok out, w', t) ∧ out ≠ .ok none := by
    intro fuel
    have hp := (withEntries_ends (fuel := fuel) (e := Entries.new (.temp dir)) (w := w) hD hr (.inl i.settings_bound)).2
    rcases h : withEntries D i.settings fuel (Entries.new (.temp dir)) w s with ⟨r, w', t⟩
    rw [h] at hp
    unfold Intercept.readRequestStrict withTempDir
    rw [h]
    cases r with
    | full e => exact .inr ⟨_, _, _, rfl, by simp⟩
    | part p reason =>
      obtain ⟨h1, fs, w1, s1, -, -, h2⟩ := Intercept.part_spec hD hr h
      cases reason with
      | utf8 => exact absurd rfl h1
      | io er => exact .inr ⟨_, _, _, rfl, by simp⟩
      | countLimit => exact .inr ⟨_, _, _, rfl, by simp⟩
      | sizeLimit =>
        rcases h2 with ⟨h2, -⟩ | ⟨-, -, hd, d, s2, -, h2, -⟩ | ⟨er, h2⟩
        · simp at h2
        · simp only [h2]; exact .inr ⟨_, _, _, rfl, by simp⟩
        · simp at h2
    | error er => exact .inr ⟨_, _, _, rfl, by simp⟩
    | panic => exact absurd rfl hp
    | hang => exact .inl ⟨rfl, rfl⟩
  obtain ⟨⟨n, hn⟩, -⟩ := C72_returns (e := Entries.new (.temp dir)) (w := w) hD hr (.inl i.settings_bound)
  constructor
  · refine ⟨n, fun fuel hf => ?_⟩
    rcases key fuel with ⟨h, -⟩ | h
    · exact absurd h (hn fuel hf)
    · exact h
  · intro fuel hp
    rcases key fuel with ⟨-, h⟩ | ⟨_, _, _, h, -⟩
    · rw [h] at hp; simp at hp
    · rw [h] at hp; simp at hp

/-- C59: entries are returned only for a request that was saved fully: its body ended with the closing delimiter, it has fewer parts than the count limit, and the fields are all its parts,
in order, with their contents (`SavedAs`). -/
theorem C59_only_full (hD : D.Sane) (hn : NoStall evs) (hne : NoErr evs) (ht : i.Typed) {es : List (FieldHeaders × Bytes)} {fin : Ending}
    (hP : Parts D (dashes ++ b) (Ev.bytes evs) es fin) (h : i.readRequestStrict D fuel fail dir w (withBody evs b) = (.ok (.ok (some e)), w', t)) :
    fin = .closed ∧ es.length < i.fileCountLimit ∧ e.saveDir = .temp dir ∧ ∃ fs, GroupedByName e.fields fs ∧ All2 (SavedAs b evs w') fs es := by
  unfold Intercept.readRequestStrict withTempDir at h
  rcases hw : withEntries D i.settings fuel (Entries.new (.temp dir)) w (withBody evs b) with ⟨r, w1, t1⟩
  rw [hw] at h
  cases r with
  | full e' =>
    simp only [Prod.mk.injEq, Res.ok.injEq, Except.ok.injEq, Option.some.injEq] at h
    obtain ⟨rfl, rfl, rfl⟩ := h
    obtain ⟨h1, fs, h2, h3, h4⟩ := C53_full_has_every_field hD hn hne ht.settings rfl hP (.temp dir) hw
    obtain ⟨-, -, -, -, -, -, h5⟩ := C53_all_read ht.settings (.temp dir) hw
    refine ⟨h1, ?_, h5, fs, h2, h4⟩
    have := C50_never_full ht.settings hw
    rw [h2.total, h4.length] at this
    exact this
  | part p reason =>
    cases reason with
    | sizeLimit => simp only at h; split at h <;> simp at h
    | _ => simp at h
  | error er => simp at h
  | panic => simp at h
  | hang => simp at h

/-- C59: the count error names the limit, and at least as many entries can be read from the request; the size error has the headers of an entry of the request from which more than
`file_size_limit` bytes can be read. -/
theorem C59_limits (hD : D.Sane) (hr : Reachable D evs b s) (hsz : (Ev.bytes evs).length ≤ u64Max) :
    (∀ n, i.readRequestStrict D fuel fail dir w s = (.ok (.error (.count n)), w', t) → n = i.fileCountLimit ∧ ∃ u, Enters D s n u) ∧
    (∀ hd, i.readRequestStrict D fuel fail dir w s = (.ok (.error (.size hd)), w', t) →
      ∃ n s1 s2 os, Enters D s n s1 ∧ s1.readEntry D = (.ok (some hd), s2) ∧ i.fileSizeLimit < (s2.run os).1.length) := by
  unfold Intercept.readRequestStrict withTempDir
  rcases hw : withEntries D i.settings fuel (Entries.new (.temp dir)) w s with ⟨r, w1, t1⟩
  have hi := (hr.spec hD).1
  cases r with
  | part p reason =>
    obtain ⟨-, fs, w2, s1, h1, -, h2⟩ := Intercept.part_spec hD hr hw
    rcases h2 with ⟨rfl, -, -, -, h2, -⟩ | ⟨rfl, -, hd, d, s2, h3, h4, -, h5⟩ | ⟨er, rfl⟩
    · refine ⟨fun n h => ?_, fun hd h => by simp at h⟩
      simp only [Prod.mk.injEq, Res.ok.injEq, Except.error.injEq, IronErr.count.injEq] at h
      obtain ⟨rfl, -⟩ := h
      refine ⟨rfl, ?_⟩
      have h6 := h1.enters hD hi .zero
      have h2 : i.fileCountLimit ≤ fs.length := by simpa [Entries.new, total] using h2
      exact h6.le (Nat.le_trans h2 (Nat.le_add_right _ _))
    · simp only [h4]
      refine ⟨fun n h => by simp at h, fun hd' h => ?_⟩
      simp only [Prod.mk.injEq, Res.ok.injEq, Except.error.injEq, IronErr.size.injEq] at h
      obtain ⟨rfl, -⟩ := h
      obtain ⟨c, full, u, -, -, h6, h7⟩ := Target.save_over _ hD ((h1.reachable hD hr).entry h3) hsz h5 (.inl rfl)
      obtain ⟨os, h7⟩ := h7.run (((h1.reachable hD hr).entry h3).spec hD).1
      exact ⟨fs.length, s1, s2, os, by simpa using h1.enters hD hi .zero, h3, by rw [h7]; exact h6⟩
    · exact ⟨fun n h => by simp at h, fun hd h => by simp at h⟩
  | _ => exact ⟨fun n h => by simp at h, fun hd h => by simp at h⟩

/-- The full claim of the title of C59: a request with a field longer than `file_size_limit` is rejected. -/
def RejectsOversize (D : Deps) : Prop :=
  ∀ (i : Intercept) (evs : List Ev) (b : Bytes) (fuel : Nat) (fail : Option (IoErr × (Path → Bool))) (dir : Path) (w : World) (es : List (FieldHeaders × Bytes)) (fin : Ending) (p : FieldHeaders × Bytes) (e : Entries),
    i.Typed → NoStall evs → NoErr evs → Parts D (dashes ++ b) (Ev.bytes evs) es fin → p ∈ es → i.fileSizeLimit < p.2.length →
    (i.readRequestStrict D fuel fail dir w (withBody evs b)).1 ≠ .ok (.ok (some e))

theorem SavedSeq.bounded (hD : D.Sane) (hsz : (Ev.bytes evs).length ≤ u64Max) (hl : cfg.sizeLimit < u64Max) (ho : cfg.openOpts.createNew = true) {fs : List SavedField}
    (h : SavedSeq D cfg fuel dir w s fs w' t) (hr : Reachable D evs b s) :
    ∀ f ∈ fs, ∃ c, f.data.readable w' = .ok c ∧ c.length ≤ cfg.sizeLimit + Nat.min cfg.sizeLimit cfg.memoryThreshold := by
  induction h with
  | nil => simp
  | cons h1 h2 h3 ih =>
    have hr1 := hr.entry h1
    obtain ⟨x, hx⟩ := Target.save_took _ (hr1.spec hD).1 h2 (by simp)
    have hr2 := hx.reachable hr1
    intro f hf
    rcases List.mem_cons.mp hf with rfl | hf
    · obtain ⟨c, g1, g2, -⟩ := C54_readable (cfg := { cfg with textPolicy := _ }) (r := .sizeLimit) hD hr1 hsz (.inl (by exact ho)) (.inl h2)
      refine ⟨c, SavedData.readable_mono g1 (fun q c hq => h3.keeps hD ho hr2 hq), ?_⟩
      rw [← g2]
      have hs := (C38_size_limit_partial (r := .sizeLimit) hD hr1 hsz (by exact hl) (.inl h2)).2
      exact hs
    · exact ih hr2 f hf

/-- C59, the title, as far as it holds: a request with a field of more than `file_size_limit` bytes, and as many more as were kept in memory (at most 10 KiB and `file_size_limit`), is not
accepted. Missing: the bytes kept in memory are not counted again when the field goes to a file (C38). -/
theorem C59_oversize_partial (hD : D.Sane) (hn : NoStall evs) (hne : NoErr evs) (hl : i.fileSizeLimit < u64Max) (hsz : (Ev.bytes evs).length ≤ u64Max)
    {es : List (FieldHeaders × Bytes)} {fin : Ending} (hP : Parts D (dashes ++ b) (Ev.bytes evs) es fin) {p : FieldHeaders × Bytes} (hp : p ∈ es)
    (hlong : i.fileSizeLimit + Nat.min i.fileSizeLimit (10 * 1024) < p.2.length) : (i.readRequestStrict D fuel fail dir w (withBody evs b)).1 ≠ .ok (.ok (some e)) := by
  intro h
  have hr : Reachable D evs b (withBody evs b) := ⟨[], rfl⟩
  unfold Intercept.readRequestStrict withTempDir at h
  rcases hw : withEntries D i.settings fuel (Entries.new (.temp dir)) w (withBody evs b) with ⟨r, w1, t1⟩
  rw [hw] at h
  cases r with
  | full e' =>
    obtain ⟨fs, w2, s1, h1, -, h3⟩ := withEntries_spec hw
    rcases h3 with h3 | ⟨h3, -⟩
    · cases h3 with
      | full h4 h5 =>
        have hdr : (withBody evs b).Drained ∨ ((withBody evs b).readEntry D).1 ≠ .err .unexpectedEof := .inl (by intro h; simp [withBody, BR.fromReader] at h)
        obtain ⟨a1, -⟩ := h1.savedAs hD hn hne rfl hr (.start hP) hdr
        have a3 := h1.atParts hD hn hne rfl hr (.start hP) hdr
        have a6 := (a3.reads hD hn hne (.inr (by rw [h4]; simp)) (.close h4)).2.length
        rw [List.take_of_length_le (by rw [List.length_drop] at a6; simp only [List.length_nil] at a6; omega)] at a1
        have hb := h1.bounded hD hsz hl rfl hr
        clear hP a3 a6 h1 h5 hw h
        induction a1 with
        | nil => simp at hp
        | cons k1 _ ih =>
          rcases List.mem_cons.mp hp with rfl | hp
          · obtain ⟨-, c, k2, k3⟩ := k1
            obtain ⟨c', k4, k5⟩ := hb _ List.mem_cons_self
            rw [k2] at k4
            simp only [Except.ok.injEq] at k4
            subst k4
            have : i.settings.sizeLimit + Nat.min i.settings.sizeLimit i.settings.memoryThreshold = i.fileSizeLimit + Nat.min i.fileSizeLimit (10 * 1024) := rfl
            have k6 : p.2.length ≤ c.length := by
              rcases k3 with rfl | ⟨rfl, -⟩
              · exact Nat.le_refl _
              · simp
            omega
          · exact ih hp (fun f hf => hb f (List.mem_cons_of_mem _ hf))
    · simp at h3
  | part p reason =>
    cases reason with
    | sizeLimit => simp only at h; split at h <;> simp at h
    | _ => simp at h
  | error er => simp at h
  | panic => simp at h
  | hang => simp at h

/-- C59, the title, is false of the code: 3300 bytes pass a limit of 2201. -/
theorem C59_oversize_false : ¬ RejectsOversize refDeps := by
  intro h
  refine h ⟨none, 2201, 8, .throwError⟩ Sample.evsLong Sample.bnd 10 none [b!"tmp"] Sample.disk _ _ (Sample.fh, Sample.big ++ Sample.big ++ Sample.big)
    { fields := [(b!"a", [⟨Sample.fh, .file [b!"tmp", b!"rnd"] 3300⟩])], saveDir := .temp [b!"tmp"], fieldsCount := 1 }
    ⟨by decide, by decide⟩ (by decide +kernel) (by intro e; simp [Sample.evsLong]) Sample.partsLong (List.mem_singleton.mpr rfl) (by decide +kernel) (by decide +kernel)

/-- C60, the full claim: whatever the limits, lenient interception of a request with a complete body returns. -/
def LenientReturns (D : Deps) : Prop :=
  ∀ (i : Intercept) (evs : List Ev) (b : Bytes) (fail : Option (IoErr × (Path → Bool))) (dir : Path) (w : World) (es : List (FieldHeaders × Bytes)),
    i.Typed → NoStall evs → NoErr evs → Parts D (dashes ++ b) (Ev.bytes evs) es .closed →
    ∃ n, ∀ fuel, n ≤ fuel → (i.readRequestLenient D fuel fail dir w (withBody evs b)).1 ≠ .hang

/-- C59_returns, C59_limits and C59_only_full (the parts are `Sample.partsTwo`): a field that is too long, too many fields, and a request within the limits. -/
example : (Intercept.readRequestStrict refDeps ⟨none, 2200, 8, .throwError⟩ 10 none [b!"tmp"] Sample.disk (withBody Sample.evsLong Sample.bnd)).1 = .ok (.error (.size Sample.fh)) ∧
    (Intercept.readRequestStrict refDeps ⟨none, 3, 2, .throwError⟩ 10 none [b!"tmp"] Sample.disk (withBody Sample.evsTwo Sample.bnd)).1 = .ok (.error (.count 2)) ∧
    (Intercept.readRequestStrict refDeps ⟨none, 3, 3, .throwError⟩ 10 none [b!"tmp"] Sample.disk (withBody Sample.evsTwo Sample.bnd)).1 =
      .ok (.ok (some { fields := [(b!"a", [⟨Sample.fh, .text b!"one"⟩, ⟨Sample.fh, .text b!"two"⟩])], saveDir := .temp [b!"tmp"], fieldsCount := 2 })) := by decide +kernel
/-- C59_oversize_partial (the parts are `Sample.partsLong`). -/
example : (1000 + Nat.min 1000 (10 * 1024) < (Sample.big ++ Sample.big ++ Sample.big).length) ∧ (Ev.bytes Sample.evsLong).length ≤ u64Max := by decide +kernel

/-! ## C60 -/

/-- With as many fields as the limit allows, the loop of `read_request_lenient` goes on forever: the next save stops at the count limit again, whatever is left of the request. -/
theorem Intercept.lenient_stuck (ht : i.Typed) {n : Nat} (he : i.fileCountLimit ≤ total e.fields) : (i.lenientLoop D fuel fail n e w s).1 = .hang := by
  induction n generalizing e w s with
  | zero => rfl
  | succ n ih =>
    have hc : ¬ e.recountFields.fieldsCount < i.settings.countLimit := by
      rw [Entries.recount_count]
      have h1 : i.settings.countLimit ≤ total e.recountFields.fields := he
      have h2 : i.settings.countLimit ≤ u32Max := ht.count
      intro h
      have h : min (total e.recountFields.fields) u32Max < _ := h
      omega
    simp only [Intercept.lenientLoop, withEntries]
    cases fuel with
    | zero => rfl
    | succ fuel =>
      simp only [entriesLoop]
      rw [if_neg hc]
      exact ih he

theorem Intercept.lenientLoop_noPanic (hD : D.Sane) {n : Nat} (hr : Reachable D evs b s) : (i.lenientLoop D fuel fail n e w s).1 ≠ .panic := by
  induction n generalizing e w s with
  | zero => simp [Intercept.lenientLoop]
  | succ n ih =>
    have hp := (withEntries_ends (fuel := fuel) (e := e) (w := w) hD hr (.inl i.settings_bound)).2
    rcases hc : withEntries D i.settings fuel e w s with ⟨r, w1, t⟩
    rw [hc] at hp
    simp only [Intercept.lenientLoop, hc]
    cases r with
    | panic => exact absurd rfl hp
    | part p reason =>
      obtain ⟨h1, fs, w2, s1, h2, -, h3⟩ := Intercept.part_spec hD hr hc
      have hr1 := h2.reachable hD hr
      have hrt : (∀ er, reason ≠ .io er) → Reachable D evs b t := by
        intro hio
        rcases h3 with ⟨-, -, -, rfl, -⟩ | ⟨-, -, hd, d, s2, h4, -, -, h5⟩ | ⟨er, h3⟩
        · exact hr1.step .readEntry
        · obtain ⟨x, hx⟩ := Target.save_took _ ((hr1.entry h4).spec hD).1 h5 (by simp)
          exact hx.reachable (hr1.entry h4)
        · exact absurd h3 (hio er)
      cases reason with
      | io er => simp
      | _ => exact ih (hrt (by simp))
    | _ => simp

/-- C60: lenient interception never panics. -/
theorem C60_no_panic (hD : D.Sane) (hr : Reachable D evs b s) : (i.readRequestLenient D fuel fail dir w s).1 ≠ .panic := by
  rw [Intercept.lenient_eq]
  exact Intercept.lenientLoop_noPanic hD hr

theorem Intercept.lenientLoop_returns (hD : D.Sane) {n : Nat} (hr : Reachable D evs b s) (hf : s.enough (i.settings.memLimit 0) < fuel) (hn : s.unread.length < n)
    (hl : ∀ k u, Enters D s k u → total e.fields + k < i.fileCountLimit) : ∃ out w' t, i.lenientLoop D fuel fail n e w s = (.ok out, w', t) ∧ out ≠ .ok none := by
  induction n generalizing e w s with
  | zero => omega
  | succ n ih =>
    obtain ⟨hh, hp⟩ := withEntries_ends (fuel := fuel) (e := e) (w := w) hD hr (.inl i.settings_bound)
    replace hh := hh hf
    rcases hc : withEntries D i.settings fuel e w s with ⟨r, w1, t⟩
    rw [hc] at hp hh
    simp only [Intercept.lenientLoop, hc]
    cases r with
    | panic => exact absurd rfl hp
    | hang => exact absurd rfl hh
    | full e => exact ⟨_, _, _, rfl, by simp⟩
    | error er => exact ⟨_, _, _, rfl, by simp⟩
    | part p reason =>
      obtain ⟨h1, fs, w2, s1, h2, hpe, h3⟩ := Intercept.part_spec hD hr hc
      have hi := (hr.spec hD).1
      rcases h3 with ⟨-, -, -, -, h3, -⟩ | ⟨rfl, -, hd, d, s2, h4, -, hk, h5⟩ | ⟨er, rfl⟩
      · have := hl _ _ (h2.enters hD hi .zero)
        simp only [Nat.add_zero] at this
        omega
      · obtain ⟨c1, c2, c3⟩ := h2.shrinks hD hi
        obtain ⟨d1, -, d3⟩ := BR.readEntry_enough hD c1 h4
        have d2 := BR.readEntry_shrinks hD c1 h4
        obtain ⟨x, hx⟩ := Target.save_took _ d1 h5 (by simp)
        have hu := congrArg List.length (hx.unread d1)
        rw [List.length_append] at hu
        refine ih (hx.reachable ((h2.reachable hD hr).entry h4)) ?_ (by omega) ?_
        · exact Nat.lt_of_le_of_lt (Nat.le_trans (hx.enough d1 _) (Nat.le_trans (d3 _) (c3 _))) hf
        · intro k u he
          obtain ⟨os, hos⟩ := hx.run d1
          have h6 := hl _ _ (h2.enters hD hi (.entry os h4 (by rw [hos]; exact he)))
          have h7 : total p.keepPartial.fields = total e.fields + fs.length + 1 := by
            rw [hk, hpe]
            have := Entries.pushAll_total [⟨hd, d⟩] (e.recountFields.pushAll fs)
            rw [Entries.pushAll_cons, Entries.pushAll_nil] at this
            rw [this, Entries.pushAll_total]
            rfl
          omega
      · exact ⟨_, _, _, rfl, by simp⟩

/-- C60, as far as it holds: lenient interception returns if fewer entries than `file_count_limit` can be read from the request, in whatever way their data is read.
Missing: requests with at least as many. -/
theorem C60_returns_partial (hD : D.Sane) (hr : Reachable D evs b s) (hl : ∀ k u, Enters D s k u → k < i.fileCountLimit) :
    ∃ n, ∀ fuel, n ≤ fuel → ∃ out w' t, i.readRequestLenient D fuel fail dir w s = (.ok out, w', t) ∧ out ≠ .ok none := by
  refine ⟨s.enough (i.settings.memLimit 0) + 1, fun fuel hf => ?_⟩
  rw [Intercept.lenient_eq]
  exact Intercept.lenientLoop_returns hD hr (by omega) (by unfold BR.enough at hf; omega) (by simpa [Entries.new, total] using hl)

/-- C60, as far as it holds, for a request with known parts: it returns if there are fewer than `file_count_limit`. -/
theorem C60_returns_parts_partial (hD : D.Sane) (hn : NoStall evs) (hne : NoErr evs) {es : List (FieldHeaders × Bytes)} {fin : Ending}
    (hP : Parts D (dashes ++ b) (Ev.bytes evs) es fin) (hl : es.length < i.fileCountLimit) :
    ∃ n, ∀ fuel, n ≤ fuel → ∃ out w' t, i.readRequestLenient D fuel fail dir w (withBody evs b) = (.ok out, w', t) ∧ out ≠ .ok none :=
  C60_returns_partial hD ⟨[], rfl⟩ (fun _ _ h => Nat.lt_of_le_of_lt (h.parts hD hn hne (.start hP)) hl)

theorem SavedAs.kept {limit : Nat} {f : SavedField} {p : FieldHeaders × Bytes} (h : SavedAs b evs w f p) : Kept limit b evs w f p := by
  obtain ⟨h1, c, h2, h3⟩ := h
  exact ⟨h1, c, c, h2, h3, .inl rfl⟩

theorem Kept.mono {limit : Nat} {f : SavedField} {p : FieldHeaders × Bytes} (h : Kept limit b evs w f p) (hk : ∀ q c, w.files q = some c → w'.files q = some c) : Kept limit b evs w' f p := by
  obtain ⟨h1, c, dat, h2, h3⟩ := h
  exact ⟨h1, c, dat, SavedData.readable_mono h2 hk, h3⟩

theorem Intercept.lenientLoop_keeps (hD : D.Sane) (hn : NoStall evs) (hne : NoErr evs) (ht : i.Typed) (hsz : (Ev.bytes evs).length ≤ u64Max) {n : Nat} {e' : Entries}
    {es : List (FieldHeaders × Bytes)} {fin : Ending} {fs0 : List SavedField} (hr : Reachable D evs b s) (ha : AtParts D (dashes ++ b) evs s es fin) (hg : GroupedByName e.fields fs0)
    (h : i.lenientLoop D fuel fail n e w s = (.ok (.ok (some e')), w', t)) :
    fin = .closed ∧ fs0.length + es.length < i.fileCountLimit ∧ e'.saveDir = e.saveDir ∧ (∀ q c, w.files q = some c → w'.files q = some c) ∧
      ∃ fs, GroupedByName e'.fields (fs0 ++ fs) ∧ All2 (Kept i.fileSizeLimit b evs w') fs es := by
  induction n generalizing e w s es fs0 with
  | zero => simp [Intercept.lenientLoop] at h
  | succ n ih =>
    rcases hc : withEntries D i.settings fuel e w s with ⟨r, w1, t1⟩
    simp only [Intercept.lenientLoop, hc] at h
    cases r with
    | panic => simp at h
    | hang => simp at h
    | error er => simp at h
    | full e1 =>
      simp only [Prod.mk.injEq, Res.ok.injEq, Except.ok.injEq, Option.some.injEq] at h
      obtain ⟨rfl, rfl, rfl⟩ := h
      have htot := C50_never_full ht.settings hc
      obtain ⟨fs, w1, s1, h1, -, h3⟩ := withEntries_spec hc
      rcases h3 with h3 | ⟨h3, -⟩
      · cases h3 with
        | full h4 h5 =>
          have hr1 := h1.reachable hD hr
          have hdr : s.Drained ∨ (s.readEntry D).1 ≠ .err .unexpectedEof := by
            cases h1 with
            | nil => right; rw [h4]; simp
            | cons g1 _ _ => right; rw [g1]; simp
          obtain ⟨a1, a2⟩ := h1.savedAs hD hn hne rfl hr ha hdr
          have a3 := h1.atParts hD hn hne rfl hr ha hdr
          obtain ⟨a4, a5⟩ := a3.reads hD hn hne (.inr (by rw [h4]; simp)) (.close h4)
          have a6 := a5.length
          rw [List.length_drop] at a6
          have a7 : fs.length = es.length := by simp only [List.length_nil] at a6; omega
          rw [a7, List.take_length] at a1
          have hgr := Entries.pushAll_grouped fs e.recountFields fs0 hg
          rw [hgr.total, List.length_append, a7] at htot
          exact ⟨a4.symm, htot, Entries.pushAll_dir _ _, fun q c hq => h1.keeps hD rfl hr hq, fs, hgr, a1.imp (fun _ _ => SavedAs.kept)⟩
      · simp at h3
    | part p reason =>
      obtain ⟨h1, fs, w2, s1, h2, hpe, h3⟩ := Intercept.part_spec hD hr hc
      rcases h3 with ⟨rfl, -, -, -, h3, hk⟩ | ⟨rfl, h6, hd, d, s2, h4, -, hk, h5⟩ | ⟨er, rfl⟩
      · have := Intercept.lenient_stuck (D := D) (fuel := fuel) (fail := fail) (w := w1) (s := t1) ht (n := n) (e := p.keepPartial) (by
          rw [hk, hpe, Entries.pushAll_total]; exact h3)
        simp only at h
        rw [h] at this
        simp at this
      · simp only at h
        have hr1 := h2.reachable hD hr
        have hr2 := hr1.entry h4
        have hdr : s.Drained ∨ (s.readEntry D).1 ≠ .err .unexpectedEof := by
          cases h2 with
          | nil => right; rw [h4]; simp
          | cons g1 _ _ => right; rw [g1]; simp
        obtain ⟨a1, a2⟩ := h2.savedAs hD hn hne rfl hr ha hdr
        have a3 := h2.atParts hD hn hne rfl hr ha hdr
        obtain ⟨c, full, u, b1, b2, b3, b4⟩ := Target.save_over _ hD hr2 hsz h5 (.inl rfl)
        obtain ⟨dat, es', y, c1, c2⟩ := a3.data hD hn hne hr1 h4 b4
        obtain ⟨dat', es'', c3, c4⟩ := a3.entry hD hn hne (.inr (by rw [h4]; simp)) h4
        rw [c1] at c3
        simp only [List.cons.injEq, Prod.mk.injEq, true_and] at c3
        obtain ⟨rfl, rfl⟩ := c3
        obtain ⟨x, hx⟩ := Target.save_took _ (hr2.spec hD).1 h5 (by simp)
        have hrt := hx.reachable hr2
        have c5 : AtParts D (dashes ++ b) evs t1 es' fin := c4.took hx
        have hgr := (Entries.pushAll_grouped fs e.recountFields fs0 hg).push ⟨hd, d⟩
        have hkf : p.keepPartial.fields = pushInto ⟨hd, d⟩ (e.recountFields.pushAll fs).fields := by rw [hk, hpe]; rfl
        rw [← hkf] at hgr
        obtain ⟨f1, f2, f3, f4, fs2, f5, f6⟩ := ih hrt c5 hgr h
        have hkeep : ∀ q c, w2.files q = some c → w1.files q = some c := by
          intro q c hq
          have := (C46_no_overwrite (T := .dir e.saveDir.asPath) (cfg := { i.settings with textPolicy := if hd.isText then i.settings.textPolicy else .ignore }) (fuel := fuel) hD hr2 rfl).1 q c hq
          rw [h5] at this
          exact this
        have hes : es.take fs.length ++ (hd, dat) :: es' = es := by rw [← c1, List.take_append_drop]
        refine ⟨f1, ?_, ?_, fun q c hq => f4 q c (hkeep q c (h2.keeps hD rfl hr hq)), fs ++ ⟨hd, d⟩ :: fs2, by simpa using f5, ?_⟩
        · rw [← hes]
          simp only [List.length_append, List.length_cons, List.length_nil, List.length_take] at f2 ⊢
          omega
        · rw [f3, hk, hpe]
          exact Entries.pushAll_dir fs e.recountFields
        · rw [← hes]
          refine All2.append (a1.imp fun _ _ hh => (SavedAs.kept hh).mono (fun q c hq => f4 q c (hkeep q c hq))) (.cons ?_ f6)
          refine Kept.mono ⟨rfl, c, full ++ y, b1, c2, .inr ⟨b2.trans (List.prefix_append _ _), ?_⟩⟩ f4
          have b3 : i.fileSizeLimit < full.length := b3
          rw [List.length_append]; omega
      · simp at h

/-- C60: the entries that lenient interception returns are those of the request: its body ended with the closing delimiter, it has fewer parts than the count limit, and the fields are all its
parts, in order, with their contents or, for a part longer than `file_size_limit`, the beginning of them (`Kept`). -/
theorem C60_entries (hD : D.Sane) (hn : NoStall evs) (hne : NoErr evs) (ht : i.Typed) (hsz : (Ev.bytes evs).length ≤ u64Max) {es : List (FieldHeaders × Bytes)} {fin : Ending}
    (hP : Parts D (dashes ++ b) (Ev.bytes evs) es fin) (h : i.readRequestLenient D fuel fail dir w (withBody evs b) = (.ok (.ok (some e)), w', t)) :
    fin = .closed ∧ es.length < i.fileCountLimit ∧ e.saveDir = .temp dir ∧ ∃ fs, GroupedByName e.fields fs ∧ All2 (Kept i.fileSizeLimit b evs w') fs es := by
  rw [Intercept.lenient_eq] at h
  obtain ⟨h1, h2, h3, -, fs, h4, h5⟩ := Intercept.lenientLoop_keeps hD hn hne ht hsz ⟨[], rfl⟩ (.start hP) .nil h
  exact ⟨h1, by simpa using h2, h3, fs, by simpa using h4, h5⟩

/-- C60 is false of the code: with two fields and a count limit of two, the loop never ends. -/
theorem C60_false : ¬ LenientReturns refDeps := by
  intro h
  obtain ⟨n, hn⟩ := h ⟨none, 100, 2, .continue_⟩ Sample.evsTwo Sample.bnd none [b!"tmp"] Sample.disk _ ⟨by decide, by decide⟩ (by decide +kernel) (by intro e; simp [Sample.evsTwo]) Sample.partsTwo
  refine hn (n + 10) (by omega) ?_
  have hw := Sample.entries_eq (D := refDeps) (cfg := Intercept.settings ⟨none, 100, 2, .continue_⟩) (fuel := 10) (e := Entries.new (.temp [b!"tmp"])) (w := Sample.disk)
    (s := withBody Sample.evsTwo Sample.bnd)
    (r := .part { entries := { fields := [(b!"a", [⟨Sample.fh, .text b!"one"⟩, ⟨Sample.fh, .text b!"two"⟩])], saveDir := .temp [b!"tmp"], fieldsCount := 2 }, part := none } .countLimit)
    (by decide +kernel)
  rw [Intercept.lenient_eq, Intercept.lenientLoop, withEntries_fuel (fuel := 10) (by rw [hw]; simp) (by omega), hw]
  exact Intercept.lenient_stuck ⟨by decide, by decide⟩ (by decide)

/-- C60_no_panic, C60_returns_partial, C60_returns_parts_partial (two fields, limit three) and C60_entries: fields that are cut off are kept. -/
example : (Intercept.readRequestLenient refDeps ⟨none, 2, 3, .continue_⟩ 10 none [b!"tmp"] Sample.disk (withBody Sample.evsTwo Sample.bnd)).1 =
      .ok (.ok (some { fields := [(b!"a", [⟨Sample.fh, .file [b!"tmp", b!"rnd"] 0⟩, ⟨Sample.fh, .file [b!"tmp", []] 0⟩])], saveDir := .temp [b!"tmp"], fieldsCount := 2 })) ∧
    (Intercept.readRequestLenient refDeps ⟨none, 100, 3, .continue_⟩ 10 none [b!"tmp"] Sample.disk (withBody Sample.evsTwo Sample.bnd)).1 =
      .ok (.ok (some { fields := [(b!"a", [⟨Sample.fh, .text b!"one"⟩, ⟨Sample.fh, .text b!"two"⟩])], saveDir := .temp [b!"tmp"], fieldsCount := 2 })) := by decide +kernel
example : (Intercept.readRequestLenient refDeps ⟨none, 2000, 3, .continue_⟩ 10 none [b!"tmp"] Sample.disk (withBody Sample.evsLong Sample.bnd)).1 =
      .ok (.ok (some { fields := [(b!"a", [⟨Sample.fh, .file [b!"tmp", b!"rnd"] 2200⟩])], saveDir := .temp [b!"tmp"], fieldsCount := 1 })) := by decide +kernel

/-- C60_returns_parts_partial and C60_returns_partial, applied. -/
example : ∃ n, ∀ fuel, n ≤ fuel → ∃ out w' t, Intercept.readRequestLenient refDeps ⟨none, 2, 3, .continue_⟩ fuel none [b!"tmp"] Sample.disk (withBody Sample.evsTwo Sample.bnd) = (.ok out, w', t) ∧ out ≠ .ok none :=
  C60_returns_parts_partial refDeps_sane (by decide +kernel) Sample.noErrTwo Sample.partsTwo (by decide)

/-- C60_entries, applied. -/
example : ∃ fs, GroupedByName [(b!"a", [⟨Sample.fh, .text b!"one"⟩, ⟨Sample.fh, .text b!"two"⟩])] fs ∧
    All2 (Kept 100 Sample.bnd Sample.evsTwo (Intercept.readRequestLenient refDeps ⟨none, 100, 3, .continue_⟩ 10 none [b!"tmp"] Sample.disk (withBody Sample.evsTwo Sample.bnd)).2.1) fs [(Sample.fh, b!"one"), (Sample.fh, b!"two")] :=
  (C60_entries (i := ⟨none, 100, 3, .continue_⟩) (fuel := 10) (fail := none) (dir := [b!"tmp"]) (w := Sample.disk)
    (e := { fields := [(b!"a", [⟨Sample.fh, .text b!"one"⟩, ⟨Sample.fh, .text b!"two"⟩])], saveDir := .temp [b!"tmp"], fieldsCount := 2 })
    refDeps_sane (by decide +kernel) Sample.noErrTwo ⟨by decide, by decide⟩ (by decide +kernel) Sample.partsTwo (Sample.fst_eq (by decide +kernel))).2.2.2

/-! ## C73 -/

theorem SaveRes.ne_both {α β : Type} (r : SaveRes α β) : (r = .hang ∨ r = .panic) ∨ (r ≠ .hang ∧ r ≠ .panic) := by cases r <;> simp

/-- Saving to a directory changes files only below it. -/
theorem Target.save_outside (hi : s.Inv) {rr : SaveRes SavedData SavedData} (h : (Target.dir dir).save cfg fuel w s = (rr, w', t)) {q : Path} (hq : ¬ Below dir q) : w'.files q = w.files q := by
  have hw : ((Target.dir dir).world w).files = w.files := ((Target.dir dir).world_same w).1
  have hp : q ≠ (Target.dir dir).file w := by
    rintro rfl
    exact hq ⟨_, rfl⟩
  have only : ∀ {c}, OnlyFile ((Target.dir dir).world w) w' ((Target.dir dir).file w) c → w'.files q = w.files q := by
    intro c h
    have := congrFun h q
    rw [this]
    simp only [if_neg hp, hw]
  cases Target.save_spec hi h with
  | hang h1 => rw [h1, hw]
  | text h1 => rw [h1, hw]
  | bytes h1 => rw [h1, hw]
  | partText h1 => rw [h1, hw]
  | partBytes h1 => rw [h1, hw]
  | error h1 => rw [h1, hw]
  | file _ _ _ _ h5 =>
    cases h5 with
    | hang _ g => exact only g
    | noFile _ g _ => rw [g, hw]
    | cut _ _ _ _ _ g => exact only g
    | cut0 _ _ _ _ g => exact only g
    | full _ _ g => exact only g
    | part _ _ g => exact only g
    | error _ _ g => exact only g

theorem SavedSeq.outside (hD : D.Sane) {fs : List SavedField} (h : SavedSeq D cfg fuel dir w s fs w' t) (hr : Reachable D evs b s) {q : Path} (hq : ¬ Below dir q) : w'.files q = w.files q := by
  induction h with
  | nil => rfl
  | cons h1 h2 _ ih =>
    have hr1 := hr.entry h1
    obtain ⟨x, hx⟩ := Target.save_took _ (hr1.spec hD).1 h2 (by simp)
    rw [ih (hx.reachable hr1), Target.save_outside (hr1.spec hD).1 h2 hq]

theorem withEntries_outside (hD : D.Sane) (hr : Reachable D evs b s) (h : withEntries D cfg fuel e w s = (r, w', t)) (hh : r ≠ .hang) (hp : r ≠ .panic) {q : Path}
    (hq : ¬ Below e.saveDir.asPath q) : w'.files q = w.files q := by
  obtain ⟨fs, w1, s1, h1, h2, h3⟩ := withEntries_spec h
  have hr1 := h1.reachable hD hr
  have hw := h1.outside hD hr hq
  rcases h3 with h3 | ⟨h3, -⟩
  · have hdir : (e.recountFields.pushAll fs).saveDir = e.saveDir := Entries.pushAll_dir _ _
    cases h3 with
    | full => exact hw
    | count => exact hw
    | read => exact hw
    | part h4 _ h5 =>
      rw [hdir] at h5
      rw [Target.save_outside ((hr1.entry h4).spec hD).1 h5 hq, hw]
    | error h4 _ h5 =>
      rw [hdir] at h5
      rw [Target.save_outside ((hr1.entry h4).spec hD).1 h5 hq, hw]
    | panic => exact absurd rfl hp
    | hang => exact absurd rfl hh
  · exact absurd h3 hh

theorem withEntries_dir {p : PartialEntries} {reason : Reason} (h : withEntries D cfg fuel e w s = (.part p reason, w', t)) : p.entries.saveDir = e.saveDir ∧ p.keepPartial.saveDir = e.saveDir := by
  obtain ⟨fs, w1, s1, h1, h2, h3⟩ := withEntries_spec h
  have hdir : (e.recountFields.pushAll fs).saveDir = e.saveDir := Entries.pushAll_dir _ _
  rcases h3 with h3 | ⟨h3, -⟩
  · cases h3 with
    | count => exact ⟨hdir, hdir⟩
    | read => exact ⟨hdir, hdir⟩
    | part => exact ⟨hdir, hdir⟩
    | error => exact ⟨hdir, hdir⟩
  · simp at h3

/-- Nothing at or below `dir` is left in `w'`, unless the deletion failed. -/
def Cleaned (fail : Option (IoErr × (Path → Bool))) (dir : Path) (w' : World) : Prop := fail = none → ∀ q, Below dir q → w'.files q = none ∧ q ∉ w'.dirs

theorem SaveDir.drop_temp (d : SaveDir) (hd : d = .temp dir) : Cleaned fail dir (d.drop fail w) ∧ ∀ q, ¬ Below dir q → (d.drop fail w).files q = w.files q := by
  subst hd
  have hb : ∀ q : Path, dir <+: q ↔ Below dir q := fun q => ⟨fun ⟨r, h⟩ => ⟨r, h.symm⟩, fun ⟨r, h⟩ => ⟨r, h.symm⟩⟩
  refine ⟨?_, fun q hq => ?_⟩
  · rintro rfl q hq
    rw [← hb] at hq
    simp [SaveDir.drop, World.removeDirAll, hq]
  · rw [← hb] at hq
    rcases fail with _ | ⟨er, gone⟩ <;> simp [SaveDir.drop, World.removeDirAll, hq]

theorem Intercept.lenientLoop_files (hD : D.Sane) {n : Nat} {out : Except IronErr (Option Entries)} (hr : Reachable D evs b s) (he : e.saveDir = .temp dir)
    (h : i.lenientLoop D fuel fail n e w s = (.ok out, w', t)) : (∀ er, out = .error er → Cleaned fail dir w') ∧ ∀ q, ¬ Below dir q → w'.files q = w.files q := by
  induction n generalizing e w s with
  | zero => simp [Intercept.lenientLoop] at h
  | succ n ih =>
    rcases hc : withEntries D i.settings fuel e w s with ⟨r, w1, t1⟩
    simp only [Intercept.lenientLoop, hc] at h
    have hout : r ≠ .hang → r ≠ .panic → ∀ q, ¬ Below dir q → w1.files q = w.files q :=
      fun h1 h2 q hq => withEntries_outside hD hr hc h1 h2 (by rw [he]; exact hq)
    cases r with
    | panic => simp at h
    | hang => simp at h
    | full e1 =>
      simp only [Prod.mk.injEq, Res.ok.injEq] at h
      obtain ⟨rfl, rfl, rfl⟩ := h
      exact ⟨by simp, hout (by simp) (by simp)⟩
    | error er => exact absurd hc Intercept.no_error
    | part p reason =>
      obtain ⟨hd1, hd2⟩ := withEntries_dir hc
      have hout' := hout (by simp) (by simp)
      obtain ⟨-, fs, w2, s1, h2, -, h3⟩ := Intercept.part_spec hD hr hc
      have hr1 := h2.reachable hD hr
      have next : (∀ er, reason ≠ .io er) → i.lenientLoop D fuel fail n p.keepPartial w1 t1 = (.ok out, w', t) → (∀ er, out = .error er → Cleaned fail dir w') ∧ ∀ q, ¬ Below dir q → w'.files q = w.files q := by
        intro hio h
        have hrt : Reachable D evs b t1 := by
          rcases h3 with ⟨-, -, -, rfl, -⟩ | ⟨-, -, hd, d, s2, h4, -, -, h5⟩ | ⟨er, h3⟩
          · exact hr1.step .readEntry
          · obtain ⟨x, hx⟩ := Target.save_took _ ((hr1.entry h4).spec hD).1 h5 (by simp)
            exact hx.reachable (hr1.entry h4)
          · exact absurd h3 (hio er)
        obtain ⟨g1, g2⟩ := ih hrt (hd2.trans he) h
        exact ⟨g1, fun q hq => (g2 q hq).trans (hout' q hq)⟩
      cases reason with
      | io er =>
        simp only [Prod.mk.injEq, Res.ok.injEq] at h
        obtain ⟨rfl, rfl, rfl⟩ := h
        obtain ⟨g1, g2⟩ := SaveDir.drop_temp (fail := fail) (w := w1) p.entries.saveDir (hd1.trans he)
        exact ⟨fun _ _ => g1, fun q hq => (g2 q hq).trans (hout' q hq)⟩
      | _ => exact next (by simp) h

theorem Intercept.strict_files (hD : D.Sane) {out : Except IronErr (Option Entries)} (hr : Reachable D evs b s)
    (h : i.readRequestStrict D fuel fail dir w s = (.ok out, w', t)) : (∀ er, out = .error er → Cleaned fail dir w') ∧ ∀ q, ¬ Below dir q → w'.files q = w.files q := by
  unfold Intercept.readRequestStrict withTempDir at h
  rcases hc : withEntries D i.settings fuel (Entries.new (.temp dir)) w s with ⟨r, w1, t1⟩
  rw [hc] at h
  have hout : r ≠ .hang → r ≠ .panic → ∀ q, ¬ Below dir q → w1.files q = w.files q :=
    fun h1 h2 q hq => withEntries_outside hD hr hc h1 h2 hq
  cases r with
  | panic => simp at h
  | hang => simp at h
  | full e1 =>
    simp only [Prod.mk.injEq, Res.ok.injEq] at h
    obtain ⟨rfl, rfl, rfl⟩ := h
    exact ⟨by simp, hout (by simp) (by simp)⟩
  | error er => exact absurd hc Intercept.no_error
  | part p reason =>
    have hout' := hout (by simp) (by simp)
    obtain ⟨g1, g2⟩ := SaveDir.drop_temp (fail := fail) (w := w1) p.entries.saveDir (withEntries_dir hc).1
    have done : p.entries.saveDir.drop fail w1 = w' → (∀ er, out = .error er → Cleaned fail dir w') ∧ ∀ q, ¬ Below dir q → w'.files q = w.files q := by
      rintro rfl
      exact ⟨fun _ _ => g1, fun q hq => (g2 q hq).trans (hout' q hq)⟩
    cases reason with
    | utf8 => simp at h
    | sizeLimit =>
      simp only at h
      split at h
      · simp only [Prod.mk.injEq] at h; exact done h.2.1
      · simp at h
    | _ => simp only [Prod.mk.injEq] at h; exact done h.2.1

/-- C73: the middleware changes no file outside of the temporary directory of the request. If it returns an error and the directory can be deleted, nothing is left in the directory. -/
theorem C73_no_leftovers (hD : D.Sane) {req : HyperReq} {out : Except IronErr (Option Entries)} (h : i.readRequest D fuel (.ok dir) fail w req = (.ok out, w')) :
    (∀ q, ¬ Below dir q → w'.files q = w.files q) ∧
    (fail = none → ∀ er, out = .error er → ∀ q, Below dir q → w'.files q = none ∧ q ∉ w'.dirs) := by
  unfold Intercept.readRequest at h
  unfold fromRequest at h
  cases hb : ironHttp.multipartBoundary req with
  | none =>
    simp only [hb, Prod.mk.injEq, Res.ok.injEq] at h
    obtain ⟨rfl, rfl⟩ := h
    exact ⟨fun _ _ => rfl, by simp⟩
  | some b =>
    simp only [hb] at h
    have hr : Reachable D req.body b (withBody req.body b) := ⟨[], rfl⟩
    have key : ∀ {r : Res (Except IronErr (Option Entries)) × World × BR}, (r.1, r.2.1) = (Res.ok out, w') →
        (∀ t, r = (.ok out, w', t) → (∀ er, out = .error er → Cleaned fail dir w') ∧ ∀ q, ¬ Below dir q → w'.files q = w.files q) →
        (∀ q, ¬ Below dir q → w'.files q = w.files q) ∧ (fail = none → ∀ er, out = .error er → ∀ q, Below dir q → w'.files q = none ∧ q ∉ w'.dirs) := by
      rintro ⟨r1, r2, r3⟩ h1 h2
      simp only [Prod.mk.injEq] at h1
      obtain ⟨rfl, rfl⟩ := h1
      obtain ⟨h3, h4⟩ := h2 r3 rfl
      exact ⟨h4, fun hf er he => h3 er he hf⟩
    cases hl : i.limitBehavior with
    | throwError =>
      rw [hl] at h
      exact key h (fun t ht => Intercept.strict_files (i := i) (fuel := fuel) (w := { w with dirs := w.dirs ++ [dir] }) hD hr ht)
    | continue_ =>
      rw [hl] at h
      exact key h (fun t ht => Intercept.lenientLoop_files (i := i) (fuel := fuel) (n := fuel + 1) (e := Entries.new (.temp dir)) (w := { w with dirs := w.dirs ++ [dir] }) hD hr rfl ht)

/-! ## C74 -/

/-- C74: requests that are not `multipart/form-data` with a boundary pass unchanged. -/
theorem C74_passes {req : HyperReq} {made : Except IoErr Path} {ext : Option Entries} (hp : ∀ m, req.contentType = some m → m.Parsed)
    (hno : ∀ m, req.contentType = some m → m.IsFormData → ∀ b, ¬ m.HasBoundary b) : i.before D fuel made fail w req ext = (.ok (.ok ()), ext, w) := by
  have hb : ironBoundary req = none := by
    cases hb : ironBoundary req with
    | none => rfl
    | some b =>
      obtain ⟨m, h1, h2, h3⟩ := (C61_iron hp).mp hb
      exact absurd h3 (hno m h1 h2 b)
  have : i.readRequest D fuel made fail w req = (.ok (.ok none), w) := by
    unfold Intercept.readRequest fromRequest ironHttp
    simp only [hb]
  unfold Intercept.before
  rw [this]

/-- C74: if a multipart request passes, the entries among its extensions are those of the body: all its parts, in order, with their contents or, in `Continue` mode and for a part longer than
`file_size_limit`, the beginning of them; and there are fewer than `file_count_limit`. If it does not pass, the extensions are unchanged. -/
theorem C74_extension (hD : D.Sane) {req : HyperReq} {made : Except IoErr Path} {ext ext' : Option Entries} {m : HMime} {o : Except IronErr Unit} (hp : m.Parsed)
    (h1 : req.contentType = some m) (h2 : m.IsFormData) (h3 : m.HasBoundary b) (h : i.before D fuel made fail w req ext = (.ok o, ext', w')) :
    (∀ er, o = .error er → ext' = ext) ∧
    (o = .ok () → NoStall req.body → NoErr req.body → i.Typed → (Ev.bytes req.body).length ≤ u64Max → ∀ es fin, Parts D (dashes ++ b) (Ev.bytes req.body) es fin →
      ∃ dir e fs, made = .ok dir ∧ ext' = some e ∧ e.saveDir = .temp dir ∧ fin = .closed ∧ es.length < i.fileCountLimit ∧ GroupedByName e.fields fs ∧
        (i.limitBehavior = .throwError → All2 (SavedAs b req.body w') fs es) ∧ All2 (Kept i.fileSizeLimit b req.body w') fs es) := by
  have hb : ironBoundary req = some b := (C61_iron (by rw [h1]; rintro _ ⟨⟩; exact hp)).mpr ⟨m, h1, h2, h3⟩
  have hrr : i.readRequest D fuel made fail w req = match made with
      | .error e => (.ok (.error (.io .tempdir e)), w)
      | .ok dir =>
        match i.limitBehavior with
        | .throwError => ((i.readRequestStrict D fuel fail dir { w with dirs := w.dirs ++ [dir] } (withBody req.body b)).1, (i.readRequestStrict D fuel fail dir { w with dirs := w.dirs ++ [dir] } (withBody req.body b)).2.1)
        | .continue_ => ((i.readRequestLenient D fuel fail dir { w with dirs := w.dirs ++ [dir] } (withBody req.body b)).1, (i.readRequestLenient D fuel fail dir { w with dirs := w.dirs ++ [dir] } (withBody req.body b)).2.1) := by
    unfold Intercept.readRequest fromRequest ironHttp
    simp only [hb]
    cases made with
    | error e => rfl
    | ok dir => cases i.limitBehavior <;> rfl
  unfold Intercept.before at h
  rcases hq : i.readRequest D fuel made fail w req with ⟨r, w1⟩
  rw [hq] at h hrr
  have hstrict : ∀ {dir w0 t}, i.readRequestStrict D fuel fail dir w0 (withBody req.body b) ≠ (.ok (.ok none), w1, t) := by
    intro dir w0 t hs
    unfold Intercept.readRequestStrict at hs
    split at hs <;> (try split at hs) <;> simp at hs
  have hlen : ∀ {n e w0 s t}, i.lenientLoop D fuel fail n e w0 s ≠ (.ok (.ok none), w1, t) := by
    intro n
    induction n with
    | zero => intro e w0 s t hs; simp [Intercept.lenientLoop] at hs
    | succ n ih =>
      intro e w0 s t hs
      simp only [Intercept.lenientLoop] at hs
      split at hs
      · simp at hs
      · simp at hs
      · exact ih hs
      · simp at hs
      · simp at hs
      · simp at hs
  have hnone : r ≠ .ok (.ok none) := by
    rintro rfl
    cases made with
    | error e => simp at hrr
    | ok dir =>
      simp only at hrr
      cases hl : i.limitBehavior with
      | throwError =>
        rw [hl] at hrr
        simp only [Prod.mk.injEq] at hrr
        exact hstrict (Sample.pair_eq hrr.1.symm (Sample.pair_eq hrr.2.symm rfl))
      | continue_ =>
        rw [hl] at hrr
        simp only [Prod.mk.injEq] at hrr
        have hx := Sample.pair_eq hrr.1.symm (Sample.pair_eq hrr.2.symm rfl)
        rw [Intercept.lenient_eq] at hx
        exact hlen hx
  cases r with
  | ok x =>
    rcases x with er | _ | e
    · simp only [Prod.mk.injEq, Res.ok.injEq] at h
      obtain ⟨rfl, rfl, rfl⟩ := h
      exact ⟨fun _ _ => rfl, by simp⟩
    · exact absurd rfl hnone
    · simp only [Prod.mk.injEq, Res.ok.injEq] at h
      obtain ⟨rfl, rfl, rfl⟩ := h
      refine ⟨by simp, fun _ hn hne ht hsz es fin hP => ?_⟩
      cases made with
      | error e => simp at hrr
      | ok dir =>
        simp only at hrr
        cases hl : i.limitBehavior with
        | throwError =>
          rw [hl] at hrr
          simp only [Prod.mk.injEq] at hrr
          obtain ⟨a1, a2, a3, fs, a4, a5⟩ := C59_only_full hD hn hne ht hP (Sample.pair_eq hrr.1.symm (Sample.pair_eq hrr.2.symm rfl))
          exact ⟨dir, e, fs, rfl, rfl, a3, a1, a2, a4, fun _ => a5, a5.imp fun _ _ => SavedAs.kept⟩
        | continue_ =>
          rw [hl] at hrr
          simp only [Prod.mk.injEq] at hrr
          obtain ⟨a1, a2, a3, fs, a4, a5⟩ := C60_entries hD hn hne ht hsz hP (Sample.pair_eq hrr.1.symm (Sample.pair_eq hrr.2.symm rfl))
          exact ⟨dir, e, fs, rfl, rfl, a3, a1, a2, a4, by simp, a5⟩
  | err e => simp at h
  | panic => simp at h
  | hang => simp at h

/-- A request for the middleware: the body of `Sample.evsTwo`. -/
def Sample.ironReq (evs : List Ev) : HyperReq := ⟨.post, some ⟨.multipart, .formData, [(.boundary, .ext b!"b")]⟩, evs⟩

/-- C73_no_leftovers: an error after a field was saved. -/
example : (Intercept.mk none 3 2 .throwError).readRequest refDeps 10 (.ok [b!"tmp"]) none Sample.disk (Sample.ironReq Sample.evsTwo) =
    (.ok (.error (.count 2)), ((Intercept.mk none 3 2 .throwError).readRequest refDeps 10 (.ok [b!"tmp"]) none Sample.disk (Sample.ironReq Sample.evsTwo)).2) :=
  Sample.pair_eq (by decide +kernel) rfl
/-- C74_extension; its other hypotheses are the next example and `Sample.partsTwo`. -/
example : ((Intercept.mk none 3 3 .throwError).before refDeps 10 (.ok [b!"tmp"]) none Sample.disk (Sample.ironReq Sample.evsTwo) none).1 = .ok (.ok ()) ∧
    ((Intercept.mk none 3 3 .throwError).before refDeps 10 (.ok [b!"tmp"]) none Sample.disk (Sample.ironReq Sample.evsTwo) none).2.1 =
      some { fields := [(b!"a", [⟨Sample.fh, .text b!"one"⟩, ⟨Sample.fh, .text b!"two"⟩])], saveDir := .temp [b!"tmp"], fieldsCount := 2 } := by decide +kernel
example : HMime.Parsed ⟨.multipart, .formData, [(.boundary, .ext b!"b")]⟩ ∧ HMime.IsFormData ⟨.multipart, .formData, [(.boundary, .ext b!"b")]⟩ ∧
    HMime.HasBoundary ⟨.multipart, .formData, [(.boundary, .ext b!"b")]⟩ Sample.bnd :=
  ⟨⟨by simp, by simp, by simp, by intro p hp; simp only [List.mem_singleton] at hp; subst hp; decide⟩, ⟨rfl, rfl⟩, [], .boundary, .ext b!"b", [], rfl, rfl, rfl, by simp⟩
/-- C74_passes. -/
example : ∀ m, (⟨.post, some ⟨.ext b!"text", .formData, [(.boundary, .ext b!"b")]⟩, []⟩ : HyperReq).contentType = some m → m.IsFormData → ∀ b, ¬ m.HasBoundary b := by
  rintro _ ⟨⟩ ⟨h, -⟩
  exact absurd h (by decide)

end Multipart

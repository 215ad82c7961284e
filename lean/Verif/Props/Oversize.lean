import Verif.Props.SavedReads
/-!
# Fields that are too large (C108), answers that cannot be sent (C109)

C38 says how much of a field is saved at most, C77 that requests within the limits are saved in full. Here: what becomes of a request with a field beyond the limits. C109 is about the example servers when
the saved fields cannot be shown (a file cannot be opened again, or the connection is lost).
-/
namespace Multipart

variable {D : Deps} {evs : List Ev} {b : Bytes} {s t : BR} {cfg : Settings} {fuel : Nat} {T : Target} {w w' : World} {es : List (FieldHeaders × Bytes)}

/-- Saving a field that is longer than the limits allow, and meets no other trouble, is stopped by the size limit, or by forced text that is not UTF-8. -/
theorem Target.save_big (hD : D.Sane) (hr : Reachable D evs b s) (hsz : (Ev.bytes evs).length ≤ u64Max) (he : OnlyInterrupted s.evs) (hw : DiskWorks w cfg.openOpts (T.file w))
    (ho : cfg.openOpts.createNew = true) (hl : cfg.sizeLimit < u64Max)
    (hlen : ∀ x u, Took s x u → u.AtEof → cfg.sizeLimit + Nat.min cfg.sizeLimit cfg.memoryThreshold < x.length) {r : SaveRes SavedData SavedData}
    (h : T.save cfg fuel w s = (r, w', t)) : r = .hang ∨ (∃ d, r = .part d .sizeLimit) ∨ (cfg.textPolicy = .force ∧ ∃ d, r = .part d .utf8) := by
  have hi := (hr.spec hD).1
  have hse : ∀ {e}, ¬ StreamErr s e := fun g => g.2 (he _ g.1)
  have hwf : ∀ {e}, ¬ ∃ ev ∈ (T.world w).writes, ev.FailsWith e := by
    rintro e ⟨ev, g1, g2⟩; exact (hw.world (T := T)).writes ev g1 e g2
  have hfull : ∀ {d : SavedData}, r ≠ .full d := by
    rintro d rfl
    obtain ⟨x, s1, h0, h1, h2⟩ := Target.save_complete hi (.inl ho) h
    obtain ⟨c, h3, h4, -⟩ := C54_readable (r := .sizeLimit) hD hr hsz (.inl ho) (.inl h)
    have h5 := (C38_size_limit_partial (r := .sizeLimit) hD hr hsz hl (.inl h)).2
    have h6 := hlen _ _ h0 h1
    rw [h2] at h3
    cases h3
    omega
  cases Target.save_spec hi h with
  | hang => exact .inl rfl
  | text => exact absurd rfl hfull
  | bytes => exact absurd rfl hfull
  | partText h1 h2 h3 h4 h5 h6 =>
    rcases h6 with ⟨rfl, -⟩ | ⟨e, -, -, g⟩ | ⟨rfl, g, -⟩
    · exact .inr (.inl ⟨_, rfl⟩)
    · exact absurd g hse
    · exact .inr (.inr ⟨g, _, rfl⟩)
  | partBytes h1 h2 h3 h4 =>
    rcases h4 with ⟨rfl, -⟩ | ⟨e, -, -, g⟩
    · exact .inr (.inl ⟨_, rfl⟩)
    · exact absurd g hse
  | error _ _ g => exact absurd g hse
  | file h1 h2 h3 h4 h5 =>
    cases h5 with
    | hang => exact .inl rfl
    | noFile _ _ g => exact absurd g (hw.world (T := T)).not_fails
    | cut _ _ _ _ g => exact absurd g hwf
    | cut0 _ _ _ g => exact absurd g hwf
    | full => exact absurd rfl hfull
    | part _ _ _ _ g =>
      rcases g with ⟨rfl, -⟩ | ⟨e, -, g | g⟩
      · exact .inr (.inl ⟨_, rfl⟩)
      · exact absurd (g.after hi h1) hse
      · exact absurd g hwf
    | error _ _ _ g => exact absurd (g.after hi h1) hse

theorem All2.get {α β : Type} {R : α → β → Prop} {as : List α} {bs : List β} (h : All2 R as bs) {k : Nat} {x : β} (hk : bs[k]? = some x) : ∃ a ∈ as, R a x := by
  induction h generalizing k with
  | nil => simp at hk
  | cons hr _ ih =>
    cases k with
    | zero => simp at hk; subst hk; exact ⟨_, List.mem_cons_self .., hr⟩
    | succ k =>
      obtain ⟨a, h1, h2⟩ := ih (by simpa using hk)
      exact ⟨a, List.mem_cons_of_mem _ h1, h2⟩

namespace Sample

/-- A text field of `n` bytes. -/
def large (n : Nat) : OutField := ⟨b!"l", none, none, List.replicate n 0x78⟩

/-- A small field and a large one. -/
def evsLarge (n : Nat) : List Ev := [.data (encode bnd [small, large n])]

theorem large_sendable (n : Nat) : Sendable refDeps bnd (large n) none :=
  ⟨show NameText b!"l" from nameText (by decide) (by decide) (by decide) (by decide) (by decide +kernel), by simp [large], by simp [large], rfl,
    by simp only [OutField.headers, OutField.disposition, large]; decide +kernel, show Absent _ b!"l" from findSub_eq_none_iff.mp (by decide +kernel), by simp [large], by simp [large], by
      rintro k ⟨r, hr⟩
      have : (0x2D : UInt8) ∈ (large n).data.drop k := by rw [← hr]; simp [dashes]
      have := List.mem_of_mem_drop this
      simp [large, List.mem_replicate] at this⟩

theorem partsLarge (n : Nat) : Parts refDeps (dashes ++ bnd) (Ev.bytes (evsLarge n)) [small.asRead none, (large n).asRead none] .closed := by
  have : Ev.bytes (evsLarge n) = encode bnd [small, large n] := by simp [evsLarge, Ev.bytes]
  rw [this]
  exact encoded_parts (cts := [none, none]) refDeps_tokenizes ⟨by decide, by decide⟩ (.cons small_sendable (.cons (large_sendable n) .nil))

theorem evsLarge_fine (n : Nat) : NoStall (evsLarge n) ∧ NoErr (evsLarge n) := by
  refine ⟨?_, by intro e; simp [evsLarge]⟩
  simp only [NoStall, evsLarge, List.mem_singleton, Ev.data.injEq]
  simp [encode, dashes]

theorem evsLarge_length (n : Nat) : (Ev.bytes (evsLarge n)).length = n + 110 := by
  have h1 : small.headers.length = 44 := by decide +kernel
  have h2 : (large n).headers.length = 44 := by simp only [OutField.headers, OutField.disposition, large]; decide +kernel
  have h3 : (large n).data.length = n := by simp [large]
  have h4 : small.data.length = 1 := rfl
  simp only [evsLarge, Ev.bytes, List.append_nil, encode, List.length_append, h1, h2, h3, h4, dashes, bnd, crlf]
  simp +arith

end Sample

/-- C108: in a request whose first `k` parts are within the limits (as for C77) and whose next part is longer than `size_limit` and (if smaller) `memory_threshold` together, exactly this is saved:
the first `k` parts, and as the partial field the beginning of the next one, with its headers. The result says that the size limit is the reason. What follows in the body, and whether it is complete, does
not matter. (If text is forced, these parts are UTF-8 if they are text by their headers.) -/
theorem C108_too_large (hD : D.Sane) (hn : NoStall evs) (hne : NoErr evs) (hc : cfg.Typed) (ho : cfg.openOpts.createNew = true) (hsz : (Ev.bytes evs).length ≤ u64Max)
    (hs : cfg.sizeLimit < u64Max) {fin : Ending} (hP : Parts D (dashes ++ b) (Ev.bytes evs) es fin) (dir : SaveDir) {k : Nat} {fh : FieldHeaders} {dat : Bytes} (hk : es[k]? = some (fh, dat))
    (hp : cfg.textPolicy = .force → ∀ p ∈ es.take (k + 1), p.1.isText = true → IsUtf8 p.2) (hl : k < cfg.countLimit) (hz : ∀ p ∈ es.take k, p.2.length + 2 ≤ cfg.sizeLimit ∨ ((CleanSplit (dashes ++ b) evs ∨ p.2.length + 2 ≤ entryBuf (dashes ++ b)) ∧ p.2.length ≤ cfg.sizeLimit))
    (hbig : cfg.sizeLimit + Nat.min cfg.sizeLimit cfg.memoryThreshold < dat.length) (hw : DiskReady w dir.asPath (k + 1)) :
    ∃ n, ∀ fuel, n ≤ fuel → ∃ e d w' t fs c, withEntries D cfg fuel (Entries.new dir) w (withBody evs b) = (.part ⟨e, some ⟨fh, some d⟩⟩ .sizeLimit, w', t) ∧
      GroupedByName e.fields fs ∧ e.fieldsCount = k ∧ All2 (SavedAs b evs w') fs (es.take k) ∧ d.readable w' = .ok c ∧ c <+: dat := by
  have hr : Reachable D evs b (withBody evs b) := ⟨[], rfl⟩
  have hdr : (withBody evs b).Drained := by intro h; simp [withBody, BR.fromReader] at h
  have ht : Nat.min cfg.sizeLimit cfg.memoryThreshold < u64Max := Nat.lt_of_le_of_lt (Nat.min_le_left ..) hs
  have hkl : k < es.length := by
    rcases Nat.lt_or_ge k es.length with h | h
    · exact h
    · rw [List.getElem?_eq_none h] at hk; cases hk
  refine ⟨(withBody evs b).enough (cfg.memLimit 0) + 1, fun fuel hf => ?_⟩
  obtain ⟨e1, e2⟩ := withEntries_ends (e := Entries.new dir) (w := w) (fuel := fuel) hD hr (.inl ht)
  have e1 := e1 (by omega)
  rcases h : withEntries D cfg fuel (Entries.new dir) w (withBody evs b) with ⟨r, w', t⟩
  rw [h] at e1 e2
  obtain ⟨fs, w1, s1, h1, h2, h3⟩ := withEntries_spec h
  have h3 : LoopEnd D cfg fuel ((Entries.new dir).recountFields.pushAll fs) w1 s1 r w' t := by
    rcases h3 with h3 | ⟨rfl, -⟩
    · exact h3
    · exact absurd rfl e1
  have hs1 := h1.reachable hD hr
  have hat := h1.atParts hD hn hne ho hr (.start hP) (.inl hdr)
  have hd1 : s1.Drained := by
    rcases h1.drained hD hn ho hr with g | ⟨-, g⟩
    · exact g
    · rw [g]; exact hdr
  have hsv := (h1.savedAs hD hn hne ho hr (.start hP) (.inl hdr)).1
  have hfs : fs.length ≤ k := by
    rcases Nat.lt_or_ge k fs.length with g | g
    · exfalso
      obtain ⟨f, g1, g2, c, g3, g4⟩ := hsv.get (k := k) (x := (fh, dat)) (by rw [List.getElem?_take]; simp [g, hk])
      obtain ⟨c', g5, g6⟩ := h1.bounded hD hsz hs ho hr f g1
      rw [g3] at g5
      cases g5
      rcases g4 with g4 | ⟨g4, -⟩
      · simp only at g4; rw [g4] at g6; omega
      · simp only at g4; rw [g4, List.length_append] at g6; omega
    · exact g
  have hcount : ((Entries.new dir).recountFields.pushAll fs).fieldsCount = fs.length := by
    have := Entries.pushAll_count fs (Entries.new dir).recountFields (Entries.recount_count _)
    have h5 := hc.count
    rw [this]
    simp only [Entries.recountFields, Entries.new, total, List.map_nil, List.sum_nil, Nat.zero_add]
    exact Nat.min_eq_left (by omega)
  have hdir : ((Entries.new dir).recountFields.pushAll fs).saveDir.asPath = dir.asPath := by rw [Entries.pushAll_dir]; rfl
  have hne' : es.drop fs.length ≠ [] := by
    intro g
    have := List.drop_eq_nil_iff.mp g
    omega
  have hno : ∀ {fin'}, ¬ Reads D s1 [] fin' := by
    intro fin' g
    have := (hat.reads hD hn hne (.inl hd1) g).2.length
    exact hne' (List.length_eq_zero_iff.mp this.symm)
  -- what saving the next field comes to
  have hnext : ∀ {hd : FieldHeaders} {s2 : BR} {r : SaveRes SavedData SavedData} {w2 : World} {t2 : BR}, s1.readEntry D = (.ok (some hd), s2) →
      (Target.dir dir.asPath).save { cfg with textPolicy := if hd.isText then cfg.textPolicy else .ignore } fuel w1 s2 = (r, w2, t2) →
      r = .hang ∨ (∃ d, r = .full d) ∨ (fs.length = k ∧ hd = fh ∧ ∃ d c, r = .part d .sizeLimit ∧ d.readable w2 = .ok c ∧ c <+: dat ∧ ∀ f p, SavedAs b evs w1 f p → SavedAs b evs w2 f p) := by
    intro hd s2 r w2 t2 g1 g2
    have hr2 := hs1.entry g1
    have hs2 := hr2.spec hD
    have hty : (if hd.isText then cfg.textPolicy else .ignore) = .force → ∀ d, r ≠ .part d .utf8 := by
      intro g d hd'
      split at g
      next htx =>
        obtain ⟨dat', es', k1, -, k2⟩ := hat.entry_data hD hn hne (.inl hd1) g1
        have hget : es[fs.length]? = some (hd, dat') := by
          have := congrArg (·[0]?) k1
          simpa using this
        have hmem : (hd, dat') ∈ es.take (k + 1) := List.mem_of_getElem? (i := fs.length) (by rw [List.getElem?_take]; simp [hget]; omega)
        have k3 := textThen_validUpTo dat'
        have k4 := Target.save_goes_on (T := .dir dir.asPath) (cfg := { cfg with textPolicy := if hd.isText then cfg.textPolicy else .ignore }) (fuel := fuel) (w := w1) hD hn hs1 g1 k2 k3
          (.inl (k3.of_utf8 (hp g _ hmem htx))) d
        rw [g2] at k4
        exact k4 hd'
      next => simp at g
    have hoi : OnlyInterrupted s2.evs := fun e g => absurd (hs2.2.2.2.subset g) (hne e)
    have hw1 : DiskReady w1 dir.asPath (k - fs.length + 1) := DiskReady.seq h1 (by
      have : fs.length + (k - fs.length + 1) = k + 1 := by omega
      show DiskReady w dir.asPath _
      rw [this]; exact hw)
    rcases Nat.lt_or_ge fs.length k with hlt | hge
    · have hbound : ∀ x u, Took s2 x u → x.length ≤ cfg.sizeLimit := by
        intro x u hx
        obtain ⟨dat', es', y, k1, k2⟩ := hat.data hD hn hne hs1 g1 hx
        have hget : es[fs.length]? = some (hd, dat') := by
          have := congrArg (·[0]?) k1
          simpa using this
        have hmem : (hd, dat') ∈ es.take k := List.mem_of_getElem? (i := fs.length) (by rw [List.getElem?_take]; simp [hlt, hget])
        have hz := hz _ hmem
        simp only at hz ⊢
        have hcl : crlf.length = 2 := rfl
        rcases k2 with k2 | ⟨k2, k3, k5⟩
        · have := congrArg List.length k2
          rw [List.length_append] at this
          rcases hz with hz | ⟨-, hz⟩ <;> omega
        · have := congrArg List.length k2
          rw [List.length_append, List.length_append] at this
          rcases hz with hz | ⟨hz, -⟩
          · omega
          · exact hz.elim (absurd · k3) fun h => by omega
      rcases Target.save_fine (cfg := { cfg with textPolicy := if hd.isText then cfg.textPolicy else .ignore }) hs2.1 ⟨hc.size, hc.mem, hc.count, hc.write⟩ hoi (hw1.works ho hc.write) hbound g2 with g | g | ⟨g, x, -, -, gx, -⟩
      · exact .inl g
      · exact .inr (.inl g)
      · exact absurd gx (hty g _)
    · have hlen : fs.length = k := by omega
      have hhead : ∀ {x u}, Took s2 x u → hd = fh ∧ ∃ y, SavedOk (dashes ++ b) evs dat (x ++ y) := by
        intro x u hx
        obtain ⟨dat', es', y, k1, k2⟩ := hat.data hD hn hne hs1 g1 hx
        have hget : es[fs.length]? = some (hd, dat') := by
          have := congrArg (·[0]?) k1
          simpa using this
        rw [hlen, hk] at hget
        cases hget
        exact ⟨rfl, y, k2⟩
      have hbig' : ∀ x u, Took s2 x u → u.AtEof → cfg.sizeLimit + Nat.min cfg.sizeLimit cfg.memoryThreshold < x.length := by
        intro x u hx hu
        obtain ⟨dat', es', k1, -⟩ := hat.entry hD hn hne (.inl hd1) g1
        obtain ⟨got, fin', hR⟩ := C10_reads_total hD (hx.reachable hr2)
        obtain ⟨os, hos⟩ := hx.run (hr2.spec hD).1
        have h6 := (hat.reads hD hn hne (.inl hd1) (.entry (os := os) g1 (by rw [hos]; exact hu) (by rw [hos]; exact hR))).2
        rw [k1] at h6
        cases h6 with
        | cons h6 _ =>
          have hget : es[fs.length]? = some (hd, dat') := by
            have := congrArg (·[0]?) k1
            simpa using this
          rw [hlen, hk] at hget
          cases hget
          have h6 := h6.2
          rw [hos] at h6
          simp only at h6
          rcases h6 with h6 | ⟨h6, -⟩ <;> rw [h6]
          · exact hbig
          · rw [List.length_append]; omega
      rcases Target.save_big (cfg := { cfg with textPolicy := if hd.isText then cfg.textPolicy else .ignore }) hD hr2 hsz hoi (hw1.works ho hc.write) ho hs hbig' g2 with g | ⟨d, rfl⟩ | ⟨g, d, gx⟩
      · exact .inl g
      · obtain ⟨c, full, u, j1, j2, -, j4⟩ := Target.save_over _ hD hr2 hsz g2 (.inl ho)
        obtain ⟨rfl, y, j5⟩ := hhead j4
        obtain ⟨c', j6, j7, -⟩ := C54_readable (cfg := { cfg with textPolicy := if hd.isText then cfg.textPolicy else .ignore }) hD hr2 hsz (.inl ho) (.inr g2)
        rw [j1] at j6
        cases j6
        have j8 := (C38_size_limit_partial (cfg := { cfg with textPolicy := if hd.isText then cfg.textPolicy else .ignore }) hD hr2 hsz hs (.inr g2)).2
        simp only at j8
        refine .inr (.inr ⟨hlen, rfl, d, c, rfl, j1, ?_, ?_⟩)
        · have j9 : c <+: full ++ y := j2.trans (List.prefix_append _ _)
          rcases j5 with j5 | ⟨j5, -⟩
          · rw [j5] at j9; exact j9
          · rw [j5] at j9
            exact List.prefix_of_prefix_length_le j9 (List.prefix_append _ _) (by omega)
        · rintro f p ⟨i1, c, i2, i3⟩
          exact ⟨i1, c, SavedData.readable_mono i2 (fun q c hq => Target.save_keeps _ hD hr2 g2 ho hq), i3⟩
      · exact absurd gx (hty g d)
  cases h3 with
  | full h4 _ => exact absurd (Reads.close h4) hno
  | count h4 => rw [hcount] at h4; omega
  | read h4 _ => exact absurd (Reads.fail h4) hno
  | part h4 _ h5 =>
    rw [hdir] at h5
    rcases hnext h4 h5 with g | ⟨_, g⟩ | ⟨g1, rfl, d, c, g2, g3, g4, g5⟩
    · cases g
    · cases g
    · cases g2
      rw [g1] at hsv
      refine ⟨_, _, w', t, fs, c, rfl, Entries.pushAll_grouped fs (Entries.new dir).recountFields [] .nil, by rw [hcount, g1], hsv.imp g5, g3, g4⟩
  | error h4 _ h5 =>
    rw [hdir] at h5
    rcases hnext h4 h5 with g | ⟨_, g⟩ | ⟨-, -, d, c, g, -⟩ <;> cases g
  | panic => exact absurd rfl e2
  | hang => exact absurd rfl e1

/-- A field of 9 MB behind a small one, with the default settings, which allow 8 MB. -/
example : NoStall (Sample.evsLarge 9000000) ∧ NoErr (Sample.evsLarge 9000000) ∧ Settings.default.Typed ∧ (Ev.bytes (Sample.evsLarge 9000000)).length ≤ u64Max ∧
    Parts refDeps (dashes ++ Sample.bnd) (Ev.bytes (Sample.evsLarge 9000000)) [Sample.small.asRead none, (Sample.large 9000000).asRead none] .closed ∧
    (∀ p ∈ [Sample.small.asRead none, (Sample.large 9000000).asRead none].take 1, p.2.length + 2 ≤ Settings.default.sizeLimit) ∧
    Settings.default.sizeLimit + Nat.min Settings.default.sizeLimit Settings.default.memoryThreshold < ((Sample.large 9000000).asRead none).2.length ∧ DiskReady (Sample.bigDisk 2) [b!"tmp"] 2 :=
  ⟨(Sample.evsLarge_fine _).1, (Sample.evsLarge_fine _).2, Settings.default_typed, by rw [Sample.evsLarge_length]; decide, Sample.partsLarge _,
    by intro p hp; simp only [List.take_succ_cons, List.take_zero, List.mem_singleton] at hp; subst hp; decide,
    by simp only [OutField.asRead, Sample.large, List.length_replicate]; decide, Sample.bigDisk_ready _ 2⟩

/-- C108: what the example servers answer to an upload with such a field, with their default settings, if everything else works. The examples for `tiny_http` and Iron panic. The others answer with status 200:
Nickel's shows the beginning of the large field as if it was all of it, Hyper's does not show it, and only Rocket's says that (and where) it stopped. -/
theorem C108_examples {F : DebugFmt} {tmp : TempEnv} {S : Surroundings} {path : Path} (hD : D.Sane) (hn : NoStall evs) (hne : NoErr evs) (hsz : (Ev.bytes evs).length ≤ u64Max) {fin : Ending}
    (hP : Parts D (dashes ++ b) (Ev.bytes evs) es fin) {k : Nat} {fh : FieldHeaders} {dat : Bytes} (hk : es[k]? = some (fh, dat)) (hl : k < 256) (hz : ∀ p ∈ es.take k, p.2.length + 2 ≤ 8 * 1024 * 1024)
    (hbig : 8 * 1024 * 1024 + 10 * 1024 < dat.length) (ht : tmp.tempdir b!"multipart-rs" = .ok path) (hw : DiskReady w path (k + 1)) (hS : S.Shows F) :
    ∃ n, ∀ fuel, n ≤ fuel → ∃ m1 m2 w' fs f, GroupedByName m1 fs ∧ GroupedByName m2 (fs ++ [f]) ∧ f.headers = fh ∧ f.contents w' <+: dat ∧
      All2 (fun x p => x.headers = p.1 ∧ SavedOk (dashes ++ b) evs p.2 (x.contents w')) fs (es.take k) ∧
      (∀ req, tinyBoundary req = some b → req.body = evs → tinyAnswer D fuel tmp S w req = .panic) ∧
      (∀ req, ironBoundary req = some b → req.body = evs → ironAnswer D fuel tmp S w req = .panic) ∧
      (∀ req, nickelBoundary req = some b → req.body = evs → nickelAnswer D fuel tmp S w req = .ok ⟨200, debugText F (·.contents w') m2⟩) ∧
      (∀ req, hyperBoundary req = some b → req.body = evs → hyperAnswer D fuel tmp S w req = .ok ⟨200, debugText F (·.contents w') m1⟩) ∧
      (∀ params, params.find? (fun p => p.1 = b!"boundary") = some (b!"boundary", b) → rocketAnswer D fuel tmp S w ⟨true, params, evs⟩ =
        .ok ⟨200, b!"Request partially processed: " ++ S.reason .sizeLimit ++ b!"\n" ++ (b!"Stopped on field: " ++ S.headers fh ++ b!"\n") ++
          (debugText F (·.contents w') m1 ++ b!"Entries processed\n")⟩) := by
  obtain ⟨n, h⟩ := C108_too_large (cfg := .default) (w := { w with dirs := w.dirs ++ [path] }) hD hn hne Settings.default_typed rfl hsz (by decide) hP (.temp path) hk (by simp [Settings.default]) hl (fun p hp => .inl (hz p hp))
    hbig hw.dirs
  refine ⟨n, fun fuel hf => ?_⟩
  obtain ⟨e, d, w', t, fs, c, h1, h2, -, h3, h4, h5⟩ := h fuel hf
  have ht' : tempSave D .default fuel tmp w (withBody evs b) = (.part ⟨e, some ⟨fh, some d⟩⟩ .sizeLimit, w', t) := by
    simp only [tempSave, tempWithPrefix, requestTemp, ht, withTempDir, h1]
  have hg : GroupedByName (e.pushField fh d).fields (fs ++ [⟨fh, d⟩]) := by
    have := Entries.pushAll_grouped [⟨fh, d⟩] e fs h2
    exact this
  have hr1 : ∀ f ∈ fs, ∃ c, f.data.readable w' = .ok c := h3.left (P := fun f => ∃ c, f.data.readable w' = .ok c) (fun f p h => by obtain ⟨-, c, h, -⟩ := h; exact ⟨c, h⟩)
  have hx1 := hS.full (w := w') h2 hr1
  have hx2 := hS.full (w := w') hg (by
    intro f hf
    rcases List.mem_append.mp hf with hf | hf
    · exact hr1 f hf
    · simp only [List.mem_singleton] at hf; subst hf; exact ⟨c, h4⟩)
  refine ⟨e.fields, (e.pushField fh d).fields, w', fs, ⟨fh, d⟩, h2, hg, rfl, by rw [SavedField.contents_of (f := ⟨fh, d⟩) h4]; exact h5, h3.imp ?_, ?_, ?_, ?_, ?_, ?_⟩
  · rintro f p ⟨k1, c, k2, k3⟩
    exact ⟨k1, by rw [SavedField.contents_of k2]; exact k3⟩
  · rintro req h2 rfl
    have : fromRequest tinyHttp req = .ok (withBody req.body b) := by simp only [fromRequest, tinyHttp, h2]
    simp only [tinyAnswer, tinyProcess, this, ht', PartialEntries.keepPartial, Surroundings.print, hx2, Reason.unwrapErr]
  · rintro req h2 rfl
    have : fromRequest ironHttp req = .ok (withBody req.body b) := by simp only [fromRequest, ironHttp, h2]
    simp only [ironAnswer, this, ht', PartialEntries.keepPartial, ironEntries, hx2, Reason.unwrapErr]
  · rintro req h2 rfl
    have : fromRequest nickelHttp req = .ok (withBody req.body b) := by simp only [fromRequest, nickelHttp, h2]
    simp only [nickelAnswer, multipartBody, this, ht', PartialEntries.keepPartial, nickelEntries, hx2]
  · rintro req h2 rfl
    have : fromRequest hyperHttp req = .ok (withBody req.body b) := by simp only [fromRequest, hyperHttp, h2]
    simp only [hyperAnswer, switchHandle, hyperMultipart, this, ht', PartialEntries.into, hyperEntries, hx1]
  · intro params h2
    simp only [rocketAnswer, if_true, h2, rocketProcess, ht', Surroundings.print, hx1]

/-- The hypotheses of C108_examples are met. -/
example : NoStall (Sample.evsLarge 9000000) ∧ NoErr (Sample.evsLarge 9000000) ∧ (Ev.bytes (Sample.evsLarge 9000000)).length ≤ u64Max ∧
    Parts refDeps (dashes ++ Sample.bnd) (Ev.bytes (Sample.evsLarge 9000000)) [Sample.small.asRead none, (Sample.large 9000000).asRead none] .closed ∧
    8 * 1024 * 1024 + 10 * 1024 < ((Sample.large 9000000).asRead none).2.length ∧ Sample.temp.tempdir b!"multipart-rs" = .ok [b!"tmp", b!"multipart-rs1"] ∧
    DiskReady (Sample.bigDisk 2) [b!"tmp", b!"multipart-rs1"] 2 ∧ Sample.shown.Shows Sample.fmt ∧ tinyBoundary (Sample.tinyReq (Sample.evsLarge 9000000)) = some Sample.bnd :=
  ⟨(Sample.evsLarge_fine _).1, (Sample.evsLarge_fine _).2, by rw [Sample.evsLarge_length]; decide, Sample.partsLarge _, by simp only [OutField.asRead, Sample.large, List.length_replicate]; decide, rfl,
    Sample.bigDisk_ready _ 2, fun _ _ => rfl, rfl⟩

/-- C109: what the example servers do with a well-formed upload within the limits if the saved fields cannot be shown: `x` was written, then there was the error `er`. Those for `tiny_http`, Iron and
Rocket answer with status 500, and nothing of `x`. Nickel's has sent status 200 already, and adds the error, or panics if the connection is lost. Hyper's panics in any case. -/
theorem C109_not_shown {tmp : TempEnv} {S : Surroundings} {path : Path} (hD : D.Sane) (hn : NoStall evs) (hne : NoErr evs) (hP : Parts D (dashes ++ b) (Ev.bytes evs) es .closed) (hl : es.length < 256)
    (hz : ∀ p ∈ es, p.2.length + 2 ≤ 8 * 1024 * 1024) (ht : tmp.tempdir b!"multipart-rs" = .ok path) (hw : DiskReady w path es.length) {x : Bytes} {er : IoErr} (hS : ∀ w e, S.entries w e = (x, some er)) :
    ∃ n, ∀ fuel, n ≤ fuel →
      (∀ req, tinyBoundary req = some b → req.body = evs → tinyAnswer D fuel tmp S w req = .ok ⟨500, b!"The received data was not correctly proccessed on the server"⟩) ∧
      (∀ req, ironBoundary req = some b → req.body = evs → ironAnswer D fuel tmp S w req = .ok ⟨500, b!"Error printing request fields"⟩) ∧
      (∀ req, nickelBoundary req = some b → req.body = evs → (S.connected = true → nickelAnswer D fuel tmp S w req = .ok ⟨200, x ++ b!"Error while reading entries: " ++ S.error er ++ b!"\n"⟩) ∧
        (S.connected = false → nickelAnswer D fuel tmp S w req = .panic)) ∧
      (∀ req, hyperBoundary req = some b → req.body = evs → hyperAnswer D fuel tmp S w req = .panic) ∧
      (∀ params, params.find? (fun p => p.1 = b!"boundary") = some (b!"boundary", b) → rocketAnswer D fuel tmp S w ⟨true, params, evs⟩ = .ok ⟨500, S.error er⟩) := by
  obtain ⟨n, h⟩ := C77_request_succeeds (cfg := .default) (w := { w with dirs := w.dirs ++ [path] }) hD hn hne Settings.default_typed rfl (fun h => by simp [Settings.default] at h) (.inl (by decide)) hP (.temp path) hl
    (fun p hp => .inl (hz p hp)) hw.dirs
  refine ⟨n, fun fuel hf => ?_⟩
  obtain ⟨e, w', t, fs, h1, -, -, -⟩ := h fuel hf
  have ht' : tempSave D .default fuel tmp w (withBody evs b) = (.full e, w', t) := by
    simp only [tempSave, tempWithPrefix, requestTemp, ht, withTempDir, h1]
  refine ⟨?_, ?_, ?_, ?_, ?_⟩
  · rintro req h2 rfl
    have : fromRequest tinyHttp req = .ok (withBody req.body b) := by simp only [fromRequest, tinyHttp, h2]
    simp only [tinyAnswer, tinyProcess, this, ht', Surroundings.print, hS]
  · rintro req h2 rfl
    have : fromRequest ironHttp req = .ok (withBody req.body b) := by simp only [fromRequest, ironHttp, h2]
    simp only [ironAnswer, this, ht', ironEntries, hS]
  · rintro req h2 rfl
    have : fromRequest nickelHttp req = .ok (withBody req.body b) := by simp only [fromRequest, nickelHttp, h2]
    refine ⟨fun hc => ?_, fun hc => ?_⟩ <;> simp only [nickelAnswer, multipartBody, this, ht', nickelEntries, hS, hc] <;> rfl
  · rintro req h2 rfl
    have : fromRequest hyperHttp req = .ok (withBody req.body b) := by simp only [fromRequest, hyperHttp, h2]
    simp only [hyperAnswer, switchHandle, hyperMultipart, this, ht', hyperEntries, hS]
  · intro params h2
    simp only [rocketAnswer, if_true, h2, rocketProcess, ht', Surroundings.print, hS]

/-- The hypotheses of C109_not_shown are met. -/
example : NoStall Sample.evsTwo ∧ NoErr Sample.evsTwo ∧ Parts refDeps (dashes ++ Sample.bnd) (Ev.bytes Sample.evsTwo) [(Sample.fh, b!"one"), (Sample.fh, b!"two")] .closed ∧
    (∀ p ∈ [(Sample.fh, b!"one"), (Sample.fh, b!"two")], p.2.length + 2 ≤ 8 * 1024 * 1024) ∧ Sample.temp.tempdir b!"multipart-rs" = .ok [b!"tmp", b!"multipart-rs1"] ∧
    DiskReady (Sample.bigDisk 2) [b!"tmp", b!"multipart-rs1"] 2 ∧ ∃ S : Surroundings, ∀ w e, S.entries w e = (b!"Field", some .writeZero) :=
  ⟨by decide +kernel, Sample.noErrTwo, Sample.partsTwo, by decide, rfl, Sample.bigDisk_ready _ 2, { Sample.silent with entries := fun _ _ => (b!"Field", some .writeZero) }, fun _ _ => rfl⟩

/-- C109: without a connection, Hyper's example also panics where it would refuse a request or report that there is no directory for the upload. -/
theorem C109_disconnected {tmp : TempEnv} {S : Surroundings} {req : HyperReq} (hc : S.connected = false) (h : (hyperBoundary req).isNone ∨ ∃ er, tmp.tempdir b!"multipart-rs" = .error er) :
    hyperAnswer D fuel tmp S w req = .panic := by
  cases hb : hyperBoundary req with
  | none =>
    have : fromRequest hyperHttp req = .error req := by simp only [fromRequest, hyperHttp, hb]
    simp only [hyperAnswer, switchHandle, this, hyperSend, hc]
    rfl
  | some b =>
    rcases h with h | ⟨er, h⟩
    · rw [hb] at h; cases h
    · have : fromRequest hyperHttp req = .ok (withBody req.body b) := by simp only [fromRequest, hyperHttp, hb]
      simp only [hyperAnswer, switchHandle, this, hyperMultipart, tempSave, tempWithPrefix, requestTemp, h, hyperSend, hc]
      rfl

/-- A request without a content type, and no connection. -/
example : ({ Sample.silent with connected := false } : Surroundings).connected = false ∧ (hyperBoundary ⟨.post, none, []⟩).isNone := ⟨rfl, rfl⟩

end Multipart

import Verif.Lemmas.LeakSave
import Verif.Props.Exceeds
import Verif.Props.IronOversize
/-!
# C38, C59: whole requests with fields that are a little too long are accepted
-/
namespace Multipart
variable {D : Deps} {evs : List Ev} {b : Bytes} {m n : Nat} {s s1 s2 t : BR} {cfg : Settings} {fuel : Nat} {w w' : World} {fh : FieldHeaders} {es : List (FieldHeaders × Bytes)} {i : Intercept}
  {fail : Option (IoErr × (Path → Bool))}

/-- Nothing was read ahead: the next read was not made before fewer than `m` bytes were left. -/
def BR.InTime (s : BR) (m : Nat) (evs : List Ev) : Prop := ∀ before after, evs = before ++ after → after ≠ [] → s.Late m after

theorem BR.InTime.entry (hm : entryBuf s.delim ≤ m) (h : s.InTime m evs) (he : s.readEntry D = (.ok (some fh), t)) : t.InTime m evs := fun before after g ha => by
  have := (h before after g ha).readEntry (D := D) ha hm
  rw [he] at this
  exact this

theorem SavedSeq.inTime (hD : D.Sane) (hm : entryBuf (dashes ++ b) ≤ m) {dir : Path} {fs : List SavedField} (h : SavedSeq D cfg fuel dir w s fs w' t) (hr : Reachable D evs b s) (hs : s.InTime m evs) :
    t.InTime m evs := by
  induction h with
  | nil => exact hs
  | cons h1 h2 _ ih =>
    have hr1 := hr.entry h1
    obtain ⟨x, hx⟩ := Target.save_took _ (hr1.spec hD).1 h2 (by simp)
    refine ih (hx.reachable hr1) fun before after g ha => ?_
    rw [Target.save_eq] at h2
    exact (hs.entry (by rw [(hr.spec hD).2.2.1]; exact hm) h1 before after g ha).withPath ha h2

theorem Took.inTime {x : Bytes} (hD : D.Sane) (hm : 0 < m) (hsz : ReadsUpTo n evs) (hr : Reachable D evs b s) (hs : s.InTime m evs) (h : Took s x t) : t.buf.length < m + n := by
  have hJ : KeptByFields fun s => Reachable D evs b s ∧ s.InTime m evs :=
    ⟨fun s ⟨h1, h2⟩ => ⟨h1.run [.fillBuf], fun before after h ha => (h2 before after h ha).readToBoundary ha⟩,
      fun s t buf n ⟨h1, h2⟩ hr => ⟨by have := (h1.run [.fillBuf]).run [.consume n]; simp only [BR.run, BR.op, hr] at this; exact this, fun before after h ha => by have := ((h2 before after h ha).readToBoundary ha).consume n; rw [hr] at this; exact this⟩⟩
  obtain ⟨h1, h2⟩ := h.keeps hJ ⟨hr, hs⟩
  obtain ⟨-, hu, -, he⟩ := h1.spec hD
  exact BR.buffer_of_late hm hsz he hu h2

/-- C38 fails for whole requests: if at most `n` bytes are read at once, and the minimum buffer is `m`, a request whose fields have up to `size_limit + memory_threshold - m - n` bytes is saved fully,
however many of them are longer than `size_limit`. -/
theorem C38_requests_exceed (hD : D.Sane) (hn : NoStall evs) (hne : NoErr evs) (hc : cfg.Typed) (ho : cfg.openOpts.createNew = true) (hm : entryBuf (dashes ++ b) ≤ m) (hsz : ReadsUpTo n evs)
    (hp : cfg.textPolicy ≠ .force) (hl : cfg.sizeLimit < u64Max) (ht : cfg.memoryThreshold < cfg.sizeLimit) (hP : Parts D (dashes ++ b) (Ev.bytes evs) es .closed) (dir : SaveDir)
    (hcount : es.length < cfg.countLimit) (hless : ∀ p ∈ es, p.2.length + m + n ≤ cfg.sizeLimit + cfg.memoryThreshold) (hw : DiskReady w dir.asPath es.length) :
    ∃ k, ∀ fuel, k ≤ fuel → ∃ e w' t fs, withEntries D cfg fuel (Entries.new dir) w (withBody evs b) = (.full e, w', t) ∧
      GroupedByName e.fields fs ∧ e.fieldsCount = es.length ∧ All2 (SavedAs b evs w') fs es := by
  have hr : Reachable D evs b (withBody evs b) := ⟨[], rfl⟩
  have hdr : (withBody evs b).Drained := by intro h; simp [withBody, BR.fromReader] at h
  refine ⟨(withBody evs b).enough (cfg.memLimit 0) + 1, fun fuel hf => ?_⟩
  obtain ⟨e1, e2⟩ := withEntries_ends (e := Entries.new dir) (w := w) (fuel := fuel) hD hr (.inl (Nat.lt_of_le_of_lt (Nat.min_le_left cfg.sizeLimit cfg.memoryThreshold) hl))
  have e1 := e1 (by omega)
  rcases h : withEntries D cfg fuel (Entries.new dir) w (withBody evs b) with ⟨r, w', t⟩
  rw [h] at e1 e2
  obtain ⟨fs, w1, s1, h1, h2, h3⟩ := withEntries_spec h
  have h3 : LoopEnd D cfg fuel ((Entries.new dir).recountFields.pushAll fs) w1 s1 r w' t := by
    rcases h3 with h3 | ⟨rfl, -⟩
    · exact h3
    · exact absurd rfl e1
  have hs1 := h1.reachable hD hr
  have hat := h1.atParts hD hn hne ho hr (.start hP) (.inl hdr)
  have hd1 : s1.Drained := by
    rcases h1.drained hD hn ho hr with g | ⟨-, g⟩
    · exact g
    · rw [g]; exact hdr
  have hin := h1.inTime hD hm hr fun before after g _ => by subst g; exact .new hm
  have hfine : ∀ {hd : FieldHeaders} {s2 : BR} {r : SaveRes SavedData SavedData} {w2 : World} {t2 : BR}, s1.readEntry D = (.ok (some hd), s2) →
      (Target.dir dir.asPath).save { cfg with textPolicy := if hd.isText then cfg.textPolicy else .ignore } fuel w1 s2 = (r, w2, t2) → r = .hang ∨ ∃ d, r = .full d := by
    intro hd s2 r w2 t2 g1 g2
    have hr2 := hs1.entry g1
    have hs2 := hr2.spec hD
    obtain ⟨dat, es', g3, -⟩ := hat.entry hD hn hne (.inl hd1) g1
    have g4 : fs.length < es.length := by
      have := congrArg List.length g3
      rw [List.length_drop, List.length_cons] at this
      omega
    have hw1 : DiskReady w1 dir.asPath (es.length - fs.length - 1 + 1) := DiskReady.seq h1 (by
      have : fs.length + (es.length - fs.length - 1 + 1) = es.length := by omega
      show DiskReady w dir.asPath _
      rw [this]; exact hw)
    have hmem : (hd, dat) ∈ es := (List.drop_suffix fs.length es).subset (by rw [g3]; exact List.mem_cons_self ..)
    have hle := hless _ hmem
    simp only at hle
    refine Target.save_within (cfg := { cfg with textPolicy := if hd.isText then cfg.textPolicy else .ignore }) (L := dat.length + 2) (M := m + n) hs2.1
      (fun e g => absurd (hs2.2.2.2.subset g) (hne e)) (fun x u hx => ?_) (fun x u hx => ?_) (hw1.works ho hc.write) (by simp only; split <;> simp [hp]) hl (by simp only; omega) ht g2
    · obtain ⟨dat', es'', y, k1, k2⟩ := hat.data hD hn hne hs1 g1 hx
      rw [g3] at k1
      simp only [List.cons.injEq, Prod.mk.injEq, true_and] at k1
      obtain ⟨rfl, -⟩ := k1
      have hcl : crlf.length = 2 := rfl
      rcases k2 with k2 | ⟨k2, -, -⟩
      · have := congrArg List.length k2
        rw [List.length_append] at this
        omega
      · have := congrArg List.length k2
        rw [List.length_append, List.length_append] at this
        omega
    · exact hx.inTime hD (Nat.lt_of_lt_of_le (by decide) (Nat.le_trans (Nat.le_max_left 1024 _) hm)) hsz hr2 (hin.entry (by rw [(hs1.spec hD).2.2.1]; exact hm) g1)
  have hdir : ((Entries.new dir).recountFields.pushAll fs).saveDir.asPath = dir.asPath := by rw [Entries.pushAll_dir]; rfl
  have fin : ∀ e, r = .full e → ∃ e w'' t' fs, ((r, w', t) : _ × World × BR) = (.full e, w'', t') ∧ GroupedByName e.fields fs ∧ e.fieldsCount = es.length ∧ All2 (SavedAs b evs w'') fs es := by
    rintro e rfl
    obtain ⟨-, fs, h1, h2, h3⟩ := C53_full_has_every_field hD hn hne hc ho hP dir h
    exact ⟨e, w', t, fs, rfl, h1, h2, h3⟩
  cases h3 with
  | full => exact fin _ rfl
  | count => exact absurd h (C50_below_limit_partial hD hn hne hc ho hP dir hcount _)
  | read h4 _ =>
    have := (hat.reads hD hn hne (.inl hd1) (.fail h4)).1
    simp at this
  | part h4 _ h5 =>
    rw [hdir] at h5
    rcases hfine h4 h5 with g | ⟨_, g⟩ <;> simp at g
  | error h4 _ h5 =>
    rw [hdir] at h5
    rcases hfine h4 h5 with g | ⟨_, g⟩ <;> simp at g
  | panic => exact absurd rfl e2
  | hang => exact absurd rfl e1

/-- C59, the title, fails for all such requests: if `file_size_limit` is more than 10 KiB, at most `n` bytes are read at once, and the minimum buffer is `m`, a request whose fields have up to
`file_size_limit` + 10 KiB - `m` - `n` bytes is accepted in strict mode, with all of its data. (With reads of 8 KiB and `m` = 1024: up to 1024 bytes too many.) -/
theorem C59_passes (hD : D.Sane) (hn : NoStall evs) (hne : NoErr evs) (hi : i.Typed) (hm : entryBuf (dashes ++ b) ≤ m) (hsz : ReadsUpTo n evs) (hl : i.fileSizeLimit < u64Max) (ht : 10 * 1024 < i.fileSizeLimit)
    (hP : Parts D (dashes ++ b) (Ev.bytes evs) es .closed) (hcount : es.length < i.fileCountLimit) (hless : ∀ p ∈ es, p.2.length + m + n ≤ i.fileSizeLimit + 10 * 1024) {dir : Path} (hw : DiskReady w dir es.length) :
    ∃ k, ∀ fuel, k ≤ fuel → ∃ e w' t fs, i.readRequestStrict D fuel fail dir w (withBody evs b) = (.ok (.ok (some e)), w', t) ∧ GroupedByName e.fields fs ∧ All2 (SavedAs b evs w') fs es := by
  obtain ⟨k, h⟩ := C38_requests_exceed (cfg := i.settings) hD hn hne hi.settings rfl hm hsz (fun h => by cases h) hl ht hP (.temp dir) hcount hless hw
  refine ⟨k, fun fuel hf => ?_⟩
  obtain ⟨e, w', t, fs, h1, h2, -, h3⟩ := h fuel hf
  refine ⟨e, w', t, fs, ?_, h2, h3⟩
  unfold Intercept.readRequestStrict withTempDir
  rw [h1]

namespace Sample

/-- The bytes in reads of 1000. -/
def reads1000 : Nat → Bytes → List Ev
  | 0, _ => []
  | n + 1, bs => .data (bs.take 1000) :: reads1000 n (bs.drop 1000)

theorem reads1000_bytes : ∀ (n : Nat) (bs : Bytes), bs.length ≤ 1000 * n → Ev.bytes (reads1000 n bs) = bs
  | 0, bs, h => by
    have : bs = [] := List.length_eq_zero_iff.mp (by omega)
    subst this; rfl
  | n + 1, bs, h => by
    show bs.take 1000 ++ Ev.bytes (reads1000 n (bs.drop 1000)) = bs
    rw [reads1000_bytes n _ (by rw [List.length_drop]; omega), List.take_append_drop]

theorem reads1000_upTo : ∀ (n : Nat) (bs : Bytes), ReadsUpTo 1000 (reads1000 n bs)
  | 0, _, x, h => by simp [reads1000] at h
  | n + 1, bs, x, h => by
    rcases List.mem_cons.mp h with h | h
    · cases h; rw [List.length_take]; omega
    · exact reads1000_upTo n _ x h

theorem reads1000_noErr : ∀ (n : Nat) (bs : Bytes), NoErr (reads1000 n bs)
  | 0, _, e => by simp [reads1000]
  | n + 1, bs, e => by
    intro h
    rcases List.mem_cons.mp h with h | h
    · cases h
    · exact reads1000_noErr n _ e h

theorem reads1000_noStall : ∀ (n : Nat) (bs : Bytes), 1000 * n < bs.length + 1000 → NoStall (reads1000 n bs)
  | 0, _, _ => by simp [NoStall, reads1000]
  | n + 1, bs, hl => by
    intro h
    rcases List.mem_cons.mp h with h | h
    · have h : [] = bs.take 1000 := by simpa using h
      have := congrArg List.length h
      rw [List.length_take, List.length_nil] at this
      omega
    · exact reads1000_noStall n _ (by rw [List.length_drop]; omega) h

end Sample

/-- C59_passes (and C38_requests_exceed): 12000 bytes pass a limit of 11000. -/
example : ∃ k, ∀ fuel, k ≤ fuel → ∃ e w' t fs,
    Intercept.readRequestStrict refDeps ⟨none, 11000, 8, .throwError⟩ fuel none [b!"tmp"] (Sample.bigDisk 2) (withBody (Sample.reads1000 13 (Ev.bytes (Sample.evsLarge 12000))) Sample.bnd) = (.ok (.ok (some e)), w', t) ∧
    GroupedByName e.fields fs ∧ All2 (SavedAs Sample.bnd (Sample.reads1000 13 (Ev.bytes (Sample.evsLarge 12000))) w') fs [Sample.small.asRead none, (Sample.large 12000).asRead none] :=
  C59_passes (m := 1024) (n := 1000) (es := [Sample.small.asRead none, (Sample.large 12000).asRead none]) refDeps_sane (Sample.reads1000_noStall _ _ (by rw [Sample.evsLarge_length]; decide)) (Sample.reads1000_noErr _ _)
    ⟨by decide, by decide⟩ (by decide +kernel) (Sample.reads1000_upTo _ _) (by decide) (by decide) (by rw [Sample.reads1000_bytes _ _ (by rw [Sample.evsLarge_length]; decide)]; exact Sample.partsLarge _) (by simp)
    (by
      intro p hp
      simp only [List.mem_cons, List.not_mem_nil, or_false] at hp
      rcases hp with rfl | rfl
      · decide
      · simp only [OutField.asRead, Sample.large, List.length_replicate]; decide)
    (Sample.bigDisk_ready _ 2)

end Multipart

import Verif.Props.AnyClient
import Verif.Props.SavedReads

/-! C162: whatever becomes of an upload, what has arrived of it is saved, and the result tells whether this is all. -/
namespace Multipart

variable {D : Deps} {b : Bytes} {evs : List Ev} {cfg : Settings} {w : World}

theorem read_lengths {got ps : List (FieldHeaders × Bytes)} {l : Nat} (h : All2 (fun a p => a.1 = p.1 ∧ DataOk (dashes ++ b) evs p.2 a.2) got ps) (hz : ∀ p ∈ ps, p.2.length + 2 ≤ l) : ∀ g ∈ got, g.2.length ≤ l := by
  induction h with
  | nil => simp
  | @cons a p as ps ha _ ih =>
    intro g hg
    rcases List.mem_cons.mp hg with rfl | hg
    · have := hz p (List.mem_cons_self ..)
      rcases ha.2 with h | ⟨h, -⟩ <;> rw [h]
      · omega
      · rw [List.length_append]
        have : crlf.length = 2 := rfl
        omega
    · exact ih (fun p hp => hz p (List.mem_cons_of_mem _ hp)) g hg

theorem asRead_data {fs : List OutField} {cts : List (Option Mime)} {p : FieldHeaders × Bytes} (h : p ∈ List.zipWith OutField.asRead fs cts) : ∃ f ∈ fs, p.2 = f.data := by
  induction fs generalizing cts with
  | nil => simp at h
  | cons f fs ih =>
    cases cts with
    | nil => simp at h
    | cons c cts =>
      rw [List.zipWith_cons_cons] at h
      rcases List.mem_cons.mp h with rfl | h
      · exact ⟨f, by simp, rfl⟩
      · obtain ⟨g, h1, h2⟩ := ih h
        exact ⟨g, by simp [h1], h2⟩

theorem all2_mem_right {R : ClientOp → OutField → Prop} {os : List ClientOp} {fs : List OutField} (h : All2 R os fs) : ∀ f ∈ fs, ∃ o ∈ os, R o f := by
  induction h with
  | nil => simp
  | @cons o f os fs ha _ ih =>
    intro g hg
    rcases List.mem_cons.mp hg with rfl | hg
    · exact ⟨o, by simp, ha⟩
    · obtain ⟨o', h1, h2⟩ := ih g hg
      exact ⟨o', by simp [h1], h2⟩

/-- What can be read of fields within the limits is within the limits. -/
theorem any_lengths {fs : List OutField} {cts : List (Option Mime)} {got : List (FieldHeaders × Bytes)} {fin : Ending} {P : Prop} {arrived : List OutField → Prop} (hcts : All2 (Sendable D b) fs cts)
    (hl : fs.length < cfg.countLimit) (hzf : ∀ f ∈ fs, f.data.length + b.length + 4 ≤ cfg.sizeLimit)
    (hh : (P ∧ All2 (fun a p => a.1 = p.1 ∧ DataOk (dashes ++ b) evs p.2 a.2) got (List.zipWith OutField.asRead fs cts)) ∨ GetsCut b evs fs cts got fin arrived) :
    got.length < cfg.countLimit ∧ ∀ g ∈ got, g.2.length ≤ cfg.sizeLimit := by
  rcases hh with ⟨-, h5⟩ | ⟨k, got1, got2, k1, -, rfl, k5, -, k7⟩
  · refine ⟨?_, read_lengths h5 fun p hp => ?_⟩
    · have := h5.length
      rw [List.length_zipWith, ← hcts.length, Nat.min_self] at this
      omega
    · obtain ⟨f, h1, h2⟩ := asRead_data hp
      rw [h2]; have := hzf f h1; omega
  · have hg1 : ∀ g ∈ got1, g.2.length ≤ cfg.sizeLimit := read_lengths k5 fun p hp => by
      obtain ⟨f, h1, h2⟩ := asRead_data hp
      rw [h2]; have := hzf f (List.mem_of_mem_take h1); omega
    have hlen := k5.length
    rw [List.length_zipWith, List.length_take, List.length_take, ← hcts.length, Nat.min_self, Nat.min_eq_left k1] at hlen
    rcases k7 with rfl | ⟨f, ct, x, l1, -, rfl, l3⟩
    · rw [List.append_nil]
      exact ⟨by omega, hg1⟩
    · obtain ⟨hk, l1⟩ := List.getElem?_eq_some_iff.mp l1
      have hd := hzf f (l1 ▸ List.getElem_mem hk)
      refine ⟨by rw [List.length_append, List.length_singleton]; omega, fun g hg => ?_⟩
      rcases List.mem_append.mp hg with hg | hg
      · exact hg1 g hg
      · rw [List.mem_singleton] at hg
        subst hg
        have c2 : crlf.length = 2 := rfl
        have d2 : dashes.length = 2 := rfl
        rcases l3 with l3 | l3 <;>
        · have := l3.length_le
          simp only [List.length_append] at this ⊢
          omega

theorem any_saved {env : FileEnv} {os : List ClientOp} {all : Bytes} (hD : D.Sane) (hI : D.Incremental) (hT : D.Tokenizes) (hb : SafeBoundary b)
    (hs : ∀ o ∈ os, ∀ f, StandsFor env o f → ∃ ct, Sendable D b f ct) 
    (hg : (∃ fs, All2 (StandsFor env) os fs ∧ (∀ o ∈ os, ∀ evs, o.reads env evs → ReadsFine evs) ∧ all <+: encode b fs) ∨ (∃ pre fs, pre <+: os ∧ (∀ o post, os = pre ++ o :: post → ∀ f, ¬ StandsFor env o f) ∧ All2 (StandsFor env) pre fs ∧ all <+: encodeOpen b false fs)) (ha : Ev.bytes evs <+: all) (hn : NoStall evs) (hne : NoErr evs)
    (hc : cfg.Typed) (ho : cfg.openOpts.createNew = true) (hp : cfg.textPolicy ≠ .force) (ht : Nat.min cfg.sizeLimit cfg.memoryThreshold < u64Max ∨ cfg.textPolicy = .ignore) (dir : SaveDir)
    (hl : os.length < cfg.countLimit) (hz : ∀ o ∈ os, ∀ f, StandsFor env o f → f.data.length + b.length + 4 ≤ cfg.sizeLimit) (hw : DiskReady w dir.asPath cfg.countLimit) :
    ∃ n, ∀ fuel, n ≤ fuel → ∃ e w' t saved got fin pre fs cts, withEntries D cfg fuel (Entries.new dir) w (withBody evs b) = (fin.saved e, w', t) ∧
      GroupedByName e.fields saved ∧ e.fieldsCount = got.length ∧ All2 (fun (f : SavedField) g => f.headers = g.1 ∧ f.data.readable w' = .ok g.2) saved got ∧
      pre <+: os ∧ (∀ o post, os = pre ++ o :: post → ∀ f, ¬ StandsFor env o f) ∧ All2 (StandsFor env) pre fs ∧ All2 (Sendable D b) fs cts ∧
      ((pre = os ∧ (∀ o ∈ os, ∀ evs, o.reads env evs → ReadsFine evs) ∧ (encode b fs).length ≤ (Ev.bytes evs).length + 2 ∧ fin = .closed ∧
          All2 (fun a p => a.1 = p.1 ∧ DataOk (dashes ++ b) evs p.2 a.2) got (List.zipWith OutField.asRead fs cts)) ∨
        GetsCut b evs fs cts got fin (fun gs => (upToDelim b gs).length ≤ (Ev.bytes evs).length)) := by
  have hlim : WithinLimits D cfg b evs := by
    intro got fin hR
    obtain ⟨pre, fs, cts, hpre, -, hf, hcts, hh⟩ := any_client hD hI hT hb hs hg ha hn hne hR
    have hle : fs.length ≤ os.length := by rw [← hf.length]; exact hpre.length_le
    have hzf : ∀ f ∈ fs, f.data.length + b.length + 4 ≤ cfg.sizeLimit := fun f hff => by
      obtain ⟨o, h1, h2⟩ := all2_mem_right hf f hff
      exact hz o (hpre.subset h1) f h2
    exact any_lengths hcts (by omega) hzf (hh.imp (fun h => ⟨trivial, h.2.2.2.2⟩) id)
  obtain ⟨n, hsv⟩ := C105_saved_as_read hD hn (fun e h => absurd h (hne e)) hc ho hp ht dir hlim hw
  refine ⟨n, fun fuel hf => ?_⟩
  obtain ⟨e, w', t, saved, got, fin, h1, h2, h3, h4, h5⟩ := hsv fuel hf
  obtain ⟨pre, fs, cts, g1, g0, g2, g3, g4⟩ := any_client hD hI hT hb hs hg ha hn hne h2
  exact ⟨e, w', t, saved, got, fin, pre, fs, cts, h1, h3, h4, h5, g1, g0, g2, g3, g4⟩

/-- C162: of any plain request, whatever became of it and however much of it has arrived, if its fields are within the limits and the disk works: the save is full, and has the fields of all calls, all of
which were sent, or it is partial because of an error of the stream, and has the fields of the calls before the first file that cannot be opened whose data and delimiter arrived, and possibly the next field with a piece of its data. -/
theorem C162_any_saved {env : FileEnv} {req : ClientReq} {os : List ClientOp} {r : Res Unit} {s : ClientStream} (hD : D.Sane) (hI : D.Incremental) (hT : D.Tokenizes) (hb : SafeBoundary b)
    (hs : ∀ o ∈ os, ∀ f, StandsFor env o f → ∃ ct, Sendable D b f ct) (h : plainRequest env req b os = (r, some s)) (ha : Ev.bytes evs <+: s.sink.got) (hn : NoStall evs) (hne : NoErr evs)
    (hc : cfg.Typed) (ho : cfg.openOpts.createNew = true) (hp : cfg.textPolicy ≠ .force) (ht : Nat.min cfg.sizeLimit cfg.memoryThreshold < u64Max ∨ cfg.textPolicy = .ignore) (dir : SaveDir)
    (hl : os.length < cfg.countLimit) (hz : ∀ o ∈ os, ∀ f, StandsFor env o f → f.data.length + b.length + 4 ≤ cfg.sizeLimit) (hw : DiskReady w dir.asPath cfg.countLimit) :
    ∃ n, ∀ fuel, n ≤ fuel → ∃ e w' t saved got fin pre fs cts, withEntries D cfg fuel (Entries.new dir) w (withBody evs b) = (fin.saved e, w', t) ∧
      GroupedByName e.fields saved ∧ e.fieldsCount = got.length ∧ All2 (fun (f : SavedField) g => f.headers = g.1 ∧ f.data.readable w' = .ok g.2) saved got ∧
      pre <+: os ∧ (∀ o post, os = pre ++ o :: post → ∀ f, ¬ StandsFor env o f) ∧ All2 (StandsFor env) pre fs ∧ All2 (Sendable D b) fs cts ∧
      ((pre = os ∧ (∀ o ∈ os, ∀ evs, o.reads env evs → ReadsFine evs) ∧ (encode b fs).length ≤ (Ev.bytes evs).length + 2 ∧ fin = .closed ∧
          All2 (fun a p => a.1 = p.1 ∧ DataOk (dashes ++ b) evs p.2 a.2) got (List.zipWith OutField.asRead fs cts)) ∨
        GetsCut b evs fs cts got fin (fun gs => (upToDelim b gs).length ≤ (Ev.bytes evs).length)) :=
  any_saved hD hI hT hb hs (plain_wrote h) ha hn hne hc ho hp ht dir hl hz hw

theorem Sample.missing_sendable : ∀ o ∈ Sample.missingOps, ∀ f, StandsFor Sample.env o f → ∃ ct, Sendable refDeps b!"b" f ct := by
  intro o ho f hf
  rcases List.mem_append.mp ho with ho | ho
  · exact Sample.ops_sendable o ho f hf
  · simp only [List.mem_singleton] at ho
    subst ho
    obtain ⟨_, h⟩ := hf.opens rfl
    simp [Sample.env] at h

theorem Sample.ops_small : ∀ o ∈ Sample.ops, ∀ f, StandsFor Sample.env o f → f.data.length + (b!"b").length + 4 ≤ Settings.default.sizeLimit := by
  intro o ho f hf
  have key : ∀ f ∈ Sample.flds, f.data.length + (b!"b").length + 4 ≤ Settings.default.sizeLimit := by decide +kernel
  have : ∀ {os : List ClientOp} {fs : List OutField}, All2 (StandsFor Sample.env) os fs → ∀ o ∈ os, ∀ f, StandsFor Sample.env o f → f ∈ fs := by
    intro os fs h
    induction h with
    | nil => simp
    | cons a _ ih =>
      intro o ho f hf
      rcases List.mem_cons.mp ho with rfl | ho
      · rw [hf.unique a]; simp
      · exact List.mem_cons_of_mem _ (ih o ho f hf)
  exact key f (this Sample.ops_fields o ho f hf)

/-- The hypotheses of C162_any_saved are met by a request whose last file does not exist. -/
example : (∀ o ∈ Sample.missingOps, ∀ f, StandsFor Sample.env o f → ∃ ct, Sendable refDeps b!"b" f ct) ∧
    plainRequest Sample.env Sample.req b!"b" Sample.missingOps = (.err (.other 2), some Sample.missingSent) ∧ Ev.bytes [.data Sample.missingSent.sink.got] <+: Sample.missingSent.sink.got ∧
    NoStall [.data Sample.missingSent.sink.got] ∧ Settings.default.textPolicy ≠ .force ∧ Sample.missingOps.length < Settings.default.countLimit ∧
    (∀ o ∈ Sample.missingOps, ∀ f, StandsFor Sample.env o f → f.data.length + (b!"b").length + 4 ≤ Settings.default.sizeLimit) ∧
    DiskReady (Sample.bigDisk Settings.default.countLimit) [b!"d"] Settings.default.countLimit := by
  refine ⟨Sample.missing_sendable, by decide +kernel, by simp [Ev.bytes], by decide +kernel, by simp [Settings.default], by decide +kernel, fun o ho f hf => ?_, Sample.bigDisk_ready _ _⟩
  rcases List.mem_append.mp ho with ho | ho
  · exact Sample.ops_small o ho f hf
  · simp only [List.mem_singleton] at ho
    subst ho
    obtain ⟨_, h⟩ := hf.opens rfl
    simp [Sample.env] at h

/-- C162 for sized requests. -/
theorem C162_any_sized {env : FileEnv} {req : ClientReq} {os : List ClientOp} {r : Res Unit} {applied : List (Bytes × Option Nat)} {s : ClientStream} (hD : D.Sane) (hI : D.Incremental) (hT : D.Tokenizes) (hb : SafeBoundary b)
    (hs : ∀ o ∈ os, ∀ f, StandsFor env o f → ∃ ct, Sendable D b f ct) (h : sizedRequest env req b os = (r, applied, some s)) (ha : Ev.bytes evs <+: s.sink.got) (hn : NoStall evs) (hne : NoErr evs)
    (hc : cfg.Typed) (ho : cfg.openOpts.createNew = true) (hp : cfg.textPolicy ≠ .force) (ht : Nat.min cfg.sizeLimit cfg.memoryThreshold < u64Max ∨ cfg.textPolicy = .ignore) (dir : SaveDir)
    (hl : os.length < cfg.countLimit) (hz : ∀ o ∈ os, ∀ f, StandsFor env o f → f.data.length + b.length + 4 ≤ cfg.sizeLimit) (hw : DiskReady w dir.asPath cfg.countLimit) :
    ∃ n, ∀ fuel, n ≤ fuel → ∃ e w' t saved got fin pre fs cts, withEntries D cfg fuel (Entries.new dir) w (withBody evs b) = (fin.saved e, w', t) ∧
      GroupedByName e.fields saved ∧ e.fieldsCount = got.length ∧ All2 (fun (f : SavedField) g => f.headers = g.1 ∧ f.data.readable w' = .ok g.2) saved got ∧
      pre <+: os ∧ (∀ o post, os = pre ++ o :: post → ∀ f, ¬ StandsFor env o f) ∧ All2 (StandsFor env) pre fs ∧ All2 (Sendable D b) fs cts ∧
      ((pre = os ∧ (∀ o ∈ os, ∀ evs, o.reads env evs → ReadsFine evs) ∧ (encode b fs).length ≤ (Ev.bytes evs).length + 2 ∧ fin = .closed ∧
          All2 (fun a p => a.1 = p.1 ∧ DataOk (dashes ++ b) evs p.2 a.2) got (List.zipWith OutField.asRead fs cts)) ∨
        GetsCut b evs fs cts got fin (fun gs => (upToDelim b gs).length ≤ (Ev.bytes evs).length)) :=
  any_saved hD hI hT hb hs (.inl (sized_wrote h)) ha hn hne hc ho hp ht dir hl hz hw

/-- The hypotheses of C162_any_sized are met; half of the request arrives. -/
example : (∀ o ∈ Sample.ops, ∀ f, StandsFor Sample.env o f → ∃ ct, Sendable refDeps b!"b" f ct) ∧
    (∃ applied s, sizedRequest Sample.env Sample.req b!"b" Sample.ops = (.ok (), applied, some s) ∧ Ev.bytes [.data (Sample.sent.sink.got.take 100)] <+: s.sink.got) ∧
    Sample.ops.length < Settings.default.countLimit ∧ (∀ o ∈ Sample.ops, ∀ f, StandsFor Sample.env o f → f.data.length + (b!"b").length + 4 ≤ Settings.default.sizeLimit) ∧
    DiskReady (Sample.bigDisk Settings.default.countLimit) [b!"d"] Settings.default.countLimit :=
  ⟨Sample.ops_sendable, ⟨[(b!"b", some Sample.sent.sink.got.length)], ⟨[(b!"b", some Sample.sent.sink.got.length)], ⟨[], Sample.sent.sink.got⟩, none⟩, by decide +kernel, by decide +kernel⟩, by decide +kernel,
    Sample.ops_small, Sample.bigDisk_ready _ _⟩

/-- C162 for lazy requests whose reads are not interrupted: the save is full, and has the fields of all calls, all of which were sent and have arrived, or it is partial because of an error of the stream. -/
theorem C162_any_lazy {env : LazyEnv} {os : List ClientOp} {m : Nat} {req : ClientReq} {r : SendRes} {left : LazyMp} {s : ClientStream} (hD : D.Sane) (hI : D.Incremental) (hT : D.Tokenizes) (hb : SafeBoundary b)
    (hs : ∀ o ∈ os, ∀ f, StandsFor env.toFileEnv.dropErrs o.dropErrs f → ∃ ct, Sendable D b f ct) (hm : m ≠ 0) (hos : os ≠ []) (hni : NoInterrupt env.toFileEnv os)
    (h : (LazyMp.build os).send env b m req = (r, left, some s)) (ha : Ev.bytes evs <+: s.sink.got) (hn : NoStall evs) (hne : NoErr evs)
    (hc : cfg.Typed) (ho : cfg.openOpts.createNew = true) (hp : cfg.textPolicy ≠ .force) (ht : Nat.min cfg.sizeLimit cfg.memoryThreshold < u64Max ∨ cfg.textPolicy = .ignore) (dir : SaveDir)
    (hl : os.length < cfg.countLimit) (hz : ∀ o ∈ os, ∀ f, StandsFor env.toFileEnv.dropErrs o.dropErrs f → f.data.length + b.length + 4 ≤ cfg.sizeLimit) (hw : DiskReady w dir.asPath cfg.countLimit) :
    ∃ n, ∀ fuel, n ≤ fuel → ∃ e w' t saved got fin fs cts, withEntries D cfg fuel (Entries.new dir) w (withBody evs b) = (fin.saved e, w', t) ∧
      GroupedByName e.fields saved ∧ e.fieldsCount = got.length ∧ All2 (fun (f : SavedField) g => f.headers = g.1 ∧ f.data.readable w' = .ok g.2) saved got ∧
      All2 (fun o f => StandsFor env.toFileEnv.dropErrs o.dropErrs f) os fs ∧ All2 (Sendable D b) (lazyOrder fs) cts ∧
      ((All2 (StandsFor env.toFileEnv) os fs ∧ (∀ o ∈ os, ∀ evs, o.reads env.toFileEnv evs → ReadsFine evs) ∧ Ev.bytes evs = encodeLazy b (lazyOrder fs) ∧ fin = .closed ∧
          All2 (fun a p => a.1 = p.1 ∧ DataOk (dashes ++ b) evs p.2 a.2) got (List.zipWith OutField.asRead (lazyOrder fs) cts)) ∨
        GetsCut b evs (lazyOrder fs) cts got fin (fun gs => (crlf ++ upToDelim b gs).length ≤ (Ev.bytes evs).length)) := by
  have hlim : WithinLimits D cfg b evs := by
    intro got fin hR
    obtain ⟨fs, cts, hf, hcts, hh⟩ := C86_any_lazy hD hI hT hb hs hm hos hni h ha hn hne hR
    refine any_lengths hcts (by rw [lazyOrder_len, ← hf.length]; exact hl) (fun f hff => ?_) (hh.imp (fun h => ⟨trivial, h.2.2.2.2⟩) id)
    have hmem : f ∈ fs := by
      simp only [lazyOrder, List.mem_append, List.mem_filter, List.mem_reverse] at hff
      rcases hff with h | h <;> exact h.1
    obtain ⟨o, h1, h2⟩ := all2_mem_right hf f hmem
    exact hz o h1 f h2
  obtain ⟨n, hsv⟩ := C105_saved_as_read hD hn (fun e h => absurd h (hne e)) hc ho hp ht dir hlim hw
  refine ⟨n, fun fuel hf => ?_⟩
  obtain ⟨e, w', t, saved, got, fin, h1, h2, h3, h4, h5⟩ := hsv fuel hf
  obtain ⟨fs, cts, g2, g3, g4⟩ := C86_any_lazy hD hI hT hb hs hm hos hni h ha hn hne h2
  exact ⟨e, w', t, saved, got, fin, fs, cts, h1, h3, h4, h5, g2, g3, g4⟩

/-- The hypotheses of C162_any_lazy are met; half of the request arrives. -/
example : (∀ o ∈ Sample.lops, ∀ f, StandsFor Sample.lenv.toFileEnv.dropErrs o.dropErrs f → ∃ ct, Sendable refDeps b!"b" f ct) ∧ Sample.lops ≠ [] ∧ NoInterrupt Sample.lenv.toFileEnv Sample.lops ∧
    (∃ s, (LazyMp.build Sample.lops).send Sample.lenv b!"b" 8192 Sample.req = (.ok, [], some s) ∧ Ev.bytes [.data (Sample.lread.take 100)] <+: s.sink.got) ∧
    Sample.lops.length < Settings.default.countLimit ∧ (∀ o ∈ Sample.lops, ∀ f, StandsFor Sample.lenv.toFileEnv.dropErrs o.dropErrs f → f.data.length + (b!"b").length + 4 ≤ Settings.default.sizeLimit) ∧
    DiskReady (Sample.bigDisk Settings.default.countLimit) [b!"d"] Settings.default.countLimit := by
  refine ⟨Sample.lops_sendable, by simp [Sample.lops], fun o ho evs hr => Sample.lops_noErr o ho evs hr _,
    ⟨((LazyMp.send Sample.lenv b!"b" 8192 (LazyMp.build Sample.lops) Sample.req).2.2).getD ⟨[], ⟨[], []⟩, none⟩, by decide +kernel, by decide +kernel⟩, by decide +kernel, fun o ho f hf => ?_,
    Sample.bigDisk_ready _ _⟩
  have hall := all2_of_map (all2_dropErrs Sample.lops_noErr Sample.lops_fields)
  have key : ∀ f ∈ Sample.lflds, f.data.length + (b!"b").length + 4 ≤ Settings.default.sizeLimit := by decide +kernel
  have : ∀ {os : List ClientOp} {fs : List OutField}, All2 (fun o f => StandsFor Sample.lenv.toFileEnv.dropErrs o.dropErrs f) os fs → ∀ o ∈ os, ∀ f, StandsFor Sample.lenv.toFileEnv.dropErrs o.dropErrs f → f ∈ fs := by
    intro os fs h
    induction h with
    | nil => simp
    | cons a _ ih =>
      intro o ho f hf
      rcases List.mem_cons.mp ho with rfl | ho
      · rw [hf.unique a]; simp
      · exact List.mem_cons_of_mem _ (ih o ho f hf)
  exact key f (this hall o ho f hf)

end Multipart

import Verif.Props.EndMeansAll

/-! C86 for every client: what a server reads of a plain request, whatever becomes of it. -/
namespace Multipart

variable {D : Deps} {b : Bytes} {evs : List Ev} {got : List (FieldHeaders × Bytes)} {fin : Ending}

theorem any_client {env : FileEnv} {os : List ClientOp} {all : Bytes} (hD : D.Sane) (hI : D.Incremental) (hT : D.Tokenizes) (hb : SafeBoundary b)
    (hs : ∀ o ∈ os, ∀ f, StandsFor env o f → ∃ ct, Sendable D b f ct) 
    (hg : (∃ fs, All2 (StandsFor env) os fs ∧ (∀ o ∈ os, ∀ evs, o.reads env evs → ReadsFine evs) ∧ all <+: encode b fs) ∨ (∃ pre fs, pre <+: os ∧ (∀ o post, os = pre ++ o :: post → ∀ f, ¬ StandsFor env o f) ∧ All2 (StandsFor env) pre fs ∧ all <+: encodeOpen b false fs)) (ha : Ev.bytes evs <+: all) (hn : NoStall evs) (hne : NoErr evs)
    (hr : Reads D (withBody evs b) got fin) :
    ∃ pre fs cts, pre <+: os ∧ (∀ o post, os = pre ++ o :: post → ∀ f, ¬ StandsFor env o f) ∧ All2 (StandsFor env) pre fs ∧ All2 (Sendable D b) fs cts ∧
      ((pre = os ∧ (∀ o ∈ os, ∀ evs, o.reads env evs → ReadsFine evs) ∧ (encode b fs).length ≤ (Ev.bytes evs).length + 2 ∧ fin = .closed ∧
          All2 (fun a p => a.1 = p.1 ∧ DataOk (dashes ++ b) evs p.2 a.2) got (List.zipWith OutField.asRead fs cts)) ∨
        GetsCut b evs fs cts got fin (fun gs => (upToDelim b gs).length ≤ (Ev.bytes evs).length)) := by
  rcases hg with ⟨fs, hf, hfine, hp⟩ | ⟨pre, fs, hsub, hmax, hf, hp⟩
  · obtain ⟨cts, hc⟩ := all2_can_send hf hs
    obtain ⟨lost, hl⟩ := ha.trans hp
    refine ⟨os, fs, cts, List.prefix_rfl, fun o post h => by simpa using congrArg List.length h, hf, hc, ?_⟩
    by_cases hll : lost.length ≤ 2
    · have hP := short_parts (pre := []) (tail := crlf) hT hb hc first_nil (by rw [← encode_with, List.nil_append]; exact hl.symm) hll
      obtain ⟨h1, h2⟩ := C10_entries_are_parts hD hn hne hP hr
      exact .inl ⟨rfl, hfine, by rw [← hl, List.length_append]; omega, h1, h2⟩
    · exact .inr (gets_cut (pre := []) (tail := crlf) (lost := lost) hD hI hT hb hc hn hne first_nil (by rw [← encode_with, List.nil_append]; exact hl.symm)
        (by simp only [crlf, List.length_cons, List.length_nil]; omega) hr)
  · obtain ⟨cts, hc⟩ := all2_can_send hf fun o ho => hs o (hsub.subset ho)
    obtain ⟨lost, hl⟩ := ha.trans hp
    refine ⟨pre, fs, cts, hsub, hmax, hf, hc, .inr ?_⟩
    have he := encodeOpen_closed b fs false
    have hlead : lead false ++ encode b fs = encode b fs := by simp [lead]
    rw [hlead, ← hl, List.append_assoc] at he
    refine gets_cut (pre := []) (tail := crlf) hD hI hT hb hc hn hne first_nil (by rw [← encode_with, List.nil_append]; exact he.symm) ?_ hr
    have : (b!"--\r\n").length = 4 := by decide
    simp only [List.length_append, crlf, List.length_cons, List.length_nil, dashes]
    omega

/-- C86 for every outcome of a plain request (also if a file cannot be opened or a stream fails), and any part of it that arrives: either the client has sent all it had, and the server reads exactly the
fields of all calls; or the server reads fields of the calls before the first file that cannot be opened, those whose data and delimiter arrived, possibly the next field with a piece of its data, and then always gets an error. -/
theorem C86_any_client {env : FileEnv} {req : ClientReq} {os : List ClientOp} {r : Res Unit} {s : ClientStream} (hD : D.Sane) (hI : D.Incremental) (hT : D.Tokenizes) (hb : SafeBoundary b)
    (hs : ∀ o ∈ os, ∀ f, StandsFor env o f → ∃ ct, Sendable D b f ct) (h : plainRequest env req b os = (r, some s)) (ha : Ev.bytes evs <+: s.sink.got) (hn : NoStall evs) (hne : NoErr evs)
    (hr : Reads D (withBody evs b) got fin) :
    ∃ pre fs cts, pre <+: os ∧ (∀ o post, os = pre ++ o :: post → ∀ f, ¬ StandsFor env o f) ∧ All2 (StandsFor env) pre fs ∧ All2 (Sendable D b) fs cts ∧
      ((pre = os ∧ (∀ o ∈ os, ∀ evs, o.reads env evs → ReadsFine evs) ∧ (encode b fs).length ≤ (Ev.bytes evs).length + 2 ∧ fin = .closed ∧
          All2 (fun a p => a.1 = p.1 ∧ DataOk (dashes ++ b) evs p.2 a.2) got (List.zipWith OutField.asRead fs cts)) ∨
        GetsCut b evs fs cts got fin (fun gs => (upToDelim b gs).length ≤ (Ev.bytes evs).length)) :=
  any_client hD hI hT hb hs (plain_wrote h) ha hn hne hr

def Sample.missingOps : List ClientOp := Sample.ops ++ [.file b!"gone" [b!"nowhere"]]

def Sample.missingSent : ClientStream := ((plainRequest Sample.env Sample.req b!"b" Sample.missingOps).2).getD ⟨[], ⟨[], []⟩, none⟩

/-- The hypotheses of C86_any_client are met by a request whose last file does not exist. All that was written arrives. -/
example : (∀ o ∈ Sample.missingOps, ∀ f, StandsFor Sample.env o f → ∃ ct, Sendable refDeps b!"b" f ct) ∧
    plainRequest Sample.env Sample.req b!"b" Sample.missingOps = (.err (.other 2), some Sample.missingSent) ∧ Ev.bytes [.data Sample.missingSent.sink.got] <+: Sample.missingSent.sink.got ∧
    encode b!"b" Sample.flds = Sample.missingSent.sink.got ++ b!"\r\n--b--\r\n" ∧ ∃ got fin, Reads refDeps (withBody [.data Sample.missingSent.sink.got] b!"b") got fin := by
  refine ⟨fun o ho f hf => ?_, by decide +kernel, by simp [Ev.bytes], by decide +kernel, C10_reads_total (evs := _) (b := _) refDeps_sane ⟨[], rfl⟩⟩
  rcases List.mem_append.mp ho with ho | ho
  · exact Sample.ops_sendable o ho f hf
  · simp only [List.mem_singleton] at ho
    subst ho
    obtain ⟨_, h⟩ := hf.opens rfl
    simp [Sample.env] at h

theorem sized_wrote {env : FileEnv} {req : ClientReq} {os : List ClientOp} {r : Res Unit} {applied : List (Bytes × Option Nat)} {s : ClientStream} (h : sizedRequest env req b os = (r, applied, some s)) :
    ∃ fs, All2 (StandsFor env) os fs ∧ (∀ o ∈ os, ∀ evs, o.reads env evs → ReadsFine evs) ∧ s.sink.got <+: encode b fs := by
  rcases C27_outcome h with ⟨h1, -⟩ | ⟨fs, h1, -, hf, ⟨-, -, h2⟩ | ⟨-, _, -, -, h2⟩ | ⟨-, -, s', _, h2, -, h3, -⟩⟩
  · cases h1
  · cases h2
  · cases h2
  · cases h2; exact ⟨fs, h1, hf, h3⟩

/-- C86 for every outcome of a sized request. -/
theorem C86_any_sized {env : FileEnv} {req : ClientReq} {os : List ClientOp} {r : Res Unit} {applied : List (Bytes × Option Nat)} {s : ClientStream} (hD : D.Sane) (hI : D.Incremental) (hT : D.Tokenizes) (hb : SafeBoundary b)
    (hs : ∀ o ∈ os, ∀ f, StandsFor env o f → ∃ ct, Sendable D b f ct) (h : sizedRequest env req b os = (r, applied, some s)) (ha : Ev.bytes evs <+: s.sink.got) (hn : NoStall evs) (hne : NoErr evs)
    (hr : Reads D (withBody evs b) got fin) :
    ∃ pre fs cts, pre <+: os ∧ (∀ o post, os = pre ++ o :: post → ∀ f, ¬ StandsFor env o f) ∧ All2 (StandsFor env) pre fs ∧ All2 (Sendable D b) fs cts ∧
      ((pre = os ∧ (∀ o ∈ os, ∀ evs, o.reads env evs → ReadsFine evs) ∧ (encode b fs).length ≤ (Ev.bytes evs).length + 2 ∧ fin = .closed ∧
          All2 (fun a p => a.1 = p.1 ∧ DataOk (dashes ++ b) evs p.2 a.2) got (List.zipWith OutField.asRead fs cts)) ∨
        GetsCut b evs fs cts got fin (fun gs => (upToDelim b gs).length ≤ (Ev.bytes evs).length)) :=
  any_client hD hI hT hb hs (.inl (sized_wrote h)) ha hn hne hr

/-- The hypotheses of C86_any_sized are met; half of the request arrives. -/
example : (∀ o ∈ Sample.ops, ∀ f, StandsFor Sample.env o f → ∃ ct, Sendable refDeps b!"b" f ct) ∧
    (∃ applied s, sizedRequest Sample.env Sample.req b!"b" Sample.ops = (.ok (), applied, some s) ∧ Ev.bytes [.data (Sample.sent.sink.got.take 100)] <+: s.sink.got) ∧
    ∃ got fin, Reads refDeps (withBody [.data (Sample.sent.sink.got.take 100)] b!"b") got fin :=
  ⟨Sample.ops_sendable, ⟨[(b!"b", some Sample.sent.sink.got.length)], ⟨[(b!"b", some Sample.sent.sink.got.length)], ⟨[], Sample.sent.sink.got⟩, none⟩, by decide +kernel, by decide +kernel⟩,
    C10_reads_total (evs := _) (b := _) refDeps_sane ⟨[], rfl⟩⟩

/-- C86 for every outcome of a lazy request whose reads are not interrupted, and any part of it that arrives: either the client has sent all it had, and all of it has arrived and is read exactly; or the
server reads the fields (as if no stream had failed) whose data and delimiter arrived, possibly the next field with a piece of its data, and then always gets an error. -/
theorem C86_any_lazy {env : LazyEnv} {os : List ClientOp} {n : Nat} {req : ClientReq} {r : SendRes} {m : LazyMp} {s : ClientStream} (hD : D.Sane) (hI : D.Incremental) (hT : D.Tokenizes) (hb : SafeBoundary b)
    (hs : ∀ o ∈ os, ∀ f, StandsFor env.toFileEnv.dropErrs o.dropErrs f → ∃ ct, Sendable D b f ct) (hn0 : n ≠ 0) (ho : os ≠ []) (hni : NoInterrupt env.toFileEnv os)
    (h : (LazyMp.build os).send env b n req = (r, m, some s)) (ha : Ev.bytes evs <+: s.sink.got) (hn : NoStall evs) (hne : NoErr evs) (hr : Reads D (withBody evs b) got fin) :
    ∃ fs cts, All2 (fun o f => StandsFor env.toFileEnv.dropErrs o.dropErrs f) os fs ∧ All2 (Sendable D b) (lazyOrder fs) cts ∧
      ((All2 (StandsFor env.toFileEnv) os fs ∧ (∀ o ∈ os, ∀ evs, o.reads env.toFileEnv evs → ReadsFine evs) ∧ Ev.bytes evs = encodeLazy b (lazyOrder fs) ∧ fin = .closed ∧
          All2 (fun a p => a.1 = p.1 ∧ DataOk (dashes ++ b) evs p.2 a.2) got (List.zipWith OutField.asRead (lazyOrder fs) cts)) ∨
        GetsCut b evs (lazyOrder fs) cts got fin (fun gs => (crlf ++ upToDelim b gs).length ≤ (Ev.bytes evs).length)) := by
  obtain ⟨fs, hf, hp, hfine⟩ := lazy_wrote hn0 ho hni h
  obtain ⟨cts0, hs0⟩ := all2_can_send (all2_of_map hf) hs
  obtain ⟨cts, hc, -⟩ := sendable_lazy hs0
  obtain ⟨lost, hl⟩ := ha.trans hp
  have hne0 : lazyOrder fs ≠ [] := fun hh => ho (List.map_eq_nil_iff.mp ((all2_nil_iff hf).mpr (lazyOrder_eq_nil.mp hh)))
  have hd : dashes ++ b ≠ [] := by simp [dashes]
  have hnil : Absent (dashes ++ b) [] := fun q h => hd (by simpa [OccursAt] using h)
  have hpre : ∀ z, dashes ++ b <+: z → FirstAt (dashes ++ b) (crlf ++ z) crlf.length := fun z hz => by
    have h0 : FirstAt (dashes ++ b) z 0 := ⟨hz, fun q hq => by omega⟩
    have hfirst := FirstAt.sep hd (hb.notMem (by decide : (0x0D : Byte) ∈ b!"\r\n\"; :=")) hnil (FirstAt.sep hd (hb.notMem (by decide : (0x0A : Byte) ∈ b!"\r\n\"; :=")) hnil h0)
    simpa [crlf] using hfirst
  have he : crlf ++ encodeWith b [] (lazyOrder fs) = Ev.bytes evs ++ lost := by rw [← encodeLazy_with b _ hne0, hl]
  refine ⟨fs, cts, all2_of_map hf, hc, ?_⟩
  by_cases hll : lost = []
  · have hP := short_parts hT hb hc hpre he (by simp [hll])
    obtain ⟨h1, h2⟩ := C10_entries_are_parts hD hn hne hP hr
    rw [hll, List.append_nil] at hl
    obtain ⟨hf', hall⟩ := hfine (hp.eq_of_length_le (by rw [← hl]; exact ha.length_le))
    exact .inl ⟨hf', hall, hl, h1, h2⟩
  · exact .inr (gets_cut hD hI hT hb hc hn hne hpre he (by simpa using List.length_pos_iff.mpr hll) hr)

/-- The hypotheses of C86_any_lazy are met; half of the request arrives. -/
example : (∀ o ∈ Sample.lops, ∀ f, StandsFor Sample.lenv.toFileEnv.dropErrs o.dropErrs f → ∃ ct, Sendable refDeps b!"b" f ct) ∧ Sample.lops ≠ [] ∧ NoInterrupt Sample.lenv.toFileEnv Sample.lops ∧
    (∃ s, (LazyMp.build Sample.lops).send Sample.lenv b!"b" 8192 Sample.req = (.ok, [], some s) ∧ Ev.bytes [.data (Sample.lread.take 100)] <+: s.sink.got) ∧
    ∃ got fin, Reads refDeps (withBody [.data (Sample.lread.take 100)] b!"b") got fin :=
  ⟨Sample.lops_sendable, by simp [Sample.lops], fun o ho evs hr => Sample.lops_noErr o ho evs hr _,
    ⟨((LazyMp.send Sample.lenv b!"b" 8192 (LazyMp.build Sample.lops) Sample.req).2.2).getD ⟨[], ⟨[], []⟩, none⟩, by decide +kernel, by decide +kernel⟩,
    C10_reads_total (evs := _) (b := _) refDeps_sane ⟨[], rfl⟩⟩

end Multipart

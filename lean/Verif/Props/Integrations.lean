import Verif.Spec.Integrations
import Verif.Props.LazyHyper
/-!
# What the clients send with Hyper arrives at every server integration (C92)
-/
namespace Multipart

variable {D : Deps} {b url : Bytes} {os : List ClientOp} {fs : List OutField} {cts : List (Option Mime)} {evs : List Ev}

/-- C70: `Multipart::from_request` for `tiny_http` gives a reader exactly if the first `Content-Type` header contains `boundary=`; it reads the body with the boundary that follows its first
occurrence. Otherwise the request is given back. -/
theorem C70_tiny {r : TinyReq} {br : BR} :
    (fromRequest tinyHttp r = .ok br ↔ ∃ h pre b tail, FirstHeader r.headers b!"Content-Type" h ∧ h.val = pre ++ b!"boundary=" ++ b ++ tail ∧ FirstAt b!"boundary=" h.val pre.length ∧
      (0x3B : Byte) ∉ b ∧ Rest tail ∧ br = withBody r.body b) ∧ ∀ q, fromRequest tinyHttp r = .error q → q = r := by
  have key : fromRequest tinyHttp r = match tinyBoundary r with | some b => .ok (withBody r.body b) | none => .error r := rfl
  rw [key]
  cases hb : tinyBoundary r with
  | none =>
    refine ⟨⟨fun h => by simp at h, ?_⟩, fun q h => by simp only [Except.error.injEq] at h; exact h.symm⟩
    rintro ⟨h, pre, b, tail, h1, h2, h3, h4, h5, -⟩
    rw [C62_tiny_partial.mpr ⟨h, pre, tail, h1, h2, h3, h4, h5⟩] at hb
    cases hb
  | some b =>
    refine ⟨⟨fun h => ?_, ?_⟩, fun q h => by simp at h⟩
    · obtain ⟨h', pre, tail, h1, h2, h3, h4, h5⟩ := C62_tiny_partial.mp hb
      simp only [Except.ok.injEq] at h
      exact ⟨h', pre, b, tail, h1, h2, h3, h4, h5, h.symm⟩
    · rintro ⟨h, pre, b', tail, h1, h2, h3, h4, h5, rfl⟩
      rw [C62_tiny_partial.mpr ⟨h, pre, tail, h1, h2, h3, h4, h5⟩] at hb
      cases hb; rfl

example : fromRequest tinyHttp ⟨.post, [⟨b!"Host", b!"h"⟩, ⟨b!"content-type", b!"multipart/form-data; boundary=bnd; x=y"⟩], [.data b!"--bnd--"]⟩ = .ok (withBody [.data b!"--bnd--"] b!"bnd") :=
  C70_tiny.1.mpr ⟨⟨b!"content-type", b!"multipart/form-data; boundary=bnd; x=y"⟩, b!"multipart/form-data; ", b!"bnd", b!"; x=y",
    (findHeader_some_iff _ _ _).mp (by decide +kernel), rfl, findSub_some (by decide +kernel), by decide, .inr rfl, rfl⟩

/-! ## C92 -/

theorem multipartMime_text : (multipartMime b).text = b!"multipart/form-data; " ++ b!"boundary=" ++ b ++ [] := by
  simp [HMime.text, multipartMime, TopLevel.asStr, SubLevel.asStr, Attr.asStr, Value.asStr]

theorem multipartMime_first : FirstAt b!"boundary=" (multipartMime b).text b!"multipart/form-data; ".length := by
  rw [multipartMime_text]
  refine ⟨?_, ?_⟩
  · unfold OccursAt
    rw [List.append_nil, List.append_assoc, List.drop_left]
    exact List.prefix_append _ _
  · intro q hq
    unfold OccursAt
    rw [List.append_nil, List.drop_append_of_le_length (by have : b!"multipart/form-data; ".length ≤ (b!"multipart/form-data; " ++ b!"boundary=").length := by decide
                                                           omega)]
    intro h
    have hlen : ∀ q, q < b!"multipart/form-data; ".length → b!"boundary=".length ≤ ((b!"multipart/form-data; " ++ b!"boundary=").drop q).length := by decide
    have hno : ∀ q, q < b!"multipart/form-data; ".length → ¬ b!"boundary=" <+: (b!"multipart/form-data; " ++ b!"boundary=").drop q := by decide
    exact hno q hq (List.prefix_of_prefix_length_le h (List.prefix_append _ _) (hlen q hq))

theorem arrives_of (hD : D.Sane) (hb : SafeBoundary b) (hn : NoStall evs) (hne : NoErr evs) (hl : fs.length = cts.length)
    (hP : Parts D (dashes ++ b) (Ev.bytes evs) (List.zipWith OutField.asRead fs cts) .closed) : Arrives D b evs (multipartMime b) fs cts := by
  refine ⟨withBody evs b, ⟨C10_reads_total hD ⟨[], rfl⟩, fun got fin hr => C10_entries_are_parts hD hn hne hP hr, fun cfg w dir ha => upload hD hn hne hl hP dir ha⟩, ?_, ?_⟩
  · intro m' hm
    obtain ⟨m, h1, -, h2⟩ := (C69_hyper_client (b := b) ⟨.post, none, none⟩ none hb).1 rfl
    have : m = multipartMime b := by
      unfold HyperClientReq.applyHeaders at h1
      simpa using h1.symm
    subst this
    obtain ⟨g1, g2, g3⟩ := h2 m' evs hm
    refine ⟨fun α normal multipart => ?_, ?_, ?_⟩
    · simp only [switchHandle, fromRequest, hyperHttp, g1]
    · simp only [fromRequest, ironHttp, g2]
    · simp only [multipartBody, fromRequest, nickelHttp, g3]
  · intro hs h hf hv
    refine C70_tiny.1.mpr ⟨h, b!"multipart/form-data; ", b, [], hf, by rw [hv, multipartMime_text], by rw [hv]; exact multipartMime_first, ?_, .inl rfl, rfl⟩
    intro hc
    have := hb.2 _ hc
    revert this; decide

theorem applied_mime {q : HyperClientReq} {len : Option Nat} {m : HMime} (hq : q.method = .post) (hm : (q.applyHeaders b len).2.contentType = some m) : m = multipartMime b := by
  unfold HyperClientReq.applyHeaders at hm
  rw [if_neg (by simp [hq])] at hm
  cases len <;> simpa using hm.symm

/-- C92: fields that can be represented, sent with success by the client with the headers that its Hyper backend applies and received in any pieces, arrive at every integration. -/
theorem C92_plain {env : FileEnv} {req : ClientReq} {s : ClientStream} (hD : D.Sane) (hT : D.Tokenizes) (hb : SafeBoundary b) (h : plainRequest env req b os = (.ok (), some s))
    (hos : All2 (StandsFor env) os fs) (hs : All2 (Sendable D b) fs cts) {q : HyperClientReq} {len : Option Nat} {m : HMime} (hq : q.method = .post)
    (hm : (q.applyHeaders b len).2.contentType = some m) (hn : NoStall evs) (hne : NoErr evs) (he : Ev.bytes evs = s.sink.got) : Arrives D b evs m fs cts := by
  rw [applied_mime hq hm]
  exact arrives_of hD hb hn hne hs.length (sent_parts hT hb h hos hs he)

/-- C92 for sized requests, of which the server gets as many bytes as the request says with the headers that were applied last. -/
theorem C92_sized {env : FileEnv} {req : ClientReq} {s : ClientStream} {applied : List (Bytes × Option Nat)} (hD : D.Sane) (hT : D.Tokenizes) (hb : SafeBoundary b)
    (h : sizedRequest env req b os = (.ok (), applied, some s)) (hos : All2 (StandsFor env) os fs) (hs : All2 (Sendable D b) fs cts) {q : HyperClientReq} {len : Option Nat} {n : Nat} {m : HMime}
    (hq : q.method = .post) (hl : applied.getLast? = some (b, len)) (hm : (q.applyHeaders b len).2.contentType = some m) (hc : (q.applyHeaders b len).2.contentLength = some n)
    (hn : NoStall evs) (hne : NoErr evs) (he : Ev.bytes evs = s.sink.got.take n) : Arrives D b evs m fs cts := by
  rw [applied_mime hq hm]
  obtain ⟨t, fs', ht, h1, h2, h3⟩ := C27_length h
  cases ht
  have hfs : fs' = fs := by
    clear h h2 hs
    induction h1 generalizing fs with
    | nil => cases hos; rfl
    | cons hf _ ih =>
      cases hos with
      | cons hf' hos => rw [hf.unique hf', ih hos]
  subst hfs
  rw [h3] at hl
  simp only [List.getLast?_append, List.getLast?_singleton, Option.some_or, Option.some.injEq, Prod.mk.injEq, true_and] at hl
  subst hl
  have : n = s.sink.got.length := by
    unfold HyperClientReq.applyHeaders at hc
    rw [if_neg (by simp [hq])] at hc
    simpa using hc.symm
  subst this
  rw [List.take_length] at he
  refine arrives_of hD hb hn hne hs.length ?_
  rw [he, h2]
  exact encoded_parts hT hb hs

example : Arrives refDeps b!"b" Sample.sentEvs (multipartMime b!"b") Sample.flds Sample.flctypes :=
  C92_plain (q := ⟨.post, none, none⟩) (len := none) refDeps_sane refDeps_tokenizes ⟨by simp, by decide⟩ Sample.sent_eq Sample.ops_fields Sample.sendable rfl rfl (by decide +kernel)
    (by intro e; simp [Sample.sentEvs]) (by decide +kernel)

example : Arrives refDeps b!"b" Sample.sentEvs (multipartMime b!"b") Sample.flds Sample.flctypes :=
  C92_sized (env := Sample.env) (req := Sample.req) (applied := [(b!"b", some Sample.sent.sink.got.length)])
    (s := ⟨[(b!"b", some Sample.sent.sink.got.length)], ⟨[], Sample.sent.sink.got⟩, none⟩) (q := ⟨.post, none, some 3⟩) (len := some Sample.sent.sink.got.length) (n := Sample.sent.sink.got.length)
    refDeps_sane refDeps_tokenizes ⟨by simp, by decide⟩ (by decide +kernel) Sample.ops_fields Sample.sendable rfl rfl rfl rfl (by decide +kernel) (by intro e; simp [Sample.sentEvs]) (by decide +kernel)

/-- C92 for the lazy client, with a stream (nothing is announced) or without text fields (the length is right): see `C87_texts_cut_off` for the others. The text fields come first. -/
theorem C92_lazy {env : LazyEnv} {f : HyperBuilder → HyperBuilder} {q : HyperBuilder} {body : HyperBody} {ns : List Nat} {m : HMime} (hD : D.Sane) (hT : D.Tokenizes) (hb : SafeBoundary b)
    (h : ((LazyMp.build os).clientRequestMut env b url f).1 = .handed q) (hq : q.body = some body) (hm : q.contentType = some m) (hr : NoReadErr env.toFileEnv os) (hz : TrueSizes env os)
    (hf : All2 (StandsFor env.toFileEnv) os fs) (hs : All2 (Sendable D b) (lazyOrder fs) cts) (hc : (∃ o ∈ os, o.isStream = true) ∨ ∀ o ∈ os, o.isText = false)
    (hw : OnWire ns body (Ev.bytes evs)) (hn : NoStall evs) (hne : NoErr evs) : Arrives D b evs m (lazyOrder fs) cts := by
  obtain ⟨p, ho, hp, rfl⟩ := handed_prepared h hq
  rw [clientRequestMut_eq ho hp] at h
  cases h
  cases hm
  exact arrives_of hD hb hn hne hs.length (prepared_parts hT hb hp hr ho hf hs (wire_all hp hr hz hf hc hw) rfl)

example : Arrives refDeps b!"b" [.data Sample.lread] (multipartMime b!"b") (lazyOrder Sample.lflds) Sample.lctypes := by
  refine C92_lazy (ns := [7, 50, 300, 300]) refDeps_sane refDeps_tokenizes ⟨by simp, by decide⟩ Sample.hyper_handed rfl rfl Sample.lops_noErr ?_ Sample.lops_fields Sample.lsendable
    (.inl ⟨_, List.mem_cons_of_mem _ (List.mem_cons_self ..), rfl⟩) ?_ (by decide +kernel) (by intro e; simp)
  · intro n p evs hm hp
    simp only [Sample.lops, List.mem_cons, reduceCtorEq, ClientOp.file.injEq, List.not_mem_nil, or_false, false_or] at hm
    obtain ⟨rfl, rfl⟩ := hm
    cases hp
    rfl
  · have : (Sample.lprep Sample.lops).toBody = .chunked (Sample.lprep Sample.lops) := by decide +kernel
    rw [this, show Ev.bytes [.data Sample.lread] = Sample.lread by simp [Ev.bytes]]
    exact .chunked ⟨by decide, by decide +kernel, rfl⟩

end Multipart

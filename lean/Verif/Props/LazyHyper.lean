import Verif.Spec.LazyHyper
import Verif.Props.Adapters
import Verif.Props.Cut
/-!
# Lazy requests sent with Hyper (C87)
-/
namespace Multipart

variable {D : Deps} {env : LazyEnv} {b url : Bytes} {os : List ClientOp} {fs : List OutField} {cts : List (Option Mime)} {p : Prepared} {f : HyperBuilder → HyperBuilder} {evs : List Ev}
  {ns : List Nat} {q : HyperBuilder} {got : List (FieldHeaders × Bytes)} {fin : Ending}

theorem clientRequestMut_eq (ho : os ≠ []) (h : PreparedFrom env b os p) :
    (LazyMp.build os).clientRequestMut env b url f = (.handed { f (.post url) with contentType := some (multipartMime b), body := some p.toBody }, []) := by
  have hb := C33_boundary_partial h ho []
  simp only [Prepared.reads] at hb
  unfold PreparedFrom at h
  unfold LazyMp.clientRequestMut
  rcases hp : (LazyMp.build os).prepare env b with ⟨r, m⟩
  rw [hp] at h
  simp only at h
  subst h
  simp only [hb]
  have : m = [] := by have := congrArg Prod.snd hp; exact this.symm
  rw [this]

theorem prepared_of_files (hfiles : ∀ o ∈ os, ∀ n e, ¬ FileFails env o n e) : ∃ p, PreparedFrom env b os p := by
  cases h : ((LazyMp.build os).prepare env b).1 with
  | ok p => exact ⟨p, h⟩
  | error err =>
    obtain ⟨pre, o, post, n, e, rfl, h1, -⟩ := (C36_named env b os err).mp h
    exact absurd h1 (hfiles o (by simp) n e)

/-- C87: a request with at least one field whose files can be opened is handed to Hyper as the closure left it, with the content type and the body replaced. From the content type (sent as a
header and parsed again) each adapter reads the boundary of the body. A length is announced exactly if there are no streams. -/
theorem C87_handed (hb : SafeBoundary b) (ho : os ≠ []) (hfiles : ∀ o ∈ os, ∀ n e, ¬ FileFails env o n e) :
    ∃ p m, PreparedFrom env b os p ∧ (LazyMp.build os).clientRequestMut env b url f = (.handed { f (.post url) with contentType := some m, body := some p.toBody }, []) ∧
      p.toBody.fields = p ∧ ((∃ len, p.toBody = .sized p len) ↔ ∀ o ∈ os, o.isStream = false) ∧
      (∃ m', m.SentAs m') ∧ ∀ m' body, m.SentAs m' → hyperBoundary ⟨.post, some m', body⟩ = some b ∧ ironBoundary ⟨.post, some m', body⟩ = some b ∧ nickelBoundary ⟨.post, some m', body⟩ = some b := by
  obtain ⟨p, hp⟩ := prepared_of_files (b := b) hfiles
  obtain ⟨m, hm, h1, h2⟩ := (C69_hyper_client (b := b) ⟨.post, none, none⟩ none hb).1 rfl
  have : m = multipartMime b := by
    unfold HyperClientReq.applyHeaders at hm
    simpa using hm.symm
  subst this
  refine ⟨p, _, hp, clientRequestMut_eq ho hp, ?_, ?_, h1, h2⟩
  · unfold Prepared.toBody; cases p.contentLen <;> rfl
  · obtain ⟨fs, hs⟩ := prepare_spec hp
    have e : (∀ o ∈ os, o.isStream = false) ↔ os.any (·.isStream) = false := by simp
    rw [e]
    unfold Prepared.toBody
    constructor
    · rintro ⟨len, hl⟩
      cases hc : os.any (·.isStream) with
      | false => rfl
      | true => rw [hs.noLen hc] at hl; cases hl
    · intro hc
      cases hl : p.contentLen with
      | none => exact absurd hl (hs.someLen hc)
      | some len => exact ⟨len, rfl⟩

/-- The hypotheses of the theorem above and of C87_plain are met. -/
example : SafeBoundary b!"b" ∧ Sample.lops ≠ [] ∧ ∀ o ∈ Sample.lops, ∀ n e, ¬ FileFails Sample.lenv o n e :=
  ⟨⟨by simp, by decide⟩, by simp [Sample.lops], prepare_opens (Sample.lprep_ok (os := Sample.lops) (by decide +kernel))⟩

/-- C87: `client_request` hands over a POST request to the given URL, with no other headers. -/
theorem C87_plain (ho : os ≠ []) (hfiles : ∀ o ∈ os, ∀ n e, ¬ FileFails env o n e) :
    ∃ p, PreparedFrom env b os p ∧ (LazyMp.build os).clientRequest env b url = (.handed ⟨.post, url, some (multipartMime b), [], some p.toBody⟩, []) := by
  obtain ⟨p, hp⟩ := prepared_of_files (b := b) hfiles
  exact ⟨p, hp, clientRequestMut_eq ho hp⟩

/-- C87: if a file cannot be opened or measured, the error of the first such file is returned and nothing is handed to Hyper. -/
theorem C87_failed (e : IoErr) : ((LazyMp.build os).clientRequestMut env b url f).1 = .failed e ↔
    ∃ pre o post name, os = pre ++ o :: post ∧ FileFails env o name e ∧ ∀ o' ∈ pre, ∀ n e', ¬ FileFails env o' n e' := by
  have key : ((LazyMp.build os).clientRequestMut env b url f).1 = .failed e ↔ ∃ err, ((LazyMp.build os).prepare env b).1 = .error err ∧ err.error = e := by
    unfold LazyMp.clientRequestMut
    rcases (LazyMp.build os).prepare env b with ⟨r, m⟩
    cases r with
    | error err => simp
    | ok p => simp only; cases p.boundary <;> simp
  rw [key]
  constructor
  · rintro ⟨err, h1, h2⟩
    obtain ⟨pre, o, post, name, e', h3, h4, h5, h6, rfl⟩ := (C36_named env b os err).mp h1
    subst h2
    exact ⟨pre, o, post, name, h3, h4, h5⟩
  · rintro ⟨pre, o, post, name, h3, h4, h5⟩
    exact ⟨⟨some name, e⟩, (C36_named env b os _).mpr ⟨pre, o, post, name, e, h3, h4, h5, rfl, rfl⟩, rfl⟩

example : ((LazyMp.build [.text b!"a" b!"x", .file b!"n" [b!"none"]]).clientRequestMut Sample.lenv b!"b" b!"http://x/" id).1 = .failed .notFound := by decide +kernel

/-- C87: without fields, also after the fields were sent once, it panics. -/
theorem C87_empty_panics : LazyMp.clientRequestMut env b [] url f = (.panic, []) := rfl

/-- The full claim C87: what a server gets of a request that was handed to Hyper are all fields and the end. -/
def HyperArrives (D : Deps) : Prop := ∀ (env : LazyEnv) (b url : Bytes) (os : List ClientOp) (f : HyperBuilder → HyperBuilder) (fs : List OutField) (cts : List (Option Mime)) (q : HyperBuilder) (body : HyperBody)
  (ns : List Nat) (evs : List Ev) (got : List (FieldHeaders × Bytes)) (fin : Ending),
  SafeBoundary b → ((LazyMp.build os).clientRequestMut env b url f).1 = .handed q → q.body = some body → NoReadErr env.toFileEnv os → TrueSizes env os → All2 (StandsFor env.toFileEnv) os fs →
  All2 (Sendable D b) (lazyOrder fs) cts → OnWire ns body (Ev.bytes evs) → NoStall evs → NoErr evs → Reads D (withBody evs b) got fin →
  fin = .closed ∧ All2 (fun a e => a.1 = e.1 ∧ DataOk (dashes ++ b) evs e.2 a.2) got (List.zipWith OutField.asRead (lazyOrder fs) cts)

theorem handed_prepared {body : HyperBody} (h : ((LazyMp.build os).clientRequestMut env b url f).1 = .handed q) (hb : q.body = some body) : ∃ p, os ≠ [] ∧ PreparedFrom env b os p ∧ body = p.toBody := by
  have ho : os ≠ [] := by
    rintro rfl
    have := congrArg Prod.fst (C87_empty_panics (env := env) (b := b) (url := url) (f := f))
    rw [show LazyMp.build [] = [] from rfl, this] at h
    cases h
  cases hp : ((LazyMp.build os).prepare env b).1 with
  | error err =>
    unfold LazyMp.clientRequestMut at h
    rcases h2 : (LazyMp.build os).prepare env b with ⟨r, m⟩
    rw [h2] at hp h
    simp only at hp
    subst hp
    simp at h
  | ok p =>
    rw [clientRequestMut_eq ho hp] at h
    simp only [HyperRes.handed.injEq] at h
    subst h
    simp only [Option.some.injEq] at hb
    exact ⟨p, ho, hp, hb.symm⟩

theorem wire_all (hp : PreparedFrom env b os p) (hr : NoReadErr env.toFileEnv os) (hz : TrueSizes env os) (hf : All2 (StandsFor env.toFileEnv) os fs)
    (hc : (∃ o ∈ os, o.isStream = true) ∨ ∀ o ∈ os, o.isText = false) (hw : OnWire ns p.toBody (Ev.bytes evs)) : ReadsOut p ns (Ev.bytes evs) := by
  have hlen := (C31_without_texts_partial hp hr hz hf).1
  unfold Prepared.toBody at hw
  cases hl : p.contentLen with
  | none =>
    rw [hl] at hw
    generalize Ev.bytes evs = x at hw
    cases hw with | chunked h => exact h
  | some len =>
    rw [hl] at hw
    generalize Ev.bytes evs = x at hw
    cases hw with
    | @sized _ u _ h =>
      rcases hc with hc | hc
      · rw [hlen.mpr hc] at hl; cases hl
      · rw [List.take_of_length_le (by rw [C31_exact_partial hp hr hz hc hl h]; exact Nat.le_refl _)]
        exact h

/-- C87, as far as it holds: for requests with a stream (no length is announced) and for those without text fields (it is right). Missing: text fields without a stream, see `C87_texts_cut_off`. -/
theorem C87_arrives_partial {body : HyperBody} (hD : D.Sane) (hT : D.Tokenizes) (hb : SafeBoundary b) (h : ((LazyMp.build os).clientRequestMut env b url f).1 = .handed q) (hq : q.body = some body)
    (hr : NoReadErr env.toFileEnv os) (hz : TrueSizes env os) (hf : All2 (StandsFor env.toFileEnv) os fs) (hs : All2 (Sendable D b) (lazyOrder fs) cts)
    (hc : (∃ o ∈ os, o.isStream = true) ∨ ∀ o ∈ os, o.isText = false) (hw : OnWire ns body (Ev.bytes evs)) (hn : NoStall evs) (hne : NoErr evs) (hrd : Reads D (withBody evs b) got fin) :
    fin = .closed ∧ All2 (fun a e => a.1 = e.1 ∧ DataOk (dashes ++ b) evs e.2 a.2) got (List.zipWith OutField.asRead (lazyOrder fs) cts) := by
  obtain ⟨p, ho, hp, rfl⟩ := handed_prepared h hq
  exact C34_round_trip_partial hD hT hb hp hr ho hf hs (wire_all hp hr hz hf hc hw) hn hne rfl hrd

/-- C87, where it fails: with text fields and without a stream, too short a length is announced, and the server gets an error instead of the end. Before this it gets the fields that fit,
the last of them possibly cut off. -/
theorem C87_texts_cut_off {body : HyperBody} (hD : D.Sane) (hI : D.Incremental) (hT : D.Tokenizes) (hb : SafeBoundary b) (h : ((LazyMp.build os).clientRequestMut env b url f).1 = .handed q)
    (hq : q.body = some body) (hr : NoReadErr env.toFileEnv os) (hz : TrueSizes env os) (hf : All2 (StandsFor env.toFileEnv) os fs) (hs : All2 (Sendable D b) (lazyOrder fs) cts)
    (hns : ∀ o ∈ os, o.isStream = false) (ht : ∃ o ∈ os, o.isText = true) (hw : OnWire ns body (Ev.bytes evs)) (hn : NoStall evs) (hne : NoErr evs) (hrd : Reads D (withBody evs b) got fin) :
    GetsCut b evs (lazyOrder fs) cts got fin (fun gs => (crlf ++ upToDelim b gs).length ≤ (Ev.bytes evs).length) := by
  obtain ⟨p, ho, hp, rfl⟩ := handed_prepared h hq
  obtain ⟨hlen, hlen'⟩ := C31_without_texts_partial hp hr hz hf
  have hpos : 0 < ((fs.filter (·.ctype.isNone)).flatMap (lazyPart b)).length := by
    obtain ⟨o, hm, hot⟩ := ht
    have : ∃ f ∈ fs, f.ctype = none := by
      clear hw hs hlen' hlen hp hns hz hr hq h ho
      induction hf with
      | nil => simp at hm
      | cons hf _ ih =>
        rcases List.mem_cons.mp hm with rfl | hm
        · cases hf <;> simp_all [ClientOp.isText]
        · obtain ⟨f, h1, h2⟩ := ih hm; exact ⟨f, by simp [h1], h2⟩
    obtain ⟨f, h1, h2⟩ := this
    have hmem : f ∈ fs.filter (·.ctype.isNone) := List.mem_filter.mpr ⟨h1, by rw [h2]; rfl⟩
    rw [List.length_pos_iff]
    intro hnil
    have := List.flatMap_eq_nil_iff.mp hnil f hmem
    simp [lazyPart, crlf] at this
  unfold Prepared.toBody at hw
  cases hl : p.contentLen with
  | none =>
    obtain ⟨o, h1, h2⟩ := hlen.mp hl
    rw [hns o h1] at h2; cases h2
  | some len =>
    rw [hl] at hw
    generalize hx : Ev.bytes evs = x at hw
    cases hw with
    | @sized _ u _ hu =>
      have := hlen' len hl ns u hu
      rw [← hx]
      exact C86_lazy_client (lost := u.drop len) hD hI hT hb hp hr ho hf hs hn hne hu (by rw [hx, List.take_append_drop]) (by
        intro hnil
        have := congrArg List.length hnil
        simp at this
        omega) hrd

namespace Sample

theorem hyper_handed : ((LazyMp.build lops).clientRequestMut lenv b!"b" b!"http://x/" id).1 =
    .handed { HyperBuilder.post b!"http://x/" with contentType := some (multipartMime b!"b"), body := some (lprep lops).toBody } := by
  rw [clientRequestMut_eq (p := lprep lops) (by simp [lops]) (lprep_ok (by decide +kernel))]
  rfl

/-- One text field. -/
def oneText : List ClientOp := [.text b!"a" b!"hello"]

def oneField : List OutField := [⟨b!"a", none, none, b!"hello"⟩]

theorem oneText_handed : ((LazyMp.build oneText).clientRequestMut lenv b!"b" b!"http://x/" id).1 =
    .handed { HyperBuilder.post b!"http://x/" with contentType := some (multipartMime b!"b"), body := some (.sized (lprep oneText) 7) } := by
  rw [clientRequestMut_eq (p := lprep oneText) (by simp [oneText]) (lprep_ok (by decide +kernel))]
  decide +kernel

/-- What arrives of it: the announced 7 bytes. -/
def oneWire : Bytes := (okBytes ((lprep oneText).reads [100, 100]).1).take 7

theorem oneText_wire : OnWire [100, 100] (.sized (lprep oneText) 7) (Ev.bytes [.data oneWire]) := by
  have : Ev.bytes [.data oneWire] = (okBytes ((lprep oneText).reads [100, 100]).1).take 7 := by simp [Ev.bytes, oneWire]
  rw [this]
  exact .sized 7 ⟨by decide, by decide +kernel, rfl⟩

theorem oneField_sendable : All2 (Sendable refDeps b!"b") (lazyOrder oneField) [none] := by
  have : lazyOrder oneField = oneField := by decide
  rw [this]
  have := sendable
  cases this with
  | cons h _ => exact .cons h .nil

theorem oneText_noErr : NoReadErr lenv.toFileEnv oneText := by intro o ho evs hr; simp [oneText] at ho; subst ho; exact hr.elim

theorem oneText_sizes : TrueSizes lenv oneText := by intro n q evs hm; simp [oneText] at hm

end Sample

/-- The hypotheses of C87_arrives_partial are met. -/
example : ((LazyMp.build Sample.lops).clientRequestMut Sample.lenv b!"b" b!"http://x/" id).1 =
      .handed { HyperBuilder.post b!"http://x/" with contentType := some (multipartMime b!"b"), body := some (Sample.lprep Sample.lops).toBody } ∧
    NoReadErr Sample.lenv.toFileEnv Sample.lops ∧ (∃ o ∈ Sample.lops, o.isStream = true) ∧ OnWire [7, 50, 300, 300] (Sample.lprep Sample.lops).toBody Sample.lread := by
  refine ⟨Sample.hyper_handed, Sample.lops_noErr, ⟨_, List.mem_cons_of_mem _ (List.mem_cons_self ..), rfl⟩, ?_⟩
  have : (Sample.lprep Sample.lops).toBody = .chunked (Sample.lprep Sample.lops) := by decide +kernel
  rw [this]
  exact .chunked ⟨by decide, by decide +kernel, rfl⟩

/-- The hypotheses of C87_texts_cut_off are met. -/
example : ((LazyMp.build Sample.oneText).clientRequestMut Sample.lenv b!"b" b!"http://x/" id).1 =
      .handed { HyperBuilder.post b!"http://x/" with contentType := some (multipartMime b!"b"), body := some (.sized (Sample.lprep Sample.oneText) 7) } ∧
    NoReadErr Sample.lenv.toFileEnv Sample.oneText ∧ TrueSizes Sample.lenv Sample.oneText ∧ All2 (StandsFor Sample.lenv.toFileEnv) Sample.oneText Sample.oneField ∧
    All2 (Sendable refDeps b!"b") (lazyOrder Sample.oneField) [none] ∧ OnWire [100, 100] (.sized (Sample.lprep Sample.oneText) 7) (Ev.bytes [.data Sample.oneWire]) :=
  ⟨Sample.oneText_handed, Sample.oneText_noErr, Sample.oneText_sizes, .cons (.text _ _) .nil, Sample.oneField_sendable, Sample.oneText_wire⟩

/-- C87 is false of the code: of a request with one text field, 7 bytes of 63 are announced; the server does not get the field. -/
theorem C87_false : ¬ HyperArrives refDeps := by
  intro h
  have hn : NoStall [.data Sample.oneWire] := by decide +kernel
  have hne : NoErr [.data Sample.oneWire] := by intro e; simp
  obtain ⟨got, fin, hr⟩ := C10_reads_total (evs := [.data Sample.oneWire]) (b := b!"b") refDeps_sane ⟨[], rfl⟩
  obtain ⟨rfl, -⟩ := h Sample.lenv b!"b" b!"http://x/" Sample.oneText id Sample.oneField [none] _ _ [100, 100] _ got fin ⟨by simp, by decide⟩ Sample.oneText_handed rfl Sample.oneText_noErr Sample.oneText_sizes
    (.cons (.text _ _) .nil) Sample.oneField_sendable Sample.oneText_wire hn hne hr
  obtain ⟨k, got1, got2, -, -, -, -, h4, -⟩ := C87_texts_cut_off refDeps_sane refDeps_incremental refDeps_tokenizes ⟨by simp, by decide⟩ Sample.oneText_handed rfl Sample.oneText_noErr Sample.oneText_sizes
    (.cons (.text _ _) .nil) Sample.oneField_sendable (by decide) ⟨_, List.mem_cons_self .., rfl⟩ Sample.oneText_wire hn hne hr
  simp at h4

end Multipart

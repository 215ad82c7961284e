import Verif.Props.Lazy
/-!
# C31, C35, C67: the defects of lazy requests in general
-/
namespace Multipart

variable {env : LazyEnv} {b : Bytes} {os : List ClientOp} {fs : List OutField} {p : Prepared}

/-- C31, exactly when it holds: a reported content length is that of the body if and only if no text field was added, and too small otherwise. -/
theorem C31_when (h : PreparedFrom env b os p) (hn : NoReadErr env.toFileEnv os) (hz : TrueSizes env os) {len : Nat} (hl : p.contentLen = some len) {ns : List Nat} {u : Bytes} (hr : ReadsOut p ns u) :
    (u.length = len ↔ ∀ o ∈ os, o.isText = false) ∧ len ≤ u.length := by
  obtain ⟨fs, hf⟩ := prepare_fields h
  have hu := (C31_without_texts_partial h hn hz hf).2 len hl ns u hr
  refine ⟨⟨fun he => ?_, fun ht => C31_exact_partial h hn hz ht hl hr⟩, by omega⟩
  have h0 : ((fs.filter (·.ctype.isNone)).flatMap (lazyPart b)).length = 0 := by omega
  clear hu hn hz hl hr h
  induction hf with
  | nil => simp
  | @cons o f os fs hf _ ih =>
    intro q hq
    have key : f.ctype.isNone = false := by
      cases hc : f.ctype.isNone with
      | false => rfl
      | true => rw [List.filter_cons_of_pos (p := fun x : OutField => x.ctype.isNone) hc] at h0; simp [lazyPart, crlf] at h0
    rw [List.filter_cons_of_neg (by simp [key])] at h0
    rcases List.mem_cons.mp hq with rfl | hq
    · cases hf <;> simp [ClientOp.isText] at key ⊢
    · exact ih h0 q hq

/-- C31_when, with and without a text field. -/
example : PreparedFrom Sample.lenv b!"b" Sample.lfiles (Sample.lprep Sample.lfiles) ∧ NoReadErr Sample.lenv.toFileEnv Sample.lfiles ∧ TrueSizes Sample.lenv Sample.lfiles ∧
    (Sample.lprep Sample.lfiles).contentLen = some (okBytes ((Sample.lprep Sample.lfiles).reads [1000]).1).length ∧
    ReadsOut (Sample.lprep Sample.lfiles) [50, 300, 1] (okBytes ((Sample.lprep Sample.lfiles).reads [50, 300, 1]).1) :=
  ⟨Sample.lprep_ok (by decide +kernel), Sample.lfiles_noErr, Sample.lfiles_sizes, by decide +kernel, by decide, by decide +kernel, rfl⟩

example : PreparedFrom Sample.lenv b!"b" [.text b!"a" b!"hello"] (Sample.lprep [.text b!"a" b!"hello"]) ∧ NoReadErr Sample.lenv.toFileEnv [.text b!"a" b!"hello"] ∧
    TrueSizes Sample.lenv [.text b!"a" b!"hello"] ∧ (Sample.lprep [.text b!"a" b!"hello"]).contentLen = some 7 ∧
    ReadsOut (Sample.lprep [.text b!"a" b!"hello"]) [100, 100] (okBytes ((Sample.lprep [.text b!"a" b!"hello"]).reads [100, 100]).1) :=
  ⟨Sample.lprep_ok (by decide +kernel), by intro o ho evs hr; simp at ho; subst ho; exact hr.elim, by intro n q evs hm; simp at hm, by decide +kernel, by decide, by decide +kernel, rfl⟩

/-! ## C35, C67 -/

theorem allBytes_err {A B : List Ev} {e : IoErr} (hA : ∀ ev ∈ A, ∃ x, ev = .data x ∧ x ≠ []) : Ev.allBytes (A ++ .err e :: B) = Ev.bytes A ++ Ev.allBytes B := by
  induction A with
  | nil => simp [Ev.allBytes, Ev.bytes]
  | cons ev A ih =>
    obtain ⟨x, rfl, hx⟩ := hA ev (by simp)
    obtain ⟨y, ys, rfl⟩ := List.exists_cons_of_ne_nil hx
    have := ih fun ev h => hA ev (by simp [h])
    simp [Ev.allBytes, Ev.bytes, this]

theorem Prepared.readLoop_fails {ss : List PField} {e : IoErr} {B : List Ev} {n : Nat} : ∀ (fuel : Nat) (got : Bytes) (p : Prepared) (pf : PField) (A : List Ev), p.endBoundary.atEnd = false →
    p.streams = ss ++ [pf] → pf.stream = A ++ .err e :: B → p.text.pos ≤ p.text.data.length → pf.header.pos ≤ pf.header.data.length → (∀ ev ∈ A, ∃ x, ev = .data x ∧ x ≠ []) →
    got.length + p.text.rest.length + pf.header.rest.length + (Ev.bytes A).length < n → p.text.rest.length + pf.header.rest.length + (Ev.bytes A).length < fuel →
    ∃ t hd, p.readLoop fuel n got = (.err e, { p with text := t, streams := ss ++ [⟨hd, B⟩] }) ∧ t.rest = [] ∧ hd.rest = [] := by
  intro fuel
  induction fuel with
  | zero => intro got p pf A _ _ _ _ _ _ _ h; omega
  | succ fuel ih =>
    intro got p pf A hend hss hst ht hh hA hn hfu
    unfold Prepared.readLoop
    rw [if_pos ⟨by omega, by simp [hend]⟩]
    cases hte : p.text.atEnd with
    | false =>
      simp only [Bool.not_false, if_true]
      obtain ⟨h1, h2, h3, h4⟩ := p.text.read_spec (n - got.length) ht
      have hne : p.text.rest ≠ [] := fun h => by rw [(Cursor.atEnd_iff ht).mpr h] at hte; simp at hte
      have hpos := List.length_pos_iff.mpr hne
      have hd : (p.text.read (n - got.length)).2.rest = [] := by rw [h2, List.drop_eq_nil_iff]; omega
      obtain ⟨t, hd', e1, e2, e3⟩ := ih (got ++ (p.text.read (n - got.length)).1) { p with text := (p.text.read (n - got.length)).2 } pf A hend hss hst h3 hh hA
        (by simp only [hd, h1, List.length_append, List.length_take, List.length_nil]; omega) (by simp only [hd, List.length_nil]; omega)
      exact ⟨t, hd', e1, e2, e3⟩
    | true =>
      have ht0 := (Cursor.atEnd_iff ht).mp hte
      rw [ht0] at hn hfu
      have hlast : p.streams.getLast? = some pf := by rw [hss]; simp
      have hdl : p.streams.dropLast = ss := by rw [hss]; simp
      simp only [Bool.not_true, Bool.false_eq_true, if_false, hlast, hdl]
      cases hhe : pf.header.atEnd with
      | false =>
        obtain ⟨h1, h2, h3, h4⟩ := pf.header.read_spec (n - got.length) hh
        have hne : pf.header.rest ≠ [] := fun h => by rw [(Cursor.atEnd_iff hh).mpr h] at hhe; simp at hhe
        have hpos := List.length_pos_iff.mpr hne
        have hd : (pf.header.read (n - got.length)).2.rest = [] := by rw [h2, List.drop_eq_nil_iff]; simp at hn; omega
        have hrd : pf.read (n - got.length) = (.ok (pf.header.read (n - got.length)).1, { pf with header := (pf.header.read (n - got.length)).2 }) := by
          unfold PField.read; simp [hhe]
        rw [hrd]
        have hne1 : (pf.header.read (n - got.length)).1 ≠ [] := by
          rw [h1]; intro h; rw [List.take_eq_nil_iff] at h; rcases h with h | h
          · simp at hn; omega
          · exact hne h
        obtain ⟨t, hd', e1, e2, e3⟩ := ih (got ++ (pf.header.read (n - got.length)).1) { p with streams := ss ++ [{ pf with header := (pf.header.read (n - got.length)).2 }] } _ A hend rfl hst ht h3 hA
          (by simp only [hd, ht0, h1, List.length_append, List.length_take, List.length_nil] at hn ⊢; omega) (by simp only [hd, ht0, List.length_nil] at hfu ⊢; omega)
        cases hc : (pf.header.read (n - got.length)).1 with
        | nil => exact absurd hc hne1
        | cons x xs => rw [hc] at e1; exact ⟨t, hd', e1, e2, e3⟩
      | true =>
        have hh0 := (Cursor.atEnd_iff hh).mp hhe
        rw [hh0] at hn hfu
        have hrd : pf.read (n - got.length) = ((readEv (n - got.length) pf.stream).1, { pf with stream := (readEv (n - got.length) pf.stream).2 }) := by
          unfold PField.read; simp [hhe]
        rw [hrd, hst]
        cases A with
        | nil => exact ⟨p.text, pf.header, by simp [readEv], ht0, hh0⟩
        | cons ev A =>
          obtain ⟨x, rfl, hx⟩ := hA ev (by simp)
          have hbl : (Ev.bytes (.data x :: A)).length = x.length + (Ev.bytes A).length := by simp [Ev.bytes]
          rw [hbl] at hn hfu
          have hpos := List.length_pos_iff.mpr hx
          have hre : readEv (n - got.length) (.data x :: A ++ .err e :: B) = (.ok x, A ++ .err e :: B) := by
            simp only [List.cons_append, readEv]
            rw [if_pos (by simp at hn; omega)]
          rw [hre]
          obtain ⟨t, hd', e1, e2, e3⟩ := ih (got ++ x) { p with streams := ss ++ [{ pf with stream := A ++ .err e :: B }] } _ A hend rfl rfl ht hh (fun ev h => hA ev (by simp [h]))
            (by simp only [hh0, ht0, List.length_append, List.length_nil] at hn ⊢; omega) (by simp only [hh0, ht0, List.length_nil] at hfu ⊢; omega)
          obtain ⟨y, ys, rfl⟩ := List.exists_cons_of_ne_nil hx
          exact ⟨t, hd', e1, e2, e3⟩

theorem prepLoop_append (env : LazyEnv) (d : Bytes) : ∀ (xs ys : List LazyField) (s : PrepState), prepLoop env d s (xs ++ ys) = match prepLoop env d s xs with
    | .ok s => prepLoop env d s ys
    | .error e => .error e := by
  intro xs
  induction xs with
  | nil => intro ys s; rfl
  | cons f xs ih =>
    intro ys s
    rw [List.cons_append, prepLoop, prepLoop]
    cases f.data with
    | text t => exact ih ys _
    | stream fn ct st => exact ih ys _
    | file path =>
      simp only
      cases PField.fromPath env f.name path d with
      | error e => rfl
      | ok x => exact ih ys _

theorem prepLoop_texts (env : LazyEnv) (d : Bytes) : ∀ (os : List ClientOp) (s : PrepState), (∀ o ∈ os, o.isText = true) → ∃ t, prepLoop env d s (os.map ClientOp.toField) = .ok { s with text := t } := by
  intro os
  induction os with
  | nil => intro s _; exact ⟨_, rfl⟩
  | cons o os ih =>
    intro s h
    cases o with
    | text n v => exact ih _ fun o ho => h o (by simp [ho])
    | file n p => exact absurd (h (.file n p) (by simp)) (by simp [ClientOp.isText])
    | stream n evs fn ct => exact absurd (h (.stream n evs fn ct) (by simp)) (by simp [ClientOp.isText])

/-- The stream that is read first is the one that was added last. -/
theorem prepare_last {pre post : List ClientOp} {o : ClientOp} {evs : List Ev} (h : PreparedFrom env b (pre ++ o :: post) p) (hpost : ∀ q ∈ post, q.isText = true) (hr : o.reads env.toFileEnv evs) :
    ∃ ss pf f, p.streams = ss ++ [pf] ∧ pf.stream = evs ∧ pf.header = .new (lazyPart b { f with data := [] }) ∧ StandsFor env.toFileEnv.dropErrs o.dropErrs f ∧ f.ctype.isSome = true ∧
      ∀ g ∈ ss, ∃ q ∈ pre, q.reads env.toFileEnv g.stream := by
  unfold PreparedFrom LazyMp.prepare Prepared.fromFields at h
  rw [build_eq, List.map_append, List.map_cons] at h
  simp only [prepLoop_append] at h
  rcases prepLoop_spec env b pre ⟨[], [], 0, true⟩ with ⟨fs1, s1, h1, -, h3, -⟩ | ⟨_, _, _, _, _, -, -, -, h4⟩
  case inr => simp only [h4] at h; cases h
  obtain ⟨ss, a1, -, -, a4, -⟩ := h3.streams
  simp only [List.nil_append] at a1
  simp only [h1] at h
  cases o with
  | text n v => exact hr.elim
  | file n q =>
    have hr : env.open_ q = .ok evs := hr
    rw [prepLoop] at h
    simp only [ClientOp.toField, PField.fromPath, hr] at h
    cases hsz : env.size q with
    | error e => simp only [hsz] at h; cases h
    | ok len =>
      simp only [hsz, mimeFilename] at h
      obtain ⟨t, ht⟩ := prepLoop_texts env (b!"\r\n--" ++ b) post { s1 with contentLen := s1.contentLen + (len + (PField.fromStream n (b!"\r\n--" ++ b) (env.guess q) (optFilename q) evs).header.data.length), streams := s1.streams ++ [PField.fromStream n (b!"\r\n--" ++ b) (env.guess q) (optFilename q) evs] } hpost
      simp only [ht, Except.ok.injEq] at h
      subst h
      refine ⟨ss, PField.fromStream n (b!"\r\n--" ++ b) (env.guess q) (optFilename q) evs, ⟨n, optFilename q, some (env.guess q).src, Ev.upToEnd (Ev.dropErrs evs)⟩, by simp only [a1], rfl, ?_, standsFor_file (env := env.toFileEnv.dropErrs) (by simp [FileEnv.dropErrs, hr, Except.map]), rfl, a4⟩
      cases optFilename q <;> simp [PField.fromStream, Cursor.new, lazyPart, OutField.headers, OutField.disposition, crlf, dashes]
  | stream n st fn ct =>
    cases hr
    rw [prepLoop] at h
    simp only [ClientOp.toField] at h
    obtain ⟨t, ht⟩ := prepLoop_texts env (b!"\r\n--" ++ b) post { s1 with useLen := false, streams := s1.streams ++ [PField.fromStream n (b!"\r\n--" ++ b) (ct.getD octetStream) fn evs] } hpost
    simp only [ht, Except.ok.injEq] at h
    subst h
    refine ⟨ss, PField.fromStream n (b!"\r\n--" ++ b) (ct.getD octetStream) fn evs, ⟨n, fn, some (ct.getD octetStream).src, Ev.upToEnd (Ev.dropErrs evs)⟩, by simp only [a1], rfl, ?_, standsFor_stream _ _ _ _, rfl, a4⟩
    cases fn <;> simp [PField.fromStream, Cursor.new, lazyPart, OutField.headers, OutField.disposition, crlf, dashes]

/-- What the first read does if the stream fails while the buffer has room: its error is returned, and what was copied is gone. -/
theorem prepare_fails {pre post : List ClientOp} {o : ClientOp} {A B : List Ev} {e : IoErr} (h : PreparedFrom env b (pre ++ o :: post) p) (hpost : ∀ q ∈ post, q.isText = true)
    (hr : o.reads env.toFileEnv (A ++ .err e :: B)) (hA : ∀ ev ∈ A, ∃ x, ev = .data x ∧ x ≠ []) (hB : NoErr B) (hpre : NoReadErr env.toFileEnv pre)
    (hf : All2 (StandsFor env.toFileEnv.dropErrs) ((pre ++ o :: post).map ClientOp.dropErrs) fs) :
    ∃ f start rest, StandsFor env.toFileEnv.dropErrs o.dropErrs f ∧ start = (fs.filter (·.ctype.isNone)).flatMap (lazyPart b) ++ lazyPart b { f with data := Ev.bytes A } ∧
      encodeLazy b (lazyOrder fs) = start ++ rest ∧
      ∀ n, start.length < n → (p.read n).1 = .err e ∧ (p.read n).2.rest = rest ∧ ∀ e, ¬ (p.read n).2.HasErr e := by
  obtain ⟨ss, pf, f, h1, h2, h3, h4, -, h6⟩ := prepare_last h hpost hr
  obtain ⟨fs', hs⟩ := prepare_spec h
  obtain rfl := all2_unique hf hs.fields
  have htr : p.text.rest = p.text.data := by simp [Cursor.rest, hs.start.1]
  have hhr : pf.header.rest = lazyPart b { f with data := [] } := by rw [h3]; simp [Cursor.rest, Cursor.new]
  have hsplit : lazyPart b { f with data := Ev.bytes A } = lazyPart b { f with data := [] } ++ Ev.bytes A := by
    simp [lazyPart, OutField.headers, OutField.disposition]
  refine ⟨f, _, Ev.allBytes B ++ ss.reverse.flatMap PField.rest ++ p.endBoundary.rest, h4, rfl, ?_, fun n hn => ?_⟩
  · rw [← hs.rest, ← hs.text, hsplit]
    simp only [Prepared.rest, htr, h1, List.reverse_append, List.reverse_cons, List.reverse_nil, List.nil_append, List.singleton_append, List.flatMap_cons, PField.rest, hhr, h2, allBytes_err hA,
      List.append_assoc]
  rw [hsplit, ← hs.text] at hn
  simp only [List.length_append] at hn
  have hend : p.endBoundary.atEnd = false := by
    cases he : p.endBoundary.atEnd with
    | false => rfl
    | true => have := (hs.inv.done he).2; rw [h1] at this; simp at this
  obtain ⟨t, hd, e1, e2, e3⟩ := Prepared.readLoop_fails (n := n) (n + p.streams.length + 1) [] p pf A hend h1 h2 hs.inv.text (hs.inv.streams pf (by rw [h1]; simp)) hA
    (by rw [htr, hhr]; simp only [List.length_nil]; omega) (by rw [htr, hhr]; omega)
  have hrd : p.read n = (.err e, { p with text := t, streams := ss ++ [⟨hd, B⟩] }) := by
    unfold Prepared.read
    rw [if_neg (show n ≠ 0 by omega), e1]
  rw [hrd]
  refine ⟨rfl, ?_, ?_⟩
  · simp only [Prepared.rest, e2, List.reverse_append, List.reverse_cons, List.reverse_nil, List.nil_append, List.singleton_append, List.flatMap_cons, PField.rest, e3, List.append_assoc]
  · rintro e' ⟨g, hg, he⟩
    rcases List.mem_append.mp hg with hg | hg
    · obtain ⟨q, hq, hqr⟩ := h6 g hg
      exact hpre q hq _ hqr e' he
    · rw [List.mem_singleton.mp hg] at he
      exact hB e' he

/-- C35, how it fails in general: `o` is the last file or stream that was added, and its reads return the bytes of `A`, then fail once. Then every first read of the request with room for more than
the text fields, the headers of `o` and these bytes returns the error, and all this, the whole beginning of the body, is lost: later reads return only what follows. -/
theorem C35_loses {pre post : List ClientOp} {o : ClientOp} {A B : List Ev} {e : IoErr} (h : PreparedFrom env b (pre ++ o :: post) p) (hpost : ∀ q ∈ post, q.isText = true)
    (hr : o.reads env.toFileEnv (A ++ .err e :: B)) (hA : ∀ ev ∈ A, ∃ x, ev = .data x ∧ x ≠ []) (hB : NoErr B) (hpre : NoReadErr env.toFileEnv pre)
    (hf : All2 (StandsFor env.toFileEnv.dropErrs) ((pre ++ o :: post).map ClientOp.dropErrs) fs) :
    ∃ f start rest, StandsFor env.toFileEnv.dropErrs o.dropErrs f ∧ start = (fs.filter (·.ctype.isNone)).flatMap (lazyPart b) ++ lazyPart b { f with data := Ev.bytes A } ∧
      encodeLazy b (lazyOrder fs) = start ++ rest ∧ ∀ n ns, start.length < n → (p.reads (n :: ns)).1 = .err e :: (cuts rest ns).map .ok := by
  obtain ⟨f, start, rest, h1, h2, h3, h4⟩ := prepare_fails h hpost hr hA hB hpre hf
  refine ⟨f, start, rest, h1, h2, h3, fun n ns hn => ?_⟩
  obtain ⟨h5, h6, h7⟩ := h4 n hn
  obtain ⟨fs', hs⟩ := prepare_spec h
  simp only [Prepared.reads]
  rw [h5, Prepared.reads_ok ns (p.read_inv hs.inv n).1 h7, h6]

/-- C67, how it fails in general: if the last file or stream that was added is interrupted once, before so many of its bytes were read that they fill, together with the text fields and its headers,
the buffer of `io::copy` (8 KiB), and nothing else fails, `send()` returns `Ok`, and the request was sent without its beginning. -/
theorem C67_loses {pre post : List ClientOp} {o : ClientOp} {A B : List Ev} {n : Nat} {req : ClientReq} (hfiles : ∀ q ∈ pre ++ o :: post, ∀ nm e, ¬ FileFails env q nm e)
    (hpost : ∀ q ∈ post, q.isText = true) (hr : o.reads env.toFileEnv (A ++ .err .interrupted :: B)) (hA : ∀ ev ∈ A, ∃ x, ev = .data x ∧ x ≠ []) (hB : NoErr B) (hpre : NoReadErr env.toFileEnv pre)
    (hf : All2 (StandsFor env.toFileEnv.dropErrs) ((pre ++ o :: post).map ClientOp.dropErrs) fs) (hoe : req.openErr = none) (hw : WritesFine req.script) (hfe : req.finishErr = none) :
    ∃ f start rest, StandsFor env.toFileEnv.dropErrs o.dropErrs f ∧ start = (fs.filter (·.ctype.isNone)).flatMap (lazyPart b) ++ lazyPart b { f with data := Ev.bytes A } ∧
      encodeLazy b (lazyOrder fs) = start ++ rest ∧ (start.length < n → ∃ m s, (LazyMp.build (pre ++ o :: post)).send env b n req = (.ok, m, some s) ∧ s.sink.got = rest) := by
  rcases send_eq (env := env) (b := b) (n := n) (req := req) (os := pre ++ o :: post) (by simp) with ⟨err, hp, he⟩ | ⟨p, hp, ⟨e, hoe', he⟩ | ⟨hoe, he⟩⟩
  · obtain ⟨pre', o', post', nm, e, heq, hff, -⟩ := (C36_named env b _ err).mp hp
    exact absurd hff (hfiles o' (by rw [heq]; simp) nm e)
  · rw [hoe] at hoe'; cases hoe'
  · obtain ⟨f, start, rest, h1, h2, h3, h4⟩ := prepare_fails hp hpost hr hA hB hpre hf
    refine ⟨f, start, rest, h1, h2, h3, fun hn => ?_⟩
    obtain ⟨h5, h6, h7⟩ := h4 n hn
    obtain ⟨fs', hs⟩ := prepare_spec hp
    rw [he]
    have hn0 : n ≠ 0 := by omega
    have hfu := Prepared.fuel_meas hs.start
    obtain ⟨chunk, hstep⟩ := p.read_spec hs.inv n hn0
    have hme : (p.read n).2.meas < p.meas := by
      rcases hstep.res with ⟨h8, -⟩ | ⟨_, -, -, h8, -⟩
      · rw [h5] at h8; cases h8
      · omega
    obtain ⟨k, hk⟩ : ∃ k, p.fuel = k + 1 := ⟨p.fuel - 1, by omega⟩
    have hcp : p.copy n p.fuel ⟨req.script, []⟩ = (p.read n).2.copy n k ⟨req.script, []⟩ := by
      rw [hk, Prepared.copy]
      generalize p.read n = x at h5
      obtain ⟨r, p'⟩ := x
      simp only at h5; subst h5
      rfl
    have hc := Prepared.copy_spec hn0 k (p.read n).2 ⟨req.script, []⟩ hstep.inv (by omega) (h7 _)
    rw [hcp]
    simp only
    generalize (p.read n).2.copy n k ⟨req.script, []⟩ = y at hc
    obtain ⟨r, p', kk⟩ := y
    obtain ⟨used, hu, ⟨hr, hg, hsc, hfi⟩ | ⟨e, _, hr, -, -, hcause⟩⟩ := hc
    · simp only at hr; subst hr
      exact ⟨[], ⟨req.applied ++ [(b, p.contentLen)], kk, req.finishErr⟩, by simp [ClientStream.finish, hfe, SendRes.ofRes], by rw [h6] at hg; simpa using hg⟩
    · rcases hcause with ⟨ev, h1, h2⟩ | ⟨-, h2⟩
      · exact absurd h2 (hw ev (by simp only at h1; rw [h1]; simp) e)
      · exact absurd h2 (h7 e)

namespace Sample

/-- A text, a file, a stream whose second read is interrupted, and another text. -/
def lossPre : List ClientOp := [.text b!"a" b!"hello", .file b!"f" [b!"d", b!"f.txt"]]

def lossOp : ClientOp := .stream b!"s" ([.data b!"xyz"] ++ .err .interrupted :: [.data b!"w"]) none none

def lossPost : List ClientOp := [.text b!"t" b!""]

def lossFlds : List OutField := [⟨b!"a", none, none, b!"hello"⟩, ⟨b!"f", some b!"f.txt", some b!"text/plain", b!"filedata"⟩, ⟨b!"s", none, some b!"application/octet-stream", b!"xyzw"⟩, ⟨b!"t", none, none, b!""⟩]

theorem loss_fields : All2 (StandsFor lenv.toFileEnv.dropErrs) ((lossPre ++ lossOp :: lossPost).map ClientOp.dropErrs) lossFlds :=
  .cons (.text _ _) (.cons (.file (env := lenv.toFileEnv.dropErrs) b!"f" [b!"d"] b!"f.txt" [.data b!"file", .data b!"data"] rfl ⟨(utf8Valid_iff _).mp (by decide +kernel), by decide⟩)
    (.cons (.octets _ [.data b!"xyz", .data b!"w"] _) (.cons (.text _ _) .nil)))

theorem lossPre_noErr : NoReadErr lenv.toFileEnv lossPre := fun o ho => lops_noErr o (by
  simp [lossPre] at ho
  rcases ho with rfl | rfl <;> simp [lops])

theorem loss_files : ∀ q ∈ lossPre ++ lossOp :: lossPost, ∀ nm e, ¬ FileFails lenv q nm e := by
  rintro q hq nm e ⟨path, rfl, h⟩
  simp [lossPre, lossOp, lossPost] at hq
  obtain ⟨-, rfl⟩ := hq
  rcases h with h | ⟨_, -, h⟩ <;> · revert h; simp [lenv]

end Sample

/-- C35_loses. -/
example : PreparedFrom Sample.lenv b!"b" (Sample.lossPre ++ Sample.lossOp :: Sample.lossPost) (Sample.lprep (Sample.lossPre ++ Sample.lossOp :: Sample.lossPost)) ∧
    (∀ q ∈ Sample.lossPost, q.isText = true) ∧ Sample.lossOp.reads Sample.lenv.toFileEnv ([.data b!"xyz"] ++ .err .interrupted :: [.data b!"w"]) ∧
    (∀ ev ∈ [Ev.data b!"xyz"], ∃ x, ev = .data x ∧ x ≠ []) ∧ NoErr [.data b!"w"] ∧ NoReadErr Sample.lenv.toFileEnv Sample.lossPre ∧
    All2 (StandsFor Sample.lenv.toFileEnv.dropErrs) ((Sample.lossPre ++ Sample.lossOp :: Sample.lossPost).map ClientOp.dropErrs) Sample.lossFlds :=
  ⟨Sample.lprep_ok (by decide +kernel), by decide, rfl, by simp, by intro e; simp, Sample.lossPre_noErr, Sample.loss_fields⟩

/-- C67_loses (with the hypotheses of C35_loses). -/
example : (∀ q ∈ Sample.lossPre ++ Sample.lossOp :: Sample.lossPost, ∀ nm e, ¬ FileFails Sample.lenv q nm e) ∧ Sample.req.openErr = none ∧ WritesFine Sample.req.script ∧ Sample.req.finishErr = none :=
  ⟨Sample.loss_files, rfl, by
    intro ev hev e
    simp [Sample.req] at hev
    rcases hev with rfl | rfl | rfl | rfl <;> rintro (⟨h1, h2⟩ | ⟨h1, h2⟩) <;> simp_all, rfl⟩

end Multipart

import Verif.Lemmas.Progress
import Verif.Props.Sample
import Verif.Lemmas.Whole
/-!
# C01 - C13, C22, C66: reading entries and field data

`Reachable D evs b s`: `s` is the state of a `Multipart` over the body `evs` (a script of reads) with boundary `b` after some
history of calls. `BR.run os`: the bytes taken from a field by the calls `os` and the state after them. The delimiter is
`dashes ++ b`.
-/
namespace Multipart
variable {D : Deps} {evs : List Ev} {b : Bytes} {s s0 t : BR} {fh : FieldHeaders}

/-! ## C01 -/

/-- The full claim C01: the bytes of a field read to its end are its data. -/
def FieldBytesExact (D : Deps) : Prop :=
  ∀ (evs : List Ev) (b : Bytes) (s0 s : BR) (fh : FieldHeaders) (dat : Bytes) (os : List FieldOp), NoStall evs → NoErr evs →
    Reachable D evs b s0 → s0.readEntry D = (.ok (some fh), s) → FieldData (dashes ++ b) s.unread dat →
    (s.run os).2.AtEof → (s.run os).1 = dat

/-- C01, as far as it holds: the data, or the data and the CRLF of the delimiter line; the latter only if one read of the body ended
between this CR and LF, and no other delimiter begins in the `entryBuf` bytes in front of the delimiter. Missing for the full claim: that case. -/
theorem C01_field_bytes_partial (hD : D.Sane) (hn : NoStall evs) (hr : Reachable D evs b s0)
    (he : s0.readEntry D = (.ok (some fh), s)) {dat : Bytes} (hd : FieldData (dashes ++ b) s.unread dat)
    (os : List FieldOp) (heof : (s.run os).2.AtEof) :
    (s.run os).1 = dat ∨
    ((s.run os).1 = dat ++ crlf ∧ ∃ gone, Ev.bytes evs = gone ++ s.unread ∧ SplitAt evs (gone.length + dat.length + 1) ∧
      FarBehind (dashes ++ b) (Ev.bytes evs) (gone.length + dat.length + 2) ∧ FirstAt (dashes ++ b) s.unread (dat.length + 2)) := by
  obtain ⟨hi, hu, hdl, hev⟩ := hr.spec hD
  have htd : s.delim = dashes ++ b := by have := BR.readEntry_delim hD hi; rw [he] at this; rw [this, hdl]
  have hsu : s.unread <:+ s0.unread := by have := BR.readEntry_suffix hD hi; rw [he] at this; exact this
  obtain ⟨gone, hg⟩ := hsu.trans hu
  rw [← htd] at hd ⊢
  rcases BR.field_data hD hi hev hu he hg.symm hn hd os heof with h | ⟨h1, h2, h3, h4, -⟩
  · exact .inl h
  · exact .inr ⟨h1, gone, hg.symm, h3, h4, h2⟩

/-- C01 when no read of the body ends inside the CRLF in front of a delimiter that follows a long part: exact. -/
theorem C01_field_bytes_cleanSplit_partial (hD : D.Sane) (hn : NoStall evs) (hc : CleanSplit (dashes ++ b) evs) (hr : Reachable D evs b s0)
    (he : s0.readEntry D = (.ok (some fh), s)) {dat : Bytes} (hd : FieldData (dashes ++ b) s.unread dat)
    (os : List FieldOp) (heof : (s.run os).2.AtEof) : (s.run os).1 = dat := by
  rcases C01_field_bytes_partial hD hn hr he hd os heof with h | ⟨h, gone, hg, hs, hfar, hf⟩
  · exact h
  · exfalso
    have hri : s.Inv := by have := BR.readEntry_inv hD (hr.spec hD).1; rw [he] at this; exact this
    have hru := BR.run_unread os hri
    refine hc _ hs ?_ hfar
    rw [hg]
    unfold OccursAt
    rw [← List.drop_drop, List.drop_left]
    have h2 : (dashes ++ b) <+: (s.unread.drop dat.length).drop 2 := by rw [List.drop_drop]; exact hf.1
    have h3 : crlf <+: s.unread.drop dat.length := by
      rw [h, List.append_assoc] at hru
      rw [← hru, List.drop_left]; exact List.prefix_append _ _
    obtain ⟨y, hy⟩ := h2
    rw [crlf_split h3, ← hy, ← List.append_assoc]
    exact List.prefix_append _ _

/-- C01 for short parts, however the body arrives and whatever calls are made: if the next delimiter begins among the first `entryBuf` bytes behind the delimiter line, the bytes of the field are exact. -/
theorem C01_short_partial (hD : D.Sane) (hn : NoStall evs) (hr : Reachable D evs b s0) {rest : Bytes} {p : Nat} (hN : NextIs (dashes ++ b) s0.unread (.part rest))
    (hp : FirstAt (dashes ++ b) rest p) (hl : p ≤ entryBuf (dashes ++ b))
    (he : s0.readEntry D = (.ok (some fh), s)) {dat : Bytes} (hd : FieldData (dashes ++ b) s.unread dat)
    (os : List FieldOp) (heof : (s.run os).2.AtEof) : (s.run os).1 = dat := by
  obtain ⟨hi, hu, hdl, hev⟩ := hr.spec hD
  have htd : s.delim = dashes ++ b := by have := BR.readEntry_delim hD hi; rw [he] at this; rw [this, hdl]
  have hsu : s.unread <:+ s0.unread := by have := BR.readEntry_suffix hD hi; rw [he] at this; exact this
  obtain ⟨gone, hg⟩ := hsu.trans hu
  rw [← htd] at hd
  rcases BR.field_data hD hi hev hu he hg.symm hn hd os heof with h | ⟨-, -, -, -, rest', p', h1, h2, h3⟩
  · exact h
  · rw [htd] at h1 h2 h3
    have := hN.unique (by simp [dashes]) h1
    cases this
    have := hp.unique h2
    omega

/-- C01 for short data, however the body arrives: if the data and the CRLF of the delimiter line fit into the minimum buffer, the bytes of the field are exact for every caller whose first call is `read` or
`fill_buf`, as it is with the contract of `BufRead` unless `set_min_buf_size` is called. (No longer data are safe: C01_leaks.) -/
theorem C01_short_data_partial (hD : D.Sane) (hn : NoStall evs) (hne : NoErr evs) (hr : Reachable D evs b s0) (he : s0.readEntry D = (.ok (some fh), s)) {dat : Bytes}
    (hd : FieldData (dashes ++ b) s.unread dat) (hl : dat.length + 2 ≤ entryBuf (dashes ++ b)) {o : FieldOp} (ho : o = .fillBuf ∨ ∃ n, o = .read n)
    (os : List FieldOp) (heof : (s.run (o :: os)).2.AtEof) : (s.run (o :: os)).1 = dat := by
  rcases C01_field_bytes_partial hD hn hr he hd (o :: os) heof with h | ⟨h, gone, -, -, -, hf⟩
  · exact h
  · exfalso
    have hr' : Reachable D evs b s := by have := hr.step .readEntry; simp only [BR.sop, he] at this; exact this
    obtain ⟨hi, -, hdl, hev⟩ := hr'.spec hD
    rw [← hdl] at hf hl
    have hrun := BR.run_unread (o :: os) hi
    have hcr : OccursAt crlf s.unread dat.length := by
      unfold OccursAt; rw [← hrun, h, List.append_assoc, List.drop_left]; exact List.prefix_append _ _
    have hmin := BR.readEntry_entryMin hD (hr.spec hD).1
    rw [he] at hmin
    have hfit : s.Fits s.unread := ⟨hi, hn.suffix hev, .inl ⟨_, BR.readEntry_whole hD (hr.spec hD).1 he hf hcr, Nat.le_trans hl (Nat.max_le.mpr hmin), rfl⟩⟩
    have := hfit.run ((hne.suffix hev).fill_none) ho hf os
    rw [h, List.length_append, show crlf.length = 2 from rfl] at this
    omega

/-- C01 for bodies of at most `entryBuf` bytes and a delimiter. -/
theorem C01_small_bodies_partial (hD : D.Sane) (hn : NoStall evs) (hl : (Ev.bytes evs).length ≤ entryBuf (dashes ++ b) + (dashes ++ b).length) (hr : Reachable D evs b s0)
    (he : s0.readEntry D = (.ok (some fh), s)) {dat : Bytes} (hd : FieldData (dashes ++ b) s.unread dat)
    (os : List FieldOp) (heof : (s.run os).2.AtEof) : (s.run os).1 = dat :=
  C01_field_bytes_cleanSplit_partial hD hn (.of_small hl) hr he hd os heof

/-- C01 is false of the code: a CR at the end of what is buffered is handed out although it belongs to the delimiter line. -/
theorem C01_false : ¬ FieldBytesExact refDeps := by
  intro h
  have hfd : FieldData (dashes ++ Sample.bnd) Sample.sCr.unread Sample.big := by
    rw [Sample.unreadCr]
    exact .crlf (findSub_some (by decide +kernel)) ⟨b!"--b--\r\n", by decide +kernel⟩
  have := h Sample.evsCr Sample.bnd _ _ _ Sample.big _ (by decide +kernel) (by intro e; simp [Sample.evsCr]) ⟨[], rfl⟩
    Sample.entryCr hfd Sample.eofCr
  rw [Sample.readCr] at this
  have := congrArg List.length this
  simp [crlf] at this

/-- Reading repeatedly does reach the end of the field, also over failing reads. -/
theorem C01_reaches_eof (hD : D.Sane) (hr : Reachable D evs b s) {n : Nat} (hn : 0 < n) :
    ∃ k, (s.run (List.replicate k (.read n))).2.AtEof :=
  let ⟨k, _, hk⟩ := BR.reaches_eof hn _ (hr.spec hD).1 (Nat.le_refl _)
  ⟨k, hk⟩

example : ∃ os, (Sample.s1.run os).1 = b!"hello" ∧ (Sample.s1.run os).2.AtEof ∧
    FieldData (dashes ++ Sample.bnd) Sample.s1.unread b!"hello" ∧ NoStall Sample.evs ∧
    Reachable refDeps Sample.evs Sample.bnd (withBody Sample.evs Sample.bnd) :=
  ⟨[.read 3, .fillBuf, .consume 1, .setMin 7, .read 100], by decide +kernel, by decide +kernel,
    .crlf (by decide +kernel) ⟨b!"--b--\r\nepi", by decide +kernel⟩, by decide +kernel, ⟨[], rfl⟩⟩

/-- C01_field_bytes_partial and C01_field_bytes_cleanSplit_partial apply to this field; no read of this body ends inside a CRLF. -/
example : (Sample.s1.run [.read 3, .fillBuf, .consume 1, .setMin 7, .read 100]).1 = b!"hello" :=
  C01_field_bytes_cleanSplit_partial refDeps_sane (by decide +kernel) Sample.clean1 ⟨[], rfl⟩ Sample.entry1 Sample.data1 _ (by decide +kernel)

/-- C01_short_partial and C01_small_bodies_partial apply to this field, also if every read of the body ends inside a CRLF. -/
example : NoStall Sample.evsSmallCr ∧ (Sample.s1Cr.run [.read 3, .fillBuf, .read 100]).2.AtEof ∧ (Sample.s1Cr.run [.read 3, .fillBuf, .read 100]).1 = b!"hello" :=
  ⟨by decide +kernel, by unfold BR.AtEof; decide +kernel,
    C01_short_partial (b := Sample.bnd) (p := 51) (rest := Sample.hdr ++ b!"hello\r\n--b--\r\n") refDeps_sane (by decide +kernel) (s0 := withBody Sample.evsSmallCr Sample.bnd) ⟨[], rfl⟩
      (.part (p := 0) (by decide +kernel) (by decide +kernel)) (by decide +kernel) (by decide +kernel) Sample.entrySmallCr
      (.crlf (by decide +kernel) ⟨b!"--b--\r\n", by decide +kernel⟩) _ (by unfold BR.AtEof; decide +kernel)⟩

/-- And C01_short_data_partial. -/
example : (Sample.s1Cr.run [.read 3, .fillBuf, .consume 1, .setMin 0, .read 100]).1 = b!"hello" :=
  C01_short_data_partial (b := Sample.bnd) refDeps_sane (by decide +kernel) (by intro e; simp [Sample.evsSmallCr]) (s0 := withBody Sample.evsSmallCr Sample.bnd) ⟨[], rfl⟩ Sample.entrySmallCr
    (.crlf (by decide +kernel) ⟨b!"--b--\r\n", by decide +kernel⟩) (by decide +kernel) (.inr ⟨_, rfl⟩) _ (by unfold BR.AtEof; decide +kernel)

/-- The second alternative of C01_field_bytes_partial occurs. -/
example : NoStall Sample.evsCr ∧ Reachable refDeps Sample.evsCr Sample.bnd (withBody Sample.evsCr Sample.bnd) ∧ FieldData (dashes ++ Sample.bnd) Sample.sCr.unread Sample.big ∧
    (Sample.sCr.run [.read 2000, .read 2000, .read 2000]).2.AtEof ∧ (Sample.sCr.run [.read 2000, .read 2000, .read 2000]).1 = Sample.big ++ crlf :=
  ⟨by decide +kernel, ⟨[], rfl⟩, by rw [Sample.unreadCr]; exact .crlf (findSub_some (by decide +kernel)) ⟨b!"--b--\r\n", by decide +kernel⟩, Sample.eofCr, Sample.readCr⟩

/-! ## C02 -/

/-- C02: what is taken from a field is a prefix of the unread body that ends before the next delimiter; the same for
what `fill_buf` shows. -/
theorem C02_never_past_delimiter (hD : D.Sane) (hr : Reachable D evs b s) (os : List FieldOp) {p : Nat}
    (hp : FirstAt (dashes ++ b) s.unread p) :
    (s.run os).1 <+: s.unread.take p ∧
    ∀ shown s', (s.run os).2.readToBoundary = (.ok shown, s') → (s.run os).1 ++ shown <+: s.unread.take p := by
  obtain ⟨hi, hu, hdl, hev⟩ := hr.spec hD
  rw [← hdl] at hp
  have key : ∀ os, (s.run os).1 <+: s.unread.take p := by
    intro os
    have h1 := BR.run_unread os hi
    have h2 := (BR.run_skipped os hi).2.1
    have h3 : (s.run os).1.length ≤ p := by
      apply Nat.le_of_not_lt; intro hlt; exact h2 p hlt hp.1
    have : (s.run os).1 = s.unread.take (s.run os).1.length := by rw [← h1]; simp
    rw [this]
    exact List.take_prefix_take_left h3
  refine ⟨key os, fun shown s' hs => ?_⟩
  have hri := BR.run_inv os hi
  have h4 := key (os ++ [.read shown.length])
  have h5 : ∀ (os : List FieldOp) (s : BR) (o : FieldOp), (s.run (os ++ [o])).1 = (s.run os).1 ++ ((s.run os).2.op o).1 := by
    intro os
    induction os with
    | nil => intro s o; simp [BR.run]
    | cons o' os ih => intro s o; simp [BR.run, ih]
  rw [h5] at h4
  have h6 : ((s.run os).2.op (.read shown.length)).1 = shown := by simp [BR.op, BR.read, hs]
  rw [h6] at h4; exact h4

example : FirstAt (dashes ++ Sample.bnd) Sample.s1.unread 7 ∧ Reachable refDeps Sample.evs Sample.bnd Sample.s1 :=
  ⟨by decide +kernel, ⟨[.readEntry], rfl⟩⟩

/-! ## C03 -/

/-- C03: whatever calls were made and whatever failed, the body is what is gone followed by what is still unread (buffered or to
arrive); calls on a field take exactly the bytes they report; `read_entry` only removes bytes from the front. -/
theorem C03_conservation (hD : D.Sane) (hr : Reachable D evs b s) :
    (∃ gone, Ev.bytes evs = gone ++ s.unread) ∧ (∀ os, s.unread = (s.run os).1 ++ (s.run os).2.unread) ∧
    (∃ gone, s.unread = gone ++ (s.readEntry D).2.unread) := by
  obtain ⟨hi, hu, hdl, hev⟩ := hr.spec hD
  obtain ⟨g, hg⟩ := hu
  obtain ⟨g', hg'⟩ := BR.readEntry_suffix hD hi
  exact ⟨⟨g, hg.symm⟩, fun os => (BR.run_unread os hi).symm, ⟨g', hg'.symm⟩⟩

example : Sample.s1.unread = b!"hello\r\n--b--\r\nepi" := by decide +kernel

/-! ## C04 -/

/-- C04: a failing read of a field is a failure of the underlying stream, and the field stays where it was: same
unread bytes, same position. -/
theorem C04_error_consumes_nothing (hD : D.Sane) (hr : Reachable D evs b s) {n : Nat} {e : IoErr} :
    (s.read n = (.err e, t) → Ev.err e ∈ s.evs ∧ t.unread = s.unread ∧ t.idx = s.idx ∧ t.st = s.st) ∧
    (s.readToBoundary = (.err e, t) → Ev.err e ∈ s.evs ∧ t.unread = s.unread ∧ t.idx = s.idx ∧ t.st = s.st) := by
  obtain ⟨hi, hu, hdl, hev⟩ := hr.spec hD
  constructor
  · intro h
    rcases BR.read_eq hi n with ⟨e', h1, h2⟩ | ⟨_, h2⟩
    · rw [h2] at h
      simp only [Prod.mk.injEq, Res.err.injEq] at h
      obtain ⟨rfl, rfl⟩ := h
      exact ⟨(fill_spec s.min s.evs s.buf).errmem _ h1, s.refill_unread, rfl, rfl⟩
    · rw [h2] at h; simp at h
  · intro h
    rcases BR.readToBoundary_eq hi with ⟨e', h1, h2⟩ | ⟨_, h2⟩
    · rw [h2] at h
      simp only [Prod.mk.injEq, Res.err.injEq] at h
      obtain ⟨rfl, rfl⟩ := h
      exact ⟨(fill_spec s.min s.evs s.buf).errmem _ h1, s.refill_unread, rfl, rfl⟩
    · rw [h2] at h; simp at h

theorem fill_surfaces (min : Nat) (e : IoErr) (r : List Ev) : ∀ (cs : List Bytes) (buf : Bytes), (∀ c ∈ cs, c ≠ []) →
    buf.length + cs.flatten.length < min → fill min buf (cs.map .data ++ .err e :: r) = (some e, buf ++ cs.flatten, r) := by
  intro cs
  induction cs with
  | nil => intro buf _ h; simp at h; simp [fill]; omega
  | cons c cs ih =>
    intro buf hne h
    cases c with
    | nil => exact absurd rfl (hne [] (by simp))
    | cons x xs =>
      simp only [List.flatten_cons, List.length_append, List.length_cons] at h
      simp only [List.map_cons, List.cons_append, fill]
      rw [if_neg (by omega), ih _ (fun c hc => hne c (by simp [hc])) (by simp only [List.length_append, List.length_cons]; omega)]
      simp

/-- C04, the other direction: an error that the stream returns while the buffer is being filled up to its minimum is returned
by the call, as that error; the bytes that came before it are kept. -/
theorem C04_error_surfaces {cs : List Bytes} {e : IoErr} {r : List Ev} (hs : s.evs = cs.map .data ++ .err e :: r) (hne : ∀ c ∈ cs, c ≠ [])
    (hl : s.buf.length + cs.flatten.length < s.min) (n : Nat) :
    (s.read n).1 = .err e ∧ s.readToBoundary.1 = .err e ∧ (s.read n).2 = { s with buf := s.buf ++ cs.flatten, evs := r } := by
  have h : s.readToBoundary = (.err e, { s with buf := s.buf ++ cs.flatten, evs := r }) := by
    unfold BR.readToBoundary; rw [hs, fill_surfaces s.min e r cs s.buf hne hl]
  unfold BR.read; rw [h]; exact ⟨rfl, rfl, rfl⟩

example : ((withBody [.data b!"--b", .err (.other 5), .data b!"\r\n"] b!"b").read 9).1 = .err (.other 5) :=
  (C04_error_surfaces (cs := [b!"--b"]) rfl (by decide) (by decide) 9).1

/-- C04_error_consumes_nothing: a failing read in the middle of a field. -/
example : ∃ s t, Reachable refDeps [.data (b!"--b\r\n" ++ Sample.hdr ++ Sample.big), .err (.other 5), .data b!"ta\r\n--b--"] b!"b" s ∧
    s.read 9 = (.err (.other 5), t) ∧ s.unread = List.replicate 98 0x61 ++ b!"ta\r\n--b--" :=
  let s := (withBody [.data (b!"--b\r\n" ++ Sample.hdr ++ Sample.big), .err (.other 5), .data b!"ta\r\n--b--"] b!"b").session refDeps [.readEntry, .field (.read 1002)]
  ⟨s, (s.read 9).2, ⟨_, rfl⟩, Sample.pair_eq (by decide +kernel) rfl, by decide +kernel⟩

/-! ## C05, C06 -/

/-- C05: no call panics, in any reachable state. -/
theorem C05_no_panic (hD : D.Sane) (hr : Reachable D evs b s) :
    (s.readEntry D).1 ≠ .panic ∧ s.readToBoundary.1 ≠ .panic ∧ ∀ n, (s.read n).1 ≠ .panic := by
  obtain ⟨hi, _⟩ := hr.spec hD
  refine ⟨(BR.readEntry_noPanic hD hi).1, ?_, fun n => ?_⟩
  · rcases BR.readToBoundary_eq hi with ⟨e', _, h2⟩ | ⟨_, h2⟩ <;> rw [h2] <;> simp
  · rcases BR.read_eq hi n with ⟨e', _, h2⟩ | ⟨_, h2⟩ <;> rw [h2] <;> simp

/-- C06: `read_entry` returns, in any reachable state (the loops never use up their fuel). -/
theorem C06_terminates (hD : D.Sane) (hr : Reachable D evs b s) : (s.readEntry D).1 ≠ .hang :=
  (BR.readEntry_noPanic hD (hr.spec hD).1).2

/-- The states of C05_no_panic and C06_terminates: any that can be reached, also after failures and on a stream that stalls. -/
example : Reachable refDeps [.data b!"--b", .data [], .err .interrupted, .data b!"\r\n\r\n--b\r\n"] b!"b"
    ((withBody [.data b!"--b", .data [], .err .interrupted, .data b!"\r\n\r\n--b\r\n"] b!"b").session refDeps
      [.readEntry, .field (.read 3), .readEntry, .field (.consume 8), .readEntry]) := ⟨_, rfl⟩

/-! ## C07 -/

/-- The full claim C07. -/
def SkipIsDrain (D : Deps) : Prop :=
  ∀ (evs : List Ev) (b : Bytes) (s : BR) (os : List FieldOp), NoStall evs → NoErr evs → Reachable D evs b s →
    (∀ rest, NextIs (dashes ++ b) s.unread (.part rest) → (∃ fh dat X, WellFormedPart D (dashes ++ b) rest fh dat X) ∨ NoFieldHeaders D (dashes ++ b) rest) →
    (s.run os).2.AtEof →
    (s.readEntry D).1 = ((s.run os).2.readEntry D).1 ∧
    (∀ o, (s.readEntry D).1 = .ok o → (s.readEntry D).2.unread = ((s.run os).2.readEntry D).2.unread)

/-- C07, as far as it holds: the same result and the same rest of the body, or an "unexpected EOF" error instead; the latter only if a read
of the body ended directly behind the delimiter or one byte later, so far behind the beginning of the unread rest of the field that this fills the buffer. Missing for the full claim: that case. -/
theorem C07_skip_partial (hD : D.Sane) (hn : NoStall evs) (hne : NoErr evs) (hr : Reachable D evs b s) (os : List FieldOp)
    (hw : ∀ rest, NextIs (dashes ++ b) s.unread (.part rest) → (∃ fh dat X, WellFormedPart D (dashes ++ b) rest fh dat X) ∨ NoFieldHeaders D (dashes ++ b) rest)
    (heof : (s.run os).2.AtEof) :
    ((s.readEntry D).1 = ((s.run os).2.readEntry D).1 ∧
      (∀ o, (s.readEntry D).1 = .ok o → (s.readEntry D).2.unread = ((s.run os).2.readEntry D).2.unread)) ∨
    ((s.readEntry D).1 = .err .unexpectedEof ∧ ∃ gone p, Ev.bytes evs = gone ++ s.unread ∧ FirstAt (dashes ++ b) s.unread p ∧ entryBuf (dashes ++ b) < p + (dashes ++ b).length + 2 ∧
      (SplitAt evs (gone.length + p + (dashes ++ b).length) ∨ SplitAt evs (gone.length + p + (dashes ++ b).length + 1))) := by
  obtain ⟨hi, hu, hdl, hev⟩ := hr.spec hD
  obtain ⟨gone, hg⟩ := hu
  obtain ⟨r1, r2, r3, r4, r5⟩ := BR.run_skipped os hi
  have hri := BR.run_inv os hi
  by_cases hst : s.st = .atEnd
  · left
    have h2 := r5.mpr hst
    rw [BR.readEntry_atEnd hst, BR.readEntry_atEnd h2]
    refine ⟨rfl, fun _ _ => ?_⟩
    show s.unread = (s.run os).2.unread
    rw [r1, BR.run_atEnd os hi hst]; simp
  · have hst2 : (s.run os).2.st ≠ .atEnd := fun h => hst (r5.mp h)
    have hev2 := r4.trans hev
    have hd2 := BR.AtEof.drained hri heof
    have hother := BR.readEntry_other (D := D) hri hst2 hd2 (hn.suffix hev2) (hne.suffix hev2)
    have hsame : ∀ v, NextIs s.delim s.unread v → NextIs (s.run os).2.delim (s.run os).2.unread v := by
      intro v hv; rw [r1, r3]; exact hv.drop r2
    rcases BR.readEntry_any hD hi hst (hne.suffix hev) (hn.suffix hev) hev hg.symm with ⟨h1, h2, h3, h4, h5⟩ | ⟨h1, p, h2, -, hl, h3⟩
    · left
      obtain ⟨v, hv⟩ := NextIs.total s.delim s.unread
      cases v with
      | close rest =>
        have ha := h1 rest hv
        have hx := BR.consumeBoundary_exact (BR.setMin_inv hri minBufSize) (BR.setMin_entryMin _) hst2 hd2 (hne.suffix hev2) (hn.suffix hev2) (hsame _ hv)
        have hb : ((s.run os).2.readEntry D).1 = .ok none ∧ ((s.run os).2.readEntry D).2.unread = rest := by
          unfold BR.readEntry
          rcases hcb : ((s.run os).2.setMin minBufSize).consumeBoundary with ⟨r, t⟩
          rw [hcb] at hx
          simp only [Verdict.result] at hx
          rw [hx.1]; exact ⟨rfl, hx.2 rest (.inr rfl)⟩
        exact ⟨by rw [ha.1, hb.1], fun _ _ => by rw [ha.2, hb.2]⟩
      | damaged =>
        have ha := h2 hv
        have hb := hother.2.1 (hsame _ hv)
        exact ⟨by rw [ha, hb], fun o ho => by rw [ha] at ho; simp at ho⟩
      | truncated =>
        have ha := h3 hv
        have hb := hother.2.2 (hsame _ hv)
        exact ⟨by rw [ha, hb], fun o ho => by rw [ha] at ho; simp at ho⟩
      | part rest =>
        rcases hw rest (by rw [← hdl]; exact hv) with ⟨fh, dat, X, w⟩ | hb
        case inr =>
          rw [← hdl] at hb
          have ha := BR.readEntry_refused hD hi hst (.inr (h5 rest hv)) hn hne hev hv hb
          have hb := BR.readEntry_refused hD hri hst2 (.inl hd2) hn hne hev2 (hsame _ hv) (by rw [r3]; exact hb)
          exact ⟨by rw [ha, hb], fun o ho => by rw [ha] at ho; cases ho⟩
        obtain ⟨H, hs, w1, w2, w3, w4⟩ := w.headers
        have w5 := w.data
        rw [← hdl] at w1 w3 w4 w5
        have ha := h4 rest H X dat hs fh hv w1 w5 w4 w3 w2
        have hb := BR.readEntry_exact hD hri hst2 hd2 (hn.suffix hev2) (hne.suffix hev2) (hsame _ hv)
          (by rw [r3]; exact w1) (by rw [r3]; exact w5) (by rw [r3]; exact w4) (by rw [r3]; exact w3) w2
        exact ⟨by rw [ha.1, hb.1], fun _ _ => by rw [ha.2, hb.2]⟩
    · right
      rw [hdl] at h2 hl h3
      exact ⟨h1, gone, p, hg.symm, h2, hl, h3⟩

namespace Sample

/-- The first read ends directly behind the closing delimiter's boundary; 1100 bytes of data before it. -/
def evsCut : List Ev := [.data (b!"--b\r\n" ++ hdr ++ big ++ b!"\r\n--b"), .data b!"--\r\n"]
/-- After `read_entry` and a `fill_buf`. -/
def sCut : BR := (withBody evsCut bnd).session refDeps [.readEntry, .field .fillBuf]

theorem cut_result : (sCut.readEntry refDeps).1 = .err .unexpectedEof := by decide +kernel
theorem cut_eof : (sCut.run [.read 1100]).2.AtEof := by decide +kernel
theorem cut_drained : ((sCut.run [.read 1100]).2.readEntry refDeps).1 = .ok none := by decide +kernel
theorem cut_unread : sCut.unread = big ++ b!"\r\n--b--\r\n" := by decide +kernel

end Sample

/-- C07 is false of the code: skipping an unread field can fail although reading it first succeeds. -/
theorem C07_false : ¬ SkipIsDrain refDeps := by
  intro h
  have hc : NextIs (dashes ++ Sample.bnd) Sample.sCut.unread (.close b!"\r\n") := by
    rw [Sample.cut_unread]
    exact .close (p := 1102) (findSub_some (by decide +kernel)) (by decide +kernel)
  have := h Sample.evsCut Sample.bnd Sample.sCut [.read 1100] (by decide +kernel) (by intro e; simp [Sample.evsCut]) ⟨_, rfl⟩
    (fun rest hp => by have := hp.unique (by decide) hc; simp at this) Sample.cut_eof
  rw [Sample.cut_result, Sample.cut_drained] at this
  simp at this

example : (Sample.s1.run [.read 2, .read 9]).2.AtEof ∧ NextIs (dashes ++ Sample.bnd) Sample.s1.unread (.close b!"\r\nepi") ∧
    (Sample.s1.readEntry refDeps).1 = .ok none :=
  ⟨by decide +kernel, .close (p := 7) (by decide +kernel) (by decide +kernel), by decide +kernel⟩

/-- C07_skip_partial, before a further field. -/
example : NoStall Sample.evsTwo ∧ NoErr Sample.evsTwo ∧ Reachable refDeps Sample.evsTwo Sample.bnd Sample.sTwo ∧ (Sample.sTwo.run [.read 2, .read 9]).2.AtEof ∧
    (∀ rest, NextIs (dashes ++ Sample.bnd) Sample.sTwo.unread (.part rest) → (∃ fh dat X, WellFormedPart refDeps (dashes ++ Sample.bnd) rest fh dat X) ∨ NoFieldHeaders refDeps (dashes ++ Sample.bnd) rest) ∧
    (Sample.sTwo.readEntry refDeps).1 = .ok (some Sample.fh) := by
  refine ⟨by decide +kernel, Sample.noErrTwo, ⟨[.readEntry], rfl⟩, by decide +kernel, fun rest h => ?_, by decide +kernel⟩
  have := NextIs.unique (by decide) h (.part (p := 5) (rest := Sample.hdr ++ b!"two\r\n--b--\r\n") (by decide +kernel) (by decide +kernel))
  cases this
  exact .inl ⟨_, _, _, Sample.wellFormed2⟩

/-! ## C08 -/

/-- C08: after `read_entry` has reported the end, whatever calls follow, `read_entry` reports the end again, with no read of the
stream, and calls on the last field take no bytes. -/
theorem C08_end_final (hD : D.Sane) (hr : Reachable D evs b s) (he : s.readEntry D = (.ok none, t)) (os : List SOp) :
    ((t.session D os).readEntry D).1 = .ok none ∧
    ((t.session D os).readEntry D).2.evs = (t.session D os).evs ∧ ((t.session D os).readEntry D).2.buf = (t.session D os).buf ∧
    ∀ o, ((t.session D os).op o).1 = [] := by
  obtain ⟨hi, _⟩ := hr.spec hD
  have hti : t.Inv := by have := BR.readEntry_inv hD hi; rw [he] at this; exact this
  have hst : t.st = .atEnd := by
    have hsp := BR.readEntry_spec hD hi
    rw [he] at hsp
    simp only at hsp
    cases hsp with
    | done a c => rw [c]; exact a
    | close => assumption
  have key : ∀ (os : List SOp) {w : BR}, w.Inv → w.st = .atEnd → (w.session D os).st = .atEnd := by
    intro os
    induction os with
    | nil => intro w _ h; exact h
    | cons o os ih =>
      intro w hw h
      refine ih (BR.sop_inv hD hw o) ?_
      cases o with
      | readEntry => show (w.readEntry D).2.st = _; rw [BR.readEntry_atEnd h]; exact h
      | field o => exact (BR.op_skipped hw o).2.2.2.2.mpr h
  have h1 := key os hti hst
  have h2 := (BR.session_spec hD os hti).1
  rw [BR.readEntry_atEnd h1]
  exact ⟨rfl, rfl, rfl, fun o => BR.op_atEnd h2 h1 o⟩

example : (Sample.s1.readEntry refDeps).1 = .ok none := by decide +kernel

/-! ## C09 -/

/-- C09: a clean end is reported only if the body contains the delimiter directly followed by `--`. -/
theorem C09_end_is_real (hD : D.Sane) (hr : Reachable D evs b s) (he : (s.readEntry D).1 = .ok none) :
    (dashes ++ b ++ dashes) <:+: Ev.bytes evs := by
  have aux : ∀ {w : BR} {rest : Bytes}, NextIs w.delim w.unread (.close rest) → w.delim ++ dashes <:+: w.unread := by
    intro w rest h
    cases h with
    | @close p _ a c =>
      obtain ⟨y, hy⟩ := a.1
      have h3 : w.unread.drop (p + w.delim.length) = y := by rw [← List.drop_drop, ← hy]; simp
      rw [c] at h3
      refine ⟨w.unread.take p, rest, ?_⟩
      rw [List.append_assoc, List.append_assoc, h3, hy, List.take_append_drop]
  have key : ∀ (os : List SOp) {w : BR}, w.Inv → w.delim = dashes ++ b → w.unread <:+ Ev.bytes evs →
      (w.st = .atEnd → (dashes ++ b ++ dashes) <:+: Ev.bytes evs) →
      ((w.session D os).st = .atEnd → (dashes ++ b ++ dashes) <:+: Ev.bytes evs) := by
    intro os
    induction os with
    | nil => intro w _ _ _ h; exact h
    | cons o os ih =>
      intro w hw hd hu h
      obtain ⟨f1, f2, f3⟩ := BR.sop_frame hD hw o
      refine ih (BR.sop_inv hD hw o) (f2.trans hd) (f1.trans hu) ?_
      cases o with
      | field o => intro h'; exact h ((BR.op_skipped hw o).2.2.2.2.mp h')
      | readEntry =>
        intro h'
        have h' : (w.readEntry D).2.st = .atEnd := h'
        have hsp := BR.readEntry_spec hD hw
        generalize (w.readEntry D).1 = r at hsp
        generalize (w.readEntry D).2 = t at hsp h'
        cases hsp with
        | done a _ => exact h a
        | close _ a =>
          have := (aux a).trans hu.isInfix
          rw [hd] at this; exact this
        | entry => contradiction
        | badHeaders => contradiction
        | noBoundary => contradiction
  obtain ⟨hi, hu, hdl, hev⟩ := hr.spec hD
  obtain ⟨os, hos⟩ := hr
  have h0 : s.st = .atEnd → (dashes ++ b ++ dashes) <:+: Ev.bytes evs := by
    rw [hos]
    refine key os (BR.fromReader_inv evs b) rfl ?_ (by simp [withBody, BR.fromReader])
    simp [withBody, BR.fromReader, BR.unread]
  have hsp := BR.readEntry_spec hD hi
  rw [he] at hsp
  cases hsp with
  | done a _ => exact h0 a
  | close _ a =>
    have := (aux a).trans hu.isInfix
    rw [hdl] at this; exact this

/-- C09, second half: reading all entries of a body without such a delimiter ends in an error. -/
theorem C09_truncated_errors (hD : D.Sane) (hno : ¬ (dashes ++ b ++ dashes) <:+: Ev.bytes evs)
    {got : List (FieldHeaders × Bytes)} {fin : Ending} (hR : Reads D (withBody evs b) got fin) : ∃ e, fin = .failed e := by
  have key : ∀ {s : BR} {got fin}, Reads D s got fin → Reachable D evs b s → ∃ e, fin = .failed e := by
    intro s got fin hR
    induction hR with
    | close h => intro hr; exact absurd (C09_end_is_real hD hr (by rw [h])) hno
    | fail _ => intro _; exact ⟨_, rfl⟩
    | @entry s t fh os es fin h _ _ ih =>
      intro hr
      apply ih
      have h1 := hr.step .readEntry
      have : s.sop D .readEntry = t := by show (s.readEntry D).2 = t; rw [h]
      rw [this] at h1
      exact h1.run os
  exact key hR ⟨[], rfl⟩

example : ¬ (dashes ++ b!"b" ++ dashes) <:+: Ev.bytes [.data (b!"--b\r\n" ++ Sample.hdr ++ b!"data\r\n--b\r\n")] := by decide +kernel

/-- C09_end_is_real. -/
example : (dashes ++ Sample.bnd ++ dashes) <:+: Ev.bytes Sample.evs :=
  C09_end_is_real (s := Sample.s1) refDeps_sane ⟨[.readEntry], rfl⟩ (by decide +kernel)

/-! ## C10 -/

/-- C10: an entry is returned only for the first delimiter in the unread body, followed by CRLF; the field's headers are what the
tokenizer accepts directly behind that line, and its data begins directly behind the headers. -/
theorem C10_entry_introduced (hD : D.Sane) (hr : Reachable D evs b s) (he : s.readEntry D = (.ok (some fh), t)) :
    ∃ p rest seen n hs, FirstAt (dashes ++ b) s.unread p ∧ s.unread.drop (p + (dashes ++ b).length) = crlf ++ rest ∧
      seen <+: rest ∧ D.parseHeaders seen = .complete n hs ∧ FieldHeaders.parse D hs = .ok fh ∧
      (∀ q, q < seen.length → ¬ OccursAt (dashes ++ b) rest q) ∧ n ≤ seen.length ∧ t.unread = rest.drop n := by
  obtain ⟨hi, hu, hdl, hev⟩ := hr.spec hD
  have hsp := BR.readEntry_spec hD hi
  rw [he] at hsp
  simp only at hsp
  cases hsp with
  | entry _ a b c d e f g h =>
    rw [hdl] at a c
    cases a with
    | part a1 a2 => exact ⟨_, _, _, _, _, a1, a2, b, d, g, c, e, h⟩

/-- C10: reading entry by entry finds the parts of the body, all of them and in order, with their headers and data. -/
theorem C10_entries_are_parts (hD : D.Sane) (hn : NoStall evs) (hne : NoErr evs) {es got : List (FieldHeaders × Bytes)} {fin fin' : Ending}
    (hP : Parts D (dashes ++ b) (Ev.bytes evs) es fin) (hR : Reads D (withBody evs b) got fin') :
    fin' = fin ∧ All2 (fun a e => a.1 = e.1 ∧ DataOk (dashes ++ b) evs e.2 a.2) got es :=
  reads_parts hD hn hne hR (BR.fromReader_inv evs b) rfl List.suffix_rfl (by simp [withBody, BR.fromReader, BR.unread])
    (by simp [withBody, BR.fromReader]) (.inl (by intro h; simp [withBody, BR.fromReader] at h))
    (by simpa [withBody, BR.fromReader, BR.unread] using hP)

/-- There is always such a reading. -/
theorem C10_reads_total (hD : D.Sane) (hr : Reachable D evs b s) : ∃ got fin, Reads D s got fin :=
  reads_total hD _ (hr.spec hD).1 (Nat.le_refl _)

/-- C10_entry_introduced, C10_entries_are_parts and C10_reads_total. -/
example : (∃ got fin, Reads refDeps (withBody Sample.evs Sample.bnd) got fin ∧ fin = .closed ∧ All2 (fun a e => a.1 = e.1 ∧ DataOk (dashes ++ Sample.bnd) Sample.evs e.2 a.2) got [(Sample.fh, b!"hello")]) ∧
    ∃ p, FirstAt (dashes ++ Sample.bnd) (withBody Sample.evs Sample.bnd).unread p := by
  obtain ⟨got, fin, h⟩ := C10_reads_total (evs := Sample.evs) (b := Sample.bnd) refDeps_sane ⟨[], rfl⟩
  obtain ⟨p, _, _, _, _, hp, _⟩ := C10_entry_introduced (evs := Sample.evs) refDeps_sane ⟨[], rfl⟩ Sample.entry1
  exact ⟨⟨got, fin, h, C10_entries_are_parts refDeps_sane (by decide +kernel) Sample.noErr1 Sample.parts1 h⟩, p, hp⟩

/-! ## C11 -/

/-- The full claim C11, first half: a damaged delimiter is reported as `InvalidData`. -/
def DamagedIsInvalidData (D : Deps) : Prop :=
  ∀ (evs : List Ev) (b : Bytes) (s : BR), NoStall evs → NoErr evs → Reachable D evs b s → (s.readEntry D).1 ≠ .ok none →
    NextIs (dashes ++ b) s.unread .damaged → (s.readEntry D).1 = .err .invalidData

/-- C11, second half: once the first unread delimiter is damaged, every `read_entry` fails, whatever calls are made in between. -/
theorem C11_damaged_sticky (hD : D.Sane) (hr : Reachable D evs b s) (hend : (s.readEntry D).1 ≠ .ok none)
    (hd : NextIs (dashes ++ b) s.unread .damaged) (os : List SOp) :
    ∃ e, ((s.session D os).readEntry D).1 = .err e := by
  obtain ⟨hi, hu, hdl, hev⟩ := hr.spec hD
  rw [← hdl] at hd
  have hst : s.st ≠ .atEnd := by
    intro h; apply hend; rw [BR.readEntry_atEnd h]
  have step : ∀ {w : BR}, w.Inv → w.st ≠ .atEnd → NextIs w.delim w.unread .damaged →
      (∃ e, (w.readEntry D).1 = .err e) ∧ (w.readEntry D).2.st ≠ .atEnd ∧ NextIs (w.readEntry D).2.delim (w.readEntry D).2.unread .damaged := by
    intro w hw hws hwd
    have hsp := BR.readEntry_spec hD hw
    generalize (w.readEntry D).1 = r at hsp ⊢
    generalize (w.readEntry D).2 = t at hsp ⊢
    cases hsp with
    | done a _ => exact absurd a hws
    | close _ a => have := a.unique hw.delim_ne hwd; simp at this
    | entry _ a => have := a.unique hw.delim_ne hwd; simp at this
    | badHeaders _ a => have := a.unique hw.delim_ne hwd; simp at this
    | noBoundary _ a _ c => exact ⟨⟨_, rfl⟩, c, NextIs.skipped a hwd⟩
  have key : ∀ (os : List SOp) {w : BR}, w.Inv → w.st ≠ .atEnd → NextIs w.delim w.unread .damaged →
      ∃ e, ((w.session D os).readEntry D).1 = .err e := by
    intro os
    induction os with
    | nil => intro w h1 h2 h3; exact (step h1 h2 h3).1
    | cons o os ih =>
      intro w h1 h2 h3
      cases o with
      | readEntry => exact ih (BR.sop_inv hD h1 .readEntry) (step h1 h2 h3).2.1 (step h1 h2 h3).2.2
      | field o =>
        obtain ⟨k1, k2, k3, k4, k5⟩ := BR.op_skipped h1 o
        refine ih (BR.op_inv h1 o) (fun h => h2 (k5.mp h)) ?_
        show NextIs (w.op o).2.delim (w.op o).2.unread _
        rw [k1, k3]; exact h3.drop k2
  exact key os hi hst hd

/-- C11, first half as far as it holds: `InvalidData`, or (only when a read of the body ended directly behind the delimiter or one
byte later, and this filled the buffer) `UnexpectedEof`; exactly `InvalidData` when the current field was read to its end. -/
theorem C11_damaged_kind_partial (hD : D.Sane) (hn : NoStall evs) (hne : NoErr evs) (hr : Reachable D evs b s)
    (hend : (s.readEntry D).1 ≠ .ok none) (hd : NextIs (dashes ++ b) s.unread .damaged) :
    ((s.readEntry D).1 = .err .invalidData ∨
      ((s.readEntry D).1 = .err .unexpectedEof ∧ ∃ gone p, Ev.bytes evs = gone ++ s.unread ∧ FirstAt (dashes ++ b) s.unread p ∧ entryBuf (dashes ++ b) < p + (dashes ++ b).length + 2 ∧
        (SplitAt evs (gone.length + p + (dashes ++ b).length) ∨ SplitAt evs (gone.length + p + (dashes ++ b).length + 1)))) ∧
    (s.AtEof → (s.readEntry D).1 = .err .invalidData) := by
  obtain ⟨hi, hu, hdl, hev⟩ := hr.spec hD
  obtain ⟨gone, hg⟩ := hu
  rw [← hdl] at hd ⊢
  have hst : s.st ≠ .atEnd := by
    intro h; apply hend; rw [BR.readEntry_atEnd h]
  constructor
  · rcases BR.readEntry_any hD hi hst (hne.suffix hev) (hn.suffix hev) hev hg.symm with ⟨_, h2, _⟩ | ⟨h1, p, h2, -, hl, h3⟩
    · exact .inl (h2 hd)
    · exact .inr ⟨h1, gone, p, hg.symm, h2, hl, h3⟩
  · intro he
    exact (BR.readEntry_other (D := D) hi hst (BR.AtEof.drained hi he) (hn.suffix hev) (hne.suffix hev)).2.1 hd

namespace Sample
/-- Like `evsCut`, but the delimiter is damaged. -/
def evsDmg : List Ev := [.data (b!"--b\r\n" ++ hdr ++ big ++ b!"\r\n--b"), .data b!"XY\r\n"]
def sDmg : BR := (withBody evsDmg bnd).session refDeps [.readEntry, .field .fillBuf]
theorem dmg_result : (sDmg.readEntry refDeps).1 = .err .unexpectedEof := by decide +kernel
theorem dmg_unread : sDmg.unread = big ++ b!"\r\n--bXY\r\n" := by decide +kernel
end Sample

/-- The first half of C11 is false of the code. -/
theorem C11_false : ¬ DamagedIsInvalidData refDeps := by
  intro h
  have hd : NextIs (dashes ++ Sample.bnd) Sample.sDmg.unread .damaged := by
    rw [Sample.dmg_unread]
    exact .damaged (p := 1102) (findSub_some (by decide +kernel)) (by decide +kernel) (by decide +kernel) (by decide +kernel)
  have := h Sample.evsDmg Sample.bnd Sample.sDmg (by decide +kernel) (by intro e; simp [Sample.evsDmg]) ⟨_, rfl⟩
    (by rw [Sample.dmg_result]; simp) hd
  rw [Sample.dmg_result] at this
  simp at this

/-- C11_damaged_sticky and C11_damaged_kind_partial; the second case of the latter is in C11_false. -/
example : NextIs (dashes ++ b!"b") (withBody [.data b!"xx--bXY", .data b!"\r\n--b--"] b!"b").unread .damaged ∧
    ((withBody [.data b!"xx--bXY", .data b!"\r\n--b--"] b!"b").readEntry refDeps).1 = .err .invalidData ∧
    (withBody [.data b!"--bXY", .data b!"\r\n--b--"] b!"b").AtEof :=
  ⟨.damaged (p := 2) (by decide +kernel) (by decide +kernel) (by decide +kernel) (by decide +kernel), by decide +kernel, by decide +kernel⟩

/-! ## C13 -/

/-- C13: two `fill_buf` calls in a row, the second of which does not read from the stream, give the same bytes, and the second changes
nothing. -/
theorem C13_fill_buf_stable (hD : D.Sane) (hr : Reachable D evs b s) {shown : Bytes} (h : s.readToBoundary = (.ok shown, t))
    (hno : t.readToBoundary.2.evs = t.evs) : t.readToBoundary = (.ok shown, t) := by
  obtain ⟨hi, hu, hdl, hev⟩ := hr.spec hD
  rcases BR.readToBoundary_eq hi with ⟨e', h1, h2⟩ | ⟨h1, h2⟩
  · rw [h2] at h; simp at h
  rw [h2] at h
  simp only [Prod.mk.injEq, Res.ok.injEq] at h
  obtain ⟨rfl, rfl⟩ := h
  have hai := s.afterRead_inv hi
  have hre : s.afterRead.refill = s.afterRead ∧ (fill s.afterRead.min s.afterRead.buf s.afterRead.evs).1 = none := by
    rcases s.afterRead.refill_evs_lt_or with hlt | hh
    · exfalso
      have : s.afterRead.readToBoundary.2.evs = s.afterRead.refill.evs := by
        rcases BR.readToBoundary_eq hai with ⟨e', _, k⟩ | ⟨_, k⟩
        · rw [k]
        · rw [k]; exact s.afterRead.afterRead_frame.2.1
      rw [this] at hno
      rw [hno] at hlt; omega
    · exact hh
  rcases BR.readToBoundary_eq hai with ⟨e', k1, _⟩ | ⟨_, k⟩
  · rw [hre.2] at k1; simp at k1
  · rw [k, BR.settled_stable ⟨s, hi, rfl⟩ hre.1]

example : ∃ shown t, Sample.s1.readToBoundary = (.ok shown, t) ∧ shown = b!"hello" ∧ t.readToBoundary.2.evs = t.evs :=
  ⟨b!"hello", Sample.s1.readToBoundary.2, Sample.pair_eq (by decide +kernel) rfl, rfl, by decide +kernel⟩

/-! ## C22 -/

/-- C22: the minimum is what was asked for, but at least twice the delimiter; and every `read_entry` resets it. -/
theorem C22_min_buf_size (hD : D.Sane) (hr : Reachable D evs b s) :
    (∀ n, (s.setMin n).min = Nat.max (2 * (dashes ++ b).length) n) ∧
    ∀ r, s.readEntry D = (r, t) → t.min = Nat.max (2 * (dashes ++ b).length) 1024 := by
  obtain ⟨hi, hu, hdl, hev⟩ := hr.spec hD
  have h0 : ∀ n, (s.setMin n).min = Nat.max (2 * (dashes ++ b).length) n := by
    intro n; show Nat.max (s.delim.length * 2) n = _; rw [hdl, Nat.mul_comm]
  refine ⟨h0, fun r h => ?_⟩
  have hsi := BR.setMin_inv hi minBufSize
  have hc := BR.consumeBoundary_spec hsi
  unfold BR.readEntry at h
  rcases hcb : (s.setMin minBufSize).consumeBoundary with ⟨r', t'⟩
  rw [hcb] at h hc
  simp only at hc
  have hmin : t'.min = (s.setMin minBufSize).min := by
    cases hc with
    | done _ => rfl
    | next => assumption
    | close => assumption
    | damaged _ a => exact a.min
    | io _ a => exact a.min
    | eof _ a => exact a.min
    | short _ a => exact a.min
  have hfin : t.min = t'.min := by
    cases r' with
    | ok x =>
      cases x with
      | false => simp only [Prod.mk.injEq] at h; rw [h.2]
      | true =>
        simp only at h
        have hh := BR.readHeaders_spec hD (BR.consumeBoundary_true hsi hcb).1
        rcases hrh : t'.readHeaders D with ⟨r2, w⟩
        rw [hrh] at h hh
        simp only at hh
        cases hh with
        | ok a => simp only [Prod.mk.injEq] at h; rw [← h.2, a.min]
        | err a => simp only [Prod.mk.injEq] at h; rw [← h.2, a.min]
    | err e => simp only [Prod.mk.injEq] at h; rw [h.2]
    | panic => simp only [Prod.mk.injEq] at h; rw [h.2]
    | hang => simp only [Prod.mk.injEq] at h; rw [h.2]
  rw [hfin, hmin]; exact h0 1024

example : (Sample.s1.setMin 0).min = 6 ∧ Sample.s1.min = 1024 := by decide +kernel

/-! ## C66 -/

/-- The full claim C66, for reading: a field cut off by the end of the body cannot be read to a regular end. -/
def TruncatedFieldFails (D : Deps) : Prop :=
  ∀ (evs : List Ev) (b : Bytes) (s0 s : BR) (fh : FieldHeaders) (os : List FieldOp), Reachable D evs b s0 →
    s0.readEntry D = (.ok (some fh), s) → Absent (dashes ++ b) s.unread → ¬ (s.run os).2.AtEof

namespace Sample
def evsTrunc : List Ev := [.data (b!"--b\r\n" ++ hdr ++ b!"cut o")]
def sTrunc : BR := ((withBody evsTrunc bnd).readEntry refDeps).2
theorem entryTrunc : (withBody evsTrunc bnd).readEntry refDeps = (.ok (some Sample.fh), sTrunc) :=
  pair_eq (by decide +kernel) sTrunc.eq_def.symm
theorem trunc_unread : sTrunc.unread = b!"cut o" := by decide +kernel
theorem trunc_eof : (sTrunc.run [.read 9]).2.AtEof := by decide +kernel
end Sample

/-- C66 is false of the code: a truncated field reads as if it were complete. -/
theorem C66_false : ¬ TruncatedFieldFails refDeps := by
  intro h
  refine h _ _ _ _ _ [.read 9] ⟨[], rfl⟩ Sample.entryTrunc ?_ Sample.trunc_eof
  rw [Sample.trunc_unread]
  refine findSub_none (d := dashes ++ Sample.bnd) ?_
  decide +kernel

/-- C66, as far as it holds: the truncation is reported by the next `read_entry`, however much of the field was read. Missing: that the
calls on the field itself report it. -/
theorem C66_truncated_reported_partial (hD : D.Sane) (hn : NoStall evs) (hne : NoErr evs) (hr : Reachable D evs b s0)
    (he : s0.readEntry D = (.ok (some fh), s)) (ha : Absent (dashes ++ b) s.unread) (os : List FieldOp) :
    ((s.run os).2.readEntry D).1 = .err .unexpectedEof := by
  obtain ⟨hi, hu, hdl, hev⟩ := hr.spec hD
  have hsp := BR.readEntry_spec hD hi
  rw [he] at hsp
  have h1 := hr.step .readEntry
  have h2 : s0.sop D .readEntry = s := by show (s0.readEntry D).2 = s; rw [he]
  rw [h2] at h1
  obtain ⟨hi1, hu1, hdl1, hev1⟩ := h1.spec hD
  obtain ⟨r1, r2, r3, r4, r5⟩ := BR.run_skipped os hi1
  have hst : s.st ≠ .atEnd := by
    simp only at hsp
    cases hsp with | entry => assumption
  obtain ⟨gone, hg⟩ := ((h1.run os).spec hD).2.1
  rw [← hdl1] at ha
  have hN : NextIs (s.run os).2.delim (s.run os).2.unread .truncated := by
    rw [r1, r3]; exact (NextIs.none ha).drop r2
  rcases BR.readEntry_any hD (BR.run_inv os hi1) (fun h => hst (r5.mp h)) (hne.suffix (r4.trans hev1)) (hn.suffix (r4.trans hev1)) (r4.trans hev1) hg.symm with
    ⟨_, _, h3, _⟩ | ⟨h3, _⟩
  · exact h3 hN
  · exact h3

/-- C66_truncated_reported_partial. -/
example : ((Sample.sTrunc.run [.read 9]).2.readEntry refDeps).1 = .err .unexpectedEof :=
  C66_truncated_reported_partial refDeps_sane (by decide +kernel) (by intro e; simp [Sample.evsTrunc]) ⟨[], rfl⟩ Sample.entryTrunc (by rw [Sample.trunc_unread]; exact findSub_none (by decide)) _

end Multipart

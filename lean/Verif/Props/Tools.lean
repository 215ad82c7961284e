import Verif.Props.Split
import Verif.Props.Mock
import Verif.Spec.Tools
import Verif.Lemmas.Skip
/-!
# The fuzz target (C96) and `read_file` (C97)
-/
namespace Multipart

variable {D : Deps} {evs : List Ev} {b : Bytes} {s t : BR}

/-! ## C96 -/

/-- The loop over one field ends without a failure if the stream has no errors. -/
theorem fuzzField_spec (hD : D.Sane) (hne : NoErr evs) : ∀ (n : Nat) {s : BR}, Reachable D evs b s → s.unread.length + s.evs.length < n →
    (fuzzField n s).1 = .ok () ∧ Reachable D evs b (fuzzField n s).2 ∧ (fuzzField n s).2.unread.length ≤ s.unread.length ∧ (fuzzField n s).2.evs.length ≤ s.evs.length := by
  intro n
  induction n with
  | zero => intro s _ h; omega
  | succ n ih =>
    intro s hr hl
    obtain ⟨hi, -, -, hev⟩ := hr.spec hD
    have hne' : NoErr s.evs := fun e h => hne e (hev.subset h)
    have hstep : ∀ k, Reachable D evs b (s.op (.read k)).2 ∧ (s.op (.read k)).2.unread.length ≤ s.unread.length ∧ (s.op (.read k)).2.evs.length ≤ s.evs.length := by
      intro k
      refine ⟨by have := hr.run [.read k]; simpa [BR.run] using this, ?_, (BR.op_skipped hi (.read k)).2.2.2.1.length_le⟩
      have := congrArg List.length (BR.op_unread hi (.read k))
      rw [List.length_append] at this
      omega
    unfold fuzzField
    rcases hx : s.readToBoundary with ⟨r, s1⟩
    cases r with
    | err e => exact absurd ((C04_error_consumes_nothing hD hr (n := 0)).2 hx).1 (hne' e)
    | panic => have := (C05_no_panic hD hr).2.1; rw [hx] at this; simp at this
    | hang => rcases BR.readToBoundary_eq hi with ⟨e, -, h⟩ | ⟨-, h⟩ <;> rw [hx] at h <;> simp at h
    | ok x =>
      have hread : ∀ k, s.op (.read k) = (x.take k, s1.consume (x.take k).length) := by
        intro k; simp only [BR.op, BR.read, hx]
      cases x with
      | nil =>
        have := hstep 0
        rw [hread 0] at this
        have h0 : s1.consume (([] : Bytes).take 0).length = s1 := by simp [BR.consume]
        rw [h0] at this
        exact ⟨rfl, this⟩
      | cons y ys =>
        simp only
        have h1 := hstep (y :: ys).length
        have h2 := BR.read_progress hi (n := (y :: ys).length) (by simp) (by unfold BR.AtEof; rw [hx]; simp)
        rw [hread] at h1 h2
        simp only [List.take_length] at h1 h2
        obtain ⟨g1, g2, g3, g4⟩ := ih h1.1 (by omega)
        exact ⟨g1, g2, by omega, by omega⟩

/-- The loop over the entries ends without a failure. -/
theorem fuzzEntries_spec (hD : D.Sane) (hne : NoErr evs) (isFile : FieldHeaders → Bool) {fuel : Nat} : ∀ (n : Nat) {s : BR}, Reachable D evs b s → s.unread.length < n →
    s.unread.length + s.evs.length < fuel → fuzzEntries D isFile fuel n s = .ok () := by
  intro n
  induction n with
  | zero => intro s _ h; omega
  | succ n ih =>
    intro s hr hl hf
    have hi := (hr.spec hD).1
    unfold fuzzEntries
    have h1 := (C05_no_panic hD hr).1
    have h2 := C06_terminates hD hr
    have h3 := (BR.readEntry_evs hD hi).length_le
    rcases hx : s.readEntry D with ⟨r, s1⟩
    rw [hx] at h1 h2 h3
    simp only at h1 h2 h3
    cases r with
    | err e => rfl
    | panic => exact absurd rfl h1
    | hang => exact absurd rfl h2
    | ok o =>
      cases o with
      | none => rfl
      | some fh =>
        have h4 := BR.readEntry_shrinks hD hi hx
        have hr1 := hr.entry hx
        simp only
        split
        · obtain ⟨g1, g2, g3, g4⟩ := fuzzField_spec hD hne fuel hr1 (by omega)
          rcases hy : fuzzField fuel s1 with ⟨r, s2⟩
          rw [hy] at g1 g2 g3 g4
          simp only at g1 g2 g3 g4
          subst g1
          exact ih g2 (by omega) (by omega)
        · exact ih hr1 (by omega) (by omega)

/-- C96: the fuzz target returns for all data and all random choices; neither its `panic!` nor its `expect` is reached. -/
theorem C96_fuzz (hD : D.Sane) (isFile : FieldHeaders → Bool) (rng ns : List Nat) (data : Bytes) : ∃ n, ∀ fuel, n ≤ fuel → doFuzz D isFile fuel rng ns data = .ok () := by
  have hne : NoErr ((mockHttp ns).body { data := data, boundary := fuzzBoundary, contentLen := none, rng := rng }) := by
    intro e h
    simp [mockHttp, MockServer.script] at h
  generalize hevs : (mockHttp ns).body { data := data, boundary := fuzzBoundary, contentLen := none, rng := rng } = evs at hne
  refine ⟨(withBody evs fuzzBoundary).unread.length + (withBody evs fuzzBoundary).evs.length + 1, fun fuel hf => ?_⟩
  unfold doFuzz
  split
  · rfl
  · have : fromRequest (mockHttp ns) { data := data, boundary := fuzzBoundary, contentLen := none, rng := rng } = .ok (withBody evs fuzzBoundary) := by
      rw [← hevs]; rfl
    rw [this]
    exact fuzzEntries_spec hD hne isFile fuel ⟨[], rfl⟩ (by omega) (by omega)

/-- Two fields, of which the second is read. -/
example : doFuzz refDeps (fun fh => fh.name = b!"n2") 100 [3, 0, 7] (List.replicate 90 5)
    b!"----12--34--56\r\nContent-Disposition: form-data; name=\"n1\"\r\n\r\none\r\n----12--34--56\r\nContent-Disposition: form-data; name=\"n2\"\r\n\r\ntwo\r\n----12--34--56--\r\n" = .ok () := by
  decide +kernel

/-! ## C97 -/

/-- `read_file` ends for every file. -/
theorem C97_returns (hD : D.Sane) (b : Bytes) (evs : List Ev) : ∃ n, ∀ fuel, n ≤ fuel → (readFile D fuel b evs).1 ≠ .hang := by
  have key : ∀ (n : Nat) {s : BR}, Reachable D evs b s → s.unread.length < n → (readFileLoop D n s).1 ≠ .hang := by
    intro n
    induction n with
    | zero => intro s _ h; omega
    | succ n ih =>
      intro s hr hl
      unfold readFileLoop
      have h2 := C06_terminates hD hr
      rcases hx : s.readEntry D with ⟨r, s1⟩
      rw [hx] at h2
      cases r with
      | err e => simp
      | panic => simp
      | hang => exact absurd rfl h2
      | ok o =>
        cases o with
        | none => simp
        | some fh =>
          have h4 := BR.readEntry_shrinks hD (hr.spec hD).1 hx
          exact ih (hr.entry hx) (by omega)
  exact ⟨(withBody evs b).unread.length + 1, fun fuel hf => key fuel ⟨[], rfl⟩ (by omega)⟩

/-- In a field that was read to its end, a call of `read_entry` does the right thing. -/
theorem drained_outcome (hD : D.Sane) (hn : NoStall evs) (hne : NoErr evs) {es : List (FieldHeaders × Bytes)} {fin : Ending} (ha : AtParts D (dashes ++ b) evs s es fin) (hdr : s.Drained) :
    (s.readEntry D).1 ≠ .err .unexpectedEof ∨ ((s.readEntry D).1 = .err .unexpectedEof ∧ es = [] ∧ fin ≠ .closed) := by
  have hv := BR.readEntry_verdict hD ha.inv ha.st (.inl hdr) hn hne ha.script ha.unread
  rw [ha.delim] at hv
  cases ha.parts with
  | close g => left; rw [hv.1.1 _ g]; simp
  | damaged g => left; rw [hv.1.2.1 g]; simp
  | truncated g => right; exact ⟨hv.1.2.2 g, rfl, by simp⟩
  | refused g g' => left; rw [BR.readEntry_refused hD ha.inv ha.st (.inl hdr) hn hne ha.script (ha.delim.symm ▸ g) (ha.delim.symm ▸ g')]; simp
  | part g w _ =>
    obtain ⟨H, hs, w1, w2, w3, w4⟩ := w.headers
    left; rw [(hv.2 _ _ _ _ _ _ g w1 w.data w4 w3 w2).1]; simp

/-- What a call of `read_entry` does that skips the rest of a field: the right thing, or it fails although the delimiter line is complete, because of a split there. -/
theorem skip_outcome (hD : D.Sane) (hn : NoStall evs) (hne : NoErr evs) {es : List (FieldHeaders × Bytes)} {fin : Ending} (hr : Reachable D evs b s) (ha : AtParts D (dashes ++ b) evs s es fin) :
    (s.readEntry D).1 ≠ .err .unexpectedEof ∨ ((s.readEntry D).1 = .err .unexpectedEof ∧ es = [] ∧ fin ≠ .closed) ∨ ((s.readEntry D).1 = .err .unexpectedEof ∧ CutLine (dashes ++ b) evs ∧ ¬ s.Drained ∧
      ∃ p, FirstAt (dashes ++ b) s.unread p ∧ entryBuf (dashes ++ b) < p + (dashes ++ b).length + 2) := by
  by_cases hdr : s.Drained
  · rcases drained_outcome hD hn hne ha hdr with h | h
    · exact .inl h
    · exact .inr (.inl h)
  by_cases he : (s.readEntry D).1 ≠ .err .unexpectedEof
  · exact .inl he
  refine .inr ?_
  have he := Decidable.not_not.mp he
  obtain ⟨k, -, hk⟩ := BR.reaches_eof (n := 1) (by omega) _ ha.inv (Nat.le_refl _)
  have ha2 := ha.run (List.replicate k (.read 1))
  have hv := BR.readEntry_verdict hD ha2.inv ha2.st (.inl (BR.AtEof.drained ha2.inv hk)) hn hne ha2.script ha2.unread
  rw [ha2.delim] at hv
  have hparts := ha2.parts
  have hd0 : dashes ++ b ≠ [] := by simp [dashes]
  by_cases hbad : es = [] ∧ fin ≠ .closed
  · exact .inl ⟨he, hbad⟩
  have h07 := C07_skip_partial hD hn hne hr (List.replicate k (.read 1)) (by
    intro rest hx
    cases ha.parts with
    | close g => exact nomatch hx.unique hd0 g
    | damaged g => exact nomatch hx.unique hd0 g
    | truncated g => exact nomatch hx.unique hd0 g
    | refused => exact absurd ⟨rfl, by simp⟩ hbad
    | part g w _ => have := hx.unique hd0 g; simp only [Verdict.part.injEq] at this; subst this; exact .inl ⟨_, _, _, w⟩) hk
  have hcause : ∀ tail, (tail = crlf ∨ tail = dashes) → (∀ p, FirstAt (dashes ++ b) s.unread p → ∃ rest, s.unread.drop (p + (dashes ++ b).length) = tail ++ rest) →
      ((s.run (List.replicate k (.read 1))).2.readEntry D).1 ≠ .err .unexpectedEof →
      CutLine (dashes ++ b) evs ∧ ¬ s.Drained ∧ ∃ p, FirstAt (dashes ++ b) s.unread p ∧ entryBuf (dashes ++ b) < p + (dashes ++ b).length + 2 := by
    intro tail ht hs hne2
    rcases h07 with ⟨h, -⟩ | ⟨-, gone, p, hg, hp, hl, hsp⟩
    · rw [← h] at hne2; exact absurd he hne2
    · refine ⟨⟨gone.length + p, tail, ht, ?_, hsp⟩, hdr, p, hp, hl⟩
      obtain ⟨rest, hr⟩ := hs p hp
      obtain ⟨y, hy⟩ := hp.1
      refine ⟨rest, ?_⟩
      rw [hg, List.drop_append, List.drop_eq_nil_of_le (by omega), List.nil_append, Nat.add_sub_cancel_left, ← hy, List.append_assoc, ← hr, ← List.drop_drop, ← hy, List.drop_left]
  cases ha.parts with
  | close g =>
    right
    have h1 := hv.1.1
    cases g with
    | close g1 g2 =>
      refine ⟨he, hcause dashes (.inr rfl) (fun p hp => ?_) ?_⟩
      · cases hp.unique g1; exact ⟨_, g2⟩
      · cases hparts with
        | close g => rw [h1 _ g]; simp
  | damaged g => exact .inl ⟨he, rfl, by simp⟩
  | truncated g => exact .inl ⟨he, rfl, by simp⟩
  | refused => exact .inl ⟨he, rfl, by simp⟩
  | part g w _ =>
    right
    cases g with
    | part g1 g2 =>
      refine ⟨he, hcause crlf (.inl rfl) (fun p hp => ?_) ?_⟩
      · cases hp.unique g1; exact ⟨_, g2⟩
      · cases hparts with
        | part g w _ =>
          obtain ⟨H, hs, w1, w2, w3, w4⟩ := w.headers
          rw [(hv.2 _ _ _ _ _ _ g w1 w.data w4 w3 w2).1]; simp

theorem readFileLoop_parts (hD : D.Sane) (hn : NoStall evs) (hne : NoErr evs) {fin : Ending} : ∀ (es : List (FieldHeaders × Bytes)) {s : BR} {fuel : Nat}, Reachable D evs b s →
    AtParts D (dashes ++ b) evs s es fin → es.length < fuel →
    readFileLoop D fuel s = (fin.main, es.map (·.1.name)) ∨
    (CutLine (dashes ++ b) evs ∧ ((readFileLoop D fuel s = (.panic, []) ∧ ¬ s.Drained ∧ ∀ dat, FieldData (dashes ++ b) s.unread dat → LongField (dashes ++ b) dat) ∨
      ∃ k e, es[k]? = some e ∧ LongField (dashes ++ b) e.2 ∧ readFileLoop D fuel s = (.panic, (es.take (k + 1)).map (·.1.name)))) := by
  intro es
  induction es with
  | nil =>
    intro s fuel hr ha hf
    obtain ⟨n, rfl⟩ : ∃ n, fuel = n + 1 := ⟨fuel - 1, by simp at hf; omega⟩
    unfold readFileLoop
    rcases skip_outcome hD hn hne hr ha with h | ⟨h, -, hfin⟩ | ⟨h, hc, hdr, p, hp, hl⟩
    · have hv := (BR.readEntry_verdict hD ha.inv ha.st (.inr h) hn hne ha.script ha.unread).1
      rw [ha.delim] at hv
      left
      rcases hx : s.readEntry D with ⟨r, s1⟩
      rw [hx] at hv
      cases ha.parts with
      | close g => have := hv.1 _ g; simp only at this; subst this; rfl
      | damaged g => have := hv.2.1 g; simp only at this; subst this; rfl
      | truncated g => have := hv.2.2 g; simp only at this; subst this; rfl
      | refused g g' =>
        have := BR.readEntry_refused hD ha.inv ha.st (.inr h) hn hne ha.script (ha.delim.symm ▸ g) (ha.delim.symm ▸ g')
        rw [hx] at this; simp only at this; subst this; rfl
    · left
      rcases hx : s.readEntry D with ⟨r, s1⟩
      rw [hx] at h
      simp only at h
      subst h
      cases fin with
      | closed => exact absurd rfl hfin
      | failed e => rfl
    · right
      refine ⟨hc, .inl ⟨?_, hdr, fun dat g => g.longField ‹_› hl⟩⟩
      rcases hx : s.readEntry D with ⟨r, s1⟩
      rw [hx] at h
      simp only at h
      subst h
      rfl
  | cons p es ih =>
    intro s fuel hr ha hf
    obtain ⟨n, rfl⟩ : ∃ n, fuel = n + 1 := ⟨fuel - 1, by simp at hf; omega⟩
    unfold readFileLoop
    rcases skip_outcome hD hn hne hr ha with h | ⟨-, h, -⟩ | ⟨h, hc, hdr, q, hq, hl⟩
    · have hv := (BR.readEntry_verdict hD ha.inv ha.st (.inr h) hn hne ha.script ha.unread).2
      rw [ha.delim] at hv
      rcases hx : s.readEntry D with ⟨r, s1⟩
      have hr1 : r = .ok (some p.1) ∧ FieldData (dashes ++ b) s1.unread p.2 := by
        cases ha.parts with
        | part g w _ =>
          obtain ⟨H, hs, w1, w2, w3, w4⟩ := w.headers
          have := hv _ _ _ _ _ _ g w1 w.data w4 w3 w2
          rw [hx] at this
          exact ⟨this.1, by rw [show s1.unread = _ from this.2]; exact w.data⟩
      obtain ⟨rfl, hfd⟩ := hr1
      obtain ⟨dat, es', he, ha1⟩ := ha.entry hD hn hne (.inr h) hx
      simp only [List.cons.injEq] at he
      obtain ⟨-, rfl⟩ := he
      simp only [List.length_cons] at hf
      rcases ih (hr.entry hx) ha1 (fuel := n) (by omega) with h1 | ⟨hc, ⟨h1, -, h2⟩ | ⟨k, e, h2, h3, h1⟩⟩
      · left; simp only [h1, List.map_cons]
      · right; exact ⟨hc, .inr ⟨0, p, rfl, h2 _ hfd, by simp only [h1, List.take_succ_cons, List.take_zero, List.map_cons, List.map_nil]⟩⟩
      · right; exact ⟨hc, .inr ⟨k + 1, e, by simpa using h2, h3, by simp only [h1, List.take_succ_cons, List.map_cons]⟩⟩
    · exact nomatch h
    · right
      refine ⟨hc, .inl ⟨?_, hdr, fun dat g => g.longField ‹_› hl⟩⟩
      rcases hx : s.readEntry D with ⟨r, s1⟩
      rw [hx] at h
      simp only at h
      subst h
      rfl

/-- C97, for a body in any pieces: `read_file` prints the names and ends as expected, or it stops with a panic behind the name of a field that is long,
and then a read ended at or just behind the delimiter of a delimiter line.
`C97_false` shows that the latter happens. -/
theorem C97_names_partial (hD : D.Sane) (hn : NoStall evs) (hne : NoErr evs) {es : List (FieldHeaders × Bytes)} {fin : Ending} (hP : Parts D (dashes ++ b) (Ev.bytes evs) es fin) :
    ∃ n, ∀ fuel, n ≤ fuel →
      readFile D fuel b evs = (fin.main, es.map (·.1.name)) ∨ 
      (CutLine (dashes ++ b) evs ∧ ∃ k e, es[k]? = some e ∧ LongField (dashes ++ b) e.2 ∧ readFile D fuel b evs = (.panic, (es.take (k + 1)).map (·.1.name))) := by
  refine ⟨es.length + 1, fun _ hf => ?_⟩
  rcases readFileLoop_parts hD hn hne es (s := withBody evs b) ⟨[], rfl⟩ (.start hP) hf with h | ⟨hc, ⟨-, h, -⟩ | h⟩
  · exact .inl h
  · exact absurd (by intro h; simp [withBody, BR.fromReader] at h) h
  · exact .inr ⟨hc, h⟩

/-- C97 for files of any size whose fields are not long: in whatever pieces they are read, all names are printed. -/
theorem C97_short_partial (hD : D.Sane) (hn : NoStall evs) (hne : NoErr evs) {es : List (FieldHeaders × Bytes)} {fin : Ending} (hP : Parts D (dashes ++ b) (Ev.bytes evs) es fin)
    (hs : ∀ e ∈ es, ¬ LongField (dashes ++ b) e.2) : ∃ n, ∀ fuel, n ≤ fuel → readFile D fuel b evs = (fin.main, es.map (·.1.name)) := by
  obtain ⟨n, h⟩ := C97_names_partial hD hn hne hP
  refine ⟨n, fun fuel hf => ?_⟩
  rcases h fuel hf with h | ⟨-, k, e, h1, h2, -⟩
  · exact h
  · exact absurd h2 (hs e (List.mem_of_getElem? h1))

/-- The hypotheses are met: a body of two short parts, read in three pieces. -/
example : ∃ n, ∀ fuel, n ≤ fuel → readFile refDeps fuel Sample.bnd Sample.evsTwo = (.ok (), [Sample.fh.name, Sample.fh.name]) :=
  C97_short_partial refDeps_sane (by decide +kernel) (by intro e; simp [Sample.evsTwo]) Sample.partsTwo (by unfold LongField; decide +kernel)

theorem single_not_cutLine {d x : Bytes} (hd : d ≠ []) : ¬ CutLine d [.data x] := by
  rintro ⟨k, tail, ht, ⟨y, hy⟩, hs⟩
  have hy := congrArg List.length hy
  have : 0 < d.length := List.length_pos_iff.mpr hd
  have htl : tail.length = 2 := by rcases ht with rfl | rfl <;> rfl
  simp only [List.length_append, List.length_drop, Ev.bytes, List.append_nil] at hy
  have key : ∀ {j}, SplitAt [.data x] j → 0 < j → j = x.length := by
    rintro j ⟨p, q, h1, h2⟩ hj
    cases p with
    | nil => simp [Ev.bytes] at h2; omega
    | cons a p =>
      simp only [List.cons_append, List.cons.injEq] at h1
      obtain ⟨rfl, h1⟩ := h1
      have : p = [] := by cases p <;> simp at h1 ⊢
      subst this
      simp [Ev.bytes] at h2
      omega
  rcases hs with h | h <;> (have := key h (by omega); omega)

/-- C97 for small files: in whatever pieces they are read, all names are printed. -/
theorem C97_small_partial (hD : D.Sane) (hn : NoStall evs) (hne : NoErr evs) (hl : (Ev.bytes evs).length ≤ entryBuf (dashes ++ b)) {es : List (FieldHeaders × Bytes)} {fin : Ending}
    (hP : Parts D (dashes ++ b) (Ev.bytes evs) es fin) : ∃ n, ∀ fuel, n ≤ fuel → readFile D fuel b evs = (fin.main, es.map (·.1.name)) := by
  have hd : dashes ++ b ≠ [] := by simp [dashes]
  by_cases h0 : Ev.bytes evs = []
  · refine ⟨es.length + 1, fun fuel hf => ?_⟩
    rcases readFileLoop_parts hD hn hne es ⟨[], rfl⟩ (.start hP) hf with h | ⟨⟨k, tail, ht, ⟨y, hy⟩, -⟩, -⟩
    · exact h
    · rw [h0] at hy; simp [dashes] at hy
  · have hb : Ev.bytes evs = Ev.bytes [.data (Ev.bytes evs)] := by simp [Ev.bytes]
    have hn1 : NoStall [.data (Ev.bytes evs)] := by
      intro h
      simp only [List.mem_singleton, Ev.data.injEq] at h
      exact h0 h.symm
    have he1 : NoErr [.data (Ev.bytes evs)] := by intro e; simp
    refine ⟨es.length + 1, fun fuel hf => ?_⟩
    have heq : readFile D fuel b evs = readFile D fuel b [.data (Ev.bytes evs)] := by
      unfold readFile
      cases fuel with
      | zero => rfl
      | succ n => unfold readFileLoop; rw [C93_same_partial hn hne hn1 he1 hb hl]
    rw [heq]
    rcases readFileLoop_parts hD hn1 he1 es ⟨[], rfl⟩ (.start (hb ▸ hP)) hf with h | ⟨h, -⟩
    · exact h
    · exact absurd h (single_not_cutLine hd)

/-- The hypotheses are met: a body of two parts, read in three pieces. So are those of C97_returns and C97_names_partial. -/
example : ∃ n, ∀ fuel, n ≤ fuel → readFile refDeps fuel Sample.bnd Sample.evsTwo = (.ok (), [Sample.fh.name, Sample.fh.name]) :=
  C97_small_partial refDeps_sane (by decide +kernel) (by intro e; simp [Sample.evsTwo]) (by decide +kernel) Sample.partsTwo

/-- A body of one part of 1100 bytes whose first read ends behind the delimiter of the closing line: the name is printed, then `read_file` panics. -/
theorem Sample.cut_file (fuel : Nat) : readFile refDeps (fuel + 2) Sample.bnd Sample.evsCut = (.panic, [Sample.fh.name]) := by
  have h1 : (withBody Sample.evsCut Sample.bnd).readEntry refDeps = (.ok (some Sample.fh), ((withBody Sample.evsCut Sample.bnd).readEntry refDeps).2) := by decide +kernel
  have h2 : (((withBody Sample.evsCut Sample.bnd).readEntry refDeps).2.readEntry refDeps).1 = .err .unexpectedEof := by decide +kernel
  generalize ((withBody Sample.evsCut Sample.bnd).readEntry refDeps).2 = t at h1 h2
  unfold readFile readFileLoop
  rw [h1]
  simp only
  unfold readFileLoop
  rcases hx : t.readEntry refDeps with ⟨r, u⟩
  rw [hx] at h2
  simp only at h2
  subst h2
  rfl

/-- C97 as stated is false. -/
theorem C97_false : ¬ ReadsFiles refDeps := by
  intro h
  obtain ⟨n, hn⟩ := h Sample.evsCut Sample.bnd [(Sample.fh, Sample.big)] .closed (by decide +kernel) (by intro e; simp [Sample.evsCut])
    (by have := Sample.parts_big; simpa [Sample.evsCut, Ev.bytes] using this)
  have := hn (n + 2) (by omega)
  rw [Sample.cut_file] at this
  simp [Ending.main] at this

end Multipart

import Verif.Model.Nested
import Verif.Lemmas.Leak
import Verif.Props.Owned
/-!
# C134: multipart bodies inside of a field
-/
namespace Multipart

variable {D : Deps} {evs evs' : List Ev} {b c : Bytes} {s0 s t : BR} {fh : FieldHeaders} {dat : Bytes}

theorem BR.serve_run (h : s.Inv) : ∀ {ns : List Nat}, s.run (ns.map .read) = (Ev.bytes (s.serve ns).1, (s.serve ns).2) ∧ ∀ e, Ev.err e ∈ (s.serve ns).1 → Ev.err e ∈ s.evs := by
  intro ns
  induction ns generalizing s with
  | nil => exact ⟨rfl, by intro e he; simp [BR.serve] at he⟩
  | cons n ns ih =>
    obtain ⟨h1, h2⟩ := ih (BR.op_inv h (.read n))
    have hsuf := (BR.op_skipped h (.read n)).2.2.2.1
    simp only [List.map_cons, BR.run, h1]
    rcases BR.read_eq h n with ⟨e, h3, h4⟩ | ⟨h3, h4⟩ <;> simp only [BR.op, h4] at h2 hsuf <;> simp only [BR.serve, BR.op, h4]
    · refine ⟨by simp [Ev.bytes], ?_⟩
      intro e' he'
      rcases List.mem_cons.mp he' with he' | he'
      · cases he'; exact (fill_spec s.min s.evs s.buf).errmem _ h3
      · exact hsuf.subset (h2 e' he')
    · refine ⟨by simp [Ev.bytes], ?_⟩
      intro e' he'
      rcases List.mem_cons.mp he' with he' | he'
      · cases he'
      · exact hsuf.subset (h2 e' he')

/-- C134: what a reader over the data of a field gets, in reads of whatever sizes, up to the end: the data (up to the CRLF of C01), no other errors than those of the stream; and for the outer body this is one of the
ways to read the field. -/
theorem C134_served (hD : D.Sane) (hn : NoStall evs) (hr : Reachable D evs b s0) (he : s0.readEntry D = (.ok (some fh), s)) (hd : FieldData (dashes ++ b) s.unread dat) {ns : List Nat}
    (hs : s.serve ns = (evs', t)) (ht : t.AtEof) :
    DataOk (dashes ++ b) evs dat (Ev.bytes evs') ∧ (∀ e, Ev.err e ∈ evs' → Ev.err e ∈ evs) ∧
    ∀ es fin, Reads D t es fin → Reads D s0 ((fh, Ev.bytes evs') :: es) fin := by
  have hr1 := hr.entry he
  have ⟨h1, h2⟩ := BR.serve_run (hr1.spec hD).1 (ns := ns)
  rw [hs] at h1 h2
  have h3 : (s.run (ns.map .read)).2.AtEof := by rw [h1]; exact ht
  refine ⟨?_, fun e h => (hr1.spec hD).2.2.2.subset (h2 e h), ?_⟩
  · have h4 := C01_field_bytes_partial hD hn hr he hd (ns.map .read) h3
    rw [h1] at h4
    rcases h4 with h4 | ⟨h4, g, hg, hsp, hf, hfirst⟩
    · exact .inl h4
    · by_cases hc : CleanSplit (dashes ++ b) evs
      · have h5 := C01_field_bytes_cleanSplit_partial hD hn hc hr he hd (ns.map .read) h3
        rw [h1] at h5; exact .inl h5
      · exact .inr ⟨h4, hc⟩
  · intro es fin hR
    have := Reads.entry (os := ns.map .read) he h3 (by rw [h1]; exact hR)
    rw [h1] at this; exact this

/-- C134: a multipart body as the data of a field of another: whatever the sizes of the reads, the reader over the field finds the parts of the inner body and its end, and what is in front and behind of
them in the field does not matter, nor does the CRLF of C01 at the end of the field. (Contents are meant up to the CRLF of C01, now of the inner reader.) -/
theorem C134_nested (hD : D.Sane) (hn : NoStall evs) (hne : NoErr evs) (hr : Reachable D evs b s0) (he : s0.readEntry D = (.ok (some fh), s)) {pre body epi : Bytes} {es : List (FieldHeaders × Bytes)}
    (hd : FieldData (dashes ++ b) s.unread (pre ++ body ++ epi)) (hpre : ∀ q, q < pre.length → ¬ OccursAt (dashes ++ c) (pre ++ body) q) (hP : Parts D (dashes ++ c) body es .closed) {ns : List Nat}
    (hs : s.serve ns = (evs', t)) (hn' : NoStall evs') (ht : t.AtEof) {got : List (FieldHeaders × Bytes)} {fin : Ending} (hR : Reads D (withBody evs' c) got fin) :
    fin = .closed ∧ All2 (fun a e => a.1 = e.1 ∧ DataOk (dashes ++ c) evs' e.2 a.2) got es := by
  obtain ⟨h1, h2, -⟩ := C134_served hD hn hr he hd hs ht
  have hne' : NoErr evs' := fun e h => hne e (h2 e h)
  rcases h1 with h1 | ⟨h1, -⟩
  · exact C12_preamble_epilogue hD hn' hne' h1 hpre hP hR
  · exact C12_preamble_epilogue (epi := epi ++ crlf) hD hn' hne' (by rw [h1]; simp only [List.append_assoc]) hpre hP hR

theorem BR.read_nonempty (h : s.Inv) {n : Nat} (hn : 0 < n) (he : ¬ s.AtEof) : (s.read n).1 ≠ .ok [] := by
  intro h0
  rcases BR.read_eq h n with ⟨e, h1, h2⟩ | ⟨h1, h2⟩ <;> rw [h2] at h0
  · cases h0
  · have hai := s.afterRead_inv h
    apply he
    unfold BR.AtEof
    rcases BR.readToBoundary_eq h with ⟨e, h3, _⟩ | ⟨_, hr⟩
    · rw [h1] at h3; cases h3
    · have h3 : (s.afterRead.buf.take (Nat.min n s.afterRead.idx)).length = 0 := by
        have := congrArg (fun r : Res Bytes => match r with | .ok x => x.length | _ => 0) h0
        simpa using this
      rw [List.length_take, Nat.min_eq_left (Nat.le_trans (Nat.min_le_right _ _) hai.idx_le)] at h3
      have h4 : s.afterRead.idx = 0 := by omega
      rw [hr, h4]; simp

theorem BR.serves : ∀ (m : Nat) {s : BR} (sz : Nat → Nat), s.Inv → s.unread.length + s.evs.length ≤ m →
    ∃ k, NoStall (s.serve ((List.range k).map fun i => sz i + 1)).1 ∧ (s.serve ((List.range k).map fun i => sz i + 1)).2.AtEof := by
  intro m
  induction m with
  | zero =>
    intro s sz h hm
    by_cases he : s.AtEof
    · exact ⟨0, by simp [BR.serve, NoStall], he⟩
    · have := BR.read_progress (n := 1) h (by omega) he; omega
  | succ m ih =>
    intro s sz h hm
    by_cases he : s.AtEof
    · exact ⟨0, by simp [BR.serve, NoStall], he⟩
    · have := BR.read_progress (n := sz 0 + 1) h (by omega) he
      obtain ⟨k, h1, h2⟩ := ih (fun i => sz (i + 1)) (BR.op_inv h (.read (sz 0 + 1))) (by omega)
      refine ⟨k + 1, ?_⟩
      have hne := BR.read_nonempty (n := sz 0 + 1) h (by omega) he
      rw [show (List.range (k + 1)).map (fun i => sz i + 1) = (sz 0 + 1) :: (List.range k).map (fun i => sz (i + 1) + 1) by
        rw [List.range_succ_eq_map, List.map_cons, List.map_map]; rfl]
      rcases BR.read_eq h (sz 0 + 1) with ⟨e, h3, h4⟩ | ⟨h3, h4⟩ <;> simp only [BR.op, h4] at h1 h2 <;> rw [h4] at hne <;> simp only [BR.serve, h4]
      · exact ⟨by simp only [NoStall, List.mem_cons, not_or]; exact ⟨by simp, h1⟩, h2⟩
      · refine ⟨?_, h2⟩
        simp only [NoStall, List.mem_cons, not_or]
        exact ⟨fun h => hne (by rw [Ev.data.inj h.symm]), h1⟩

/-- C134: however the sizes of the reads are chosen, the data of the field come to an end, and then all of the inner body can be read. -/
theorem C134_total (hD : D.Sane) (hr : Reachable D evs b s) (c : Bytes) (sz : Nat → Nat) :
    ∃ k evs' t, s.serve ((List.range k).map fun i => sz i + 1) = (evs', t) ∧ NoStall evs' ∧ t.AtEof ∧ ∃ got fin, Reads D (withBody evs' c) got fin := by
  obtain ⟨k, h1, h2⟩ := BR.serves _ sz (hr.spec hD).1 (Nat.le_refl _)
  exact ⟨k, _, _, rfl, h1, h2, C10_reads_total (evs := _) (b := c) hD ⟨[], rfl⟩⟩

/-! A field of the body with boundary `b` that contains the body with boundary `c` (and a text in front of it). -/

def Sample.inner : Bytes := b!"--c\r\n" ++ Sample.hdr ++ b!"hello\r\n--c--\r\n"
def Sample.evsOuter : List Ev := [.data (b!"--b\r\n" ++ Sample.hdr ++ b!"text\r\n" ++ Sample.inner.take 9), .data (Sample.inner.drop 9 ++ b!"\r\n--b--")]
def Sample.sOuter : BR := ((withBody Sample.evsOuter Sample.bnd).readEntry refDeps).2

theorem Sample.entryOuter : (withBody Sample.evsOuter Sample.bnd).readEntry refDeps = (.ok (some Sample.fh), Sample.sOuter) :=
  Sample.pair_eq (by decide +kernel) Sample.sOuter.eq_def.symm

theorem Sample.innerParts : Parts refDeps (dashes ++ b!"c") Sample.inner [(Sample.fh, b!"hello")] .closed :=
  .part (.part (p := 0) (rest := Sample.hdr ++ b!"hello\r\n--c--\r\n") (by decide +kernel) (by decide +kernel))
    ⟨⟨Sample.hdr, _, Sample.headerBlock (by decide +kernel), by decide +kernel, by decide, fun h => absurd h (by decide)⟩, .crlf (by decide) ⟨b!"--c--\r\n", rfl⟩⟩
    (.close (.close (p := 7) (rest := b!"\r\n") (by decide +kernel) (by decide +kernel)))

theorem Sample.dataOuter : FieldData (dashes ++ Sample.bnd) Sample.sOuter.unread (b!"text\r\n" ++ Sample.inner ++ []) := .crlf (by decide +kernel) ⟨b!"--b--", by decide +kernel⟩

/-- C134_served, C134_nested and C134_total apply to this field. -/
example : ∃ k got fin, NoStall (Sample.sOuter.serve ((List.range k).map fun i => 7 * i + 1)).1 ∧ Reads refDeps (withBody (Sample.sOuter.serve ((List.range k).map fun i => 7 * i + 1)).1 b!"c") got fin ∧
    fin = .closed ∧ All2 (fun a e => a.1 = e.1 ∧ DataOk (dashes ++ b!"c") (Sample.sOuter.serve ((List.range k).map fun i => 7 * i + 1)).1 e.2 a.2) got [(Sample.fh, b!"hello")] := by
  obtain ⟨k, evs', t, h1, h2, h3, got, fin, h4⟩ := C134_total (evs := Sample.evsOuter) (b := Sample.bnd) refDeps_sane (Reachable.entry ⟨[], rfl⟩ Sample.entryOuter) b!"c" (fun i => 7 * i)
  refine ⟨k, got, fin, by rw [h1]; exact h2, by rw [h1]; exact h4, ?_⟩
  rw [h1]
  exact C134_nested (evs := Sample.evsOuter) (b := Sample.bnd) refDeps_sane (by decide +kernel) (by intro e; simp [Sample.evsOuter]) ⟨[], rfl⟩ Sample.entryOuter Sample.dataOuter (by decide +kernel) Sample.innerParts h1 h2 h3 h4

/-- And C134_served by itself: the sizes 5, 30 and 200 read the field to its end. -/
example : NoStall (Sample.sOuter.serve [5, 30, 200]).1 ∧ (Sample.sOuter.serve [5, 30, 200]).2.AtEof := ⟨by decide +kernel, by unfold BR.AtEof; decide +kernel⟩

/-- What stands behind the first occurrence of the delimiter is not that of a part: then nothing behind it is read. -/
theorem NextIs.extended {X pre x more : Bytes} (hX : X = pre ++ (dashes ++ (b ++ x)) ++ more) (hf : FirstAt (dashes ++ b) X pre.length) (hl : 2 ≤ (x ++ more).length) (hcr : ¬ crlf <+: x ++ more) :
    (∃ rest, dashes <+: x ++ more ∧ NextIs (dashes ++ b) X (.close rest)) ∨ (¬ dashes <+: x ++ more ∧ NextIs (dashes ++ b) X .damaged) := by
  have hdrop : X.drop (pre.length + (dashes ++ b).length) = x ++ more := by
    have : X = (pre ++ (dashes ++ b)) ++ (x ++ more) := by rw [hX]; simp only [List.append_assoc]
    rw [this, ← List.length_append, List.drop_left]
  by_cases h : dashes <+: x ++ more
  · obtain ⟨rest, hrest⟩ := h
    exact .inl ⟨rest, ⟨rest, hrest⟩, .close hf (by rw [hdrop, hrest])⟩
  · refine .inr ⟨h, .damaged hf ?_ (by rw [hdrop]; exact hcr) (by rw [hdrop]; exact h)⟩
    rw [hX]; simp only [List.length_append] at hl ⊢; omega

/-- C134, why the delimiter of the outer body must not occur in the inner one, not even as the beginning of a longer boundary: if the inner boundary is the outer one and something behind it (`x`), the field ends
at the first delimiter of the inner body, and no part behind it is read, neither of the inner body nor of the outer one. If `x` begins with two dashes the caller is even told that this was the end of the body. -/
theorem C134_longer_boundary (hD : D.Sane) (hn : NoStall evs) (hne : NoErr evs) {es : List (FieldHeaders × Bytes)} {w rest X pre x more : Bytes} (hP : PartsTo D (dashes ++ b) (Ev.bytes evs) es w)
    (hN : NextIs (dashes ++ b) w (.part rest)) (hW : WellFormedPart D (dashes ++ b) rest fh dat X) (hX : X = pre ++ (dashes ++ (b ++ x)) ++ more) (hf : FirstAt (dashes ++ b) X pre.length)
    (hl : 2 ≤ (x ++ more).length) (hcr : ¬ crlf <+: x ++ more) {got : List (FieldHeaders × Bytes)} {fin : Ending} (hR : Reads D (withBody evs b) got fin) :
    (dashes <+: x ++ more → fin = .closed) ∧ (¬ dashes <+: x ++ more → fin = .failed .invalidData) ∧ dat <+: pre ∧
    All2 (fun a e => a.1 = e.1 ∧ DataOk (dashes ++ b) evs e.2 a.2) got (es ++ [(fh, dat)]) := by
  have hdat : dat <+: pre := by
    have hpre : pre <+: X := ⟨_, by rw [hX, List.append_assoc]⟩
    cases hW.data with
    | crlf h1 h2 =>
      have := h1.unique hf
      exact List.prefix_of_prefix_length_le ((List.prefix_append dat crlf).trans h2) hpre (by omega)
    | bare h1 h2 =>
      have := h1.unique hf
      exact List.prefix_of_prefix_length_le h2 hpre (by omega)
  rcases NextIs.extended hX hf hl hcr with ⟨r, h1, h2⟩ | ⟨h1, h2⟩
  · obtain ⟨h3, h4⟩ := C10_entries_are_parts hD hn hne (hP.then (.part hN hW (.close h2))) hR
    exact ⟨fun _ => h3, fun h => absurd h1 h, hdat, h4⟩
  · obtain ⟨h3, h4⟩ := C10_entries_are_parts hD hn hne (hP.then (.part hN hW (.damaged h2))) hR
    exact ⟨fun h => absurd h h1, fun _ => h3, hdat, h4⟩

/-- The hypotheses of C134_longer_boundary are met: an inner boundary `bc`, and one that looks like the end of the body, `b--c`. -/
example : let evs := [Ev.data (b!"--b\r\n" ++ Sample.hdr ++ b!"\r\n--bc\r\n--b\r\n")]
    NoStall evs ∧ NoErr evs ∧ NextIs (dashes ++ Sample.bnd) (Ev.bytes evs) (.part (Sample.hdr ++ b!"\r\n--bc\r\n--b\r\n")) ∧
    WellFormedPart refDeps (dashes ++ Sample.bnd) (Sample.hdr ++ b!"\r\n--bc\r\n--b\r\n") Sample.fh [] b!"\r\n--bc\r\n--b\r\n" ∧ FirstAt (dashes ++ Sample.bnd) b!"\r\n--bc\r\n--b\r\n" (b!"\r\n").length ∧
    b!"\r\n--bc\r\n--b\r\n" = crlf ++ (dashes ++ (Sample.bnd ++ b!"c")) ++ b!"\r\n--b\r\n" ∧ ¬ crlf <+: b!"c" ++ b!"\r\n--b\r\n" ∧ ¬ dashes <+: b!"c" ++ b!"\r\n--b\r\n" := by
  refine ⟨by decide +kernel, by intro e; simp, .part (p := 0) (by decide +kernel) (by decide +kernel),
    ⟨⟨Sample.hdr, _, Sample.headerBlock (by decide +kernel), by decide +kernel, by decide, fun h => absurd h (by decide)⟩, .crlf (by decide) ⟨b!"--bc\r\n--b\r\n", rfl⟩⟩, by decide +kernel, by decide +kernel,
    by decide, by decide⟩

example : dashes <+: b!"--c" ++ b!"\r\n" ∧ ¬ crlf <+: b!"--c" ++ b!"\r\n" := by decide

end Multipart

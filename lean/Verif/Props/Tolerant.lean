import Verif.Spec.Tolerant
import Verif.Props.Skip
import Verif.Props.BadPart
import Verif.Props.Tools
/-!
# C122: a caller who goes on after parts with bad headers
-/
namespace Multipart

variable {D : Deps} {evs : List Ev} {b d : Bytes} {s t : BR} {es got : List (Option (FieldHeaders × Bytes))} {fin fin' : Ending} {u w rest : Bytes}

structure AtMixed (D : Deps) (d : Bytes) (evs : List Ev) (s : BR) (es : List (Option (FieldHeaders × Bytes))) (fin : Ending) : Prop where
  inv : s.Inv
  delim : s.delim = d
  script : s.evs <:+ evs
  unread : s.unread <:+ Ev.bytes evs
  st : s.st ≠ .atEnd
  parts : MixedParts D d s.unread es fin

theorem MixedParts.same (h : MixedParts D d u es fin) (hs : ∀ v, NextIs d u v → NextIs d w v) : MixedParts D d w es fin := by
  cases h with
  | close g => exact .close (hs _ g)
  | truncated g => exact .truncated (hs _ g)
  | bad g g' p => exact .bad (hs _ g) g' p
  | part g g' p => exact .part (hs _ g) g' p

theorem AtMixed.run (h : AtMixed D d evs s es fin) (os : List FieldOp) : AtMixed D d evs (s.run os).2 es fin := by
  obtain ⟨r1, r2, r3, r4, r5⟩ := BR.run_skipped os h.inv
  refine ⟨BR.run_inv os h.inv, r3.trans h.delim, r4.trans h.script, by rw [r1]; exact (List.drop_suffix _ _).trans h.unread, fun hh => h.st (r5.mp hh), h.parts.same ?_⟩
  intro v hv
  rw [r1]; apply hv.drop; rw [h.delim] at r2; exact r2

/-- Only the end of the body is reported as one, unless a read of the body ends in a delimiter line and much is skipped. -/
theorem BR.no_eof (hD : D.Sane) (hn : NoStall evs) (hne : NoErr evs) (hi : s.Inv) (hst : s.st ≠ .atEnd) (hevs : s.evs <:+ evs) (hu : s.unread <:+ Ev.bytes evs)
    (hq : ¬ CutLine s.delim evs ∨ s.Near s.delim) {v : Verdict} (hv : NextIs s.delim s.unread v) (hv' : v = .close rest ∨ v = .part rest) : s.Drained ∨ (s.readEntry D).1 ≠ .err .unexpectedEof := by
  by_cases hdr : s.Drained
  · exact .inl hdr
  right
  obtain ⟨gone, hg⟩ := hu
  rcases BR.readEntry_any hD hi hst (hne.suffix hevs) (hn.suffix hevs) hevs hg.symm with ⟨h1, -, -, -, h5⟩ | ⟨-, p, hp, -, hl, hsp⟩
  · rcases hv' with rfl | rfl
    · rw [(h1 _ hv).1]; simp
    · exact h5 _ hv
  · exfalso
    rcases hq with hq | hq | hq
    · have key : ∀ tail, (tail = crlf ∨ tail = dashes) → s.unread.drop (p + s.delim.length) = tail ++ rest → False := by
        intro tail ht hr
        obtain ⟨y, hy⟩ := hp.1
        refine hq ⟨gone.length + p, tail, ht, ⟨rest, ?_⟩, hsp⟩
        rw [← hg, List.drop_append, List.drop_eq_nil_of_le (by omega), List.nil_append, Nat.add_sub_cancel_left, ← hy, List.append_assoc, ← hr, ← List.drop_drop, ← hy, List.drop_left]
      rcases hv' with rfl | rfl
      · cases hv with | close g1 g2 => cases hp.unique g1; exact key _ (.inr rfl) g2
      · cases hv with | part g1 g2 => cases hp.unique g1; exact key _ (.inl rfl) g2
    · exact hdr hq
    · have := hq p hp; omega

theorem BR.eof (hD : D.Sane) (hn : NoStall evs) (hne : NoErr evs) (hi : s.Inv) (hst : s.st ≠ .atEnd) (hevs : s.evs <:+ evs) (hu : s.unread <:+ Ev.bytes evs)
    (hv : NextIs s.delim s.unread .truncated) : (s.readEntry D).1 = .err .unexpectedEof := by
  obtain ⟨gone, hg⟩ := hu
  rcases BR.readEntry_any hD hi hst (hne.suffix hevs) (hn.suffix hevs) hevs hg.symm with ⟨-, -, h3, -⟩ | ⟨h, -⟩
  · exact h3 hv
  · exact h

/-- What `read_entry` does in such a state, and the state it leaves. -/
theorem AtMixed.step (hD : D.Sane) (hn : NoStall evs) (hne : NoErr evs) (hs : ¬ CutLine d evs ∨ ShortBadParts D d (Ev.bytes evs)) (hq : ¬ CutLine d evs ∨ s.Near d) (h : AtMixed D d evs s es fin) :
    (es = [] ∧ fin = .closed ∧ (s.readEntry D).1 = .ok none) ∨
    (es = [] ∧ fin = .failed .unexpectedEof ∧ (s.readEntry D).1 = .err .unexpectedEof) ∨
    (∃ es', es = none :: es' ∧ (s.readEntry D).1 = .err .invalidData ∧ AtMixed D d evs (s.readEntry D).2 es' fin ∧ (¬ CutLine d evs ∨ (s.readEntry D).2.Near d)) ∨
    (∃ fh dat es', es = some (fh, dat) :: es' ∧ (s.readEntry D).1 = .ok (some fh) ∧ AtMixed D d evs (s.readEntry D).2 es' fin ∧ FieldData d (s.readEntry D).2.unread dat) := by
  obtain ⟨hi, rfl, hevs, hu, hst, hp⟩ := h
  have hti := BR.readEntry_inv hD hi
  have htd := BR.readEntry_delim hD hi
  have hte := BR.readEntry_evs hD hi
  have htu := BR.readEntry_suffix hD hi
  have hsp := BR.readEntry_spec hD hi
  cases hp with
  | close g =>
    have h1 := BR.no_eof hD hn hne hi hst hevs hu hq g (.inl rfl)
    exact .inl ⟨rfl, rfl, (BR.readEntry_verdict hD hi hst h1 hn hne hevs hu).1.1 _ g⟩
  | truncated g => exact .inr (.inl ⟨rfl, rfl, BR.eof hD hn hne hi hst hevs hu g⟩)
  | @bad _ rest es' _ g g' p =>
    have h1 := BR.no_eof hD hn hne hi hst hevs hu hq g (.inr rfl)
    have h2 := BR.readEntry_refused hD hi hst h1 hn hne hevs g g'
    refine .inr (.inr (.inl ⟨es', rfl, h2, ?_⟩))
    have hkey : ∃ k, (s.readEntry D).2.unread = rest.drop k ∧ (∀ q, q < k → ¬ OccursAt s.delim rest q) ∧ (s.readEntry D).2.st ≠ .atEnd := by
      generalize s.readEntry D = x at hsp h2 ⊢
      obtain ⟨r, t⟩ := x
      simp only at hsp h2 ⊢
      subst h2
      cases hsp with
      | badHeaders _ a c d _ _ _ _ e =>
        have := a.unique hi.delim_ne g
        cases this
        exact ⟨_, c, d, e⟩
      | noBoundary _ _ _ _ _ h =>
        rcases h with h | h | ⟨_, h⟩
        · exact absurd h ((hne.suffix hevs) _)
        · simp at h
        · have := h.unique hi.delim_ne g; simp at this
    obtain ⟨k, k1, k2, k3⟩ := hkey
    refine ⟨⟨hti, htd, hte.trans hevs, htu.trans hu, k3, p.same fun v hv => by rw [k1]; exact hv.drop k2⟩, ?_⟩
    rcases hs with hs | hs
    · exact .inl hs
    right; right
    intro q hq'
    obtain ⟨gone, hg⟩ := hu
    have hb : ∃ gone', Ev.bytes evs = gone' ++ s.delim ++ crlf ++ rest := by
      cases g with
      | @part p _ g1 g2 =>
        obtain ⟨y, hy⟩ := g1.1
        refine ⟨gone ++ s.unread.take p, ?_⟩
        have : s.unread.drop p = s.delim ++ (crlf ++ rest) := by
          rw [← hy, ← g2, ← List.drop_drop, ← hy, List.drop_left]
        rw [← hg]
        conv => lhs; rw [← List.take_append_drop p s.unread, this]
        simp
    obtain ⟨gone', hb⟩ := hb
    have hf : FirstAt s.delim rest (k + q) := by
      rw [k1] at hq'
      refine ⟨?_, fun j hj => ?_⟩
      · have := hq'.1; unfold OccursAt at this ⊢; rwa [List.drop_drop] at this
      · by_cases hjk : j < k
        · exact k2 _ hjk
        · have := hq'.2 (j - k) (by omega)
          unfold OccursAt at this ⊢
          rwa [List.drop_drop, show k + (j - k) = j by omega] at this
    have := hs _ _ hb g' _ hf
    omega
  | @part _ rest X dat fh es' _ a wf p =>
    have h1 := BR.no_eof hD hn hne hi hst hevs hu hq a (.inr rfl)
    obtain ⟨H, hs', w1, w2, w3, w4⟩ := wf.headers
    obtain ⟨h2, h3⟩ := (BR.readEntry_verdict hD hi hst h1 hn hne hevs hu).2 _ _ _ _ _ _ a w1 wf.data w4 w3 w2
    refine .inr (.inr (.inr ⟨fh, dat, es', rfl, h2, ⟨hti, htd, hte.trans hevs, htu.trans hu, ?_, h3.symm ▸ p⟩, h3.symm ▸ wf.data⟩))
    generalize s.readEntry D = x at hsp h2 ⊢
    obtain ⟨r, t⟩ := x
    simp only at hsp h2 ⊢
    subst h2
    cases hsp with | entry => assumption

theorem tolerant_reads (hD : D.Sane) (hn : NoStall evs) (hne : NoErr evs) (hs : ¬ CutLine d evs ∨ ShortBadParts D d (Ev.bytes evs)) (hr : TolerantReads D s got fin') :
    ∀ {es fin}, AtMixed D d evs s es fin → (¬ CutLine d evs ∨ s.Near d) → fin' = fin ∧ All2 (GotPart d evs) got es := by
  induction hr with
  | close hc =>
    intro es fin h hq
    have h1 := h.step hD hn hne hs hq
    rw [hc] at h1
    rcases h1 with ⟨rfl, rfl, -⟩ | ⟨-, -, h1⟩ | ⟨_, -, h1, -⟩ | ⟨_, _, _, -, h1, -⟩
    · exact ⟨rfl, .nil⟩
    all_goals simp at h1
  | fail hc hnd =>
    intro es fin h hq
    have h1 := h.step hD hn hne hs hq
    rw [hc] at h1
    rcases h1 with ⟨-, -, h1⟩ | ⟨rfl, rfl, h1⟩ | ⟨_, -, h1, -⟩ | ⟨_, _, _, -, h1, -⟩
    · simp at h1
    · simp only [Res.err.injEq] at h1; subst h1; exact ⟨rfl, .nil⟩
    · simp only [Res.err.injEq] at h1; exact absurd h1 hnd
    · simp at h1
  | bad hc _ ih =>
    intro es fin h hq
    have h1 := h.step hD hn hne hs hq
    rw [hc] at h1
    rcases h1 with ⟨-, -, h1⟩ | ⟨-, -, h1⟩ | ⟨es', rfl, -, h2, h3⟩ | ⟨_, _, _, -, h1, -⟩
    · simp at h1
    · simp at h1
    · obtain ⟨g1, g2⟩ := ih h2 h3
      exact ⟨g1, .cons .bad g2⟩
    · simp at h1
  | @entry s t fh os got fin' hc heof _ ih =>
    intro es fin h hq
    have h1 := h.step hD hn hne hs hq
    rw [hc] at h1
    rcases h1 with ⟨-, -, h1⟩ | ⟨-, -, h1⟩ | ⟨_, -, h1, -⟩ | ⟨fh', dat, es', rfl, h1, h2, h3⟩
    · simp at h1
    · simp at h1
    · simp at h1
    · simp only [Res.ok.injEq, Option.some.injEq] at h1
      subst h1
      obtain ⟨g1, g2⟩ := ih (h2.run os) (.inr (.inl (BR.AtEof.drained (BR.run_inv os h2.inv) heof)))
      refine ⟨g1, .cons (.part ?_) g2⟩
      rw [← h.delim]
      exact BR.field_dataOk hD h.inv h.script h.unread hc hn (h.delim.symm ▸ h3) os heof

theorem tolerant_total (hD : D.Sane) (hn : NoStall evs) (hne : NoErr evs) (hs : ¬ CutLine d evs ∨ ShortBadParts D d (Ev.bytes evs)) :
    ∀ (es : List (Option (FieldHeaders × Bytes))) {s : BR} {fin : Ending}, AtMixed D d evs s es fin → (¬ CutLine d evs ∨ s.Near d) → ∃ got, TolerantReads D s got fin := by
  intro es
  induction es with
  | nil =>
    intro s fin h hq
    have h1 := h.step hD hn hne hs hq
    rcases hc : s.readEntry D with ⟨r, t⟩
    rw [hc] at h1
    rcases h1 with ⟨-, rfl, h1⟩ | ⟨-, rfl, h1⟩ | ⟨_, h1, -⟩ | ⟨_, _, _, h1, -⟩
    · simp only at h1; subst h1; exact ⟨_, .close hc⟩
    · simp only at h1; subst h1; exact ⟨_, .fail hc (by simp)⟩
    · simp at h1
    · simp at h1
  | cons e es ih =>
    intro s fin h hq
    have h1 := h.step hD hn hne hs hq
    rcases hc : s.readEntry D with ⟨r, t⟩
    rw [hc] at h1
    rcases h1 with ⟨h1, -⟩ | ⟨h1, -⟩ | ⟨es', h1, h2, h3, h4⟩ | ⟨fh, dat, es', h1, h2, h3, h4⟩
    · simp at h1
    · simp at h1
    · simp only [List.cons.injEq] at h1 h2
      obtain ⟨-, rfl⟩ := h1
      subst h2
      obtain ⟨got, g⟩ := ih h3 h4
      exact ⟨_, .bad hc g⟩
    · simp only [List.cons.injEq] at h1 h2
      obtain ⟨-, rfl⟩ := h1
      subst h2
      obtain ⟨k, -, hk⟩ := BR.reaches_eof (n := 1) (by omega) _ h3.inv (Nat.le_refl _)
      obtain ⟨got, g⟩ := ih (h3.run (List.replicate k (.read 1))) (.inr (.inl (BR.AtEof.drained (BR.run_inv _ h3.inv) hk)))
      exact ⟨_, .entry hc hk g⟩

theorem AtMixed.start (hP : MixedParts D (dashes ++ b) (Ev.bytes evs) es fin) : AtMixed D (dashes ++ b) evs (withBody evs b) es fin :=
  ⟨BR.fromReader_inv evs b, rfl, List.suffix_rfl, by simp [withBody, BR.fromReader, BR.unread], by simp [withBody, BR.fromReader], by simpa [withBody, BR.fromReader, BR.unread] using hP⟩

/-- The full claim C122: a caller who calls `read_entry` again after each `InvalidData` gets all the parts, `InvalidData` for those with bad headers, and then the end of the body. -/
def TolerantGetsAll (D : Deps) : Prop :=
  ∀ (evs : List Ev) (b : Bytes) es fin got fin', NoStall evs → NoErr evs → MixedParts D (dashes ++ b) (Ev.bytes evs) es fin → TolerantReads D (withBody evs b) got fin' →
    fin' = fin ∧ All2 (GotPart (dashes ++ b) evs) got es

/-- C122, as far as it holds: a caller who calls `read_entry` again after each `InvalidData` gets all the parts with good headers, in their order and with their data, `InvalidData` exactly once for
each part whose headers are refused, and then the end of the body: provided no read of the body ends in a delimiter line, or the parts with bad headers are short.
Missing: otherwise it may report an unexpected end (the defect of C07). -/
theorem C122_reads_partial (hD : D.Sane) (hn : NoStall evs) (hne : NoErr evs) (hs : ¬ CutLine (dashes ++ b) evs ∨ ShortBadParts D (dashes ++ b) (Ev.bytes evs))
    (hP : MixedParts D (dashes ++ b) (Ev.bytes evs) es fin) (hr : TolerantReads D (withBody evs b) got fin') : fin' = fin ∧ All2 (GotPart (dashes ++ b) evs) got es :=
  tolerant_reads hD hn hne hs hr (.start hP) (.inr (.inl (by intro h; simp [withBody, BR.fromReader] at h)))

/-- C122, under the same condition: this caller comes to the end. -/
theorem C122_ends_partial (hD : D.Sane) (hn : NoStall evs) (hne : NoErr evs) (hs : ¬ CutLine (dashes ++ b) evs ∨ ShortBadParts D (dashes ++ b) (Ev.bytes evs))
    (hP : MixedParts D (dashes ++ b) (Ev.bytes evs) es fin) : ∃ got, TolerantReads D (withBody evs b) got fin :=
  tolerant_total hD hn hne hs es (.start hP) (.inr (.inl (by intro h; simp [withBody, BR.fromReader] at h)))

theorem FirstAt.le_length {d u : Bytes} {p : Nat} (h : FirstAt d u p) : p + d.length ≤ u.length := by
  obtain ⟨y, hy⟩ := h.1
  have h1 := congrArg List.length hy
  rw [List.length_append, List.length_drop] at h1
  by_cases hp : p ≤ u.length
  · omega
  · exact absurd h.1 (by
      intro ⟨z, hz⟩
      rw [List.drop_eq_nil_of_le (by omega)] at hz
      have hd : d = [] := (List.append_eq_nil_iff.mp hz).1
      exact h.2 u.length (by omega) (by rw [hd]; exact List.nil_prefix))

/-- In a body that fits in the buffer no part is long. -/
theorem ShortBadParts.of_small (h : (Ev.bytes evs).length + 2 ≤ entryBuf d) : ShortBadParts D d (Ev.bytes evs) := by
  intro gone rest hb _ p hp
  have h1 := hp.le_length
  have h2 := congrArg List.length hb
  simp only [List.length_append] at h2
  omega

namespace Sample

/-- Bad headers, good headers, bad headers. -/
def evsMixed : List Ev := [.data b!"--b\r\nbad\r\n\r\nx\r\n--", .data (b!"b\r\n" ++ hdr ++ b!"one"), .data (b!"\r\n--b\r\n" ++ restNoName)]

theorem refused {rest : Bytes} (h : refDeps.parseHeaders rest = .error) : NoFieldHeaders refDeps (dashes ++ bnd) rest := by
  rintro P n hs ⟨⟨z, hz⟩, -, -⟩ hP - fh
  have h' := refDeps_incremental P n hs hP z
  rw [hz, h] at h'
  simp at h'

theorem mixed : MixedParts refDeps (dashes ++ bnd) (Ev.bytes evsMixed) [none, some (fh, b!"one"), none] .closed :=
  .bad (rest := b!"bad\r\n\r\nx\r\n--b\r\n" ++ hdr ++ b!"one\r\n--b\r\n" ++ restNoName) (.part (p := 0) (findSub_some (by decide +kernel)) (by decide +kernel)) (refused (by decide +kernel))
    (.part (rest := hdr ++ b!"one\r\n--b\r\n" ++ restNoName) (X := b!"one\r\n--b\r\n" ++ restNoName) (.part (p := 10) (findSub_some (by decide +kernel)) (by decide +kernel))
      ⟨⟨hdr, _, headerBlock (by decide +kernel), by decide +kernel, by decide, fun h => absurd h (by decide)⟩, .crlf (by decide) ⟨b!"--b\r\n" ++ restNoName, rfl⟩⟩
      (.bad (rest := restNoName) (.part (p := 5) (findSub_some (by decide +kernel)) (by decide +kernel)) noName
        (.close (rest := []) (.close (p := 39) (findSub_some (by decide +kernel)) (by decide +kernel)))))

theorem mixed_short : ShortBadParts refDeps (dashes ++ bnd) (Ev.bytes evsMixed) := .of_small (by decide +kernel)

end Sample

/-- C122_reads_partial and C122_ends_partial. -/
example : ∃ got, TolerantReads refDeps (withBody Sample.evsMixed Sample.bnd) got .closed ∧ All2 (GotPart (dashes ++ Sample.bnd) Sample.evsMixed) got [none, some (Sample.fh, b!"one"), none] := by
  obtain ⟨got, h⟩ := C122_ends_partial (evs := Sample.evsMixed) refDeps_sane (by decide +kernel) (by intro e; simp [Sample.evsMixed]) (.inr Sample.mixed_short) Sample.mixed
  exact ⟨got, h, (C122_reads_partial refDeps_sane (by decide +kernel) (by intro e; simp [Sample.evsMixed]) (.inr Sample.mixed_short) Sample.mixed h).2⟩

/-- C122 is false of the code as stated: behind a long part with bad headers an end is reported which is not there. -/
theorem C122_false : ¬ TolerantGetsAll refDeps := by
  intro h
  obtain ⟨t, ht⟩ : ∃ t, Sample.sBad.readEntry refDeps = (.err .unexpectedEof, t) := by
    have h2 := Sample.bad2
    generalize Sample.sBad.readEntry refDeps = x at h2 ⊢
    obtain ⟨r, t⟩ := x
    exact ⟨t, by rw [← h2]⟩
  have h2 := h Sample.evsBad Sample.bnd [none] .closed [none] (.failed .unexpectedEof) (by decide +kernel) (by intro e; simp [Sample.evsBad])
    (.bad (rest := Sample.badRest) (.part (p := 0) (findSub_some (by decide +kernel)) (by decide +kernel)) (Sample.refused (by decide +kernel))
      (.close (rest := b!"\r\n") (.close (p := 1109) (findSub_some (by decide +kernel)) (by decide +kernel))))
    (.bad Sample.bad1 (.fail ht (by simp)))
  simp at h2

end Multipart

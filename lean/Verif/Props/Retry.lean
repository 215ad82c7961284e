import Verif.Lemmas.Retry
import Verif.Props.Requests
namespace Multipart

variable {D : Deps} {evs : List Ev} {b : Bytes} {s t : BR} {es got : List (FieldHeaders × Bytes)} {fin fin' : Ending}

/-! # C85: I/O errors in `read_entry` -/

/-- What the parts still to come are is not changed by a call that failed in front of them. -/
theorem BR.Faulted.parts (h : s.Faulted t) (hp : Parts D s.delim s.unread es fin) : Parts D s.delim t.unread es fin := by
  have hs : ∀ v, NextIs s.delim s.unread v → NextIs s.delim t.unread v := fun v hv => by rw [← h.delim]; exact h.next v hv
  cases hp with
  | close g => exact .close (hs _ g)
  | damaged g => exact .damaged (hs _ g)
  | truncated g => exact .truncated (hs _ g)
  | refused g g' => exact .refused (hs _ g) g'
  | part g w p => exact .part (hs _ g) w p

/-- The two data rules: the field that was read to its end, and where the next one is looked for. -/
theorem AtParts.field (hD : D.Sane) {d : Bytes} (hn : NoStall evs) {fh : FieldHeaders} {dat X : Bytes} (hi : s.Inv) (hd : s.delim = d) (hevs : s.evs <:+ evs)
    (hu : s.unread <:+ Ev.bytes evs) (hc : s.readEntry D = (.ok (some fh), t)) (hX : t.unread = X) (hfd : FieldData d X dat)
    (os : List FieldOp) (heof : (t.run os).2.AtEof) (hrest : Parts D d X es fin) :
    DataOk d evs dat (t.run os).1 ∧ AtParts D d evs (t.run os).2 es fin ∧ (t.run os).2.Drained := by
  subst hd hX
  have hti : t.Inv := by have := BR.readEntry_inv hD hi; rw [hc] at this; exact this
  have htd : t.delim = s.delim := by have := BR.readEntry_delim hD hi; rw [hc] at this; exact this
  have hte : t.evs <:+ s.evs := by have := BR.readEntry_evs hD hi; rw [hc] at this; exact this
  have htu : t.unread <:+ s.unread := by have := BR.readEntry_suffix hD hi; rw [hc] at this; exact this
  have htst : t.st ≠ .atEnd := by
    have hsp := BR.readEntry_spec hD hi
    rw [hc] at hsp
    simp only at hsp
    cases hsp with | entry => assumption
  have hat : AtParts D s.delim evs t es fin := ⟨hti, htd, hte.trans hevs, htu.trans hu, htst, hrest⟩
  have hfd' : FieldData s.delim t.unread dat := hfd
  exact ⟨BR.field_dataOk hD hi hevs hu hc hn hfd' os heof, hat.run os, BR.AtEof.drained (BR.run_inv os hti) heof⟩

theorem retryReads_parts (hD : D.Sane) {d : Bytes} (hn : NoStall evs) (hf : ForeignErrs evs) (hr : RetryReads D s got fin) :
    ∀ {es fin'}, AtParts D d evs s es fin' → s.Drained →
      (fin = fin' ∧ All2 (fun a b => a.1 = b.1 ∧ DataOk d evs b.2 a.2) got es) ∨
      (fin = .failed .invalidData ∧ (∃ e, Ev.err e ∈ evs) ∧ ∃ k, k < es.length ∧ All2 (fun a b => a.1 = b.1 ∧ DataOk d evs b.2 a.2) got (es.take k)) := by
  induction hr with
  | @close s t hc =>
    intro es fin' h hdr
    obtain ⟨hi, rfl, hevs, hu, hst, hp⟩ := h
    have hx := BR.readEntry_faulty hD hi hst hdr (hn.suffix hevs)
    rw [hc] at hx
    rcases hx with ⟨e, _, h2, _⟩ | ⟨-, ho, hexact⟩
    · simp at h2
    cases hp with
    | close _ => exact .inl ⟨rfl, .nil⟩
    | damaged h => have := ho.2.1 h; simp at this
    | truncated h => have := ho.2.2.1 h; simp at this
    | refused h h' => have := ho.2.2.2 _ h h'; simp at this
    | part a b _ =>
      obtain ⟨H, hs, h1, h2, h3, h4⟩ := b.headers
      have := hexact _ _ _ _ _ _ a h1 b.data h4 h3 h2
      simp at this
  | @fail s t e hc hown =>
    intro es fin' h hdr
    obtain ⟨hi, rfl, hevs, hu, hst, hp⟩ := h
    have hx := BR.readEntry_faulty hD hi hst hdr (hn.suffix hevs)
    rw [hc] at hx
    rcases hx with ⟨e', h1, h2, _⟩ | ⟨-, ho, hexact⟩
    · simp only [Res.err.injEq] at h2; subst h2
      exact absurd hown (hf _ (hevs.subset h1))
    cases hp with
    | close h => have := ho.1 _ h; simp at this
    | damaged h => have := ho.2.1 h; simp only [Res.err.injEq] at this; rw [this]; exact .inl ⟨rfl, .nil⟩
    | truncated h => have := ho.2.2.1 h; simp only [Res.err.injEq] at this; rw [this]; exact .inl ⟨rfl, .nil⟩
    | refused h h' => have := ho.2.2.2 _ h h'; simp only [Res.err.injEq] at this; rw [this]; exact .inl ⟨rfl, .nil⟩
    | part a b _ =>
      obtain ⟨H, hs, h1, h2, h3, h4⟩ := b.headers
      rcases hexact _ _ _ _ _ _ a h1 b.data h4 h3 h2 with ⟨h5, _⟩ | ⟨h5, e', h6⟩
      · simp at h5
      · simp only [Res.err.injEq] at h5; subst h5
        exact .inr ⟨rfl, ⟨e', hevs.subset h6⟩, 0, by simp, .nil⟩
  | @retry s t e es fin hc hown _ ih =>
    intro es fin' h hdr
    obtain ⟨hi, rfl, hevs, hu, hst, hp⟩ := h
    have hx := BR.readEntry_faulty hD hi hst hdr (hn.suffix hevs)
    rw [hc] at hx
    rcases hx with ⟨e', h1, h2, h3⟩ | ⟨-, ho, hexact⟩
    · exact ih ⟨h3.inv, h3.delim, h3.script.trans hevs, h3.suffix.trans hu, h3.st, h3.parts hp⟩ (h3.drained hdr)
    cases hp with
    | close h => have := ho.1 _ h; simp at this
    | damaged h => have := ho.2.1 h; simp only [Res.err.injEq] at this; exact absurd (.inr this) hown
    | truncated h => have := ho.2.2.1 h; simp only [Res.err.injEq] at this; exact absurd (.inl this) hown
    | refused h h' => have := ho.2.2.2 _ h h'; simp only [Res.err.injEq] at this; exact absurd (.inr this) hown
    | part a b _ =>
      obtain ⟨H, hs, h1, h2, h3, h4⟩ := b.headers
      rcases hexact _ _ _ _ _ _ a h1 b.data h4 h3 h2 with ⟨h5, _⟩ | ⟨h5, _⟩
      · simp at h5
      · simp only [Res.err.injEq] at h5; exact absurd (.inr h5) hown
  | @entry s t fh os got fin hc heof _ ih =>
    intro es fin' h hdr
    obtain ⟨hi, rfl, hevs, hu, hst, hp⟩ := h
    have hx := BR.readEntry_faulty hD hi hst hdr (hn.suffix hevs)
    rw [hc] at hx
    rcases hx with ⟨e', h1, h2, h3⟩ | ⟨-, ho, hexact⟩
    · simp at h2
    cases hp with
    | close h => have := ho.1 _ h; simp at this
    | damaged h => have := ho.2.1 h; simp at this
    | truncated h => have := ho.2.2.1 h; simp at this
    | refused h h' => have := ho.2.2.2 _ h h'; simp at this
    | @part _ rest X dat fh' es' _ a b hrest =>
      obtain ⟨H, hs, h1, h2, h3, h4⟩ := b.headers
      rcases hexact _ _ _ _ _ _ a h1 b.data h4 h3 h2 with ⟨h5, h6⟩ | ⟨h5, _⟩
      · simp only [Res.ok.injEq, Option.some.injEq] at h5
        subst h5
        obtain ⟨k1, k2, k3⟩ := AtParts.field hD hn hi rfl hevs hu hc h6 b.data os heof hrest
        rcases ih k2 k3 with ⟨g1, g2⟩ | ⟨g1, g2, k, g3, g4⟩
        · exact .inl ⟨g1, .cons ⟨rfl, k1⟩ g2⟩
        · exact .inr ⟨g1, g2, k + 1, by simp; omega, by rw [List.take_succ_cons]; exact .cons ⟨rfl, k1⟩ g4⟩
      · simp at h5

/-- C85, for a single call: when `read_entry` is called with the data of the last field read to its end and fails with an error that is not of its own two
kinds, this is an error of the stream; the call can be repeated: the verdict on what is still unread (next part, end, damage) is the same as before,
and nothing of the next part is gone. -/
theorem C85_error (hD : D.Sane) (hn : NoStall evs) (hr : Reachable D evs b s) (he : s.AtEof ∨ s = withBody evs b) {e : IoErr}
    (hc : s.readEntry D = (.err e, t)) (ho : ¬ e.Own) (hst : s.st ≠ .atEnd) {v : Verdict} (hv : NextIs (dashes ++ b) s.unread v) :
    Ev.err e ∈ s.evs ∧ t.unread <:+ s.unread ∧ NextIs (dashes ++ b) t.unread v ∧ t.evs.length < s.evs.length := by
  obtain ⟨hi, hu, hd, hevs⟩ := hr.spec hD
  have hdr : s.Drained := by
    rcases he with he | he
    · exact he.drained hi
    · subst he; intro h; simp [withBody, BR.fromReader] at h
  rw [← hd] at hv ⊢
  have hx := BR.readEntry_faulty hD hi hst hdr (hn.suffix hevs)
  rw [hc] at hx
  rcases hx with ⟨e', h1, h2, h3⟩ | ⟨hoth, -⟩
  · simp only [Res.err.injEq] at h2; subst h2
    exact ⟨h1, h3.suffix, by rw [← h3.delim]; exact h3.next v hv, h3.shorter⟩
  · exact absurd (hoth _ rfl) ho

namespace Sample

/-- A body with an interruption in front of the closing delimiter. -/
def evsInt : List Ev := [.data (b!"--b\r\n" ++ hdr ++ b!"hello"), .err .interrupted, .data b!"\r\n--b--\r\n"]

/-- A field with 1100 bytes of data; the read behind the first 1024 bytes of the body is interrupted. -/
def bigBody : Bytes := b!"--b\r\n" ++ hdr ++ List.replicate 1100 120 ++ b!"\r\n--b--\r\n"
def evsLost : List Ev := [.data (bigBody.take 1024), .err .interrupted, .data (bigBody.drop 1024)]

end Sample

/-- The hypotheses of C85_error are met. -/
example : NoStall Sample.evsInt ∧ ((withBody Sample.evsInt Sample.bnd).readEntry refDeps).1 = .err .interrupted ∧ ¬ IoErr.interrupted.Own ∧
    NextIs (dashes ++ Sample.bnd) (withBody Sample.evsInt Sample.bnd).unread (.part (Sample.hdr ++ b!"hello\r\n--b--\r\n")) ∧
    (((withBody Sample.evsInt Sample.bnd).readEntry refDeps).2.readEntry refDeps).1 = .ok (some Sample.fh) :=
  ⟨by decide +kernel, by decide +kernel, (by rintro (h | h) <;> cases h), .part (p := 0) (by decide +kernel) (by decide +kernel), by decide +kernel⟩

/-- C85 in full: a caller that calls `read_entry` again after each error of the underlying stream gets all the parts of the body. -/
def RetryGetsAll (D : Deps) (b : Bytes) (evs : List Ev) : Prop :=
  ∀ es fin got fin', Parts D (dashes ++ b) (Ev.bytes evs) es fin → RetryReads D (withBody evs b) got fin' →
    fin' = fin ∧ All2 (fun a p => a.1 = p.1 ∧ DataOk (dashes ++ b) evs p.2 a.2) got es

/-- C85, what holds: such a caller gets all the parts of the body, in order, with their data, and the right end; or else `read_entry` has reported
"invalid data" although the part is well-formed, and then the parts delivered before are the right ones and an error event was in the stream.
Missing: without the second case the statement is false, see `C85_false`. -/
theorem C85_retry_partial (hD : D.Sane) (hn : NoStall evs) (hf : ForeignErrs evs) (hP : Parts D (dashes ++ b) (Ev.bytes evs) es fin)
    (hR : RetryReads D (withBody evs b) got fin') :
    (fin' = fin ∧ All2 (fun a p => a.1 = p.1 ∧ DataOk (dashes ++ b) evs p.2 a.2) got es) ∨
    (fin' = .failed .invalidData ∧ (∃ e, Ev.err e ∈ evs) ∧
      ∃ k, k < es.length ∧ All2 (fun a p => a.1 = p.1 ∧ DataOk (dashes ++ b) evs p.2 a.2) got (es.take k)) :=
  retryReads_parts hD hn hf hR (AtParts.start hP) (by intro h; simp [withBody, BR.fromReader] at h)

/-- The call that failed is not made up for by another entry: a reading that ends with the closing delimiter has lost nothing. -/
theorem C85_closed (hD : D.Sane) (hn : NoStall evs) (hf : ForeignErrs evs) (hP : Parts D (dashes ++ b) (Ev.bytes evs) es fin)
    (hR : RetryReads D (withBody evs b) got .closed) : fin = .closed ∧ All2 (fun a p => a.1 = p.1 ∧ DataOk (dashes ++ b) evs p.2 a.2) got es := by
  rcases C85_retry_partial hD hn hf hP hR with ⟨h1, h2⟩ | ⟨h1, -⟩
  · exact ⟨h1.symm, h2⟩
  · cases h1

theorem retryReads_total (hD : D.Sane) : ∀ (m : Nat) {s : BR}, s.Inv → s.unread.length + s.evs.length ≤ m → NoStall s.evs → ForeignErrs s.evs →
    s.Drained → ∃ got fin, RetryReads D s got fin := by
  intro m
  induction m with
  | zero =>
    intro s h hm hn hf hdr
    rcases hr : s.readEntry D with ⟨r, t⟩
    have hp := BR.readEntry_noPanic hD h
    rw [hr] at hp
    cases r with
    | err e =>
      by_cases ho : e.Own
      · exact ⟨_, _, .fail hr ho⟩
      · by_cases hst : s.st = .atEnd
        · have := BR.readEntry_spec hD h
          rw [hr] at this
          simp only at this
          cases this with
          | badHeaders a => exact absurd hst a
          | noBoundary a => exact absurd hst a
        · rcases BR.readEntry_faulty hD h hst hdr hn with ⟨e', _, _, h3⟩ | ⟨h1, -⟩
          · have := h3.shorter; omega
          · exact absurd (h1 e (by rw [hr])) ho
    | panic => simp at hp
    | hang => simp at hp
    | ok o =>
      cases o with
      | none => exact ⟨_, _, .close hr⟩
      | some fh => have := BR.readEntry_shrinks hD h hr; omega
  | succ m ih =>
    intro s h hm hn hf hdr
    rcases hr : s.readEntry D with ⟨r, t⟩
    have hp := BR.readEntry_noPanic hD h
    rw [hr] at hp
    cases r with
    | err e =>
      by_cases ho : e.Own
      · exact ⟨_, _, .fail hr ho⟩
      · by_cases hst : s.st = .atEnd
        · have := BR.readEntry_spec hD h
          rw [hr] at this
          simp only at this
          cases this with
          | badHeaders a => exact absurd hst a
          | noBoundary a => exact absurd hst a
        · rcases BR.readEntry_faulty hD h hst hdr hn with ⟨e', _, _, h3⟩ | ⟨h1, -⟩
          · rw [hr] at h3
            simp only at h3
            have h4 := h3.shorter
            have h5 := h3.suffix.length_le
            obtain ⟨got, fin, hR⟩ := ih h3.inv (by omega) (hn.suffix h3.script) (fun e he => hf e (h3.script.subset he)) (h3.drained hdr)
            exact ⟨got, fin, .retry hr ho hR⟩
          · exact absurd (h1 e (by rw [hr])) ho
    | panic => simp at hp
    | hang => simp at hp
    | ok o =>
      cases o with
      | none => exact ⟨_, _, .close hr⟩
      | some fh =>
        have hs := BR.readEntry_shrinks hD h hr
        have hti : t.Inv := by have := BR.readEntry_inv hD h; rw [hr] at this; exact this
        have hte : t.evs <:+ s.evs := by have := BR.readEntry_evs hD h; rw [hr] at this; exact this
        obtain ⟨k, _, hk⟩ := BR.reaches_eof (n := 1) (by omega) _ hti (Nat.le_refl _)
        have hsk := BR.run_skipped (List.replicate k (.read 1)) hti
        have hev := (hsk.2.2.2.1.trans hte)
        have hle : (t.run (List.replicate k (.read 1))).2.unread.length + (t.run (List.replicate k (.read 1))).2.evs.length ≤ m := by
          have := hev.length_le
          rw [hsk.1, List.length_drop]; omega
        have hri := BR.run_inv (List.replicate k (.read 1)) hti
        obtain ⟨got, fin, hR⟩ := ih hri hle (hn.suffix hev) (fun e he => hf e (hev.subset he)) (BR.AtEof.drained hri hk)
        exact ⟨_, _, .entry hr hk hR⟩

/-- There is always such a reading: the caller does not retry for ever. -/
theorem C85_total (hD : D.Sane) (hn : NoStall evs) (hf : ForeignErrs evs) : ∃ got fin, RetryReads D (withBody evs b) got fin :=
  retryReads_total hD _ (BR.fromReader_inv evs b) (Nat.le_refl _) hn hf (by intro h; simp [withBody, BR.fromReader] at h)

theorem Sample.evsInt_foreign : ForeignErrs Sample.evsInt := by
  intro e h
  simp [Sample.evsInt] at h
  subst h; rintro (h | h) <;> cases h

/-- The hypotheses of C85_retry_partial and C85_closed are met. -/
example : NoStall Sample.evsInt ∧ ForeignErrs Sample.evsInt ∧ Parts refDeps (dashes ++ Sample.bnd) (Ev.bytes Sample.evsInt) [(Sample.fh, b!"hello")] .closed ∧
    ∃ got fin, RetryReads refDeps (withBody Sample.evsInt Sample.bnd) got fin :=
  ⟨by decide +kernel, Sample.evsInt_foreign, Sample.parts, C85_total refDeps_sane (by decide +kernel) Sample.evsInt_foreign⟩

theorem Sample.evsLost_parts : Parts refDeps (dashes ++ Sample.bnd) (Ev.bytes Sample.evsLost) [(Sample.fh, List.replicate 1100 120)] .closed := by
  have hb : Ev.bytes Sample.evsLost = Sample.bigBody := by
    simp [Sample.evsLost, Ev.bytes]
  rw [hb]
  refine .part (rest := Sample.hdr ++ (List.replicate 1100 120 ++ b!"\r\n--b--\r\n")) (X := List.replicate 1100 120 ++ b!"\r\n--b--\r\n")
    (.part (p := 0) (by decide +kernel) (by decide +kernel)) ?_
    (.close (.close (p := 1102) (rest := b!"\r\n") (findSub_some (by decide +kernel)) (by decide +kernel)))
  exact ⟨⟨Sample.hdr, _, Sample.headerBlock (by decide +kernel), by decide +kernel, by decide, fun h => absurd h.1 (by decide +kernel)⟩,
    .crlf (findSub_some (by decide +kernel)) (List.isPrefixOf_iff_prefix.mp (by decide +kernel))⟩

/-- C85 is false in full: a single interrupted read behind the first 1024 bytes of the body, and the first part is reported as invalid data, although all of
its headers are buffered already; the part is lost: the next call of `read_entry` says that the body has ended. -/
theorem C85_false : NoStall Sample.evsLost ∧ OnlyInterrupted Sample.evsLost ∧ ¬ RetryGetsAll refDeps Sample.bnd Sample.evsLost ∧
    ((withBody Sample.evsLost Sample.bnd).readEntry refDeps).1 = .err .invalidData ∧
    (((withBody Sample.evsLost Sample.bnd).readEntry refDeps).2.readEntry refDeps).1 = .ok none := by
  have h1 : ((withBody Sample.evsLost Sample.bnd).readEntry refDeps).1 = .err .invalidData := by decide +kernel
  refine ⟨by decide +kernel, ?_, fun h => ?_, h1, by decide +kernel⟩
  · intro e h; simp [Sample.evsLost] at h; exact h
  · have h2 : ∀ x : Res (Option FieldHeaders) × BR, x.1 = .err .invalidData → x = (.err .invalidData, x.2) := fun x hx => by rw [← hx]
    have := h _ _ _ _ Sample.evsLost_parts (.fail (h2 _ h1) (.inr rfl))
    cases this.1

end Multipart

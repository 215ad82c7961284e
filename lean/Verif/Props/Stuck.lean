import Verif.Props.Reading
/-!
# C07, continued: the spurious "unexpected EOF" does not go away by itself
-/
namespace Multipart

variable {D : Deps} {evs : List Ev} {b : Bytes} {s t : BR}

theorem fill_enough {min : Nat} {buf : Bytes} (h : min ≤ buf.length) : ∀ evs, fill min buf evs = (none, buf, evs)
  | [] => rfl
  | .data [] :: r => by simp [fill, h]
  | .data (x :: xs) :: r => by simp [fill, h]
  | .err e :: r => by simp [fill, h]

theorem FirstAt.uniq {d u : Bytes} {p q : Nat} (h : FirstAt d u p) (h' : FirstAt d u q) : p = q := by
  rcases Nat.lt_trichotomy p q with hl | hl | hl
  · exact absurd h.1 (h'.2 p hl)
  · exact hl
  · exact absurd h'.1 (h.2 q hl)

/-- C07, the case in which skipping fails although the next delimiter line is there: calling `read_entry` again fails again, for ever, as it does not even look at the stream;
but reading the field to its end helps, and then the next entry is what it should be. -/
theorem C07_stuck (hD : D.Sane) (hn : NoStall evs) (hne : NoErr evs) (hr : Reachable D evs b s) (hu : ¬ NextIs (dashes ++ b) s.unread .truncated)
    (he : s.readEntry D = (.err .unexpectedEof, t)) :
    t.readEntry D = (.err .unexpectedEof, t) ∧ t.unread = s.unread ∧ t.unread ≠ [] ∧
    ∀ os, (t.run os).2.AtEof →
      (∀ rest, NextIs (dashes ++ b) s.unread (.close rest) → ((t.run os).2.readEntry D).1 = .ok none) ∧
      (NextIs (dashes ++ b) s.unread .damaged → ((t.run os).2.readEntry D).1 = .err .invalidData) ∧
      ∀ rest fh dat X, NextIs (dashes ++ b) s.unread (.part rest) → WellFormedPart D (dashes ++ b) rest fh dat X →
        ((t.run os).2.readEntry D).1 = .ok (some fh) ∧ ((t.run os).2.readEntry D).2.unread = X := by
  obtain ⟨hi, hun, hdl, hev⟩ := hr.spec hD
  have hsi := BR.setMin_inv hi minBufSize
  have hem := s.setMin_entryMin
  have hn' := hn.suffix hev
  have hne' := hne.suffix hev
  have hc : (s.setMin minBufSize).consumeBoundary = (.err .unexpectedEof, t) := by
    have hsp := BR.consumeBoundary_spec hsi
    unfold BR.readEntry at he
    rcases hcb : (s.setMin minBufSize).consumeBoundary with ⟨r, w⟩
    rw [hcb] at he hsp
    cases r with
    | ok x =>
      cases x with
      | false => simp at he
      | true =>
        simp only at he hsp
        cases hsp with
        | next _ _ _ _ d _ _ _ _ _ =>
          have hh := BR.readHeaders_spec hD d
          rcases hrh : w.readHeaders D with ⟨r, v⟩
          rw [hrh] at he hh
          cases hh <;> simp at he
    | err e => simp only [Prod.mk.injEq, Res.err.injEq] at he; rw [he.1, he.2]
    | panic => simp at he
    | hang => simp at he
  have hsp := BR.consumeBoundary_spec hsi
  rw [hc] at hsp
  simp only at hsp
  have hde : (s.setMin minBufSize).delim = s.delim := rfl
  have hus : (s.setMin minBufSize).unread = s.unread := rfl
  have hes : (s.setMin minBufSize).evs = s.evs := rfl
  have hss : (s.setMin minBufSize).st = s.st := rfl
  have hdl1 := hi.delim_len
  rw [← hdl] at hu ⊢
  cases hsp with
  | io _ _ _ _ hm _ _ => exact absurd hm (hne' _)
  | eof _ _ _ _ _ a => exact absurd (.none (a hn' hem.2).1) hu
  | @short _ k p hst hsk hti htst hfirst hkp hlen hfull hse hbr =>
    have hfull' : t.min ≤ t.buf.length := by
      rcases hfull hn' with hf | hf
      · exact hf
      · exfalso
        apply hu
        refine .cut hfirst ?_
        have h1 : t.unread = t.buf := by unfold BR.unread; rw [hf]; simp [Ev.bytes]
        rw [hsk.unread] at h1
        have h2 := congrArg List.length h1
        rw [List.length_drop, hus] at h2
        rw [hde] at hlen
        omega
    have htm := hsk.min
    have htd : t.delim = s.delim := hsk.delim
    have hmin1 : 1024 ≤ (s.setMin minBufSize).min := hem.1
    have hmin2 : 2 * s.delim.length ≤ (s.setMin minBufSize).min := hem.2
    rw [hde] at hlen
    have hk0 : k = 0 := by
      cases hs : s.st with
      | searching => have := hse hs; omega
      | boundaryRead => exact (hbr hs).1
      | atEnd => exact absurd hs hst
    subst hk0
    have htu : t.unread = s.unread := by rw [hsk.unread, hus]; simp
    have hset : t.setMin minBufSize = t := by
      have h0 : Nat.max (t.delim.length * 2) minBufSize = t.min := by rw [htd, htm]; rfl
      unfold BR.setMin
      rw [h0]
    have hre : t.refill = t := by unfold BR.refill; rw [fill_enough hfull']
    have hver : t.verifyBoundary = (.err .unexpectedEof, t) := by
      obtain ⟨q, hq1, hq2, hq3⟩ := BR.verify_spec hti htst
      have hqp : q = p := by
        rw [htu, htd] at hq1
        exact hq1.uniq hfirst
      subst hqp
      rw [hre, htd] at hq3
      rcases hq3 with ⟨e, -, h1, -⟩ | ⟨-, -, h1⟩ | ⟨h1, -⟩ | ⟨h1, -⟩ | ⟨h1, -⟩
      · omega
      · exact h1
      all_goals omega
    have hne1 : t.readEntry D = (.err .unexpectedEof, t) := by
      unfold BR.readEntry
      rw [hset]
      unfold BR.consumeBoundary BR.searchLoop
      simp only [htst, reduceCtorEq, if_false, hver]
    refine ⟨hne1, htu, ?_, fun os ha => ?_⟩
    · intro h0
      have h1 := congrArg List.length h0
      rw [List.length_nil] at h1
      have := t.buf_le_unread
      omega
    · have hrt : Reachable D evs b t := by have := hr.step .readEntry; simp only [BR.sop, he] at this; exact this
      have hr2 := hrt.run os
      obtain ⟨hi2, -, hdl2, hev2⟩ := hr2.spec hD
      obtain ⟨r1, r2, r3, r4, r5⟩ := BR.run_skipped os hti
      have hst2 : (t.run os).2.st ≠ .atEnd := by
        intro h; have := r5.mp h; rw [htst] at this; simp at this
      have hsame : ∀ v, NextIs s.delim s.unread v → NextIs (t.run os).2.delim (t.run os).2.unread v := by
        intro v hv
        rw [r1, r3, htu, htd]
        rw [htu, htd] at r2
        exact hv.drop r2
      have hd2 := BR.AtEof.drained hi2 ha
      obtain ⟨o1, o2, -⟩ := BR.readEntry_other (D := D) hi2 hst2 hd2 (hn.suffix hev2) (hne.suffix hev2)
      refine ⟨fun rest h => (o1 rest (hsame _ h)).1, fun h => o2 (hsame _ h), fun rest fh dat X h hw => ?_⟩
      obtain ⟨H, hs, w1, w2, w3, w4⟩ := hw.headers
      have w5 := hw.data
      have hx : (t.run os).2.delim = s.delim := by rw [r3, htd]
      exact BR.readEntry_exact hD hi2 hst2 hd2 (hn.suffix hev2) (hne.suffix hev2) (hsame _ h)
        (by rw [hx]; exact w1) (by rw [hx]; exact w5) (by rw [hx]; exact w4) (by rw [hx]; exact w3) w2

example : Reachable refDeps Sample.evsCut Sample.bnd Sample.sCut ∧ NoStall Sample.evsCut ∧ NoErr Sample.evsCut ∧ ¬ NextIs (dashes ++ Sample.bnd) Sample.sCut.unread .truncated ∧
    (Sample.sCut.readEntry refDeps).1 = .err .unexpectedEof ∧ ((Sample.sCut.readEntry refDeps).2.run [.read 1100]).2.AtEof := by
  have hc : NextIs (dashes ++ Sample.bnd) Sample.sCut.unread (.close b!"\r\n") := by
    rw [Sample.cut_unread]
    exact .close (p := 1102) (findSub_some (by decide +kernel)) (by decide +kernel)
  exact ⟨⟨_, rfl⟩, by decide +kernel, by intro e; simp [Sample.evsCut], fun h => by have := h.unique (by decide) hc; simp at this, Sample.cut_result, by decide +kernel⟩

end Multipart

import Verif.Lemmas.RoundTrip
namespace Multipart

variable {D : Deps} {d u u' tl w w' rest : Bytes} {es es' : List (FieldHeaders × Bytes)}

/-! # Cutting off a body -/

theorem PartsTo.truncated (h : PartsTo D d u es w) (hw : NextIs d w .truncated) : Parts D d u es (.failed .unexpectedEof) := by
  induction h with
  | nil => exact .truncated hw
  | part a b _ ih => exact .part a b (ih hw)

/-- Dropping bytes in front of the first delimiter. -/
theorem PartsTo.drop {k : Nat} (h : PartsTo D d u es w) (hk : ∀ q, q < k → ¬ OccursAt d u q) {v : Verdict} (hw : NextIs d w v) :
    ∃ w', PartsTo D d (u.drop k) es w' ∧ NextIs d w' v := by
  cases h with
  | nil => exact ⟨_, .nil, hw.drop hk⟩
  | part a b c => exact ⟨_, .part (a.drop hk) b c, hw⟩

/-- The first delimiter, in front of a cut: it is still the first, or there is none. -/
theorem FirstAt.cut {p : Nat} (hd : d ≠ []) (h : FirstAt d (u' ++ tl) p) : FirstAt d u' p ∨ (u'.length < p + d.length ∧ Absent d u') := by
  by_cases hl : p + d.length ≤ u'.length
  · exact .inl ⟨occursAt_of_append h.1 hl, fun q hq hc => h.2 q hq (occursAt_append_left tl hc hd)⟩
  · refine .inr ⟨by omega, fun q hq => ?_⟩
    have h1 := occursAt_lt hq hd
    exact h.2 q (by omega) (occursAt_append_left tl hq hd)

theorem drop_cut {k : Nat} {a r : Bytes} (hk : k + a.length ≤ u'.length) (h : (u' ++ tl).drop k = a ++ r) : u'.drop k = a ++ u'.drop (k + a.length) ∧ r = u'.drop (k + a.length) ++ tl := by
  rw [List.drop_append_of_le_length (by omega)] at h
  have h1 : u'.drop k = (u'.drop k).take a.length ++ u'.drop (k + a.length) := by rw [← List.drop_drop, List.take_append_drop]
  have hl : ((u'.drop k).take a.length).length = a.length := by rw [List.length_take, List.length_drop]; omega
  rw [h1, List.append_assoc] at h
  obtain ⟨h2, h3⟩ := List.append_inj h hl
  rw [h2] at h1
  exact ⟨h1, h3.symm⟩

theorem NextIs.cut_part (hd : d ≠ []) (h : NextIs d (u' ++ tl) (.part rest)) : NextIs d u' .truncated ∨ ∃ rest', rest = rest' ++ tl ∧ NextIs d u' (.part rest') := by
  cases h with
  | @part p _ a b =>
    rcases a.cut hd with a' | ⟨_, a'⟩
    · by_cases hl : u'.length < p + d.length + 2
      · exact .inl (.cut a' hl)
      · obtain ⟨h1, h2⟩ := drop_cut (a := crlf) (by simp [crlf]; omega) b
        exact .inr ⟨_, h2, .part a' h1⟩
    · exact .inl (.none a')

theorem NextIs.cut_close (hd : d ≠ []) (h : NextIs d (u' ++ tl) (.close rest)) (hl : rest.length < tl.length) : NextIs d u' .truncated := by
  cases h with
  | @close p _ a b =>
    rcases a.cut hd with a' | ⟨_, a'⟩
    · by_cases hl' : u'.length < p + d.length + 2
      · exact .cut a' hl'
      · obtain ⟨h1, h2⟩ := drop_cut (a := dashes) (by simp [dashes]; omega) b
        have := congrArg List.length h2
        simp at this
        omega
    · exact .none a'

/-- A part in front of a cut: it is complete, or there is no delimiter behind it. -/
theorem WellFormedPart.cut {rest' dat X : Bytes} {fh : FieldHeaders} (hd : d ≠ []) (h : WellFormedPart D d (rest' ++ tl) fh dat X) :
    Absent d rest' ∨ ∃ X', X = X' ++ tl ∧ WellFormedPart D d rest' fh dat X' := by
  obtain ⟨⟨H, hs, hb, h1, h2, h3⟩, h4⟩ := h
  obtain ⟨p, hp, hpd⟩ : ∃ p, FirstAt d X p ∧ dat.length ≤ p := by
    cases h4 with
    | crlf a _ => exact ⟨_, a, by omega⟩
    | bare a _ _ => exact ⟨_, a, by omega⟩
  have hX : X = (rest' ++ tl).drop H.length := by rw [hb.split, List.drop_left]
  have hfr : FirstAt d (rest' ++ tl) (H.length + p) := by
    rw [hX] at hp
    exact hp.of_drop hb.noDelim
  rcases hfr.cut hd with hc | ⟨_, hc⟩
  · have hl := occursAt_lt hc.1 hd
    have hsp := hb.split
    refine .inr ⟨rest'.drop H.length, ?_, ?_⟩
    · rw [hX, List.drop_append_of_le_length (by omega)]
    · have hX' : X = rest'.drop H.length ++ tl := by rw [hX, List.drop_append_of_le_length (by omega)]
      have hp' : FirstAt d (rest'.drop H.length) p := by have := hc.drop (n := H.length) (by omega); rwa [Nat.add_sub_cancel_left] at this
      have hr : rest' = H ++ rest'.drop H.length := by
        have := congrArg (List.take H.length) hsp
        rw [List.take_append_of_le_length (by omega), List.take_left] at this
        conv => lhs; rw [← List.take_append_drop H.length rest', this]
      refine ⟨⟨H, hs, ⟨hr, hb.nonempty, hb.parses, hb.utf8, fun q hq ho => hb.noDelim q hq (occursAt_append_left tl ho hd)⟩, h1, h2, ?_⟩, ?_⟩
      · intro hf
        exact h3 (by rw [hX']; exact hf.append hd tl)
      · cases h4 with
        | crlf a c =>
          have := a.unique hp; subst this
          refine .crlf hp' (List.prefix_of_prefix_length_le c (by rw [hX']; exact List.prefix_append _ _) ?_)
          have := occursAt_lt hp'.1 hd
          simp [Multipart.crlf]; omega
        | bare a c e =>
          have := a.unique hp; subst this
          refine .bare hp' (List.prefix_of_prefix_length_le c (by rw [hX']; exact List.prefix_append _ _) ?_) e
          have := occursAt_lt hp'.1 hd
          omega
  · exact .inl hc

/-- A body that is cut off somewhere before the end of its closing delimiter line. -/
theorem PartsTo.cut (hd : d ≠ []) {tail : Bytes} (h : PartsTo D d u es w) (hw : NextIs d w (.close tail)) (hl : tail.length < tl.length) : ∀ {u'}, u = u' ++ tl →
    ∃ k w', k ≤ es.length ∧ PartsTo D d u' (es.take k) w' ∧
      (NextIs d w' .truncated ∨ ∃ rest' fh dat X, es[k]? = some (fh, dat) ∧ NextIs d w' (.part rest') ∧ Absent d rest' ∧ WellFormedPart D d (rest' ++ tl) fh dat X) := by
  induction h with
  | nil =>
    rintro u' rfl
    exact ⟨0, u', by simp, .nil, .inl (hw.cut_close hd hl)⟩
  | @part u rest X w dat fh es a b c ih =>
    rintro u' rfl
    rcases a.cut_part hd with ht | ⟨rest', rfl, ht⟩
    · exact ⟨0, u', by simp, .nil, .inl ht⟩
    · rcases b.cut hd with hb | ⟨X', rfl, hb⟩
      · exact ⟨0, u', by simp, .nil, .inr ⟨rest', fh, dat, X, rfl, ht, hb, b⟩⟩
      · obtain ⟨k, w', h1, h2, h3⟩ := ih hw rfl
        refine ⟨k + 1, w', by simp; omega, .part ht hb h2, ?_⟩
        simpa using h3

/-- The parts of a body are determined. -/
theorem PartsTo.le (hd : d ≠ []) (h : PartsTo D d u es w) (h' : PartsTo D d u es' w') (hw : LastPart d w) : es'.length ≤ es.length := by
  induction h generalizing es' w' with
  | nil =>
    cases h' with
    | nil => simp
    | @part _ _ X _ _ _ _ a b _ =>
      cases hw with
      | truncated ht => exact absurd (a.unique hd ht) (by simp)
      | unfinished ht ha =>
        have := a.unique hd ht
        simp only [Verdict.part.injEq] at this
        subst this
        obtain ⟨⟨H, hs, hb, _⟩, h4⟩ := b
        have : ∃ p, FirstAt d X p := by
          cases h4 with
          | crlf a _ => exact ⟨_, a⟩
          | bare a _ _ => exact ⟨_, a⟩
        obtain ⟨p, hp⟩ := this
        rw [hb.split] at ha
        exact absurd (occursAt_drop.mp (show OccursAt d ((H ++ X).drop H.length) p by rw [List.drop_left]; exact hp.1)) (ha _)
  | @part _ _ X _ _ _ _ a b _ ih =>
    cases h' with
    | nil => simp
    | @part _ _ X' _ _ _ _ a' b' c' =>
      have := a.unique hd a'
      simp only [Verdict.part.injEq] at this
      subst this
      obtain ⟨⟨H, hs, hb, _⟩, _⟩ := b
      obtain ⟨⟨H', hs', hb', _⟩, _⟩ := b'
      have e1 := hb.parses X
      have e2 := hb'.parses X'
      rw [← hb.split] at e1
      rw [← hb'.split, e1] at e2
      have e3 := hb.split
      rw [hb'.split] at e3
      have := (List.append_inj e3 (by simp at e2; omega)).2
      subst this
      simpa using ih c' hw

/-! ## The reference tokenizer -/

theorem refParseAux_append : ∀ (n : Nat) {pos : Nat} {acc : List Header} {bs : Bytes} {c : Nat} {hs : List Header}, refParseAux n pos acc bs = .complete c hs →
    ∀ m, n ≤ m → ∀ more, refParseAux m pos acc (bs ++ more) = .complete c hs := by
  intro n
  induction n with
  | zero => intro pos acc bs c hs h; simp [refParseAux] at h
  | succ n ih =>
    intro pos acc bs c hs h m hm more
    obtain ⟨m, rfl⟩ : ∃ k, m = k + 1 := ⟨m - 1, by omega⟩
    unfold refParseAux at h ⊢
    cases hf : findSub crlf bs with
    | none => rw [hf] at h; simp at h
    | some i =>
      have hfa := (findSub_some hf).append (by decide) more
      rw [hf] at h
      rw [findSub_eq_some_iff.mpr hfa]
      cases i with
      | zero => exact h
      | succ i =>
        have hl := occursAt_lt (findSub_some hf).1 (by decide)
        simp only [crlf, List.length_cons, List.length_nil] at hl
        simp only at h ⊢
        rw [List.take_append_of_le_length (by omega), List.drop_append_of_le_length (by omega)]
        cases hp : parseHeaderLine (List.take (i + 1) bs) with
        | none => rw [hp] at h; simp at h
        | some x =>
          rw [hp] at h
          simp only at h ⊢
          split at h
          · next hlt => rw [if_pos hlt]; exact ih h m (by omega) more
          · cases h

theorem refDeps_incremental : refDeps.Incremental := by
  intro P n hs h more
  refine refParseAux_append _ (show refParseAux (P.length + 1) 0 [] P = .complete n hs from h) _ ?_ more
  simp

end Multipart

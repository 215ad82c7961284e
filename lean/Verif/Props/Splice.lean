import Verif.Spec.Splice
import Verif.Props.AnyBody
import Verif.Props.Success
import Verif.Props.Split
/-!
# C152: the parts of a body are independent of each other
-/
namespace Multipart
variable {D : Deps} {b d : Bytes} {es es1 es2 : List (FieldHeaders × Bytes)} {fin fin2 : Ending} {u w X H rest dat dat' t : Bytes} {fh : FieldHeaders}

/-! ## The reference tokenizer -/

theorem refParseAux_lines : ∀ (n : Nat) {pos : Nat} {acc : List Header} {bs : Bytes} {c : Nat} {hs : List Header}, refParseAux n pos acc bs = .complete c hs →
    pos + 2 ≤ c ∧ [0x0A] <:+ bs.take (c - pos) := by
  intro n
  induction n with
  | zero => intro pos acc bs c hs h; simp [refParseAux] at h
  | succ n ih =>
    intro pos acc bs c hs h
    unfold refParseAux at h
    cases hf : findSub crlf bs with
    | none => rw [hf] at h; simp at h
    | some i =>
      have hfa := findSub_some hf
      rw [hf] at h
      cases i with
      | zero =>
        simp only [HParse.complete.injEq] at h
        obtain ⟨rfl, rfl⟩ := h
        refine ⟨Nat.le_refl _, ?_⟩
        obtain ⟨y, hy⟩ := hfa.1
        rw [List.drop_zero] at hy
        rw [← hy, show pos + 2 - pos = crlf.length by simp [crlf], List.take_left]
        exact ⟨[0x0D], rfl⟩
      | succ i =>
        simp only at h
        cases hp : parseHeaderLine (List.take (i + 1) bs) with
        | none => rw [hp] at h; simp at h
        | some x =>
          rw [hp] at h
          simp only at h
          split at h
          · obtain ⟨i1, g, hg⟩ := ih h
            refine ⟨by omega, bs.take (i + 3) ++ g, ?_⟩
            rw [List.append_assoc, hg, show c - pos = (i + 3) + (c - (pos + i + 3)) by omega]
            exact (List.take_add (l := bs) (i := i + 3) (j := c - (pos + i + 3))).symm
          · cases h

/-- The reference tokenizer meets the assumption. -/
theorem refDeps_lines : refDeps.Lines := by
  intro P n hs h
  have h' : refParseAux (P.length + 1) 0 [] P = .complete n hs := h
  exact (refParseAux_lines _ h').2

/-! ## What is behind a delimiter is not relevant for what is before it -/

theorem FirstAt.common {g r r' : Bytes} {q : Nat} (hd : d ≠ []) (h : FirstAt d (g ++ d ++ r) q) : FirstAt d (g ++ d ++ r') q ∧ q ≤ g.length := by
  have ho : OccursAt d (g ++ d) g.length := by unfold OccursAt; rw [List.drop_left]; exact List.prefix_rfl
  rcases firstAt_or_absent d (g ++ d) with ⟨p, hp⟩ | ha
  · have := h.unique (hp.append hd r)
    subst this
    refine ⟨hp.append hd r', ?_⟩
    by_cases hq : q ≤ g.length
    · exact hq
    · exact absurd ho (hp.2 _ (by omega))
  · exact absurd ho (ha _)

theorem PartsTo.splice {p : Nat} (hd : d ≠ []) (h : PartsTo D d u es1 w) (hw : FirstAt d w p) :
    ∃ g, u = g ++ w.drop p ∧ ∀ t, d <+: t → ∀ es fin, Parts D d t es fin → Parts D d (g ++ t) (es1 ++ es) fin := by
  induction h with
  | @nil u =>
    refine ⟨u.take p, (List.take_append_drop _ _).symm, fun t ht es fin h => h.preamble hd fun q hq hc => ?_⟩
    obtain ⟨r, rfl⟩ := ht
    obtain ⟨y, hy⟩ := hw.1
    have h1 : FirstAt d (u.take p ++ d ++ y) p := by rw [List.append_assoc, hy, List.take_append_drop]; exact hw
    have h2 := (h1.common (r' := r) hd).1
    rw [List.append_assoc] at h2
    rw [List.length_take] at hq
    exact h2.2 q (by omega) hc
  | @part u rest X w dat fh es1 hn hwf _ ih =>
    obtain ⟨g, hg, hs⟩ := ih hw
    obtain ⟨y, hy⟩ := hw.1
    cases hn with
    | @part p0 _ a1 a2 =>
      obtain ⟨H, hs', hb, hp, hl, hsep⟩ := hwf.headers
      obtain ⟨z, hz⟩ := a1.1
      have e1 : u.drop p0 = d ++ (crlf ++ rest) := by
        rw [← hz, ← a2, ← List.drop_drop, ← hz, List.drop_left]
      have e0 : u = u.take p0 ++ (d ++ (crlf ++ rest)) := by rw [← e1, List.take_append_drop]
      have hX : X = g ++ d ++ y := by rw [hg, ← hy, List.append_assoc]
      refine ⟨u.take p0 ++ d ++ crlf ++ H ++ g, ?_, fun t ht es fin h => ?_⟩
      · conv => lhs; rw [e0, hb.split, hg]
        simp
      · obtain ⟨r, hr⟩ := ht
        have ht' : g ++ t = g ++ d ++ r := by rw [← hr, List.append_assoc]
        have hfirst : ∀ q, FirstAt d X q → FirstAt d (g ++ t) q ∧ q ≤ g.length := by
          intro q hq
          rw [hX] at hq
          rw [ht']
          exact hq.common hd
        have hback : ∀ q, FirstAt d (g ++ t) q → FirstAt d X q := by
          intro q hq
          rw [ht'] at hq
          rw [hX]
          exact (hq.common hd).1
        have hlen : (u.take p0).length = p0 := by
          have := occursAt_lt a1.1 hd
          rw [List.length_take]; omega
        have hn' : NextIs d (u.take p0 ++ (d ++ (crlf ++ (H ++ (g ++ t))))) (.part (H ++ (g ++ t))) := by
          refine .part (p := p0) ?_ ?_
          · rw [← List.append_assoc]
            refine (FirstAt.common (r := crlf ++ rest) hd ?_).1
            rw [List.append_assoc, ← e0]
            exact a1
          · conv => lhs; rw [← List.append_assoc, show p0 + d.length = (u.take p0 ++ d).length by rw [List.length_append, hlen], List.drop_left]
        have hd' : FieldData d (g ++ t) dat := by
          cases hwf.data with
          | crlf f1 f2 =>
            obtain ⟨g1, g2⟩ := hfirst _ f1
            refine .crlf g1 ?_
            refine (List.prefix_of_prefix_length_le f2 (l₂ := g) (by rw [hX, List.append_assoc]; exact List.prefix_append _ _) ?_).trans (List.prefix_append _ _)
            simp [crlf] at g2 ⊢
            omega
          | bare f1 f2 f3 =>
            obtain ⟨g1, g2⟩ := hfirst _ f1
            exact .bare g1 ((List.prefix_of_prefix_length_le f2 (l₂ := g) (by rw [hX, List.append_assoc]; exact List.prefix_append _ _) g2).trans (List.prefix_append _ _)) f3
        have hwf' : WellFormedPart D d (H ++ (g ++ t)) fh dat (g ++ t) := by
          refine ⟨⟨H, hs', ⟨rfl, hb.nonempty, hb.parses, hb.utf8, fun q hq hc => hb.noDelim q hq ?_⟩, hp, hl, fun hfa => hsep (hback _ hfa)⟩, hd'⟩
          rw [ht', ← List.append_assoc] at hc
          have := occursAt_of_append hc (by simp only [List.length_append]; omega)
          rw [hb.split, hX, ← List.append_assoc]
          exact occursAt_append_left _ this hd
        have := Parts.part hn' hwf' (hs t ⟨r, hr⟩ es fin h)
        simpa [List.append_assoc] using this

theorem Parts.split (h : Parts D d u (es1 ++ es2) fin) : ∃ w, PartsTo D d u es1 w ∧ Parts D d w es2 fin := by
  induction es1 generalizing u with
  | nil => exact ⟨u, .nil, h⟩
  | cons e es1 ih =>
    cases h with
    | part a b c =>
      obtain ⟨w, h1, h2⟩ := ih c
      exact ⟨w, .part a b h1, h2⟩

theorem Parts.drop {k : Nat} (h : Parts D d u es fin) (hk : ∀ q, q < k → ¬ OccursAt d u q) : Parts D d (u.drop k) es fin := by
  cases h with
  | close h => exact .close (h.drop hk)
  | damaged h => exact .damaged (h.drop hk)
  | truncated h => exact .truncated (h.drop hk)
  | refused h h' => exact .refused (h.drop hk) h'
  | part h w p => exact .part (h.drop hk) w p

theorem Parts.begins {e : FieldHeaders × Bytes} (h : Parts D d u (e :: es) fin) :
    ∃ p H X, FirstAt d u p ∧ u.drop p = d ++ (crlf ++ (H ++ X)) ∧ WellFormedPart D d (H ++ X) e.1 e.2 X ∧
      (∃ hs, HeaderBlock D d (H ++ X) H hs X ∧ FieldHeaders.parse D hs = .ok e.1 ∧ H.length + d.length + 1 ≤ entryBuf d) ∧ Parts D d X es fin := by
  cases h with
  | part a b c =>
    cases a with
    | @part p _ a1 a2 =>
      obtain ⟨H, hs', hb, hp, hl, hsep⟩ := b.headers
      obtain ⟨z, hz⟩ := a1.1
      have hsp := hb.split
      subst hsp
      exact ⟨p, H, _, a1, by rw [← hz, ← a2, ← List.drop_drop, ← hz, List.drop_left], b, ⟨hs', hb, hp, hl⟩, c⟩

theorem ArrivesAs.exactly {evs : List Ev} (hD : D.Sane) (ha : ArrivesAs b u evs) (hP : Parts D (dashes ++ b) u es fin) : GivesExactly D b evs es fin := by
  refine ⟨C10_reads_total hD ⟨[], rfl⟩, fun got fin' hR => ?_⟩
  obtain ⟨h1, h2⟩ := C10_entries_are_parts hD ha.noStall ha.noErr (by rw [ha.bytes]; exact hP) hR
  refine ⟨?_, h1⟩
  clear hR hP
  induction h2 with
  | nil => rfl
  | cons a _ ih =>
    rw [ih]
    obtain ⟨a1, a2⟩ := a
    rcases a2 with a2 | ⟨-, a2⟩
    · congr 1; exact Prod.ext a1 a2
    · exact absurd ha.clean a2

/-- Every body arrives, for instance in one piece. -/
theorem ArrivesAs.whole (hu : u ≠ []) : ArrivesAs b u [.data u] :=
  ⟨by simp [Ev.bytes], by simp [NoStall, hu], by intro e; simp, single_cleanSplit (by simp [dashes])⟩

/-! ## Replacing, removing and joining -/

theorem Parts.replace (hL : D.Lines) (hr : (0x0D : Byte) ∉ b) (hn : (0x0A : Byte) ∉ b) (h : Parts D (dashes ++ b) u (es1 ++ (fh, dat) :: es2) fin) :
    ∃ pre tail, u = pre ++ dat ++ tail ∧
      (crlf <+: tail → ∀ dat', Absent (dashes ++ b) dat' → Parts D (dashes ++ b) (pre ++ dat' ++ tail) (es1 ++ (fh, dat') :: es2) fin) := by
  have hd : dashes ++ b ≠ [] := by simp [dashes]
  have hr' : (0x0D : Byte) ∉ dashes ++ b := by simp [dashes, hr]
  have hn' : (0x0A : Byte) ∉ dashes ++ b := by simp [dashes, hn]
  generalize dashes ++ b = d at *
  obtain ⟨w, h1, h2⟩ := h.split
  obtain ⟨p, H, X, a1, a2, a3, ⟨hs, a4, a5, a6⟩, a7⟩ := h2.begins
  obtain ⟨g, hg, hsp⟩ := h1.splice hd a1
  obtain ⟨tail, rfl⟩ : dat <+: X := by
    cases a3.data with
    | crlf _ f => exact (List.prefix_append _ _).trans f
    | bare _ f _ => exact f
  refine ⟨g ++ d ++ crlf ++ H, tail, by rw [hg, a2]; simp, fun ⟨t, ht⟩ dat' hdat => ?_⟩
  -- behind the CRLF is the delimiter
  have hfirst : FirstAt d (dat ++ tail) (dat.length + 2) := by
    cases a3.data with
    | crlf f _ => exact f
    | bare f _ _ =>
      have := f.1
      unfold OccursAt at this
      rw [List.drop_left, ← ht] at this
      cases d with
      | nil => exact absurd rfl hd
      | cons c d =>
        obtain ⟨y, hy⟩ := this
        simp [crlf] at hy
        exact absurd (by rw [hy.1]; simp) hr'
  have hdt : d <+: t := by
    have := hfirst.1
    unfold OccursAt at this
    rwa [← ht, ← List.append_assoc, show dat.length + 2 = (dat ++ crlf).length by simp [crlf], List.drop_left] at this
  -- the new data
  have hlf : ∀ xs, Absent d xs → FirstAt d (xs ++ tail) (xs.length + 2) := by
    intro xs hxs
    have h0 : FirstAt d t 0 := ⟨hdt, fun q hq => absurd hq (Nat.not_lt_zero _)⟩
    have hnil : Absent d [] := by
      intro q hq
      have h1 := occursAt_lt hq hd
      have h2 := List.length_pos_iff.mpr hd
      rw [List.length_nil] at h1
      omega
    have h1 : FirstAt d ([] ++ (0x0A : Byte) :: t) (0 + 1 + 0) := FirstAt.sep hd hn' hnil h0
    have h2 := FirstAt.sep hd hr' hxs h1
    rw [← ht]
    simpa [crlf] using h2
  have hf' := hlf dat' hdat
  have hX : Parts D d (dat' ++ tail) es2 fin := by
    have k1 : Parts D d t es2 fin := by
      have := a7.drop (k := dat.length + 2) hfirst.2
      rwa [← ht, ← List.append_assoc, show dat.length + 2 = (dat ++ crlf).length by simp [crlf], List.drop_left] at this
    have := k1.preamble (pre := dat' ++ crlf) hd (fun q hq => by
      rw [List.append_assoc, ht]
      exact hf'.2 q (by simpa [crlf] using hq))
    rwa [List.append_assoc, ht] at this
  have hHlf : ∃ H0, H = H0 ++ [0x0A] := by
    have := hL _ _ _ (a4.parses [])
    rw [List.append_nil, List.take_length] at this
    obtain ⟨H0, h0⟩ := this
    exact ⟨H0, h0.symm⟩
  have hwf : WellFormedPart D d (H ++ (dat' ++ tail)) fh dat' (dat' ++ tail) := by
    refine ⟨⟨H, hs, ⟨rfl, a4.nonempty, a4.parses, a4.utf8, fun q hq hc => ?_⟩, a5, a6, fun hfa => ?_⟩, .crlf hf' ?_⟩
    · obtain ⟨H0, h0⟩ := hHlf
      have hc' := hc
      rw [h0, List.append_assoc] at hc'
      rcases occursAt_sep hn' hc' with k | k | k
      · refine a4.noDelim q hq ?_
        rw [h0, List.append_assoc]
        exact occursAt_append_left _ (occursAt_of_append hc' k) hd
      · rw [h0] at hq
        simp at hq
        omega
      · exact hd k
    · have := hfa.unique hf'
      omega
    · exact ⟨t, by rw [← ht]; simp⟩
  have hP : Parts D d (d ++ (crlf ++ (H ++ (dat' ++ tail)))) ((fh, dat') :: es2) fin := by
    refine .part (.part (p := 0) ⟨?_, fun q hq => absurd hq (Nat.not_lt_zero _)⟩ ?_) hwf hX
    · unfold OccursAt; rw [List.drop_zero]; exact List.prefix_append _ _
    · rw [Nat.zero_add, List.drop_left]
  have := hsp _ (List.prefix_append _ _) _ _ hP
  simpa [List.append_assoc] using this

theorem Parts.remove (hd : d ≠ []) (h : Parts D d u (es1 ++ (fh, dat) :: es2) fin) :
    ∃ pre part post, u = pre ++ part ++ post ∧ d ++ crlf <+: part ∧ (dat <:+ part ∨ dat ++ crlf <:+ part) ∧ d <+: post ∧ Parts D d (pre ++ post) (es1 ++ es2) fin := by
  obtain ⟨w, h1, h2⟩ := h.split
  obtain ⟨p, H, X, a1, a2, a3, -, a7⟩ := h2.begins
  obtain ⟨g, hg, hsp⟩ := h1.splice hd a1
  cases a3.data with
  | crlf f1 f2 =>
    obtain ⟨t, rfl⟩ := f2
    have e : List.drop (dat.length + 2) (dat ++ crlf ++ t) = t := by
      rw [show dat.length + 2 = (dat ++ crlf).length by simp [crlf], List.drop_left]
    have hdt : d <+: t := by have := f1.1; unfold OccursAt at this; rwa [e] at this
    have := a7.drop f1.2
    rw [e] at this
    exact ⟨g, d ++ crlf ++ H ++ dat ++ crlf, t, by rw [hg, a2]; simp, ⟨H ++ dat ++ crlf, by simp⟩, .inr ⟨d ++ crlf ++ H, by simp⟩, hdt, hsp t hdt _ _ this⟩
  | bare f1 f2 _ =>
    obtain ⟨t, rfl⟩ := f2
    have hdt : d <+: t := by have := f1.1; unfold OccursAt at this; rwa [List.drop_left] at this
    have := a7.drop f1.2
    rw [List.drop_left] at this
    exact ⟨g, d ++ crlf ++ H ++ dat, t, by rw [hg, a2]; simp, ⟨H ++ dat, by simp⟩, .inl ⟨d ++ crlf ++ H, by simp⟩, hdt, hsp t hdt _ _ this⟩

theorem Parts.join {u2 : Bytes} {q : Nat} (hd : d ≠ []) (h : Parts D d u es1 .closed) (h2 : Parts D d u2 es2 fin) (hq : FirstAt d u2 q) :
    ∃ a tail, u = a ++ d ++ dashes ++ tail ∧ Parts D d (a ++ u2.drop q) (es1 ++ es2) fin := by
  obtain ⟨w, h1, hw⟩ := Parts.split (es1 := es1) (es2 := []) (by rw [List.append_nil]; exact h)
  cases hw with
  | @close _ rest hw =>
    cases hw with
    | @close p _ a1 a2 =>
      obtain ⟨g, hg, hsp⟩ := h1.splice hd a1
      obtain ⟨z, hz⟩ := a1.1
      refine ⟨g, rest, ?_, hsp _ hq.1 _ _ (h2.drop hq.2)⟩
      have : w.drop p = d ++ (dashes ++ rest) := by rw [← hz, ← a2, ← List.drop_drop, ← hz, List.drop_left]
      rw [hg, this]; simp

/-- The bytes `seg` are a part with the entry `e`, whatever parts follow. -/
def IsSegment (D : Deps) (d seg : Bytes) (e : FieldHeaders × Bytes) : Prop :=
  d <+: seg ∧ ∀ t, d <+: t → ∀ es fin, Parts D d t es fin → Parts D d (seg ++ t) (e :: es) fin

theorem Parts.segments (hd : d ≠ []) (h : Parts D d u es fin) :
    ∃ (pre : Bytes) (segs : List Bytes) (post : Bytes), u = pre ++ segs.flatten ++ post ∧ segs.length = es.length ∧ (∀ p, FirstAt d u p → pre.length = p) ∧ (es ≠ [] → d <+: post) ∧ Parts D d post [] fin ∧
      ∀ x ∈ segs.zip es, IsSegment D d x.1 x.2 := by
  induction es generalizing u with
  | nil =>
    rcases firstAt_or_absent d u with ⟨p, hp⟩ | ha
    · have hl := occursAt_lt hp.1 hd
      exact ⟨u.take p, [], u.drop p, by simp, rfl, fun q hq => by rw [hq.unique hp, List.length_take]; omega, fun h => absurd rfl h, h.drop hp.2, by simp⟩
    · exact ⟨[], [], u, by simp, rfl, fun q hq => absurd hq.1 (ha q), fun h => absurd rfl h, h, by simp⟩
  | cons e es ih =>
    obtain ⟨p0, H, X, a1, a2, a3, -, a7⟩ := h.begins
    obtain ⟨pre, segs, post, i1, i2, i3, i4, i5, i6⟩ := ih a7
    obtain ⟨p, hp, -⟩ := a3.data.firstAt
    have hl := occursAt_lt a1.1 hd
    have hlp := occursAt_lt hp.1 hd
    have hto : PartsTo D d (d ++ (crlf ++ (H ++ X))) [e] X := by
      refine .part (.part (p := 0) ⟨?_, fun q hq => absurd hq (Nat.not_lt_zero _)⟩ ?_) a3 .nil
      · unfold OccursAt; rw [List.drop_zero]; exact List.prefix_append _ _
      · rw [Nat.zero_add, List.drop_left]
    obtain ⟨g, hg, hs⟩ := hto.splice hd hp
    have hX : X.drop p = segs.flatten ++ post := by
      conv => lhs; rw [i1, ← i3 p hp, List.append_assoc, List.drop_left]
    refine ⟨u.take p0, g :: segs, post, ?_, by simp [i2], fun q hq => by rw [hq.unique a1, List.length_take]; omega, fun _ => ?_, i5, ?_⟩
    · conv => lhs; rw [← List.take_append_drop p0 u, a2, hg, hX]
      simp
    · cases es with
      | cons => exact i4 (by simp)
      | nil =>
        have : segs = [] := by simpa using i2
        subst this
        have h1 := hp.1
        unfold OccursAt at h1
        rw [hX] at h1
        simpa using h1
    · intro x hx
      rw [List.zip_cons_cons, List.mem_cons] at hx
      rcases hx with rfl | hx
      · refine ⟨?_, fun t ht es fin h => hs t ht es fin h⟩
        have hlen : d.length ≤ g.length := by
          have := congrArg List.length hg
          simp only [List.length_append, List.length_drop] at this
          omega
        exact List.prefix_of_prefix_length_le (l₃ := d ++ (crlf ++ (H ++ X))) (List.prefix_append _ _) (by rw [hg]; exact List.prefix_append _ _) hlen
      · exact i6 x hx

theorem segments_parts {sel : List (Bytes × (FieldHeaders × Bytes))} (h : ∀ x ∈ sel, IsSegment D d x.1 x.2) (hp : sel ≠ [] → d <+: t) (ht : Parts D d t [] fin) :
    Parts D d ((sel.map (·.1)).flatten ++ t) (sel.map (·.2)) fin := by
  induction sel with
  | nil => simpa using ht
  | cons x sel ih =>
    have h1 := ih (fun y hy => h y (by simp [hy])) (fun _ => hp (by simp))
    obtain ⟨-, h3⟩ := h x (by simp)
    rw [List.map_cons, List.flatten_cons, List.append_assoc, List.map_cons]
    refine h3 _ ?_ _ _ h1
    cases sel with
    | nil => simpa using hp (by simp)
    | cons y sel =>
      rw [List.map_cons, List.flatten_cons, List.append_assoc]
      exact (h y (by simp)).1.trans (List.prefix_append _ _)

/-- C152: a body consists of a preamble, one piece for each entry, and an end; and the pieces, in any other order, some of them left out, some more than once, are again a body (with this end), of which a reader gets
exactly the entries of these pieces in this order. -/
theorem C152_rearrange (hD : D.Sane) (h : Parts D (dashes ++ b) u es fin) :
    ∃ (pre : Bytes) (pieces : List Bytes) (post : Bytes), u = pre ++ pieces.flatten ++ post ∧ pieces.length = es.length ∧ ∀ sel : List (Bytes × (FieldHeaders × Bytes)), (∀ x ∈ sel, x ∈ pieces.zip es) →
      ∀ evs, ArrivesAs b ((sel.map (·.1)).flatten ++ post) evs → GivesExactly D b evs (sel.map (·.2)) fin := by
  obtain ⟨pre, segs, post, h1, h2, -, h4, h5, h6⟩ := h.segments (by simp [dashes])
  refine ⟨pre, segs, post, h1, h2, fun sel hs evs hv => hv.exactly hD (segments_parts (fun x hx => h6 x (hs x hx)) (fun hne => h4 fun h0 => ?_) h5)⟩
  subst h0
  obtain ⟨x, hx⟩ := List.exists_mem_of_ne_nil sel hne
  have := hs x hx
  simp at this

/-- A body with two parts. -/
example : ∃ (pre : Bytes) (pieces : List Bytes) (post : Bytes), Ev.bytes Sample.evsTwo = pre ++ pieces.flatten ++ post ∧ pieces.length = 2 ∧
    ∀ sel : List (Bytes × (FieldHeaders × Bytes)), (∀ x ∈ sel, x ∈ pieces.zip [(Sample.fh, b!"one"), (Sample.fh, b!"two")]) →
      ∀ evs, ArrivesAs Sample.bnd ((sel.map (·.1)).flatten ++ post) evs → GivesExactly refDeps Sample.bnd evs (sel.map (·.2)) .closed :=
  C152_rearrange refDeps_sane Sample.partsTwo

/-- C152: the contents of a field concern only this field. Put other contents (without a delimiter) in the place of the contents of one field of a body, and a reader gets the same entries, the others with the contents
they had, and the same end. (The field ends with a CRLF, as every client writes it; the boundary has neither CR nor LF.) -/
theorem C152_replace_contents (hD : D.Sane) (hL : D.Lines) (hr : (0x0D : Byte) ∉ b) (hn : (0x0A : Byte) ∉ b)
    (h : Parts D (dashes ++ b) u (es1 ++ (fh, dat) :: es2) fin) :
    ∃ pre tail, u = pre ++ dat ++ tail ∧ (crlf <+: tail → ∀ dat', Absent (dashes ++ b) dat' → ∀ evs, ArrivesAs b (pre ++ dat' ++ tail) evs →
      GivesExactly D b evs (es1 ++ (fh, dat') :: es2) fin) := by
  obtain ⟨pre, tail, h1, h2⟩ := h.replace hL hr hn
  exact ⟨pre, tail, h1, fun hc dat' ha evs hv => hv.exactly hD (h2 hc dat' ha)⟩

/-- A body with two parts; the second gets other contents, which look a little like a delimiter line. -/
example : ∃ pre tail, Ev.bytes Sample.evsTwo = pre ++ b!"two" ++ tail ∧ crlf <+: tail ∧ Absent (dashes ++ Sample.bnd) b!"\r\n--a--\r\n" ∧
    Parts refDeps (dashes ++ Sample.bnd) (Ev.bytes Sample.evsTwo) ([(Sample.fh, b!"one")] ++ (Sample.fh, b!"two") :: []) .closed ∧ (0x0D : Byte) ∉ Sample.bnd ∧ (0x0A : Byte) ∉ Sample.bnd ∧
    refDeps.Sane ∧ refDeps.Lines ∧ ∃ evs, ArrivesAs Sample.bnd (pre ++ b!"\r\n--a--\r\n" ++ tail) evs :=
  ⟨b!"--b\r\n" ++ Sample.hdr ++ b!"one\r\n--b\r\n" ++ Sample.hdr, b!"\r\n--b--\r\n", by decide +kernel, ⟨_, rfl⟩, findSub_eq_none_iff.mp (by decide +kernel), Sample.partsTwo, by decide, by decide,
    refDeps_sane, refDeps_lines, _, .whole (by simp)⟩

/-- C152: take a part out of a body, from its delimiter to the next one, and a reader gets the other entries, as they were. -/
theorem C152_remove_part (hD : D.Sane) (h : Parts D (dashes ++ b) u (es1 ++ (fh, dat) :: es2) fin) :
    ∃ pre part post, u = pre ++ part ++ post ∧ dashes ++ b ++ crlf <+: part ∧ (dat <:+ part ∨ dat ++ crlf <:+ part) ∧ dashes ++ b <+: post ∧
      ∀ evs, ArrivesAs b (pre ++ post) evs → GivesExactly D b evs (es1 ++ es2) fin := by
  obtain ⟨pre, part, post, h1, h2, h3, h4, h5⟩ := h.remove (by simp [dashes])
  exact ⟨pre, part, post, h1, h2, h3, h4, fun evs hv => hv.exactly hD h5⟩

/-- The first of two parts is taken out. -/
example : ∃ pre part post, Ev.bytes Sample.evsTwo = pre ++ part ++ post ∧ dashes ++ Sample.bnd ++ crlf <+: part ∧ (b!"one" <:+ part ∨ b!"one" ++ crlf <:+ part) ∧ dashes ++ Sample.bnd <+: post ∧
    ∀ evs, ArrivesAs Sample.bnd (pre ++ post) evs → GivesExactly refDeps Sample.bnd evs ([] ++ [(Sample.fh, b!"two")]) .closed :=
  C152_remove_part refDeps_sane (es1 := []) Sample.partsTwo

/-- C152: put a second body, from its first delimiter on, in the place of the closing delimiter of a first body, and a reader gets the entries of the first, then those of the second, and the end of the second. -/
theorem C152_join {u2 : Bytes} {q : Nat} (hD : D.Sane) (h : Parts D (dashes ++ b) u es1 .closed) (h2 : Parts D (dashes ++ b) u2 es2 fin) (hq : FirstAt (dashes ++ b) u2 q) :
    ∃ a tail, u = a ++ (dashes ++ b) ++ dashes ++ tail ∧ ∀ evs, ArrivesAs b (a ++ u2.drop q) evs → GivesExactly D b evs (es1 ++ es2) fin := by
  obtain ⟨a, tail, h3, h4⟩ := h.join (by simp [dashes]) h2 hq
  exact ⟨a, tail, h3, fun evs hv => hv.exactly hD h4⟩

/-- A body with two parts and one with one part. -/
example : ∃ a tail, Ev.bytes Sample.evsTwo = a ++ (dashes ++ Sample.bnd) ++ dashes ++ tail ∧
    ∀ evs, ArrivesAs Sample.bnd (a ++ (Ev.bytes Sample.evs).drop 3) evs → GivesExactly refDeps Sample.bnd evs ([(Sample.fh, b!"one"), (Sample.fh, b!"two")] ++ [(Sample.fh, b!"hello")]) .closed :=
  C152_join refDeps_sane Sample.partsTwo Sample.parts1 (by decide +kernel)

/-- C152: and so it is with `save`: with other contents for one field, all fields are saved, the others as before, this one with its new contents (if the limits leave room for it and the disk works). -/
theorem C152_saved {cfg : Settings} {w : World} (hD : D.Sane) (hL : D.Lines) (hr : (0x0D : Byte) ∉ b) (hn : (0x0A : Byte) ∉ b) (h : Parts D (dashes ++ b) u (es1 ++ (fh, dat) :: es2) .closed)
    (hc : cfg.Typed) (ho : cfg.openOpts.createNew = true) (hp : cfg.textPolicy = .force → ∀ p ∈ es1 ++ es2, p.1.isText = true → IsUtf8 p.2) (ht : Nat.min cfg.sizeLimit cfg.memoryThreshold < u64Max ∨ cfg.textPolicy = .ignore) (dir : SaveDir)
    (hl : (es1 ++ (fh, dat) :: es2).length < cfg.countLimit) (hz : ∀ p ∈ es1 ++ es2, p.2.length ≤ cfg.sizeLimit) (hw : DiskReady w dir.asPath (es1 ++ (fh, dat) :: es2).length) :
    ∃ pre tail, u = pre ++ dat ++ tail ∧ (crlf <+: tail → ∀ dat', Absent (dashes ++ b) dat' → dat'.length ≤ cfg.sizeLimit → (cfg.textPolicy = .force → fh.isText = true → IsUtf8 dat') → ∀ evs, ArrivesAs b (pre ++ dat' ++ tail) evs →
      ∃ n, ∀ fuel, n ≤ fuel → ∃ e w' t fs, withEntries D cfg fuel (Entries.new dir) w (withBody evs b) = (.full e, w', t) ∧
        GroupedByName e.fields fs ∧ All2 (SavedAs b evs w') fs (es1 ++ (fh, dat') :: es2)) := by
  obtain ⟨pre, tail, h1, h2⟩ := h.replace hL hr hn
  refine ⟨pre, tail, h1, fun hcr dat' ha hlen hutf evs hv => ?_⟩
  have hlen' : (es1 ++ (fh, dat') :: es2).length = (es1 ++ (fh, dat) :: es2).length := by simp
  obtain ⟨n, hn'⟩ := C77_request_succeeds (es := es1 ++ (fh, dat') :: es2) hD hv.noStall hv.noErr hc ho (fun hf p hp' => by
      simp only [List.mem_append, List.mem_cons] at hp'
      rcases hp' with k | rfl | k
      · exact hp hf p (by simp [k])
      · exact hutf hf
      · exact hp hf p (by simp [k])) ht (by rw [hv.bytes]; exact h2 hcr dat' ha) dir (by rw [hlen']; exact hl)
    (fun p hp' => .inr ⟨.inl hv.clean, by
      simp only [List.mem_append, List.mem_cons] at hp'
      rcases hp' with k | rfl | k
      · exact hz p (by simp [k])
      · exact hlen
      · exact hz p (by simp [k])⟩) (by rw [hlen']; exact hw)
  refine ⟨n, fun fuel hf => ?_⟩
  obtain ⟨e, w', t, fs, k1, k2, -, k4⟩ := hn' fuel hf
  exact ⟨e, w', t, fs, k1, k2, k4⟩

/-- Two fields of text, which is forced, saved to files; the first may get up to five bytes of text. -/
example : ∃ pre tail, Ev.bytes Sample.evsTwo = pre ++ b!"one" ++ tail ∧ (crlf <+: tail → ∀ dat', Absent (dashes ++ Sample.bnd) dat' → dat'.length ≤ 5 →
      (TextPolicy.force = .force → Sample.fh.isText = true → IsUtf8 dat') → ∀ evs, ArrivesAs Sample.bnd (pre ++ dat' ++ tail) evs →
      ∃ n, ∀ fuel, n ≤ fuel → ∃ e w' t fs, withEntries refDeps { Settings.default with memoryThreshold := 0, sizeLimit := 5, countLimit := 3, textPolicy := .force } fuel (Entries.new (.perm [b!"d"]))
          { Sample.disk with names := [b!"x", b!"y"], writes := [.err .interrupted, .accept 2] } (withBody evs Sample.bnd) = (.full e, w', t) ∧
        GroupedByName e.fields fs ∧ All2 (SavedAs Sample.bnd evs w') fs ([] ++ (Sample.fh, dat') :: [(Sample.fh, b!"two")])) :=
  C152_saved (cfg := { Settings.default with memoryThreshold := 0, sizeLimit := 5, countLimit := 3, textPolicy := .force }) (w := { Sample.disk with names := [b!"x", b!"y"], writes := [.err .interrupted, .accept 2] })
    refDeps_sane refDeps_lines (by decide) (by decide) (es1 := []) Sample.partsTwo ⟨by decide, by decide, by decide, rfl⟩ rfl
    (by intro _ p hp _; simp at hp; subst hp; exact (utf8Valid_iff _).mp (by decide)) (.inl (by decide)) _ (by decide) (by intro p hp; simp at hp; subst hp; decide)
    ⟨by simp [Sample.disk], by simp [Sample.disk], by rintro ev h e (⟨h1, h2⟩ | ⟨h1, h2⟩) <;> simp at h <;> rcases h with rfl | rfl <;> simp_all, by decide, by decide, fun _ _ => rfl⟩

end Multipart

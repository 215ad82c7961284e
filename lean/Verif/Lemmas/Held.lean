import Verif.Lemmas.Parts
import Verif.Spec.Small
/-!
# Small reads hold the CR of a delimiter line back
-/
namespace Multipart

/-- The first delimiter is at `p`, preceded by CRLF; the cursor is not behind that CRLF, and not between CR and LF once the delimiter was found. -/
structure BR.Held (s : BR) (p : Nat) : Prop where
  first : FirstAt s.delim s.unread p
  two : 2 ≤ p
  crlf : OccursAt Multipart.crlf s.unread (p - 2)
  idx : s.idx ≤ p - 1
  found : s.st ≠ .searching → s.idx ≤ p - 2

theorem BR.Held.refill {s : BR} {p : Nat} (h : s.Held p) : s.refill.Held p :=
  ⟨by rw [s.refill_unread]; exact h.first, h.two, by rw [s.refill_unread]; exact h.crlf, h.idx, h.found⟩

theorem BR.Held.afterRead {s : BR} {p : Nat} (hi : s.Inv) (h : s.Held p) :
    s.afterRead.Held p ∧ (s.afterRead.idx = p - 1 → s.afterRead.buf.length = p - 1) := by
  by_cases hst : s.st = .searching
  · have hr := h.refill
    have hri := s.refill_inv hi
    have hdef := BR.afterRead_searching hst
    obtain ⟨e1, e2, e3, e4, e5, e6, e7⟩ := s.refill.search_spec hri hst
    obtain ⟨b1, b2, b3, b4, b5, b6⟩ := s.refill.search.backUp_spec
    rw [← hdef] at b1 b2 b3 b4 b5 b6
    have hun := s.afterRead_unread
    have hunr : s.refill.unread = s.refill.buf ++ Ev.bytes s.refill.evs := rfl
    obtain ⟨cr, lf⟩ := occursAt_crlf_bytes hr.crlf
    have hp2 := h.two
    -- position of the cursor before backing up
    have hy : s.refill.search.idx ≤ p - 2 ∧ s.refill.search.st = .searching ∨
        (s.refill.search.idx = p - 1 ∧ s.refill.buf.length = p - 1 ∧ s.refill.search.st = .searching) ∨
        (s.refill.search.idx = p ∧ p ≤ s.refill.buf.length ∧ ¬ Multipart.crlf <+: s.refill.buf.drop p) := by
      rcases e7 with ⟨_, fa, hl⟩ | ⟨st', noc, e8⟩
      · right; right
        have hp := fa.unique hr.first
        refine ⟨hp, by omega, ?_⟩
        intro hc
        have hocc : OccursAt s.refill.delim s.refill.buf p := by
          rw [hp] at hl
          exact occursAt_of_append hr.first.1 hl
        obtain ⟨t, ht⟩ := hocc
        rw [← ht] at hc
        exact dash_ne_crlf hri.dash t hc
      · by_cases hle : s.refill.search.idx ≤ p - 2
        · left; exact ⟨hle, st'⟩
        · right
          have hyp : s.refill.search.idx ≤ p := by
            by_cases hh : s.refill.search.idx ≤ p
            · exact hh
            · exact absurd hr.first.1 (noc p (by omega))
          by_cases heq : s.refill.search.idx = p - 1
          · left
            refine ⟨heq, ?_, st'⟩
            rcases e8 with e8 | e8
            · rw [← heq, e8]
            · exfalso
              have h1 := drop_prefix_head hri.dash e8.1 e8.2.1
              have h2 : s.refill.unread[s.refill.search.idx]? = some 0x2D := by
                rw [hunr, List.getElem?_append_left e8.1]; exact h1
              rw [heq, show p - 1 = p - 2 + 1 by omega, lf] at h2
              simp at h2
          · right
            have heq : s.refill.search.idx = p := by omega
            refine ⟨heq, by omega, ?_⟩
            intro hc
            rw [← heq] at hc
            rcases e8 with e8 | e8
            · rw [e8, List.drop_length] at hc; simp [Multipart.crlf] at hc
            · have h1 := drop_prefix_head hri.dash e8.1 e8.2.1
              obtain ⟨r, hr'⟩ := crlf_drop_zero hc
              have : (s.refill.buf.drop s.refill.search.idx)[0]? = some 0x0D := by rw [hr']; rfl
              simp at this
              rw [h1] at this; simp at this
    have hidx : s.afterRead.idx ≤ p - 2 ∨ (s.afterRead.idx = p - 1 ∧ s.refill.buf.length = p - 1 ∧ s.afterRead.st = .searching) := by
      rcases hy with hy | ⟨hy, hl, hs⟩ | ⟨hy, hpl, hnc⟩
      · left; rcases b6 with b6 | b6 <;> omega
      · rcases b6 with b6 | b6
        · right; exact ⟨by omega, hl, by rw [b5, hs]⟩
        · left; omega
      · rcases b6 with ⟨b6, b7⟩ | ⟨b6, b7, _⟩
        · exfalso
          apply b7 (by omega)
          · rw [e1, hy]; exact hnc
          · rw [e1, hy]
            have hocc := hr.crlf
            rw [hunr] at hocc
            have := occursAt_of_append hocc (by simp [Multipart.crlf]; omega)
            exact prefix_take_eq this
        · left; omega
    refine ⟨⟨by rw [hun, b4, e4]; exact h.first, h.two, by rw [hun]; exact h.crlf, by omega, ?_⟩, ?_⟩
    · intro hs
      rcases hidx with hidx | ⟨_, _, hs'⟩
      · exact hidx
      · exact absurd hs' hs
    · intro heq
      rcases hidx with hidx | ⟨_, hl, _⟩
      · omega
      · rw [b1, e1]; exact hl
  · rw [BR.afterRead_other hst]
    refine ⟨h.refill, fun heq => ?_⟩
    have : s.idx ≤ p - 2 := h.found hst
    have h2 := h.two
    have heq' : s.idx = p - 1 := heq
    omega

theorem BR.Held.consume {s : BR} {p : Nat} (hi : s.Inv) (h : s.Held p) (n : Nat) (hn : Nat.min n s.idx ≤ p - 2) :
    (s.consume n).Held (p - Nat.min n s.idx) := by
  have hm : Nat.min n s.idx ≤ s.idx := Nat.min_le_right _ _
  have hu := BR.consume_unread_drop hi n
  have h2 := h.two; have hix := h.idx; have hil := hi.idx_le; have hfo := h.found
  have e2 : (s.consume n).idx = s.idx - Nat.min n s.idx := rfl
  have e3 : (s.consume n).st = s.st := rfl
  generalize Nat.min n s.idx = t at *
  refine ⟨by rw [hu]; exact h.first.drop (by omega), by omega, ?_, by omega, ?_⟩
  · rw [hu, occursAt_drop]
    have : t + (p - t - 2) = p - 2 := by omega
    rw [this]; exact h.crlf
  · intro hs
    have := hfo (by rw [← e3]; exact hs)
    omega

theorem BR.Held.op {s : BR} {p : Nat} (hi : s.Inv) (hn : NoStall s.evs) (h : s.Held p) {o : FieldOp} (ho : o.below s.min) :
    (s.op o).1.length + 2 ≤ p ∧ (s.op o).2.Held (p - (s.op o).1.length) ∧ (s.op o).2.min = s.min ∧ (s.op o).2.evs <:+ s.evs := by
  have h2 := h.two
  cases o with
  | fillBuf =>
    simp only [BR.op, List.length_nil, Nat.sub_zero]
    refine ⟨by omega, ?_⟩
    rcases BR.readToBoundary_eq hi with ⟨e, _, he⟩ | ⟨_, he⟩
    · rw [he]; exact ⟨h.refill, rfl, s.refill_evs_suf⟩
    · rw [he]; exact ⟨(h.afterRead hi).1, s.afterRead_frame.2.2.1, by rw [s.afterRead_frame.2.1]; exact s.refill_evs_suf⟩
  | read n =>
    rcases BR.read_eq hi n with ⟨e, _, he⟩ | ⟨hf, he⟩
    · simp only [BR.op, he, List.length_nil, Nat.sub_zero]; exact ⟨by omega, h.refill, rfl, s.refill_evs_suf⟩
    · have hai := s.afterRead_inv hi
      obtain ⟨ha, hb⟩ := h.afterRead hi
      have hl : (s.afterRead.buf.take (Nat.min n s.afterRead.idx)).length = Nat.min n s.afterRead.idx := by
        rw [List.length_take]; exact Nat.min_eq_left (Nat.le_trans (Nat.min_le_right _ _) hai.idx_le)
      have hle : Nat.min n s.afterRead.idx ≤ p - 2 := by
        have hx := ha.idx
        by_cases heq : s.afterRead.idx = p - 1
        · have hbl := hb heq
          have hfull := (fill_spec s.min s.evs s.buf).enough hf hn
          have hun := s.afterRead_unread
          have hlen : p ≤ s.afterRead.unread.length := by
            have := ha.first.1.length_le
            have hd := hai.delim_len
            rw [List.length_drop] at this
            omega
          have hbuf : s.afterRead.buf = s.refill.buf := s.afterRead_frame.1
          have hev : s.afterRead.evs = s.refill.evs := s.afterRead_frame.2.1
          rcases hfull with hfull | hfull
          · have hfull : s.min ≤ s.refill.buf.length := hfull
            rw [← hbuf, hbl] at hfull
            have hnm : n < s.min := ho
            have := Nat.min_le_left n s.afterRead.idx
            have : Nat.min n s.afterRead.idx ≤ n := this
            omega
          · exfalso
            have hfull : s.refill.evs = [] := hfull
            unfold BR.unread at hlen
            rw [hev, hfull] at hlen
            simp only [Ev.bytes, List.append_nil] at hlen
            omega
        · have : Nat.min n s.afterRead.idx ≤ s.afterRead.idx := Nat.min_le_right _ _
          omega
      simp only [BR.op, he, hl]
      exact ⟨by omega, ha.consume hai n hle, s.afterRead_frame.2.2.1, by
        show s.afterRead.evs <:+ s.evs
        rw [s.afterRead_frame.2.1]; exact s.refill_evs_suf⟩
  | consume n => exact ho.elim
  | setMin n => exact ho.elim

theorem BR.Held.run : ∀ (os : List FieldOp) {s : BR} {p : Nat}, s.Inv → NoStall s.evs → s.Held p → (∀ o ∈ os, o.below s.min) →
    (s.run os).1.length + 2 ≤ p := by
  intro os
  induction os with
  | nil => intro s p hi hn h _; simp only [BR.run, List.length_nil]; have := h.two; omega
  | cons o os ih =>
    intro s p hi hn h ho
    obtain ⟨a, b, c, d⟩ := h.op hi hn (ho o (List.mem_cons_self ..))
    have := ih (BR.op_inv hi o) (hn.suffix d) b (fun x hx => by rw [c]; exact ho x (List.mem_cons_of_mem _ hx))
    simp only [BR.run, List.length_append]
    omega

theorem BR.Held.withHeadersLoop {D : Deps} : ∀ (n last : Nat) {s : BR} {p : Nat}, s.Inv → s.Held p →
    (withHeadersLoop D n last s).2.Held p ∧ (withHeadersLoop D n last s).2.Inv := by
  intro n
  induction n with
  | zero => intro last s p hi h; exact ⟨h, hi⟩
  | succ n ih =>
    intro last s p hi h
    unfold Multipart.withHeadersLoop
    rcases BR.readToBoundary_eq hi with ⟨e, _, he⟩ | ⟨_, he⟩
    · rw [he]; exact ⟨h.refill, s.refill_inv hi⟩
    · rw [he]
      have ha := (h.afterRead hi).1
      have hai := s.afterRead_inv hi
      simp only
      split
      · exact ⟨ha, hai⟩
      · split
        · exact ⟨ha, hai⟩
        · exact ih _ hai ha
        · split <;> exact ⟨ha, hai⟩

/-- At the start of a field whose delimiter is preceded by CRLF, the cursor is not behind that CRLF. -/
theorem BR.readEntry_held {D : Deps} (hD : D.Sane) {s0 s : BR} {fh : FieldHeaders} {n : Nat} (hi : s0.Inv)
    (he : s0.readEntry D = (.ok (some fh), s)) (hf : FirstAt s.delim s.unread (n + 2)) (hc : OccursAt crlf s.unread n) : s.Held (n + 2) := by
  have hsi := BR.setMin_inv hi minBufSize
  unfold BR.readEntry at he
  rcases hcb : (s0.setMin minBufSize).consumeBoundary with ⟨r, t⟩
  rw [hcb] at he
  cases r with
  | err e => simp at he
  | panic => simp at he
  | hang => simp at he
  | ok b =>
    cases b with
    | false => simp at he
    | true =>
      simp only at he
      obtain ⟨t1, t2, t3, t4, t5, t6⟩ := BR.consumeBoundary_true hsi hcb
      have hh := BR.readHeaders_spec hD t1
      rcases hrh : t.readHeaders D with ⟨r, w⟩
      rw [hrh] at he hh
      cases r with
      | err e => simp at he
      | panic => simp at he
      | hang => simp at he
      | ok fh' =>
        simp only [Prod.mk.injEq, Res.ok.injEq, Option.some.injEq] at he
        obtain ⟨rfl, rfl⟩ := he
        simp only at hh
        cases hh with
        | @ok _ k hs' _ k1 k2 k3 k4 k5 k6 =>
          have hwd : w.unread = t.unread.drop k := k1.unread
          have hle := k1.le
          have hdw : w.delim = t.delim := k1.delim
          have hft : FirstAt t.delim t.unread (k + (n + 2)) := by
            rw [hdw, hwd] at hf
            exact hf.of_drop k1.none
          have hex : t.Held (k + (n + 2)) := by
            refine ⟨hft, by omega, ?_, by omega, fun _ => by omega⟩
            rw [hwd, occursAt_drop] at hc
            have : k + (n + 2) - 2 = k + n := by omega
            rw [this]; exact hc
          unfold BR.readHeaders FieldHeaders.readFrom withHeaders at hrh
          obtain ⟨ha, hai⟩ := hex.withHeadersLoop (D := D) (t.evs.length + 2) 0 t1
          generalize Multipart.withHeadersLoop D (t.evs.length + 2) 0 t = r at ha hai hrh
          rcases r with ⟨r1, v⟩
          simp only at ha hai
          cases r1 with
          | ok x =>
            obtain ⟨m, hs⟩ := x
            simp only at hrh
            have hw : w = v.consume m := by
              cases hp : FieldHeaders.parse D hs <;> rw [hp] at hrh <;> simp at hrh
              exact hrh.2.symm
            have hcu := BR.consume_unread_drop hai m
            rw [← hw] at hcu
            have hvd : w.delim = v.delim := by rw [hw]; rfl
            have hix := ha.idx
            have hmi : Nat.min m v.idx ≤ v.idx := Nat.min_le_right _ _
            have hkey : Nat.min m v.idx = k := by
              rw [hcu, hvd] at hf
              have h1 : ¬ Nat.min m v.idx < k := fun hlt => by
                have := hf.1
                rw [occursAt_drop] at this
                exact ha.first.2 _ (by omega) this
              have h2 : ¬ k < Nat.min m v.idx := fun hlt => by
                apply hf.2 (k + (n + 2) - Nat.min m v.idx) (by omega)
                rw [occursAt_drop, show Nat.min m v.idx + (k + (n + 2) - Nat.min m v.idx) = k + (n + 2) by omega]
                exact ha.first.1
              omega
            have := ha.consume hai m (by omega)
            rw [hkey, ← hw, show k + (n + 2) - k = n + 2 by omega] at this
            exact this
          | err e => simp at hrh
          | panic => simp at hrh
          | hang => simp at hrh

/-- The data of a field that was read to its end by small reads. -/
theorem BR.field_small {D : Deps} (hD : D.Sane) {s t : BR} {fh : FieldHeaders} {evs : List Ev} {m : Nat} (hi : s.Inv) (hevs : s.evs <:+ evs) (hu : s.unread <:+ Ev.bytes evs) (hm : m ≤ entryBuf s.delim)
    (he : s.readEntry D = (.ok (some fh), t)) (hn : NoStall evs) {dat : Bytes} (hd : FieldData s.delim t.unread dat) {os : List FieldOp} (hos : ∀ o ∈ os, o.below m)
    (heof : (t.run os).2.AtEof) : (t.run os).1 = dat := by
  have hti : t.Inv := by have := BR.readEntry_inv hD hi; rw [he] at this; exact this
  have htd : t.delim = s.delim := by have := BR.readEntry_delim hD hi; rw [he] at this; exact this
  have hte : t.evs <:+ s.evs := by have := BR.readEntry_evs hD hi; rw [he] at this; exact this
  have htm : t.EntryMin := by have := BR.readEntry_entryMin hD hi; rw [he] at this; exact this
  have htu : t.unread <:+ s.unread := by have := BR.readEntry_suffix hD hi; rw [he] at this; exact this
  obtain ⟨gone, hg⟩ := htu.trans hu
  rw [← htd] at hd
  rcases BR.field_data hD hi hevs hu he hg.symm hn hd os heof with h | ⟨h1, h2, _⟩
  · exact h
  · exfalso
    have hc : OccursAt crlf t.unread dat.length := by
      have := BR.run_unread os hti
      rw [h1, List.append_assoc] at this
      unfold OccursAt
      rw [← this, List.drop_left]
      exact List.prefix_append _ _
    have hmin : m ≤ t.min := by
      have h1 := htm.1
      have h2 := htm.2
      unfold minBufSize at h1
      unfold entryBuf at hm
      rw [← htd] at hm
      exact Nat.le_trans hm (Nat.max_le.mpr ⟨h1, h2⟩)
    have := (BR.readEntry_held hD hi he h2 hc).run os hti (hn.suffix (hte.trans hevs)) (fun o ho => by
      have := hos o ho
      cases o with
      | read n => exact Nat.lt_of_lt_of_le this hmin
      | fillBuf => trivial
      | consume n => exact this
      | setMin n => exact this)
    rw [h1] at this
    simp [crlf] at this; omega

theorem readsBelow_parts {D : Deps} (hD : D.Sane) {d : Bytes} {evs : List Ev} (hn : NoStall evs) (hne : NoErr evs)
    {m : Nat} (hm : m ≤ entryBuf d) {s : BR} {got : List (FieldHeaders × Bytes)} {fin : Ending} (hr : ReadsBelow D m s got fin) :
    ∀ {es : List (FieldHeaders × Bytes)} {fin' : Ending}, s.Inv → s.delim = d → s.evs <:+ evs → s.unread <:+ Ev.bytes evs →
      s.st ≠ .atEnd → (s.Drained ∨ (s.readEntry D).1 ≠ .err .unexpectedEof) → Parts D d s.unread es fin' →
      fin = fin' ∧ All2 (fun a b => a.1 = b.1 ∧ a.2 = b.2) got es := by
  induction hr with
  | @close s t hc =>
    intro es fin' hi hd hevs hu hst hdr hp
    subst hd
    obtain ⟨ho, hexact⟩ := BR.readEntry_verdict hD hi hst hdr hn hne hevs hu
    rw [hc] at ho
    cases hp with
    | close _ => exact ⟨rfl, .nil⟩
    | damaged h => have := ho.2.1 h; simp at this
    | truncated h => have := ho.2.2 h; simp at this
    | refused h h' => have := BR.readEntry_refused hD hi hst hdr hn hne hevs h h'; rw [hc] at this; simp at this
    | part a b _ =>
      obtain ⟨H, hs, h1, h2, h3, h4⟩ := b.headers
      have := hexact _ _ _ _ _ _ a h1 b.data h4 h3 h2
      rw [hc] at this; simp at this
  | @fail s t e hc =>
    intro es fin' hi hd hevs hu hst hdr hp
    subst hd
    obtain ⟨ho, hexact⟩ := BR.readEntry_verdict hD hi hst hdr hn hne hevs hu
    rw [hc] at ho
    cases hp with
    | close h => have := ho.1 _ h; simp at this
    | damaged h => have := ho.2.1 h; simp only [Res.err.injEq] at this; rw [this]; exact ⟨rfl, .nil⟩
    | truncated h => have := ho.2.2 h; simp only [Res.err.injEq] at this; rw [this]; exact ⟨rfl, .nil⟩
    | refused h h' => have := BR.readEntry_refused hD hi hst hdr hn hne hevs h h'; rw [hc] at this; simp only [Res.err.injEq] at this; rw [this]; exact ⟨rfl, .nil⟩
    | part a b _ =>
      obtain ⟨H, hs, h1, h2, h3, h4⟩ := b.headers
      have := hexact _ _ _ _ _ _ a h1 b.data h4 h3 h2
      rw [hc] at this; simp at this
  | @entry s t fh os got fin hc hos heof _ ih =>
    intro es fin' hi hd hevs hu hst hdr hp
    subst hd
    obtain ⟨ho, hexact⟩ := BR.readEntry_verdict hD hi hst hdr hn hne hevs hu
    rw [hc] at ho
    cases hp with
    | close h => have := ho.1 _ h; simp at this
    | damaged h => have := ho.2.1 h; simp at this
    | truncated h => have := ho.2.2 h; simp at this
    | refused h h' => have := BR.readEntry_refused hD hi hst hdr hn hne hevs h h'; rw [hc] at this; simp at this
    | @part _ rest X dat fh' es' _ a b hrest =>
      obtain ⟨H, hs, h1, h2, h3, h4⟩ := b.headers
      have hex := hexact _ _ _ _ _ _ a h1 b.data h4 h3 h2
      rw [hc] at hex
      simp only [Res.ok.injEq, Option.some.injEq] at hex
      obtain ⟨rfl, rfl⟩ := hex
      have hti : t.Inv := by have := BR.readEntry_inv hD hi; rw [hc] at this; exact this
      have htd : t.delim = s.delim := by have := BR.readEntry_delim hD hi; rw [hc] at this; exact this
      have hte : t.evs <:+ s.evs := by have := BR.readEntry_evs hD hi; rw [hc] at this; exact this
      have htu : t.unread <:+ s.unread := by have := BR.readEntry_suffix hD hi; rw [hc] at this; exact this
      have htst : t.st ≠ .atEnd := by
        have hsp := BR.readEntry_spec hD hi
        rw [hc] at hsp
        simp only at hsp
        cases hsp with | entry => assumption
      obtain ⟨r1, r2, r3, r4, r5⟩ := BR.run_skipped os hti
      have hri := BR.run_inv os hti
      have hnext : Parts D s.delim (t.run os).2.unread es' fin' := by
        have hsame : ∀ v, NextIs s.delim t.unread v → NextIs s.delim (t.run os).2.unread v := by
          intro v hv
          rw [r1]; apply hv.drop; rw [htd] at r2; exact r2
        cases hrest with
        | close h => exact .close (hsame _ h)
        | damaged h => exact .damaged (hsame _ h)
        | truncated h => exact .truncated (hsame _ h)
        | refused h h' => exact .refused (hsame _ h) h'
        | part h w p => exact .part (hsame _ h) w p
      have := ih hri (r3.trans htd) (r4.trans (hte.trans hevs))
        (by rw [r1]; exact (List.drop_suffix _ _).trans (htu.trans hu))
        (fun h => htst (r5.mp h)) (.inl (BR.AtEof.drained hri heof)) hnext
      exact ⟨this.1, .cons ⟨rfl, BR.field_small hD hi hevs hu hm hc hn b.data hos heof⟩ this.2⟩

end Multipart

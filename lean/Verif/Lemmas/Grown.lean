import Verif.Lemmas.Causal
import Verif.Lemmas.Headers
/-!
# More data behind a delimiter changes nothing in front of it
-/
namespace Multipart
variable {D : Deps} {s t s' t' : BR} {n m : Nat}

/-- The same reader, but the stream brings more data. -/
structure BR.Grown (s s' : BR) : Prop where
  min : s'.min = s.min
  delim : s'.delim = s.delim
  idx : s'.idx = s.idx
  st : s'.st = s.st
  ok : NoErr s.evs
  ok' : NoErr s'.evs
  nostall : NoStall s.evs
  more : (s'.buf = s.buf ∧ ∃ rest, s'.evs = s.evs ++ rest) ∨ (s.evs = [] ∧ ∃ x, s'.buf = s.buf ++ x)

/-- There is a delimiter, and the two bytes behind it. -/
def BR.HasLine (s : BR) : Prop := ∃ p, OccursAt s.delim s.unread p ∧ p + s.delim.length + 2 ≤ s.unread.length

theorem fill_grown (min : Nat) {rest : List Ev} : ∀ (es : List Ev) (buf : Bytes), NoStall es → NoErr es →
    ((fill min buf (es ++ rest)).2.1 = (fill min buf es).2.1 ∧ (fill min buf (es ++ rest)).2.2 = (fill min buf es).2.2 ++ rest) ∨
    ((fill min buf es).2.2 = [] ∧ ∃ x, (fill min buf (es ++ rest)).2.1 = (fill min buf es).2.1 ++ x) := by
  intro es
  induction es with
  | nil =>
    intro buf _ _
    right
    obtain ⟨x, hx⟩ := (fill_spec min rest buf).pre
    exact ⟨rfl, x, by simp [fill, hx]⟩
  | cons e es ih =>
    intro buf hn he
    cases e with
    | data bs =>
      cases bs with
      | nil => exact absurd List.mem_cons_self hn
      | cons y ys =>
        simp only [List.cons_append, fill]
        split
        · exact .inl ⟨rfl, rfl⟩
        · exact ih _ (hn.suffix (List.suffix_cons _ _)) (he.suffix (List.suffix_cons _ _))
    | err e => exact absurd List.mem_cons_self (he e)

theorem BR.Grown.refill (h : s.Grown s') : s.refill.Grown s'.refill := by
  refine ⟨h.min, h.delim, h.idx, h.st, h.ok.suffix (fill_spec s.min s.evs s.buf).suf, h.ok'.suffix (fill_spec s'.min s'.evs s'.buf).suf,
    h.nostall.suffix (fill_spec s.min s.evs s.buf).suf, ?_⟩
  rcases h.more with ⟨h1, rest, h2⟩ | ⟨h1, x, h2⟩
  · show ((fill s'.min s'.buf s'.evs).2.1 = (fill s.min s.buf s.evs).2.1 ∧ ∃ rest, (fill s'.min s'.buf s'.evs).2.2 = (fill s.min s.buf s.evs).2.2 ++ rest) ∨
      ((fill s.min s.buf s.evs).2.2 = [] ∧ ∃ x, (fill s'.min s'.buf s'.evs).2.1 = (fill s.min s.buf s.evs).2.1 ++ x)
    rw [h.min, h1, h2]
    rcases fill_grown s.min (rest := rest) s.evs s.buf h.nostall h.ok with ⟨h3, h4⟩ | h3
    · exact .inl ⟨h3, rest, h4⟩
    · exact .inr h3
  · right
    refine ⟨?_, ?_⟩
    · have := (fill_spec s.min s.evs s.buf).suf.length_le
      rw [h1, List.length_nil] at this
      show (fill s.min s.buf s.evs).2.2 = []
      rw [h1]
      exact List.length_eq_zero_iff.mp (by omega)
    · obtain ⟨y, hy⟩ := (fill_spec s'.min s'.evs s'.buf).pre
      refine ⟨x ++ y, ?_⟩
      show (fill s'.min s'.buf s'.evs).2.1 = (fill s.min s.buf s.evs).2.1 ++ _
      rw [← hy, h2, h1]
      simp [fill]

theorem BR.Grown.unread (h : s.Grown s') : s.unread <+: s'.unread := by
  unfold BR.unread
  rcases h.more with ⟨h1, rest, h2⟩ | ⟨h1, x, h2⟩
  · rw [h1, h2, Ev.bytes_append, ← List.append_assoc]; exact List.prefix_append _ _
  · rw [h1, h2]; simp [Ev.bytes]

/-- What lies within the buffer is the same. -/
theorem BR.Grown.slice (h : s.Grown s') {k l : Nat} (hl : k + l ≤ s.buf.length) : (s'.buf.drop k).take l = (s.buf.drop k).take l := by
  rcases h.more with ⟨h1, -⟩ | ⟨-, x, h2⟩
  · rw [h1]
  · rw [h2, List.drop_append_of_le_length (by omega), List.take_append_of_le_length (by rw [List.length_drop]; omega)]

theorem BR.Grown.consume (h : s.Grown s') (hi : s.Inv) (n : Nat) : (s.consume n).Grown (s'.consume n) := by
  refine ⟨h.min, h.delim, ?_, h.st, h.ok, h.ok', h.nostall, ?_⟩
  · show s'.idx - Nat.min n s'.idx = s.idx - Nat.min n s.idx
    rw [h.idx]
  · show (s'.buf.drop (Nat.min n s'.idx) = s.buf.drop (Nat.min n s.idx) ∧ _) ∨ (s.evs = [] ∧ ∃ x, s'.buf.drop (Nat.min n s'.idx) = s.buf.drop (Nat.min n s.idx) ++ x)
    rw [h.idx]
    rcases h.more with ⟨h1, h2⟩ | ⟨h1, x, h2⟩
    · exact .inl ⟨by rw [h1], h2⟩
    · refine .inr ⟨h1, x, ?_⟩
      have := hi.idx_le
      have : Nat.min n s.idx ≤ s.idx := Nat.min_le_right n s.idx
      rw [h2, List.drop_append_of_le_length (by omega)]

theorem BR.Grown.setMin (h : s.Grown s') (n : Nat) : (s.setMin n).Grown (s'.setMin n) :=
  ⟨by show Nat.max _ _ = Nat.max _ _; rw [h.delim], h.delim, h.idx, h.st, h.ok, h.ok', h.nostall, h.more⟩

theorem isPrefixOf_take (a u : Bytes) : a.isPrefixOf u = a.isPrefixOf (u.take a.length) := by
  rw [Bool.eq_iff_iff, List.isPrefixOf_iff_prefix, List.isPrefixOf_iff_prefix]
  refine ⟨fun ⟨z, hz⟩ => by rw [← hz]; simp, fun h => h.trans (List.take_prefix _ _)⟩

theorem BR.Grown.backUp (h : s.Grown s') (hl : s'.buf = s.buf ∨ s.idx + 2 ≤ s.buf.length) : s.backUp.Grown s'.backUp := by
  have h1 : crlf.isPrefixOf (s'.buf.drop s.idx) = crlf.isPrefixOf (s.buf.drop s.idx) := by
    rcases hl with hl | hl
    · rw [hl]
    · rw [isPrefixOf_take, isPrefixOf_take crlf (s.buf.drop s.idx)]
      rw [show crlf.length = 2 from rfl, h.slice hl]
  unfold BR.backUp
  rw [h.idx, h1]
  split
  · next hc =>
    have h2 : (s'.buf.drop (s.idx - 2)).take 2 = (s.buf.drop (s.idx - 2)).take 2 := by
      rcases hl with hl | hl
      · rw [hl]
      · exact h.slice (by omega)
    rw [h2]
    split
    · exact ⟨h.min, h.delim, rfl, h.st, h.ok, h.ok', h.nostall, h.more⟩
    · exact h
  · exact h

theorem BR.Grown.search (h : s.Grown s') (hi : s.Inv) (hl : s'.buf = s.buf ∨ s.HasLine) :
    s.search.Grown s'.search ∧ (s'.buf = s.buf ∨ s.search.idx + 2 ≤ s.buf.length) := by
  have hsame : s'.buf = s.buf → s.search.Grown s'.search := by
    intro hb
    unfold BR.search
    rw [h.idx, h.delim, hb]
    split
    · split
      · exact ⟨h.min, rfl, rfl, rfl, h.ok, h.ok', h.nostall, by simpa [hb] using h.more⟩
      · exact ⟨h.min, rfl, rfl, h.st, h.ok, h.ok', h.nostall, by simpa [hb] using h.more⟩
    · exact h
  by_cases hb : s'.buf = s.buf
  · exact ⟨hsame hb, .inl hb⟩
  · obtain ⟨p, hp, hlen⟩ := hl.resolve_left hb
    obtain ⟨he, x, hx⟩ : s.evs = [] ∧ ∃ x, s'.buf = s.buf ++ x := by
      rcases h.more with ⟨h1, -⟩ | h1
      · exact absurd h1 hb
      · exact h1
    have hu : s.unread = s.buf := by unfold BR.unread; rw [he]; simp [Ev.bytes]
    rw [hu] at hp hlen
    have hpi : s.idx ≤ p := by
      rcases Nat.lt_or_ge p s.idx with hlt | hge
      · exact absurd (by rw [hu]; exact hp) (hi.no_occ p hlt)
      · exact hge
    have hd := hi.delim_ne
    have hd2 := hi.delim_len
    have hocc : OccursAt s.delim (s.buf.drop s.idx) (p - s.idx) := by rw [occursAt_drop, show s.idx + (p - s.idx) = p by omega]; exact hp
    have hlt : s.idx < s.buf.length := by omega
    obtain ⟨i, hf⟩ : ∃ i, findSub s.delim (s.buf.drop s.idx) = some i := by
      cases hf : findSub s.delim (s.buf.drop s.idx) with
      | some i => exact ⟨i, rfl⟩
      | none => exact absurd hocc (findSub_eq_none_iff.mp hf _)
    have hf' : findSub s.delim (s'.buf.drop s.idx) = some i := by
      rw [hx, List.drop_append_of_le_length (by omega)]
      have h1 := (findSub_some hf).append hd x
      cases hg : findSub s.delim (s.buf.drop s.idx ++ x) with
      | none => exact absurd h1.1 (findSub_eq_none_iff.mp hg _)
      | some j => rw [(findSub_some hg).unique h1]
    have hi' := occursAt_lt (findSub_some hf).1 hd
    rw [List.length_drop] at hi'
    have hlt' : s.idx < s'.buf.length := by rw [hx, List.length_append]; omega
    unfold BR.search
    rw [h.idx, h.delim, if_pos hlt, if_pos hlt']
    unfold findBoundary
    rw [hf, hf']
    exact ⟨⟨h.min, rfl, rfl, rfl, h.ok, h.ok', h.nostall, h.more⟩, .inr (by simp only; omega)⟩

theorem BR.HasLine.refill (h : s.HasLine) : s.refill.HasLine := by
  unfold BR.HasLine at h ⊢
  rw [s.refill_unread]
  exact h

theorem BR.Grown.afterRead (h : s.Grown s') (hi : s.Inv) (hl : s.st ≠ .searching ∨ s.HasLine) : s.afterRead.Grown s'.afterRead := by
  by_cases hst : s.st = .searching
  · rw [BR.afterRead_searching hst, BR.afterRead_searching (by rw [h.st]; exact hst)]
    obtain ⟨h1, h2⟩ := h.refill.search (s.refill_inv hi) (.inr (hl.resolve_left (fun hc => hc hst)).refill)
    have hb := (BR.search_frame s.refill).1
    have hb' := (BR.search_frame s'.refill).1
    exact h1.backUp (by rw [hb, hb']; exact h2)
  · rw [BR.afterRead_other hst, BR.afterRead_other (by rw [h.st]; exact hst)]
    exact h.refill

theorem BR.Grown.readToBoundary (h : s.Grown s') (hi : s.Inv) (hi' : s'.Inv) (hl : s.st ≠ .searching ∨ s.HasLine) :
    s.readToBoundary = (.ok (s.afterRead.buf.take s.afterRead.idx), s.afterRead) ∧ s'.readToBoundary = (.ok (s.afterRead.buf.take s.afterRead.idx), s'.afterRead) := by
  have ha := h.afterRead hi hl
  refine ⟨?_, ?_⟩
  · rcases BR.readToBoundary_eq hi with ⟨e, h1, -⟩ | ⟨-, he⟩
    · rw [h.ok.fill_none] at h1; simp at h1
    · exact he
  · rcases BR.readToBoundary_eq hi' with ⟨e, h1, -⟩ | ⟨-, he⟩
    · rw [h.ok'.fill_none] at h1; simp at h1
    · rw [he, ha.idx]
      have := ha.slice (k := 0) (l := s.afterRead.idx) (by rw [Nat.zero_add]; exact (s.afterRead_inv hi).idx_le)
      rw [List.drop_zero, List.drop_zero] at this
      rw [this]

theorem BR.HasLine.consume (h : s.HasLine) (hi : s.Inv) (n : Nat) : (s.consume n).HasLine := by
  obtain ⟨p, hp, hl⟩ := h
  have hm : Nat.min n s.idx ≤ s.idx := Nat.min_le_right _ _
  have hpi : s.idx ≤ p := by
    rcases Nat.lt_or_ge p s.idx with hlt | hge
    · exact absurd hp (hi.no_occ p hlt)
    · exact hge
  unfold BR.HasLine
  rw [BR.consume_unread_drop hi]
  refine ⟨p - Nat.min n s.idx, ?_, ?_⟩
  · rw [occursAt_drop, show Nat.min n s.idx + (p - Nat.min n s.idx) = p by omega]; exact hp
  · rw [List.length_drop]; show p - _ + s.delim.length + 2 ≤ _; omega

theorem BR.HasLine.afterRead (h : s.HasLine) : s.afterRead.HasLine := by
  unfold BR.HasLine
  rw [s.afterRead_unread, s.afterRead_frame.2.2.2]
  exact h

/-- Either the closing delimiter has been seen, or a delimiter is to come. -/
def BR.Good (s : BR) : Prop := s.st = .atEnd ∨ s.HasLine

theorem BR.Good.line (h : s.Good) (hst : s.st ≠ .atEnd) : s.HasLine := h.resolve_left hst
theorem BR.Good.need (h : s.Good) : s.st ≠ .searching ∨ s.HasLine := h.imp (fun h => by rw [h]; simp) id

theorem BR.Good.back (h : t.Good) (hu : t.unread <:+ s.unread) (hd : t.delim = s.delim) (hst : t.st = .atEnd → s.Good) : s.Good := by
  rcases h with h | ⟨p, hp, hl⟩
  · exact hst h
  · obtain ⟨x, hx⟩ := hu
    right
    refine ⟨x.length + p, ?_, ?_⟩
    · rw [hd] at hp
      have := occursAt_drop (d := s.delim) (xs := s.unread) (n := x.length) (p := p)
      rw [← hx, List.drop_left] at this
      rw [← hx]
      exact this.mp hp
    · rw [← hx, List.length_append]
      rw [hd] at hl
      omega

/-- The same answer, from readers that are still alike. -/
def Same {α : Type} (x y : α × BR) : Prop := y.1 = x.1 ∧ x.2.Grown y.2

theorem BR.Grown.readToBoundary_same (h : s.Grown s') (hi : s.Inv) (hi' : s'.Inv) (hl : s.st ≠ .searching ∨ s.HasLine) : Same s.readToBoundary s'.readToBoundary := by
  obtain ⟨h1, h2⟩ := h.readToBoundary hi hi' hl
  rw [h1, h2]
  exact ⟨rfl, h.afterRead hi hl⟩

theorem BR.Grown.searchLoop : ∀ (n : Nat) (s s' : BR), s.Grown s' → s.Inv → s'.Inv → (s.st = .searching → s.HasLine) → Same (BR.searchLoop n s) (BR.searchLoop n s') := by
  intro n
  induction n with
  | zero => intro s s' h _ _ _; exact ⟨rfl, h⟩
  | succ n ih =>
    intro s s' h hi hi' hl
    unfold BR.searchLoop
    rw [h.st]
    split
    · next hst =>
      obtain ⟨h1, h2⟩ := h.readToBoundary hi hi' (.inr (hl hst))
      have ha := h.afterRead hi (.inr (hl hst))
      rw [h1, h2]
      simp only
      rw [ha.st]
      split
      · exact ⟨rfl, ha⟩
      · exact ih _ _ (ha.consume (s.afterRead_inv hi) _) (BR.consume_inv (s.afterRead_inv hi) _) (BR.consume_inv (s'.afterRead_inv hi') _)
          (fun _ => (hl hst).afterRead.consume (s.afterRead_inv hi) _)
    · exact ⟨rfl, h⟩

theorem BR.verifyBoundary_same (h : s.Grown s') (hb : s'.refill.buf = s.refill.buf) : Same s.verifyBoundary s'.verifyBoundary := by
  have hr := h.refill
  have h1 : fill s.min s.buf s.evs = (none, s.refill.buf, s.refill.evs) := by
    show _ = (none, (fill s.min s.buf s.evs).2.1, (fill s.min s.buf s.evs).2.2); rw [← h.ok.fill_none (min := s.min) (buf := s.buf)]
  have h2 : fill s'.min s'.buf s'.evs = (none, s'.refill.buf, s'.refill.evs) := by
    show _ = (none, (fill s'.min s'.buf s'.evs).2.1, (fill s'.min s'.buf s'.evs).2.2); rw [← h.ok'.fill_none (min := s'.min) (buf := s'.buf)]
  have hm := hr.more
  have hok := hr.ok
  have hok' := hr.ok'
  have hns := hr.nostall
  have hrest : ∃ rest, s'.refill.evs = s.refill.evs ++ rest := by
    rcases hm with ⟨-, hm⟩ | ⟨hm, -⟩
    · exact hm
    · exact ⟨s'.refill.evs, by rw [hm]; rfl⟩
  have key : ∀ {st st' : BState} (b : Bytes) (i : Nat), st' = st → BR.Grown ⟨b, s.refill.evs, s.min, s.delim, i, st⟩ ⟨b, s'.refill.evs, s'.min, s.delim, i, st'⟩ := by
    intro st st' b i hst
    exact ⟨h.min, rfl, rfl, hst, hok, hok', hns, .inl ⟨rfl, hrest⟩⟩
  unfold BR.verifyBoundary
  rw [h1, h2, hb]
  simp only
  rw [h.idx, h.delim]
  split
  · exact ⟨rfl, key _ _ h.st⟩
  · generalize (if crlf.isPrefixOf (s.refill.buf.drop s.idx) = true then 2 else 0) = pre
    split
    · exact ⟨rfl, key _ _ h.st⟩
    · split
      · exact ⟨rfl, key _ _ h.st⟩
      · split
        · exact ⟨rfl, key _ _ rfl⟩
        · split
          · exact ⟨rfl, key _ _ rfl⟩
          · exact ⟨rfl, key _ _ rfl⟩

theorem prefix_two_append {c u y : Bytes} {k : Nat} (hc : c.length = 2) (hk : k + 2 ≤ u.length) : c <+: (u ++ y).drop k ↔ c <+: u.drop k := by
  rw [prefix_two_iff hc, prefix_two_iff hc, take_two_drop_append _ _ _ hk]

theorem BR.Grown.verifyBoundary (h : s.Grown s') (hi : s.Inv) (hi' : s'.Inv) (hst : s.st = .boundaryRead) (hl : s.HasLine) : Same s.verifyBoundary s'.verifyBoundary := by
  have hr := h.refill
  by_cases hb : s'.refill.buf = s.refill.buf
  · exact BR.verifyBoundary_same h hb
  · obtain ⟨he, x, hx⟩ : s.refill.evs = [] ∧ ∃ x, s'.refill.buf = s.refill.buf ++ x := by
      rcases hr.more with ⟨h1, -⟩ | h1
      · exact absurd h1 hb
      · exact h1
    have hu : s.unread = s.refill.buf := by rw [← s.refill_unread]; unfold BR.unread; rw [he]; simp [Ev.bytes]
    obtain ⟨y, hy⟩ := h.unread
    obtain ⟨q, hq, hql⟩ := hl
    obtain ⟨p, hp, -, hv⟩ := BR.verify_spec hi hst
    obtain ⟨p', hp', -, hv'⟩ := BR.verify_spec hi' (by rw [h.st]; exact hst)
    have hpp : p' = p := by
      rw [h.delim, ← hy] at hp'
      exact hp'.unique (hp.append hi.delim_ne y)
    subst hpp
    have hpq : p' ≤ q := by
      rcases Nat.lt_or_ge q p' with hlt | hge
      · exact absurd hq (hp.2 q hlt)
      · exact hge
    have hlen : p' + s.delim.length + 2 ≤ s.refill.buf.length := by rw [← hu]; omega
    have hlen' : p' + s.delim.length + 2 ≤ s'.refill.buf.length := by rw [hx, List.length_append]; omega
    have hul : p' + s.delim.length + 2 ≤ s.unread.length := by omega
    have hcr := prefix_two_append (c := crlf) (u := s.unread) (y := y) (k := p' + s.delim.length) rfl hul
    have hda := prefix_two_append (c := dashes) (u := s.unread) (y := y) (k := p' + s.delim.length) rfl hul
    rw [hy] at hcr hda
    rw [h.delim] at hv'
    rw [hcr, hda] at hv'
    have hpast : ∀ st, (s.refill.past (p' + s.delim.length + 2) st).Grown (s'.refill.past (p' + s.delim.length + 2) st) := by
      intro st
      refine ⟨h.min, h.delim, rfl, rfl, hr.ok, hr.ok', hr.nostall, .inr ⟨he, x, ?_⟩⟩
      show s'.refill.buf.drop _ = s.refill.buf.drop _ ++ x
      rw [hx, List.drop_append_of_le_length hlen]
    have hsea : s.refill.toSearching.Grown s'.refill.toSearching := ⟨h.min, h.delim, h.idx, rfl, hr.ok, hr.ok', hr.nostall, hr.more⟩
    have hcd : crlf <+: s.unread.drop (p' + s.delim.length) → dashes <+: s.unread.drop (p' + s.delim.length) → False := by
      intro h1 h2
      rw [prefix_two_iff rfl] at h1 h2
      rw [h1] at h2
      exact absurd h2 (by decide)
    rcases hv with ⟨e, h1, -⟩ | ⟨h1, -⟩ | ⟨-, h1, h2⟩ | ⟨-, h1, h2⟩ | ⟨-, h1, h2, h3⟩
    · exact absurd h1 (h.ok e)
    · omega
    · rcases hv' with ⟨e, k1, -⟩ | ⟨k1, -⟩ | ⟨-, k1, k2⟩ | ⟨-, k1, k2⟩ | ⟨-, k1, k2, k3⟩
      · exact absurd k1 (h.ok' e)
      · omega
      · rw [h2, k2]; exact ⟨rfl, hpast _⟩
      · exact (hcd h1 k1).elim
      · exact absurd h1 k1
    · rcases hv' with ⟨e, k1, -⟩ | ⟨k1, -⟩ | ⟨-, k1, k2⟩ | ⟨-, k1, k2⟩ | ⟨-, k1, k2, k3⟩
      · exact absurd k1 (h.ok' e)
      · omega
      · exact (hcd k1 h1).elim
      · rw [h2, k2]; exact ⟨rfl, hpast _⟩
      · exact absurd h1 k2
    · rcases hv' with ⟨e, k1, -⟩ | ⟨k1, -⟩ | ⟨-, k1, k2⟩ | ⟨-, k1, k2⟩ | ⟨-, k1, k2, k3⟩
      · exact absurd k1 (h.ok' e)
      · omega
      · exact absurd k1 h1
      · exact absurd k1 h2
      · rw [h3, k3]; exact ⟨rfl, hsea⟩

theorem BR.searchLoop_line : ∀ (n : Nat) (s : BR), s.Inv → s.HasLine → (BR.searchLoop n s).2.Inv ∧ (BR.searchLoop n s).2.HasLine ∧
    ((BR.searchLoop n s).1 = .ok () → (BR.searchLoop n s).2.st ≠ .searching ∧ ((BR.searchLoop n s).2.st = .atEnd → s.st = .atEnd)) := by
  intro n
  induction n with
  | zero => intro s hi hl; exact ⟨hi, hl, by simp [BR.searchLoop]⟩
  | succ n ih =>
    intro s hi hl
    unfold BR.searchLoop
    split
    · next hst =>
      rcases BR.readToBoundary_eq hi with ⟨e, h1, he⟩ | ⟨h1, he⟩
      · rw [he]; exact ⟨s.refill_inv hi, hl.refill, by simp⟩
      · rw [he]
        simp only
        split
        · exact ⟨s.afterRead_inv hi, hl.afterRead, by simp⟩
        · obtain ⟨k1, k2, k3⟩ := ih _ (BR.consume_inv (s.afterRead_inv hi) _) (hl.afterRead.consume (s.afterRead_inv hi) (s.afterRead.buf.take s.afterRead.idx).length)
          exact ⟨k1, k2, fun h => ⟨(k3 h).1, fun h' => BR.afterRead_atEnd hi ((k3 h).2 h')⟩⟩
    · next hst => exact ⟨hi, hl, fun _ => ⟨hst, id⟩⟩

theorem BR.Grown.consumeBoundary (h : s.Grown s') (hi : s.Inv) (hi' : s'.Inv) (hg : s.Good) : Same s.consumeBoundary s'.consumeBoundary := by
  unfold BR.consumeBoundary
  rw [h.st]
  split
  · exact ⟨rfl, h⟩
  · next hst =>
    have hl := hg.line hst
    have hs := BR.Grown.searchLoop (Nat.max (s.pending + 2) (s'.pending + 2)) s s' h hi hi' (fun _ => hl)
    rw [BR.searchLoop_enough hi (Nat.le_max_left _ _), BR.searchLoop_enough hi' (Nat.le_max_right _ _)] at hs
    obtain ⟨k1, k2, k3⟩ := BR.searchLoop_line (s.pending + 2) s hi hl
    have k1' : (BR.searchLoop (s'.pending + 2) s').2.Inv := by
      have := BR.searchLoop_spec (s'.pending + 2) s' hi' (Nat.le_refl _)
      generalize BR.searchLoop (s'.pending + 2) s' = r at this
      obtain ⟨r, t⟩ := r
      cases this <;> assumption
    generalize BR.searchLoop (s.pending + 2) s = r at hs k1 k2 k3 ⊢
    generalize BR.searchLoop (s'.pending + 2) s' = r' at hs k1' ⊢
    obtain ⟨r, t⟩ := r
    obtain ⟨r', t'⟩ := r'
    obtain ⟨h1, h2⟩ := hs
    simp only at h1 h2 k1 k2 k3 k1'
    subst h1
    cases r' with
    | ok x =>
      refine h2.verifyBoundary k1 k1' ?_ k2
      have := k3 rfl
      cases hh : t.st with
      | searching => exact absurd hh this.1
      | boundaryRead => rfl
      | atEnd => exact absurd (this.2 hh) hst
    | _ => exact ⟨rfl, h2⟩

theorem withHeadersLoop_grown : ∀ (n last : Nat) (s s' : BR), s.Grown s' → s.Inv → s'.Inv → s.Good → Same (withHeadersLoop D n last s) (withHeadersLoop D n last s') := by
  intro n
  induction n with
  | zero => intro _ s s' h _ _ _; exact ⟨rfl, h⟩
  | succ n ih =>
    intro last s s' h hi hi' hg
    obtain ⟨h1, h2⟩ := h.readToBoundary hi hi' hg.need
    have ha := h.afterRead hi hg.need
    have hga : s.afterRead.Good := by
      rcases hg with hg | hg
      · left; rw [BR.afterRead_other (by rw [hg]; simp)]; exact hg
      · exact .inr hg.afterRead
    unfold withHeadersLoop
    rw [h1, h2]
    simp only
    split
    · exact ⟨rfl, ha⟩
    · split
      · exact ⟨rfl, ha⟩
      · exact ih _ _ _ ha (s.afterRead_inv hi) (s'.afterRead_inv hi') hga
      · split <;> exact ⟨rfl, ha⟩

theorem BR.Grown.readHeaders (hD : D.Sane) (h : s.Grown s') (hi : s.Inv) (hi' : s'.Inv) (hg : s.Good) : Same (s.readHeaders D) (s'.readHeaders D) := by
  have hloop := withHeadersLoop_grown (D := D) (Nat.max (s.evs.length + 2) (s'.evs.length + 2)) 0 s s' h hi hi' hg
  rw [withHeadersLoop_enough hD hi (Nat.le_max_left _ _), withHeadersLoop_enough hD hi' (Nat.le_max_right _ _)] at hloop
  have k1 : (withHeadersLoop D (s.evs.length + 2) 0 s).2.Inv := by
    have := withHeadersLoop_spec hD (s.evs.length + 2) 0 s hi (.inl (Nat.le_refl _))
    generalize withHeadersLoop D (s.evs.length + 2) 0 s = r at this
    obtain ⟨r, t⟩ := r
    cases this <;> assumption
  unfold BR.readHeaders FieldHeaders.readFrom withHeaders
  generalize withHeadersLoop D (s.evs.length + 2) 0 s = r at hloop k1 ⊢
  generalize withHeadersLoop D (s'.evs.length + 2) 0 s' = r' at hloop ⊢
  obtain ⟨r, t⟩ := r
  obtain ⟨r', t'⟩ := r'
  obtain ⟨h1, h2⟩ := hloop
  simp only at h1 h2 k1
  subst h1
  cases r' with
  | ok x =>
    simp only
    cases FieldHeaders.parse D x.2 <;> exact ⟨rfl, h2.consume k1 x.1⟩
  | _ => exact ⟨rfl, h2⟩

theorem BR.readHeaders_good (hD : D.Sane) (hi : s.Inv) (hg : (s.readHeaders D).2.Good) : s.Good := by
  have := BR.readHeaders_spec hD hi
  generalize s.readHeaders D = r at this hg
  obtain ⟨r, t⟩ := r
  cases this with
  | ok k1 k2 k3 => exact hg.back (by simp only; rw [k1.unread]; exact List.drop_suffix _ _) k1.delim (fun h => .inl (k3 h))
  | err k1 k2 k3 => exact hg.back (by simp only; rw [k1.unread]; exact List.drop_suffix _ _) k1.delim (fun h => .inl (k3 h))

theorem BR.Grown.readEntry (hD : D.Sane) (h : s.Grown s') (hi : s.Inv) (hi' : s'.Inv) (hg : s.Good) (hg' : (s.readEntry D).2.Good) : Same (s.readEntry D) (s'.readEntry D) := by
  have hsi := BR.setMin_inv hi minBufSize
  have hsi' := BR.setMin_inv hi' minBufSize
  have hci := BR.consumeBoundary_inv hsi
  have hci' := BR.consumeBoundary_inv hsi'
  have hc := (h.setMin minBufSize).consumeBoundary hsi hsi' hg
  unfold BR.readEntry at hg' ⊢
  generalize (s.setMin minBufSize).consumeBoundary = r at hc hci hg' ⊢
  generalize (s'.setMin minBufSize).consumeBoundary = r' at hc hci' ⊢
  obtain ⟨r, t⟩ := r
  obtain ⟨r', t'⟩ := r'
  obtain ⟨h1, h2⟩ := hc
  simp only at h1 h2 hci hci'
  subst h1
  cases r' with
  | ok x =>
    cases x with
    | false => exact ⟨rfl, h2⟩
    | true =>
      simp only at hg' ⊢
      have hgt : t.Good := by
        refine BR.readHeaders_good (D := D) hD hci ?_
        generalize t.readHeaders D = w at hg' ⊢
        obtain ⟨w, v⟩ := w
        cases w <;> exact hg'
      have := h2.readHeaders hD hci hci' hgt
      generalize t.readHeaders D = r at this ⊢
      generalize t'.readHeaders D = r' at this ⊢
      obtain ⟨r, v⟩ := r
      obtain ⟨r', v'⟩ := r'
      obtain ⟨h1, h2⟩ := this
      simp only at h1 h2
      subst h1
      cases r' <;> exact ⟨rfl, h2⟩
  | _ => exact ⟨rfl, h2⟩

end Multipart

import Verif.Lemmas.Skip
import Verif.Props.ReadAhead
/-!
# C128 and C129: how much is held back, and how often bytes are looked at
-/
namespace Multipart
variable {D : Deps} {evs : List Ev} {b : Bytes} {s t : BR}

/-- What is held back by `read_to_boundary`. -/
theorem BR.afterRead_held (hi : s.Inv) (hst : s.st ≠ .atEnd) :
    ∃ L, (L = s.delim ∨ L = crlf ++ s.delim) ∧ (s.afterRead.buf.drop s.afterRead.idx <+: L ∨ L <+: s.afterRead.buf.drop s.afterRead.idx) := by
  have hai := s.afterRead_inv hi
  have hd := s.afterRead_frame.2.2.2
  by_cases hf : s.afterRead.st = .boundaryRead
  · have hc := hai.cursor
    unfold BR.CursorOk at hc
    rw [hf] at hc
    obtain ⟨p, h1, h2, h3⟩ := hc
    have ho : OccursAt s.afterRead.delim s.afterRead.buf p := occursAt_of_append h1.1 h2
    unfold OccursAt at ho
    rcases h3 with rfl | ⟨rfl, h3⟩
    · exact ⟨s.delim, .inl rfl, .inr (by rw [← hd]; exact ho)⟩
    · refine ⟨crlf ++ s.delim, .inr rfl, .inr ?_⟩
      obtain ⟨z, hz⟩ := h3
      rw [← List.drop_drop, ← hz] at ho
      rw [← hz]
      rw [show List.drop 2 (crlf ++ z) = z from rfl] at ho
      rw [← hd]
      exact (List.prefix_append_right_inj crlf).mpr ho
  · have hsS : s.st = .searching := by
      cases hs : s.st with
      | searching => rfl
      | atEnd => exact absurd hs hst
      | boundaryRead => exact absurd (by rw [BR.afterRead_other (by rw [hs]; simp)]; exact hs) hf
    have hri := s.refill_inv hi
    have hdef := BR.afterRead_searching hsS
    obtain ⟨e1, e2, e3, e4, e5, e6, e7⟩ := s.refill.search_spec hri hsS
    obtain ⟨b1, b2, b3, b4, b5, b6⟩ := s.refill.search.backUp_spec
    rw [← hdef] at b1 b2 b3 b4 b5 b6
    rcases e7 with ⟨h, -⟩ | ⟨-, -, e8⟩
    · exact absurd (by rw [b5]; exact h) hf
    have hp : s.refill.buf.drop s.refill.search.idx <+: s.delim := by
      rcases e8 with e8 | ⟨-, e8, -⟩
      · rw [e8, List.drop_length]; exact List.nil_prefix
      · exact e8
    rw [b1, e1]
    rcases b6 with ⟨b6, -⟩ | ⟨h2, b6, b7, -⟩
    · exact ⟨s.delim, .inl rfl, .inl (by rw [b6]; exact hp)⟩
    · refine ⟨crlf ++ s.delim, .inr rfl, .inl ?_⟩
      rw [b6]
      rw [e1] at b7
      rw [← List.take_append_drop 2 (List.drop (s.refill.search.idx - 2) s.refill.buf), b7, List.drop_drop, show s.refill.search.idx - 2 + 2 = s.refill.search.idx by omega]
      exact (List.prefix_append_right_inj crlf).mpr hp

/-- C128: of the bytes that were read from the stream, `fill_buf` shows all up to the delimiter, except such at their end that may be the beginning of the delimiter, or of CRLF and the delimiter. -/
theorem C128_held_back (hD : D.Sane) (hr : Reachable D evs b s) (hst : s.st ≠ .atEnd) {shown : Bytes} (h : s.readToBoundary = (.ok shown, t)) :
    ∃ held L, t.unread = shown ++ held ++ Ev.bytes t.evs ∧ (L = dashes ++ b ∨ L = crlf ++ (dashes ++ b)) ∧ (held <+: L ∨ L <+: held) := by
  obtain ⟨hi, -, hdl, -⟩ := hr.spec hD
  rcases BR.readToBoundary_eq hi with ⟨e, _, he⟩ | ⟨_, he⟩
  · rw [he] at h; simp at h
  · rw [he] at h
    simp only [Prod.mk.injEq, Res.ok.injEq] at h
    obtain ⟨rfl, rfl⟩ := h
    obtain ⟨L, h1, h2⟩ := BR.afterRead_held hi hst
    rw [hdl] at h1
    exact ⟨_, L, by rw [List.take_append_drop]; rfl, h1, h2⟩

/-- C128: so these are at most as many bytes as the delimiter has, and one, unless the delimiter is there. -/
theorem C128_how_much (hD : D.Sane) (hr : Reachable D evs b s) (hst : s.st ≠ .atEnd) {shown : Bytes} (h : s.readToBoundary = (.ok shown, t)) :
    t.unread.length ≤ shown.length + (Ev.bytes t.evs).length + (dashes ++ b).length + 1 ∨
    FirstAt (dashes ++ b) t.unread shown.length ∨ (FirstAt (dashes ++ b) t.unread (shown.length + 2) ∧ OccursAt crlf t.unread shown.length) := by
  obtain ⟨held, L, h1, h2, h3⟩ := C128_held_back hD hr hst h
  obtain ⟨hi, -, hdl, -⟩ := hr.spec hD
  have hno : ∀ q, q < shown.length → ¬ OccursAt (dashes ++ b) t.unread q := by
    rcases BR.readToBoundary_eq hi with ⟨e, _, he⟩ | ⟨_, he⟩
    · rw [he] at h; simp at h
    · rw [he] at h
      simp only [Prod.mk.injEq, Res.ok.injEq] at h
      obtain ⟨rfl, rfl⟩ := h
      have hai := s.afterRead_inv hi
      have := hai.no_occ
      rw [s.afterRead_frame.2.2.2, hdl] at this
      exact fun q hq => this q (by rw [List.length_take] at hq; omega)
  have hdrop : t.unread.drop shown.length = held ++ Ev.bytes t.evs := by rw [h1, List.append_assoc, List.drop_left]
  have hL : L <+: held → FirstAt (dashes ++ b) t.unread shown.length ∨ (FirstAt (dashes ++ b) t.unread (shown.length + 2) ∧ OccursAt crlf t.unread shown.length) := by
    intro h
    obtain ⟨z, rfl⟩ := h
    rcases h2 with rfl | rfl
    · left
      exact ⟨by unfold OccursAt; rw [hdrop, List.append_assoc]; exact List.prefix_append _ _, hno⟩
    · right
      have hc : OccursAt crlf t.unread shown.length := by unfold OccursAt; rw [hdrop, List.append_assoc, List.append_assoc]; exact List.prefix_append _ _
      refine ⟨⟨by unfold OccursAt; rw [← List.drop_drop, hdrop]; simp [crlf, dashes], fun q hq => ?_⟩, hc⟩
      by_cases hlt : q < shown.length
      · exact hno q hlt
      · intro ho
        unfold OccursAt at ho
        obtain ⟨k, rfl⟩ : ∃ k, q = shown.length + k := ⟨q - shown.length, by omega⟩
        rw [← List.drop_drop, hdrop] at ho
        have : k = 0 ∨ k = 1 := by omega
        rcases this with rfl | rfl <;> simp [crlf, dashes] at ho
  rcases h3 with h3 | h3
  · by_cases heq : held.length = L.length
    · exact .inr (hL (by rw [h3.eq_of_length heq]; exact List.prefix_rfl))
    · left
      have := h3.length_le
      rw [h1]
      simp only [List.length_append]
      rcases h2 with rfl | rfl
      · simp only [List.length_append] at this heq; omega
      · simp only [List.length_append, crlf, List.length_cons, List.length_nil] at this heq; omega
  · exact .inr (hL h3)

namespace Sample
/-- The first read of 1025 bytes ends with the beginning of what may be the delimiter. -/
def evsHeld : List Ev := [.data (List.replicate 1022 0x61 ++ b!"\r\n-"), .data b!"-b\r\n"]
/-- What is seen then. -/
def seenHeld : Res Bytes × BR := (withBody evsHeld bnd).readToBoundary
theorem seenHeld_eq : (withBody evsHeld bnd).readToBoundary = (.ok (List.replicate 1022 0x61), seenHeld.2) := by decide +kernel
end Sample

example : Sample.seenHeld.2.evs = [.data b!"-b\r\n"] ∧ Sample.seenHeld.2.unread = List.replicate 1022 0x61 ++ b!"\r\n-" ++ b!"-b\r\n" ∧
    ∃ held L, Sample.seenHeld.2.unread = List.replicate 1022 0x61 ++ held ++ Ev.bytes Sample.seenHeld.2.evs ∧ (L = dashes ++ Sample.bnd ∨ L = crlf ++ (dashes ++ Sample.bnd)) ∧ (held <+: L ∨ L <+: held) :=
  ⟨by decide +kernel, by decide +kernel, C128_held_back (s := withBody Sample.evsHeld Sample.bnd) refDeps_sane ⟨[], rfl⟩ (by decide) Sample.seenHeld_eq⟩

example := C128_how_much (s := withBody Sample.evsHeld Sample.bnd) refDeps_sane ⟨[], rfl⟩ (by decide) Sample.seenHeld_eq

/-- What `read_to_boundary` gives directly after itself. -/
theorem BR.readToBoundary_again (hi : s.Inv) (hn : NoStall s.evs) (hf : (fill s.min s.buf s.evs).1 = none) :
    s.afterRead.readToBoundary = (.ok (s.afterRead.buf.take s.afterRead.idx), s.afterRead) := by
  have hfull : s.afterRead.Full := by
    have := BR.refill_full hn hf
    unfold BR.Full at this ⊢
    rw [s.afterRead_frame.1, s.afterRead_frame.2.1, s.afterRead_frame.2.2.1]
    exact this
  obtain ⟨h1, h2⟩ := BR.refill_eq_self hfull
  have h3 := BR.settled_stable ⟨s, hi, rfl⟩ h1
  rcases BR.readToBoundary_eq (s.afterRead_inv hi) with ⟨e, h4, _⟩ | ⟨_, he⟩
  · rw [h2] at h4; simp at h4
  · rw [he, h3]

/-- `with_headers` asks the tokenizer at most once. -/
theorem withHeadersLoop_once (hi : s.Inv) (hn : NoStall s.evs) (n : Nat) :
    ∃ P, P <+: s.afterRead.buf ∧ ∀ D', D'.parseHeaders P = D.parseHeaders P → withHeadersLoop D' (n + 2) 0 s = withHeadersLoop D (n + 2) 0 s := by
  refine ⟨s.afterRead.buf.take s.afterRead.idx, List.take_prefix _ _, fun D' h => ?_⟩
  rcases BR.readToBoundary_eq hi with ⟨e, _, he⟩ | ⟨hf, he⟩
  · unfold withHeadersLoop; rw [he]
  · have hag := BR.readToBoundary_again hi hn hf
    unfold withHeadersLoop
    rw [he]
    simp only [h]
    split
    · rfl
    · split
      · rfl
      · unfold withHeadersLoop; rw [hag]; simp
      · rfl

theorem BR.readHeaders_once (hi : s.Inv) (hn : NoStall s.evs) :
    ∃ P, P <+: s.afterRead.buf ∧ ∀ D', D'.parseHeaders P = D.parseHeaders P → D'.parseMime = D.parseMime → s.readHeaders D' = s.readHeaders D := by
  obtain ⟨P, h1, h2⟩ := withHeadersLoop_once (D := D) hi hn s.evs.length
  refine ⟨P, h1, fun D' h3 h4 => ?_⟩
  have hp : ∀ hs, FieldHeaders.parse D' hs = FieldHeaders.parse D hs := by
    intro hs; unfold FieldHeaders.parse parseContentType; rw [h4]
  unfold BR.readHeaders FieldHeaders.readFrom withHeaders
  rw [h2 D' h3]
  simp only [hp]

/-- C129: `read_entry` gives the tokenizer at most one piece of the body to look at, shorter than the minimum buffer and one read of the stream: whatever another tokenizer says about anything else, the result is the same. -/
theorem C129_parses_once {m n : Nat} (hD : D.Sane) (hm : entryBuf (dashes ++ b) ≤ m) {os : List SOp} (hos : ∀ n, SOp.field (.setMin n) ∈ os → n ≤ m)
    (hn : NoStall evs) (hsz : ReadsUpTo n evs) (hs : s = (withBody evs b).session D os) :
    ∃ P, P <:+: s.unread ∧ P.length < m + n ∧ ∀ D', D'.parseHeaders P = D.parseHeaders P → D'.parseMime = D.parseMime → s.readEntry D' = s.readEntry D := by
  have hr : Reachable D evs b s := ⟨os, hs⟩
  obtain ⟨hi, hu, hdl, he⟩ := hr.spec hD
  have hlate : ∀ before after, evs = before ++ after → after ≠ [] → s.Late m after := by
    intro before after h ha
    subst h; subst hs
    exact BR.Late.session hD ha os (.new hm) hm hos
  have hsi := BR.setMin_inv hi minBufSize
  have hm0 : 0 < m := Nat.lt_of_lt_of_le (by decide) (Nat.le_trans (Nat.le_max_left 1024 _) hm)
  have nothing : ∃ P, P <:+: s.unread ∧ P.length < m + n := ⟨[], List.nil_infix, by simp; omega⟩
  rcases hcb : (s.setMin minBufSize).consumeBoundary with ⟨r, v⟩
  by_cases hok : r = .ok true
  · subst hok
    obtain ⟨t1, t2, t3, t4, t5, t6⟩ := BR.consumeBoundary_true hsi hcb
    have hvn : NoStall v.evs := (hn.suffix he).suffix t6
    obtain ⟨P, h1, h2⟩ := BR.readHeaders_once (D := D) t1 hvn
    have hvu : v.unread <:+ s.unread := by
      have hc := BR.consumeBoundary_spec hsi
      rw [hcb] at hc
      simp only at hc
      cases hc with
      | next _ a b c => rw [c]; exact List.drop_suffix _ _
    have hbuf : v.afterRead.buf.length < m + n := by
      refine BR.buffer_of_late hm0 hsz ?_ (by rw [v.afterRead_unread]; exact hvu.trans hu) fun before after h ha => ?_
      · rw [v.afterRead_frame.2.1]
        exact (fill_spec v.min v.evs v.buf).suf.trans (t6.trans he)
      · have hb := Nat.max_le.mp hm
        have := ((hlate before after h ha).setMin (n := minBufSize) (by rw [hdl]; exact hb.2) hb.1).consumeBoundary ha
        rw [hcb] at this
        exact this.afterRead ha
    refine ⟨P, ?_, Nat.lt_of_le_of_lt h1.length_le hbuf, fun D' h3 h4 => ?_⟩
    · have : P <+: v.unread := by rw [← v.afterRead_unread]; exact h1.trans (List.prefix_append _ _)
      exact this.isInfix.trans hvu.isInfix
    · unfold BR.readEntry
      rw [hcb]
      simp only [h2 D' h3 h4]
  · obtain ⟨P, h1, h2⟩ := nothing
    refine ⟨P, h1, h2, fun D' _ _ => ?_⟩
    unfold BR.readEntry
    rw [hcb]
    cases r with
    | ok x => cases x with
      | true => exact absurd rfl hok
      | false => rfl
    | _ => rfl

/-- `C129_parses_once` for a body of two reads. -/
example : ∃ P, P <:+: (withBody Sample.evsHeld Sample.bnd).unread ∧ P.length < 1024 + 1025 ∧ ∀ D', D'.parseHeaders P = refDeps.parseHeaders P → D'.parseMime = refDeps.parseMime →
    (withBody Sample.evsHeld Sample.bnd).readEntry D' = (withBody Sample.evsHeld Sample.bnd).readEntry refDeps :=
  C129_parses_once (os := []) refDeps_sane (by decide +kernel) (by simp) (by decide +kernel)
    (by simp only [ReadsUpTo, Sample.evsHeld, List.mem_cons, List.not_mem_nil, or_false, Ev.data.injEq]; rintro bs (rfl | rfl) <;> decide +kernel) rfl

/-- The same result, with other bytes `x` at the beginning of what was shown. -/
def withFront (x : Bytes) : Res Bytes × BR → Res Bytes × BR
  | (.ok shown, t) => (.ok (x ++ shown.drop x.length), { t with buf := x ++ t.buf.drop x.length })
  | (r, t) => (r, { t with buf := x ++ t.buf.drop x.length })

theorem fill_front (min : Nat) (evs : List Ev) : ∀ {x x' y : Bytes}, x'.length = x.length →
    fill min (x' ++ y) evs = ((fill min (x ++ y) evs).1, x' ++ (fill min (x ++ y) evs).2.1.drop x.length, (fill min (x ++ y) evs).2.2) := by
  intro x x' y hl
  have hlen : (x' ++ y).length = (x ++ y).length := by simp [hl]
  induction evs generalizing y with
  | nil => simp [fill]
  | cons e r ih =>
    cases e with
    | data bs =>
      cases bs with
      | nil => unfold fill; rw [hlen]; split <;> simp
      | cons c cs =>
        unfold fill
        rw [hlen]
        split
        · simp
        · have := ih (y := y ++ c :: cs) (by simp [hl])
          rw [← List.append_assoc, ← List.append_assoc] at this
          exact this
    | err e => unfold fill; rw [hlen]; split <;> simp

theorem drop_front {x x' z : Bytes} (hl : x'.length = x.length) {k : Nat} (hk : x.length ≤ k) : (x' ++ z.drop x.length).drop k = z.drop k := by
  rw [List.drop_append, List.drop_eq_nil_of_le (by omega), List.nil_append, List.drop_drop]
  congr 1; omega

/-- Other bytes at the beginning of the buffer. -/
def BR.front (x : Bytes) (s : BR) : BR := { s with buf := x ++ s.buf.drop x.length }

theorem BR.front_search {x : Bytes} (hx : x.length ≤ s.idx) (hb : x.length ≤ s.buf.length) : (s.front x).search = s.search.front x ∧ s.idx ≤ s.search.idx := by
  have hlen : (s.front x).buf.length = s.buf.length := by simp [BR.front]; omega
  have hd : (s.front x).buf.drop s.idx = s.buf.drop s.idx := drop_front rfl hx
  unfold BR.search
  rw [hlen, show (s.front x).idx = s.idx from rfl, hd, show (s.front x).delim = s.delim from rfl]
  split
  · split <;> exact ⟨rfl, by simp⟩
  · exact ⟨rfl, Nat.le_refl _⟩

theorem BR.front_backUp {x : Bytes} (hx : x.length + 2 ≤ s.idx) : (s.front x).backUp = s.backUp.front x ∧ x.length ≤ s.backUp.idx := by
  have hd : (s.front x).buf.drop s.idx = s.buf.drop s.idx := drop_front rfl (by omega)
  have hd2 : (s.front x).buf.drop (s.idx - 2) = s.buf.drop (s.idx - 2) := drop_front rfl (by omega)
  unfold BR.backUp
  rw [show (s.front x).idx = s.idx from rfl, hd, hd2]
  split
  · split
    · exact ⟨rfl, by show x.length ≤ s.idx - 2; omega⟩
    · exact ⟨rfl, by omega⟩
  · exact ⟨rfl, by omega⟩

theorem BR.front_yielded {x : Bytes} (hx : x.length ≤ s.idx) (hb : x.length ≤ s.buf.length) : (s.front x).yielded = withFront x s.yielded := by
  have hlen : (s.front x).buf.length = s.buf.length := by simp [BR.front]; omega
  unfold BR.yielded
  rw [hlen, show (s.front x).idx = s.idx from rfl]
  split
  · simp only [withFront, Prod.mk.injEq, Res.ok.injEq]
    refine ⟨?_, rfl⟩
    show (x ++ s.buf.drop x.length).take s.idx = _
    rw [List.take_append, List.take_of_length_le hx, List.drop_take]
  · rfl

/-- C129: bytes that were shown before, but the last two of them, are not looked at again: with other bytes in their place, `fill_buf` gives the same, with these bytes in their place. -/
theorem C129_not_again (hD : D.Sane) (hr : Reachable D evs b s) {x y : Bytes} (hb : s.buf = x ++ y) (hx : x.length + 2 ≤ s.idx) {x' : Bytes} (hl : x'.length = x.length) :
    BR.readToBoundary { s with buf := x' ++ y } = withFront x' s.readToBoundary := by
  obtain ⟨hi, -, -, -⟩ := hr.spec hD
  have hf := fill_front s.min s.evs (y := y) hl
  have hfs := fill_spec s.min s.evs s.buf
  unfold BR.readToBoundary
  simp only
  rw [hf, hb]
  rw [hb] at hfs
  generalize fill s.min (x ++ y) s.evs = r at hfs ⊢
  obtain ⟨r, buf, evs'⟩ := r
  simp only at hfs ⊢
  obtain ⟨z, hz⟩ := hfs.pre
  have hbl : x'.length ≤ buf.length := by rw [← hz]; simp; omega
  cases r with
  | some e => simp only [withFront, hl]
  | none =>
    simp only
    rw [show ({ s with buf := x' ++ buf.drop x.length, evs := evs' } : BR) = BR.front x' { s with buf := buf, evs := evs' } by simp [BR.front, hl]]
    split
    · exact BR.front_yielded (by simp; omega) hbl
    · obtain ⟨h1, h2⟩ := BR.front_search (x := x') (s := { s with buf := buf, evs := evs' }) (by simp; omega) hbl
      have h3 := (BR.search_frame { s with buf := buf, evs := evs' }).1
      rw [h1]
      generalize BR.search { s with buf := buf, evs := evs' } = u at h2 h3 ⊢
      simp only at h2 h3
      have hlen : (u.front x').buf.length = u.buf.length := by simp [BR.front]; rw [h3]; omega
      rw [hlen, show (u.front x').idx = u.idx from rfl]
      split
      · rfl
      · obtain ⟨h4, h5⟩ := BR.front_backUp (x := x') (s := u) (by omega)
        rw [h4]
        exact BR.front_yielded h5 (by rw [u.backUp_spec.1, h3]; exact hbl)

/-- `C129_not_again` after 1022 bytes were shown. -/
example : BR.readToBoundary { Sample.seenHeld.2 with buf := List.replicate 1020 0x62 ++ b!"aa\r\n-" } = withFront (List.replicate 1020 0x62) Sample.seenHeld.2.readToBoundary :=
  C129_not_again (x := List.replicate 1020 0x61) (b := Sample.bnd) (evs := Sample.evsHeld) refDeps_sane ⟨[.field .fillBuf], by decide +kernel⟩ (by decide +kernel) (by decide +kernel) (by rw [List.length_replicate, List.length_replicate])

/-- What is held back while the delimiter is looked for. -/
theorem BR.afterRead_rest (hi : s.Inv) (hst : s.st = .searching) (hst' : s.afterRead.st = .searching) :
    ∃ p, p <+: s.delim ∧ p.length < s.delim.length ∧ (s.afterRead.buf.drop s.afterRead.idx = p ∨ s.afterRead.buf.drop s.afterRead.idx = crlf ++ p) := by
  have hri := s.refill_inv hi
  have hdef := BR.afterRead_searching hst
  obtain ⟨e1, e2, e3, e4, e5, e6, e7⟩ := s.refill.search_spec hri hst
  obtain ⟨b1, b2, b3, b4, b5, b6⟩ := s.refill.search.backUp_spec
  rw [← hdef] at b1 b2 b3 b4 b5 b6
  rcases e7 with ⟨h, -⟩ | ⟨-, -, e8⟩
  · rw [← b5, hst'] at h; simp at h
  have hd2 := hi.delim_len
  refine ⟨s.refill.buf.drop s.refill.search.idx, ?_, ?_, ?_⟩
  · rcases e8 with e8 | ⟨-, e8, -⟩
    · rw [e8, List.drop_length]; exact List.nil_prefix
    · exact e8
  · rcases e8 with e8 | ⟨-, -, e8⟩
    · rw [e8, List.drop_length, List.length_nil]; omega
    · rw [List.length_drop]
      have : s.refill.delim = s.delim := rfl
      rw [this] at e8
      omega
  · rw [b1, e1]
    rcases b6 with ⟨b6, -⟩ | ⟨h2, b6, b7, -⟩
    · exact .inl (by rw [b6])
    · right
      rw [b6]
      rw [e1] at b7
      rw [← List.take_append_drop 2 (List.drop (s.refill.search.idx - 2) s.refill.buf), b7, List.drop_drop, show s.refill.search.idx - 2 + 2 = s.refill.search.idx by omega]

/-- When only what is held back is left of the stream, nothing more is shown. -/
theorem BR.afterRead_quiet (hi : s.Inv) (hst : s.st = .searching) (h0 : s.idx = 0) (he : s.evs = []) {p : Bytes} (hp : p <+: s.delim) (hl : p.length < s.delim.length)
    (hb : s.buf = p ∨ s.buf = crlf ++ p) : s.afterRead.idx = 0 ∧ s.afterRead.st = .searching := by
  obtain ⟨hre, -⟩ := BR.refill_eq_self (s := s) (.inr he)
  rw [BR.afterRead_searching hst, hre]
  obtain ⟨buf, evs, m, d, i, st⟩ := s
  simp only at h0 he hst hp hl hb
  subst h0 he hst
  have hdash : dashes <+: d := hi.dash
  rcases hb with rfl | rfl
  · rw [BR.search_again hdash (Nat.zero_le _) (.inl rfl)]
    · simp [BR.backUp]
    · by_cases hn : buf = []
      · left; simp [hn]
      · right; exact ⟨List.length_pos_iff.mpr hn, hp, by simpa using hl⟩
  · rw [BR.search_again (y := 2) hdash (by simp [crlf]) (.inr ⟨rfl, List.prefix_append _ _⟩)]
    · have : ¬ crlf <+: p := by
        intro hc
        obtain ⟨z, rfl⟩ := hc
        have := prefix_head hdash (show (0x0D :: (0x0A :: z)) <+: d from hp)
        simp at this
      unfold BR.backUp
      rw [if_pos ⟨Nat.le_refl _, by simpa [crlf] using this⟩]
      split
      · exact ⟨rfl, rfl⟩
      · next h => exact absurd (by simp [crlf]) h
    · by_cases hn : p = []
      · left; simp [hn, crlf]
      · right
        refine ⟨?_, by simpa [crlf] using hp, by simp [crlf]; omega⟩
        have := List.length_pos_iff.mpr hn
        simp [crlf]; omega

/-- The loop that looks for the delimiter ends after so many rounds. -/
theorem BR.searchLoop_rounds : ∀ (n : Nat) (s : BR), s.Inv → NoStall s.evs → s.delim.length + 1 < s.min → s.unread.length < n * (s.min - (s.delim.length + 1)) →
    (BR.searchLoop (n + 1) s).1 ≠ .hang := by
  intro n
  induction n with
  | zero => intro s hi hn hm hlt; omega
  | succ n ih =>
    intro s hi hn hm hlt
    have hai := s.afterRead_inv hi
    unfold BR.searchLoop
    by_cases hst : s.st = .searching
    · rw [if_pos hst]
      rcases BR.readToBoundary_eq hi with ⟨e, _, he⟩ | ⟨hf, he⟩
      · rw [he]; simp
      · rw [he]
        have hlen : (s.afterRead.buf.take s.afterRead.idx).length = s.afterRead.idx := by
          rw [List.length_take]; exact Nat.min_eq_left hai.idx_le
        simp only [hlen]
        split
        · simp
        · next hz =>
          have hsk := s.skipped_afterRead.trans (BR.skipped_consume hai s.afterRead.idx)
          have hci := BR.consume_inv hai s.afterRead.idx
          have hmin : Nat.min s.afterRead.idx s.afterRead.idx = s.afterRead.idx := Nat.min_self _
          rw [hmin] at hsk
          have hcst : (s.afterRead.consume s.afterRead.idx).st = s.afterRead.st := rfl
          have hcb : (s.afterRead.consume s.afterRead.idx).buf = s.afterRead.buf.drop s.afterRead.idx := by
            show s.afterRead.buf.drop (Nat.min s.afterRead.idx s.afterRead.idx) = _
            rw [hmin]
          have hcidx : (s.afterRead.consume s.afterRead.idx).idx = 0 := by
            show s.afterRead.idx - Nat.min s.afterRead.idx s.afterRead.idx = 0
            rw [hmin]; omega
          have hce : (s.afterRead.consume s.afterRead.idx).evs = s.afterRead.evs := rfl
          by_cases hs' : s.afterRead.st = .searching
          · obtain ⟨p, hp, hl, hb⟩ := BR.afterRead_rest hi hst hs'
            rcases BR.refill_full hn hf with hfull | hnil
            · refine ih _ hci (hn.suffix hsk.evs) (by rw [hsk.delim, hsk.min]; exact hm) ?_
              rw [hsk.delim, hsk.min, hsk.unread, List.length_drop, Nat.zero_add]
              have h1 : (s.afterRead.buf.drop s.afterRead.idx).length ≤ s.delim.length + 1 := by
                rcases hb with hb | hb <;> rw [hb]
                · omega
                · rw [List.length_append, show crlf.length = 2 from rfl]; omega
              rw [List.length_drop, s.afterRead_frame.1] at h1
              have h2 : s.min ≤ s.refill.buf.length := hfull
              have h3 := s.refill.buf_le_unread
              rw [s.refill_unread] at h3
              rw [Nat.add_mul, Nat.one_mul] at hlt
              omega
            · obtain ⟨q1, q2⟩ := BR.afterRead_quiet hci (by rw [hcst]; exact hs') hcidx (by rw [hce, s.afterRead_frame.2.1]; exact hnil) (by rw [hsk.delim]; exact hp) (by rw [hsk.delim]; exact hl)
                (by rw [hcb]; exact hb)
              unfold BR.searchLoop
              rw [if_pos (by rw [hcst]; exact hs')]
              rcases BR.readToBoundary_eq hci with ⟨e, _, he'⟩ | ⟨_, he'⟩
              · rw [he']; simp
              · rw [he']
                simp only
                rw [if_pos ⟨by rw [q1]; simp, q2⟩]
                simp
          · unfold BR.searchLoop
            rw [if_neg (by rw [hcst]; exact hs')]
            simp
    · rw [if_neg hst]; simp

/-- C129: looking for the delimiter takes a number of rounds that is bounded by the number of bytes left: each round but the last two discards at least the minimum buffer, less the delimiter and one byte. -/
theorem C129_rounds (hD : D.Sane) (hr : Reachable D evs b s) (hn : NoStall evs) {n : Nat}
    (hlt : s.unread.length < n * (entryBuf (dashes ++ b) - ((dashes ++ b).length + 1))) : (BR.searchLoop (n + 1) (s.setMin minBufSize)).1 ≠ .hang := by
  obtain ⟨hi, -, hdl, he⟩ := hr.spec hD
  have hmin : (s.setMin minBufSize).min = entryBuf (dashes ++ b) := by
    show Nat.max (s.delim.length * 2) minBufSize = _
    unfold entryBuf
    rw [hdl, Nat.mul_comm]
    exact Nat.max_comm _ _
  have hdl' : (s.setMin minBufSize).delim = dashes ++ b := hdl
  refine BR.searchLoop_rounds n _ (BR.setMin_inv hi _) (hn.suffix he) ?_ ?_
  · rw [hmin, hdl']
    unfold entryBuf
    show (dashes ++ b).length + 1 < max 1024 (2 * (dashes ++ b).length)
    omega
  · rw [hmin, hdl']
    exact hlt

/-- `C129_rounds`: two rounds for these 1029 bytes. -/
example : (withBody Sample.evsHeld Sample.bnd).unread.length = 1029 ∧ (BR.searchLoop (2 + 1) ((withBody Sample.evsHeld Sample.bnd).setMin minBufSize)).1 ≠ .hang :=
  ⟨by decide +kernel, C129_rounds (n := 2) (evs := Sample.evsHeld) (b := Sample.bnd) refDeps_sane ⟨[], rfl⟩ (by decide +kernel) (by decide +kernel)⟩

end Multipart

import Verif.Props.Success
import Verif.Lemmas.Skip
/-!
# C76: text that is counted twice
-/
namespace Multipart
variable {D : Deps} {evs : List Ev} {b : Bytes} {s0 s t : BR} {cfg : Settings} {fuel : Nat} {T : Target} {w w' : World} {fh : FieldHeaders} {dat : Bytes}

/-- Everything that the loop of `save_text` copies is counted at least once. -/
theorem textLoop_counts {L : Nat} (hL : L < u64Max) : ∀ (n total copied : Nat) (taken : Bytes) (s : BR) {k c : Nat} {x : Bytes} {t : BR}, copied ≤ L →
    tryReadBuf (limited textStep L) n total (copied, taken) s = (.full k, (c, x), t) → taken.length ≤ x.length ∧ copied + x.length ≤ L + taken.length := by
  intro n
  induction n with
  | zero => intro total copied taken s k c x t _ h; simp [tryReadBuf] at h
  | succ n ih =>
    intro total copied taken s k c x t hc h
    unfold tryReadBuf at h
    split at h
    · exact ih _ _ _ _ hc h
    · simp only [Prod.mk.injEq] at h
      obtain ⟨h, -⟩ := h
      split at h <;> cases h
    · cases h
    · cases h
    next buf s1 _ =>
      split at h
      · simp only [Prod.mk.injEq] at h
        obtain ⟨-, ⟨rfl, rfl⟩, -⟩ := h
        omega
      · unfold limited at h
        simp only at h
        by_cases hl : L < Nat.min (copied + buf.length) u64Max
        · rw [if_pos hl] at h; simp at h
        · rw [if_neg hl] at h
          have hm : Nat.min (copied + buf.length) u64Max = copied + buf.length := by simp only [Nat.min_def] at hl ⊢; split at hl <;> simp_all <;> omega
          rw [hm] at h hl
          by_cases hu : utf8Valid buf = true
          · rw [show textStep taken buf = (.full buf.length, taken ++ buf) by simp [textStep, hu]] at h
            have := ih _ _ _ _ (by omega) h
            rw [List.length_append] at this
            omega
          · by_cases h4 : buf.length < 4
            · rw [show textStep taken buf = (.part 0 .utf8, taken) by simp [textStep, hu, h4]] at h; simp at h
            · rw [show textStep taken buf = (.full (validUpTo buf), taken ++ buf.take (validUpTo buf)) by simp [textStep, hu, h4]] at h
              have := ih _ _ _ _ (by omega) h
              rw [List.length_append, List.length_take] at this
              omega

theorem withPathMem_text {p : Path} {acc : Bytes} (hi : s.Inv) (x : Bytes) : (withPathMem cfg fuel p acc w s).1 ≠ .full (.text x) := by
  intro h
  have hm := saveMem_spec cfg fuel acc hi
  unfold withPathMem at h
  generalize saveMem cfg fuel acc s = y at h hm
  obtain ⟨r, t⟩ := y
  simp only at h hm
  cases hm with
  | hang => simp at h
  | full => simp at h
  | error => simp at h
  | io => simp at h
  | @limit taken _ _ h1 =>
    simp only at h
    split at h
    · have hf := saveFile_spec cfg fuel p (acc ++ taken) w (h1.inv hi)
      rw [h] at hf
      cases hf
    · simp at h

/-- C76 fails for every text whose first bytes that `fill_buf` shows end inside a character, if the limits leave no room for this part of the character: it is counted again, and the field, although it is text and not
longer than the limits, is saved as bytes. -/
theorem C76_otherwise {y v z : Bytes} (hD : D.Sane) (hn : NoStall evs) (he : OnlyInterrupted evs) (hr : Reachable D evs b s0) (hen : s0.readEntry D = (.ok (some fh), s))
    (hd : FieldData (dashes ++ b) s.unread dat) (hu : IsUtf8 dat) (hc : CleanSplit (dashes ++ b) evs ∨ dat.length + 2 ≤ entryBuf (dashes ++ b)) (hp : cfg.textPolicy ≠ .ignore)
    (hl : dat.length ≤ Nat.min cfg.sizeLimit cfg.memoryThreshold) (hmax : Nat.min cfg.sizeLimit cfg.memoryThreshold < u64Max) (hy : s.readToBoundary = (.ok y, t)) (h4 : 4 ≤ y.length) (htt : TextThen y v z) (hz : z ≠ [])
    (hmore : Nat.min cfg.sizeLimit cfg.memoryThreshold < dat.length + z.length) :
    ∃ n, ∀ fuel, n ≤ fuel → ∃ w' t, T.save cfg fuel w s = (.full (.bytes dat), w', t) ∧ SameDisk w w' := by
  have hr' := hr.entry hen
  have hss := hr'.spec hD
  have hml : cfg.memLimit 0 = Nat.min cfg.sizeLimit cfg.memoryThreshold := by simp [Settings.memLimit]
  obtain ⟨⟨k, hk⟩, -⟩ := C44_terminates_partial (T := T) (w := w) (cfg := cfg) hD hr' (.inl hmax)
  refine ⟨k, fun fuel hf => ?_⟩
  have hk := hk fuel hf
  have hend : ∀ x u, Took s x u → u.AtEof → x = dat := by
    intro x u h1 h2
    rcases h1.savedOk hD hn hr hen hd h2 with h | ⟨h, h3, h5⟩
    · exact h
    · exact hc.elim (absurd · h3) fun h => by omega
  have hle : ∀ x u, Took s x u → x.length ≤ dat.length := by
    intro x u h1
    obtain ⟨k, _, hk⟩ := BR.reaches_eof (n := 1) (by omega) _ (h1.inv hss.1) (Nat.le_refl _)
    have h2 := congrArg List.length (hend _ _ (h1.trans (Took.reads _ _ _)) hk)
    rw [List.length_append] at h2
    omega
  have hse : ∀ {e}, ¬ StreamErr s e := fun g => g.2 (he _ (hss.2.2.2.subset g.1))
  have hbey : ∀ {x}, ¬ Beyond s x (cfg.memLimit 0) := by
    rintro x ⟨more, u, h1, h2⟩
    have := hle _ _ h1
    omega
  rcases h : T.save cfg fuel w s with ⟨r, w', t'⟩
  have hgo := Target.save_goes_on (T := T) (cfg := cfg) (fuel := fuel) (w := w) hD hn hr hen hd (v := dat) (y := []) ⟨by simp, hu, by intro z h1 h2; simp at h2; exact absurd h2 h1⟩ (.inl rfl)
  rw [h] at hk hgo
  simp only at hk hgo
  have hsame : SameDisk w (T.world w) := by have := T.world_same w; exact ⟨this.1, this.2.1⟩
  have h' := h
  cases Target.save_spec hss.1 h with
  | hang => exact absurd rfl hk
  | @text x h1 h2 h3 _ h5 =>
    exfalso
    obtain ⟨-, s1, g1, g2, -⟩ := h2
    have hx := hend _ _ g1 g2
    subst hx
    rw [T.save_eq] at h'
    unfold withPath at h'
    rw [if_pos hp] at h'
    rcases hst : saveText cfg fuel s with ⟨r, u⟩
    rw [hst] at h'
    cases r with
    | full x' =>
      simp only [Prod.mk.injEq, SaveRes.full.injEq, SavedData.text.injEq] at h'
      obtain ⟨rfl, -, rfl⟩ := h'
      unfold saveText tryCopyLimited at hst
      cases fuel with
      | zero => simp [tryReadBuf] at hst
      | succ fuel =>
        unfold tryReadBuf at hst
        rw [hy] at hst
        simp only at hst
        rw [if_neg (by intro h; subst h; simp at h4)] at hst
        obtain ⟨e1, e2⟩ := htt.eq
        have hlen := congrArg List.length htt.split
        rw [List.length_append] at hlen
        have hz0 := List.length_pos_iff.mpr hz
        have hv : utf8Valid y = false := by
          rw [Bool.eq_false_iff]
          intro hv
          have := (validUpTo_spec y).2.2 y.length (Nat.le_refl _) (by rw [List.take_length]; exact (utf8Valid_iff _).mp hv)
          have := congrArg List.length e2
          rw [List.length_drop] at this
          omega
        by_cases hb : cfg.memLimit 0 < Nat.min y.length u64Max
        · have hlim : limited textStep (cfg.memLimit 0) (0, []) y = (.part 0 .sizeLimit, 0, []) := by unfold limited; simp only [Nat.zero_add]; rw [if_pos hb]
          rw [hlim] at hst; simp at hst
        · have hm : Nat.min y.length u64Max = y.length := by
            refine Nat.min_eq_left (Nat.le_of_not_lt fun hlt => ?_)
            rw [show Nat.min y.length u64Max = u64Max from Nat.min_eq_right (Nat.le_of_lt hlt)] at hb
            omega
          have hts : textStep [] y = (.full (validUpTo y), v) := by simp [textStep, hv, show ¬ y.length < 4 by omega, e1]
          have hlim : limited textStep (cfg.memLimit 0) (0, []) y = (.full (validUpTo y), y.length, v) := by unfold limited; simp only [Nat.zero_add]; rw [if_neg hb, hts, hm]
          rw [hlim] at hst
          rw [hm] at hb
          simp only [Nat.zero_add] at hst
          generalize hq : tryReadBuf (limited textStep (cfg.memLimit 0)) fuel (validUpTo y) (y.length, v) (t.consume (validUpTo y)) = q at hst
          obtain ⟨r, ⟨c, x'⟩, u'⟩ := q
          cases r <;> simp at hst
          obtain ⟨rfl, -⟩ := hst
          have := textLoop_counts (by rw [hml]; exact hmax) _ _ _ _ _ (by omega) hq
          omega
    | error => simp at h'
    | panic => simp at h'
    | hang => simp at h'
    | part x' reason =>
      simp only at h'
      split at h'
      · have hsp := saveText_spec cfg fuel hss.1
        rw [hst] at hsp
        have hi : u.Inv := by
          cases hsp with
          | limit h1 => exact h1.inv hss.1
          | utf8 h1 => exact h1.inv hss.1
          | io h1 => exact h1.inv hss.1
        exact withPathMem_text hi _ (congrArg Prod.fst h')
      · simp at h'
  | @bytes x h1 h2 h3 =>
    obtain ⟨-, s1, g1, g2, -⟩ := h2
    have hx := hend _ _ g1 g2
    subst hx
    exact ⟨_, _, rfl, by rw [h1]; exact hsame⟩
  | partText h1 h2 h3 h4 h5 h6 =>
    exfalso
    rcases h6 with ⟨-, g, more, u, g1, g2⟩ | ⟨e, -, -, g⟩ | ⟨rfl, -⟩
    · have := hle _ _ g2
      have := List.length_pos_iff.mpr g1
      have : Nat.min cfg.sizeLimit cfg.memoryThreshold ≤ cfg.sizeLimit := Nat.min_le_left _ _
      rw [List.length_append] at *
      omega
    · exact hse g
    · exact hgo _ rfl
  | partBytes h1 h2 h3 h4 =>
    rcases h4 with ⟨-, -, g⟩ | ⟨e, -, -, g⟩
    · exact absurd g hbey
    · exact absurd g hse
  | error _ _ g => exact absurd g hse
  | file _ _ _ g => exact absurd g hbey

namespace Sample

theorem cutChar : ∀ z, z ≠ [] → z <+: ([0xC3] : Bytes) → ¬ IsUtf8 z := by
  intro z h1 h2 h3
  have : z = [0xC3] := h2.eq_of_length (by have := h2.length_le; have := List.length_pos_iff.mpr h1; simp only [List.length_singleton] at *; omega)
  subst this
  have := (utf8Valid_iff _).mpr h3
  revert this
  decide

end Sample

/-- The hypotheses of C76_otherwise are met. -/
example : ∃ n, ∀ fuel, n ≤ fuel → ∃ w' t, Target.save (.path [b!"x"]) { Settings.default with memoryThreshold := 1102 } fuel Sample.disk Sample.sSplit =
    (.full (.bytes (Sample.big ++ [0xC3, 0xA9])), w', t) ∧ SameDisk Sample.disk w' :=
  C76_otherwise (y := Sample.big ++ [0xC3]) (v := Sample.big) (z := [0xC3]) (t := Sample.sSplit.readToBoundary.2) refDeps_sane (by decide +kernel) (by intro e; simp [Sample.evsSplit]) ⟨[], rfl⟩
    Sample.entrySplit Sample.dataSplit Sample.textSplit (.inl Sample.cleanSplit) (by decide) (by decide +kernel) (by decide) (Sample.pair_eq (by decide +kernel) rfl) (by decide +kernel)
    ⟨rfl, (utf8Valid_iff _).mp (by decide +kernel), Sample.cutChar⟩ (by decide) (by decide +kernel)

/-- A beginning of the encoding of a character is not text. -/
theorem textThen_cut {cs : List Char} {c : Char} {z : Bytes} (hz : z <+: String.utf8EncodeChar c) (hl : z.length < (String.utf8EncodeChar c).length) :
    TextThen (encodeChars cs ++ z) (encodeChars cs) z := by
  refine ⟨rfl, ⟨cs, rfl⟩, fun x hx hxz => ?_⟩
  rintro ⟨ds, rfl⟩
  obtain ⟨r, hr⟩ := hxz.trans hz
  have hle := hxz.length_le
  cases ds with
  | nil => simp [encodeChars] at hx
  | cons d ds =>
    have e : encodeChars (d :: ds) = String.utf8EncodeChar d ++ encodeChars ds := by simp [encodeChars]
    have h1 := utf8CharLen_encode c []
    rw [List.append_nil, ← hr, e, List.append_assoc, utf8CharLen_encode] at h1
    simp only [Option.some.injEq] at h1
    rw [e] at hle hr
    rw [List.length_append] at hle
    have h2 := congrArg List.length hr
    simp only [List.length_append] at h1 h2
    omega

/-- The bytes of a character that is not ASCII are not ASCII. -/
theorem encode_high {c : Char} (h : 1 < (String.utf8EncodeChar c).length) : ∀ x ∈ String.utf8EncodeChar c, 0x80 ≤ x.toNat := by
  revert h
  unfold String.utf8EncodeChar
  simp only
  split
  · simp
  split
  · intro _ x hx
    simp only [List.mem_cons, List.not_mem_nil, or_false] at hx
    rcases hx with rfl | rfl <;> rw [ofNat_toNat (by omega)] <;> omega
  split
  · intro _ x hx
    simp only [List.mem_cons, List.not_mem_nil, or_false] at hx
    rcases hx with rfl | rfl | rfl <;> rw [ofNat_toNat (by omega)] <;> omega
  · intro _ x hx
    simp only [List.mem_cons, List.not_mem_nil, or_false] at hx
    rcases hx with rfl | rfl | rfl | rfl <;> rw [ofNat_toNat (by omega)] <;> omega

/-- A buffer that is full, ends before the delimiter, and with a byte that neither belongs to a delimiter nor to a line end, is shown completely. -/
theorem BR.shows_all {p : Nat} {y : Bytes} {c : Byte} (hi : s.Inv) (hst : s.st ≠ .atEnd) (hm : s.min ≤ s.buf.length) (hp : FirstAt s.delim s.unread p) (hl : s.buf.length ≤ p) (hy : s.buf = y ++ [c])
    (hc : c ∉ s.delim) (hcr : c ≠ 0x0A) : ∃ t, s.readToBoundary = (.ok s.buf, t) := by
  obtain ⟨hre, hf⟩ := BR.refill_eq_self (s := s) (.inl hm)
  have hd := hi.delim_len
  have hss : s.st = .searching := by
    cases h : s.st with
    | searching => rfl
    | atEnd => exact absurd h hst
    | boundaryRead =>
      exfalso
      have := hi.cursor
      unfold BR.CursorOk at this
      simp only [h] at this
      obtain ⟨q, h1, h2, -⟩ := this
      rw [h1.unique hp] at h2
      omega
  rcases BR.readToBoundary_eq hi with ⟨e, h, -⟩ | ⟨-, h⟩
  · rw [hf] at h; cases h
  · refine ⟨s.afterRead, h.trans ?_⟩
    rw [BR.afterRead_searching hss, hre]
    obtain ⟨e1, e2, e3, e4, e5, e6, e7⟩ := s.search_spec hi hss
    obtain ⟨b1, b2, b3, b4, b5, b6⟩ := s.search.backUp_spec
    have hidx : s.search.idx = s.buf.length := by
      rcases e7 with ⟨-, h1, h2⟩ | ⟨-, -, h1 | ⟨h1, h2, -⟩⟩
      · rw [h1.unique hp] at h2; omega
      · exact h1
      · exfalso
        refine hc (h2.subset ?_)
        rw [hy] at h1 ⊢
        rw [List.length_append, List.length_singleton] at h1
        rw [List.drop_append_of_le_length (by omega)]
        simp
    have hb : s.search.backUp.idx = s.buf.length := by
      rcases b6 with ⟨h1, -⟩ | ⟨h1, -, h2, -⟩
      · rw [h1, hidx]
      · exfalso
        rw [e1, hidx] at h2
        rw [hidx] at h1
        rw [List.take_of_length_le (by rw [List.length_drop]; omega), hy] at h2
        rw [hy, List.length_append, List.length_singleton] at h1
        rw [List.length_append, List.length_singleton, List.drop_append_of_le_length (by omega)] at h2
        have := congrArg List.getLast? h2
        simp [crlf] at this
        exact hcr this
    rw [b1, e1, hb, List.take_length]

/-- C76 fails in every body with a text that has, behind the first `entryBuf` bytes, a character that is not ASCII, if the limits leave no room for the part `z` of it: there is a way for this body to arrive, in two reads,
neither of which ends inside the CRLF before a delimiter, such that, whatever was called before (without enlarging the buffer), the field is saved as bytes. -/
theorem C76_somehow (hD : D.Sane) (hb : ∀ x ∈ b, x.toNat < 0x80) {pre X dat z : Bytes} {cs cs' : List Char} {c : Char} (hpre : pre ≠ []) (hd : FieldData (dashes ++ b) X dat)
    (hdat : dat = encodeChars (cs ++ c :: cs')) (hz : z <+: String.utf8EncodeChar c) (hz0 : z ≠ []) (hz1 : z.length < (String.utf8EncodeChar c).length)
    (hlong : entryBuf (dashes ++ b) ≤ (encodeChars cs).length + z.length) (hp : cfg.textPolicy ≠ .ignore) (hl : dat.length ≤ Nat.min cfg.sizeLimit cfg.memoryThreshold)
    (hmax : Nat.min cfg.sizeLimit cfg.memoryThreshold < u64Max) (hmore : Nat.min cfg.sizeLimit cfg.memoryThreshold < dat.length + z.length) :
    ∃ evs, Ev.bytes evs = pre ++ X ∧ NoStall evs ∧ NoErr evs ∧ CleanSplit (dashes ++ b) evs ∧
      ∀ os fh s, (∀ n, SOp.field (.setMin n) ∈ os → n ≤ entryBuf (dashes ++ b)) → ((withBody evs b).session D os).readEntry D = (.ok (some fh), s) → s.unread = X → ∀ (T : Target) (w : World),
        ∃ n, ∀ fuel, n ≤ fuel → ∃ w' t, T.save cfg fuel w s = (.full (.bytes dat), w', t) ∧ SameDisk w w' := by
  have hzp := List.length_pos_iff.mpr hz0
  have hhigh := encode_high (c := c) (by omega)
  obtain ⟨z', x, rfl⟩ : ∃ z' x, z = z' ++ [x] := ⟨_, _, (List.dropLast_concat_getLast hz0).symm⟩
  have hx : 0x80 ≤ x.toNat := hhigh x (hz.subset (by simp))
  obtain ⟨z2, hz2⟩ := hz
  have e : dat = (encodeChars cs ++ (z' ++ [x])) ++ (z2 ++ encodeChars cs') := by rw [hdat]; simp [encodeChars, ← hz2]
  have hlen := congrArg List.length e
  simp only [List.length_append, List.length_singleton] at hlen
  have hz2p : 0 < z2.length := by
    have := congrArg List.length hz2
    rw [List.length_append] at this
    omega
  obtain ⟨p, hfp, hdp, hpl⟩ : ∃ p, FirstAt (dashes ++ b) X p ∧ dat <+: X ∧ dat.length ≤ p := by
    cases hd with
    | crlf h1 h2 => exact ⟨_, h1, (List.prefix_append _ _).trans h2, by omega⟩
    | bare h1 h2 _ => exact ⟨_, h1, h2, by omega⟩
  obtain ⟨r, hr⟩ := hdp
  generalize hR : z2 ++ encodeChars cs' ++ r = R
  have hX : X = (encodeChars cs ++ (z' ++ [x])) ++ R := by rw [← hr, e, ← hR]; simp
  have hR0 : R ≠ [] := by
    intro h
    have := congrArg List.length hR
    rw [h] at this
    simp only [List.length_append, List.length_nil] at this
    omega
  have hne : NoErr [.data (pre ++ (encodeChars cs ++ (z' ++ [x]))), .data R] := by intro e; simp
  have hns : NoStall [.data (pre ++ (encodeChars cs ++ (z' ++ [x]))), .data R] := by simp [NoStall, hR0.symm]
  have hby : Ev.bytes [.data (pre ++ (encodeChars cs ++ (z' ++ [x]))), .data R] = pre ++ X := by rw [hX]; simp [Ev.bytes]
  have hcl : CleanSplit (dashes ++ b) [.data (pre ++ (encodeChars cs ++ (z' ++ [x]))), .data R] := by
    refine Sample.clean_two ?_ ?_
    · intro h
      unfold OccursAt at h
      rw [show (pre ++ (encodeChars cs ++ (z' ++ [x]))).length - 1 = (pre ++ (encodeChars cs ++ z')).length by simp; omega,
        show pre ++ (encodeChars cs ++ (z' ++ [x])) ++ R = (pre ++ (encodeChars cs ++ z')) ++ ([x] ++ R) by simp, List.drop_left] at h
      simp [crlf] at h
      rw [← h.1] at hx
      simp at hx
    · intro h
      have := h.length_le
      rw [List.length_drop] at this
      simp [crlf] at this
      omega
  refine ⟨_, hby, hns, hne, hcl, fun os fh s hos hen hsX T w => ?_⟩
  have h0 : BR.Late (entryBuf (dashes ++ b)) [.data R] (withBody [.data (pre ++ (encodeChars cs ++ (z' ++ [x]))), .data R] b) :=
    ⟨BR.fromReader_inv _ _, Nat.le_max_left _ _, .inl ⟨[_], rfl⟩⟩
  obtain ⟨-, -, h3, h4⟩ := BR.session_spec hD os h0.inv
  have hL := BR.Late.session (D := D) hD (by simp) os h0 (Nat.le_refl _) hos
  have hdl : ((withBody [.data (pre ++ (encodeChars cs ++ (z' ++ [x]))), .data R] b).session D os).delim = dashes ++ b := h3
  have hee := BR.readEntry_spec hD hL.inv
  have hsL := hL.readEntry (D := D) (by simp) (by rw [hdl]; exact Nat.le_refl _)
  rw [hen] at hee hsL
  have hpos := List.length_pos_iff.mpr hpre
  obtain ⟨g1, g2⟩ := BR.entry_buf hD (Z := encodeChars cs ++ (z' ++ [x])) (G := []) (by simp) (by rw [hdl]; exact hL) h4 hen (by rw [hsX, hX]; simp [Ev.bytes]) (by simp only [List.length_append]; omega)
    (by rw [hdl]; simp only [List.length_append] at hlong ⊢; exact hlong)
  have hsd : s.delim = dashes ++ b := by cases hee with | entry _ _ _ _ _ _ _ _ _ _ d => rw [d, hdl]
  have hst : s.st ≠ .atEnd := by cases hee with | entry _ _ _ _ _ _ _ _ _ _ _ _ _ d => exact d
  obtain ⟨t, hshow⟩ := BR.shows_all (y := encodeChars cs ++ z') (c := x) (p := p) hsL.inv hst (by rw [g1]; refine Nat.le_trans hsL.min ?_; simp only [List.length_append] at hlong ⊢; exact hlong)
    (by rw [hsd, hsX]; exact hfp) (by rw [g1]; simp only [List.length_append, List.length_singleton]; omega) (by rw [g1]; simp)
    (by
      rw [hsd]
      intro h
      rw [List.mem_append] at h
      rcases h with h | h
      · simp [dashes] at h; rw [h] at hx; simp at hx
      · have := hb x h; omega)
    (by intro h; rw [h] at hx; simp at hx)
  rw [g1] at hshow
  exact C76_otherwise hD hns (by intro e; simp) ⟨os, rfl⟩ hen (by rw [hsX]; exact hd) ⟨_, hdat⟩ (.inl hcl) hp hl hmax hshow
    (by have := Nat.le_trans (Nat.le_max_left minBufSize _) hlong; simp [minBufSize] at this ⊢; omega) (textThen_cut ⟨z2, hz2⟩ hz1) hz0 hmore

/-- C76_somehow applies to the body of the same bytes, whatever way they arrive; and in that way, `read_entry` gives this field. -/
example : (∃ evs, Ev.bytes evs = (b!"--b\r\n" ++ Sample.hdr) ++ (Sample.big ++ [0xC3, 0xA9] ++ b!"\r\n--b--\r\n") ∧ NoStall evs ∧ NoErr evs ∧ CleanSplit (dashes ++ Sample.bnd) evs ∧
      ∀ os fh s, (∀ n, SOp.field (.setMin n) ∈ os → n ≤ entryBuf (dashes ++ Sample.bnd)) → ((withBody evs Sample.bnd).session refDeps os).readEntry refDeps = (.ok (some fh), s) →
        s.unread = Sample.big ++ [0xC3, 0xA9] ++ b!"\r\n--b--\r\n" → ∀ (T : Target) (w : World),
        ∃ n, ∀ fuel, n ≤ fuel → ∃ w' t, T.save { Settings.default with memoryThreshold := 1102 } fuel w s = (.full (.bytes (Sample.big ++ [0xC3, 0xA9])), w', t) ∧ SameDisk w w') ∧
    (withBody Sample.evsSplit Sample.bnd).readEntry refDeps = (.ok (some Sample.fh), Sample.sSplit) ∧ Sample.sSplit.unread = Sample.big ++ [0xC3, 0xA9] ++ b!"\r\n--b--\r\n" :=
  ⟨C76_somehow (c := 'é') (cs := List.replicate 1100 'a') (cs' := []) (z := [0xC3]) refDeps_sane (by decide) (by decide) (by rw [← Sample.unreadSplit]; exact Sample.dataSplit) (by decide +kernel) (by decide)
    (by decide) (by decide) (by decide +kernel) (by decide) (by decide +kernel) (by decide) (by decide +kernel), Sample.entrySplit, Sample.unreadSplit⟩

end Multipart

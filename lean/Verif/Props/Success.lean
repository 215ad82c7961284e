import Verif.Props.Iron
import Verif.Props.RoundTrip
import Verif.Lemmas.ForcedText
import Verif.Lemmas.Worlds
/-!
# When saving succeeds (C75-C78)

C37 to C60 say what it means if a save reports `Full`. Here: when it does.
-/
namespace Multipart

variable {D : Deps} {evs : List Ev} {b : Bytes} {s s0 t : BR} {cfg : Settings} {fuel : Nat} {T : Target} {w w' : World}

/-! ## C75 -/

theorem DiskWorks.not_fails {o : OpenOpts} {p : Path} {e : IoErr} (h : DiskWorks w o p) : ¬ OpenFails w o p e := by
  rintro (g | g | ⟨-, g1, g2⟩ | ⟨-, g1, g2, g3⟩ | g)
  · exact h.mkdirs e g
  · exact h.opens e g
  · rcases h.file with ⟨k, _⟩ | ⟨_, k⟩
    · exact g1 k
    · rw [g2] at k; simp at k
  · rcases h.file with ⟨_, k | k⟩ | ⟨k, _⟩
    · rw [g2] at k; simp at k
    · rw [g3] at k; simp at k
    · exact k g1
  · exact g h.valid

theorem Target.world_more (T : Target) (w : World) : (T.world w).mkdirs = w.mkdirs ∧ (T.world w).opens = w.opens := by
  cases T <;> exact ⟨rfl, rfl⟩

theorem DiskWorks.world {o : OpenOpts} {p : Path} (h : DiskWorks w o p) : DiskWorks (T.world w) o p := by
  have h1 := T.world_same w
  have h2 := T.world_more w
  exact ⟨by rw [h2.1]; exact h.mkdirs, by rw [h2.2]; exact h.opens, by rw [h1.2.2]; exact h.writes, by rw [h1.1]; exact h.file, h.valid⟩

/-- A save that returns and meets no trouble is full, or stops because a text is forced. -/
theorem Target.save_fine (hi : s.Inv) (hc : cfg.Typed) (he : OnlyInterrupted s.evs) (hw : DiskWorks w cfg.openOpts (T.file w))
    (hl : ∀ x u, Took s x u → x.length ≤ cfg.sizeLimit) {r : SaveRes SavedData SavedData} (h : T.save cfg fuel w s = (r, w', t)) :
    r = .hang ∨ (∃ d, r = .full d) ∨ (cfg.textPolicy = .force ∧ ∃ x y u, r = .part (.text x) .utf8 ∧ Took s x t ∧ IsUtf8 x ∧ ¬ IsUtf8 y ∧ y.length < 4 ∧ Took s (x ++ y) u) := by
  have hse : ∀ {e}, ¬ StreamErr s e := fun g => g.2 (he _ g.1)
  have hwf : ∀ {e}, ¬ ∃ ev ∈ (T.world w).writes, ev.FailsWith e := by
    rintro e ⟨ev, g1, g2⟩; exact (hw.world (T := T)).writes ev g1 e g2
  cases Target.save_spec hi h with
  | hang => exact .inl rfl
  | text => exact .inr (.inl ⟨_, rfl⟩)
  | bytes => exact .inr (.inl ⟨_, rfl⟩)
  | partText h1 h2 h3 h4 h5 h6 =>
    rcases h6 with ⟨-, g1, more, u, g2, g3⟩ | ⟨e, -, -, g⟩ | ⟨rfl, g1, y, u, -, g2, g3, g4⟩
    · have := hl _ _ g3
      rw [List.length_append] at this
      have := List.length_pos_iff.mpr g2
      omega
    · exact absurd g hse
    · exact .inr (.inr ⟨g1, _, y, u, rfl, h2, h3, g2, g3, g4⟩)
  | @partBytes taken _ h1 h2 h3 h4 =>
    exfalso
    rcases h4 with ⟨-, g1, more, u, g2, g3⟩ | ⟨e, -, -, g⟩
    · have h5 := hl _ _ g2
      have hz := hc.size
      rw [List.length_append] at g3 h5
      have h6 : more.length = 0 := by omega
      simp only [Settings.memLimit, Nat.sub_zero, Nat.min_def] at h3 g3
      repeat' split at h3
      all_goals split at g3
      all_goals omega
    · exact hse g
  | error _ _ g => exact absurd g hse
  | file h1 h2 h3 h4 h5 =>
    cases h5 with
    | hang => exact .inl rfl
    | noFile _ _ g => exact absurd g (hw.world (T := T)).not_fails
    | cut _ _ _ _ g => exact absurd g hwf
    | cut0 _ _ _ g => exact absurd g hwf
    | full => exact .inr (.inl ⟨_, rfl⟩)
    | part _ _ _ _ g =>
      exfalso
      rcases g with ⟨-, more, u, g1, g2⟩ | ⟨e, -, g | g⟩
      · have := hl _ _ (h1.trans g1)
        rw [List.length_append] at this
        omega
      · exact hse (g.after hi h1)
      · exact hwf g
    | error _ _ _ g => exact absurd (g.after hi h1) hse

/-- C75: a field that has no more than `size_limit` bytes is saved fully, if the stream has no errors (other than interruptions), the disk works, text is not forced,
and one of the limits is set (or text is ignored): see C44. -/
theorem C75_save_succeeds (hD : D.Sane) (hr : Reachable D evs b s) (hc : cfg.Typed) (he : OnlyInterrupted evs) (hl : ∀ os, (s.run os).1.length ≤ cfg.sizeLimit)
    (hw : DiskWorks w cfg.openOpts (T.file w)) (hp : cfg.textPolicy ≠ .force) (ht : Nat.min cfg.sizeLimit cfg.memoryThreshold < u64Max ∨ cfg.textPolicy = .ignore) :
    ∃ n, ∀ fuel, n ≤ fuel → ∃ d w' t, T.save cfg fuel w s = (.full d, w', t) := by
  have hsp := hr.spec hD
  obtain ⟨⟨n, hn⟩, -⟩ := C44_terminates_partial (T := T) (w := w) hD hr (ht.imp_right .inl)
  refine ⟨n, fun fuel hf => ?_⟩
  rcases h : T.save cfg fuel w s with ⟨r, w', t⟩
  rcases Target.save_fine hsp.1 hc (fun e g => he e (hsp.2.2.2.subset g)) hw (by intro x u g; obtain ⟨os, g⟩ := g.run hsp.1; have := hl os; rw [g] at this; exact this) h with g | ⟨d, g⟩ | ⟨g, -⟩
  · have := hn fuel hf
    rw [h] at this
    exact absurd g this
  · exact ⟨d, w', t, by rw [g]⟩
  · exact absurd g hp

theorem Sample.s1_short (os : List FieldOp) : (Sample.s1.run os).1.length ≤ 7 := by
  have := (C02_never_past_delimiter refDeps_sane Sample.s1_reachable os (p := 7) (by decide +kernel)).1.length_le
  rw [List.length_take] at this
  omega

/-- A field saved to a file, with interrupted and short writes. -/
example : ∃ n, ∀ fuel, n ≤ fuel → ∃ d w' t,
    Target.save (.dir [b!"d"]) { Settings.default with sizeLimit := 7, memoryThreshold := 0 } fuel { Sample.disk with writes := [.err .interrupted, .accept 2] } Sample.s1 =
      (.full d, w', t) :=
  C75_save_succeeds refDeps_sane Sample.s1_reachable ⟨by decide, by decide, by decide, rfl⟩ (fun e h => by simp [Sample.evs] at h) Sample.s1_short
    ⟨by simp [Sample.disk], by simp [Sample.disk], by rintro ev h e (⟨h1, h2⟩ | ⟨h1, h2⟩) <;> simp at h <;> rcases h with rfl | rfl <;> simp_all, .inl ⟨rfl, .inl rfl⟩, .inl rfl, fun _ _ => rfl⟩
    (by decide) (.inl (by decide))

/-! ## C76 -/

/-- The full claim C76: text that fits into memory is saved as text. -/
def TextSavedAsText (D : Deps) : Prop :=
  ∀ (evs : List Ev) (b : Bytes) (s0 s : BR) (fh : FieldHeaders) (dat : Bytes) (cfg : Settings) (T : Target) (w : World), cfg.Typed → NoStall evs → NoErr evs →
    CleanSplit (dashes ++ b) evs → Reachable D evs b s0 → s0.readEntry D = (.ok (some fh), s) → FieldData (dashes ++ b) s.unread dat → IsUtf8 dat →
    dat.length ≤ Nat.min cfg.sizeLimit cfg.memoryThreshold → cfg.textPolicy ≠ .ignore →
    ∃ n, ∀ fuel, n ≤ fuel → (T.save cfg fuel w s).1 = .full (.text dat)

theorem BR.readEntry_st {fh : FieldHeaders} (hD : D.Sane) (hi : s0.Inv) (he : s0.readEntry D = (.ok (some fh), s)) : s.st ≠ .atEnd := by
  have hsp := BR.readEntry_spec hD hi
  rw [he] at hsp
  simp only at hsp
  cases hsp with
  | entry => assumption

/-- C76, as far as it holds: if the limits leave room for one more byte per 169 bytes (and for the CRLF of the delimiter line, if a read of the body may end
inside it: see C01). Then also nothing is written to disk. Missing for the full claim: less room, because an incomplete character at the end of the buffer is counted
again when it is complete. -/
theorem C76_text_saved_partial {fh : FieldHeaders} {dat : Bytes} (hD : D.Sane) (hn : NoStall evs) (he : OnlyInterrupted evs) (hr : Reachable D evs b s0)
    (hen : s0.readEntry D = (.ok (some fh), s)) (hd : FieldData (dashes ++ b) s.unread dat) (hu : IsUtf8 dat) (hp : cfg.textPolicy ≠ .ignore)
    (hl : dat.length + 2 + (dat.length + 2) / 169 ≤ Nat.min cfg.sizeLimit cfg.memoryThreshold ∨
      ((CleanSplit (dashes ++ b) evs ∨ dat.length + 2 ≤ entryBuf (dashes ++ b)) ∧ dat.length + dat.length / 169 ≤ Nat.min cfg.sizeLimit cfg.memoryThreshold)) :
    ∃ n, ∀ fuel, n ≤ fuel → ∃ x w' t, T.save cfg fuel w s = (.full (.text x), w', t) ∧ SameDisk w w' ∧
      SavedOk (dashes ++ b) evs dat x := by
  have hsp := hr.spec hD
  have hrs : Reachable D evs b s := by have := hr.step .readEntry; simp only [BR.sop, hen] at this; exact this
  have hss := hrs.spec hD
  have hend : ∀ x u, Took s x u → u.AtEof → SavedOk (dashes ++ b) evs dat x := fun x u h1 h2 => h1.savedOk hD hn hr hen hd h2
  have hcr : IsUtf8 crlf := (utf8Valid_iff _).mp (by decide)
  have hU : ∀ x u, Took s x u → u.AtEof → IsUtf8 x := by
    intro x u h1 h2
    rcases hend x u h1 h2 with h | ⟨h, -⟩ <;> rw [h]
    · exact hu
    · exact hu.append hcr
  have hL : ∀ x u, Took s x u → 170 * x.length < 169 * (cfg.memLimit 0 + 1) := by
    intro x u h1
    obtain ⟨k, _, hk⟩ := BR.reaches_eof (n := 1) (by omega) _ (h1.inv hss.1) (Nat.le_refl _)
    have h2 := hend _ _ (h1.trans (Took.reads _ _ _)) hk
    simp only [Settings.memLimit, Nat.sub_zero]
    rcases h2 with h2 | ⟨h2, h3, h5⟩
    · have h4 := congrArg List.length h2
      rw [List.length_append] at h4
      rcases hl with hl | ⟨_, hl⟩ <;> omega
    · have h4 := congrArg List.length h2
      rw [List.length_append, List.length_append] at h4
      have : crlf.length = 2 := rfl
      rcases hl with hl | ⟨hc, _⟩
      · omega
      · exact hc.elim (absurd · h3) fun h => by omega
  have hfirst : ∃ p, FirstAt s.delim s.unread p := by
    rw [hss.2.2.1]
    cases hd with
    | crlf h _ => exact ⟨_, h⟩
    | bare h _ _ => exact ⟨_, h⟩
  obtain ⟨p, hfirst⟩ := hfirst
  refine ⟨s.unread.length + s.evs.length + 1, fun fuel hf => ?_⟩
  obtain ⟨k, c, t, x, h1, h2, h3⟩ := textLoop (L := cfg.memLimit 0) hss.1 (fun e g => he e (hss.2.2.2.subset g)) (hn.suffix hss.2.2.2) hfirst hU hL fuel 0 0 [] s
    (Took.refl s) (BR.readEntry_st hD hsp.1 hen) (by
      rw [(C22_min_buf_size hD hr).2 _ hen, hss.2.2.1]; exact Nat.le_refl _) .nil (Nat.le_refl _) (by omega)
  have hst : saveText cfg fuel s = (.full x, t) := by
    unfold saveText tryCopyLimited
    rw [h1]
  refine ⟨x, T.world w, t, ?_, ?_, ?_⟩
  · rw [T.save_eq]
    unfold withPath
    rw [if_pos hp, hst]
  · have := T.world_same w
    exact ⟨this.1, this.2.1⟩
  · obtain ⟨_, s1, g1, g2, _⟩ := h2
    exact hend _ _ g1 g2

namespace Sample

/-- 1100 bytes and a character of two bytes, whose bytes arrive in different reads. -/
def evsSplit : List Ev := [.data (b!"--b\r\n" ++ hdr ++ big ++ [0xC3]), .data ([0xA9] ++ b!"\r\n--b--\r\n")]

def sSplit : BR := ((withBody evsSplit bnd).readEntry refDeps).2

theorem entrySplit : (withBody evsSplit bnd).readEntry refDeps = (.ok (some fh), sSplit) := by
  have h : ((withBody evsSplit bnd).readEntry refDeps).1 = .ok (some fh) := by decide +kernel
  exact pair_eq h sSplit.eq_def.symm

theorem unreadSplit : sSplit.unread = (big ++ [0xC3, 0xA9]) ++ b!"\r\n--b--\r\n" := by decide +kernel

theorem dataSplit : FieldData (dashes ++ bnd) sSplit.unread (big ++ [0xC3, 0xA9]) := by
  rw [unreadSplit]
  exact .crlf (findSub_some (by decide +kernel)) ⟨b!"--b--\r\n", by decide +kernel⟩

theorem textSplit : IsUtf8 (big ++ [0xC3, 0xA9]) := (utf8Valid_iff _).mp (by decide +kernel)

theorem clean_two {d u v : Bytes} (h : ¬ OccursAt (crlf ++ d) (u ++ v) (u.length - 1)) (h' : ¬ OccursAt (crlf ++ d) (u ++ v) ((u ++ v).length - 1)) :
    CleanSplit d [.data u, .data v] := by
  refine .of_none ?_
  rintro k ⟨x, y, h1, h2⟩ hk
  have hb : Ev.bytes [.data u, .data v] = u ++ v := by simp [Ev.bytes]
  rw [hb] at hk
  match x, h1 with
  | [], _ => simp [Ev.bytes] at h2
  | [_], h1 =>
    simp at h1; obtain ⟨rfl, _⟩ := h1
    simp [Ev.bytes] at h2
    rw [h2] at h
    exact h hk
  | [_, _], h1 =>
    simp at h1; obtain ⟨rfl, rfl, _⟩ := h1
    rw [hb] at h2
    rw [h2] at h'
    exact h' hk
  | _ :: _ :: _ :: _, h1 => simp at h1

theorem cleanSplit : CleanSplit (dashes ++ bnd) evsSplit := clean_two (by decide +kernel) (by decide +kernel)

end Sample

/-- C76 is false of the code: the text of 1102 bytes does not fit into 1102 bytes, because one byte of it is counted twice. -/
theorem C76_false : ¬ TextSavedAsText refDeps := by
  intro h
  obtain ⟨n, hn⟩ := h Sample.evsSplit Sample.bnd _ _ _ _ { Settings.default with memoryThreshold := 1102 } (.path [b!"x"]) Sample.disk ⟨by decide, by decide, by decide, rfl⟩
    (by decide +kernel) (by intro e; simp [Sample.evsSplit]) Sample.cleanSplit ⟨[], rfl⟩ Sample.entrySplit Sample.dataSplit Sample.textSplit (by decide +kernel) (by decide)
  have h1 := hn (n + 10) (by omega)
  simp only [Target.save] at h1
  have h2 : (withPath { Settings.default with memoryThreshold := 1102 } 10 [b!"x"] Sample.disk Sample.sSplit).1 = .full (.bytes (Sample.big ++ [0xC3, 0xA9])) := by
    decide +kernel
  rw [withPath_fuel (fuel := 10) (by rw [h2]; simp) (by omega), h2] at h1
  simp at h1

/-- The default settings do. -/
example : ∃ n, ∀ fuel, n ≤ fuel → ∃ x w' t, Target.save (.temp []) .default fuel Sample.disk Sample.sSplit = (.full (.text x), w', t) ∧ SameDisk Sample.disk w' ∧
    SavedOk (dashes ++ Sample.bnd) Sample.evsSplit (Sample.big ++ [0xC3, 0xA9]) x :=
  C76_text_saved_partial refDeps_sane (by decide +kernel) (by intro e; simp [Sample.evsSplit]) ⟨[], rfl⟩ Sample.entrySplit Sample.dataSplit Sample.textSplit (by decide)
    (.inl (by decide +kernel))

/-! ## Forced text -/

theorem withPathMem_reason {p : Path} {acc : Bytes} (hi : s.Inv) (d : SavedData) : (withPathMem cfg fuel p acc w s).1 ≠ .part d .utf8 := by
  intro h
  have hm := saveMem_spec cfg fuel acc hi
  unfold withPathMem at h
  generalize saveMem cfg fuel acc s = x at h hm
  obtain ⟨r, t⟩ := x
  simp only at h hm
  cases hm with
  | hang => simp at h
  | full => simp at h
  | error => simp at h
  | io => simp at h
  | @limit taken _ _ h1 =>
    simp only at h
    split at h
    · have hf := saveFile_spec cfg fuel p (acc ++ taken) w (h1.inv hi)
      rw [h] at hf
      cases hf with
      | part _ _ _ _ g => rcases g with ⟨g, -⟩ | ⟨e, g, -⟩ <;> simp at g
    · simp at h

/-- The delimiter is in what is unread of a field with known data, and this is what it delivers. -/
theorem field_end {fh : FieldHeaders} {dat : Bytes} (hD : D.Sane) (hn : NoStall evs) (hr : Reachable D evs b s0) (hen : s0.readEntry D = (.ok (some fh), s))
    (hd : FieldData (dashes ++ b) s.unread dat) :
    (∃ p, FirstAt s.delim s.unread p) ∧ ∀ x u, Took s x u → u.AtEof → SavedOk (dashes ++ b) evs dat x := by
  have hss := (hr.entry hen).spec hD
  refine ⟨?_, ?_⟩
  · rw [hss.2.2.1]
    cases hd with
    | crlf h _ => exact ⟨_, h⟩
    | bare h _ _ => exact ⟨_, h⟩
  · exact fun x u h1 h2 => h1.savedOk hD hn hr hen hd h2

/-- A CRLF behind the data does not make text of what is none. -/
theorem TextThen.longer {dat v y v' y' : Bytes} (h3 : TextThen (dat ++ crlf) v' y') (ht : TextThen dat v y) : y.length ≤ y'.length ∨ y.length < 4 := by
  refine (Nat.lt_or_ge y.length 4).symm.imp_left fun hy => ?_
  have h4 : v'.length ≤ v.length := by
    refine Nat.le_of_not_lt fun hlt => ?_
    have h5 : v <+: v' := List.prefix_of_prefix_length_le (l₃ := dat ++ crlf) (by rw [ht.split, List.append_assoc]; exact List.prefix_append _ _)
      (by rw [h3.split]; exact List.prefix_append _ _) (by omega)
    obtain ⟨z, hz⟩ := h5
    have h6 := h3.text
    rw [← hz] at h6
    have h7 := h3.split
    rw [ht.split, ← hz, List.append_assoc, List.append_assoc] at h7
    have h7 := List.append_cancel_left h7
    have hzu := h6.of_append_left ht.text
    have hz0 : z ≠ [] := by rintro rfl; rw [List.append_nil] at hz; rw [hz] at hlt; omega
    -- the text goes on into `y`, at least with its first character
    rcases Nat.lt_or_ge y.length z.length with hg | hg
    · have h8 : y <+: z := List.prefix_of_prefix_length_le (List.prefix_append y crlf) (by rw [h7]; exact List.prefix_append _ _) (by omega)
      obtain ⟨r, hr⟩ := h8
      rw [← hr] at hzu
      have h9 := hzu.prefix_valid
      obtain ⟨v1, v2, -⟩ := validUpTo_spec y
      exact ht.rest (y.take (validUpTo y)) (fun h0 => by
        have := congrArg List.length h0
        rw [List.length_take, Nat.min_eq_left v1, List.length_nil] at this
        omega) (List.take_prefix _ _) v2
    · exact ht.rest z hz0 (List.prefix_of_prefix_length_le (l₃ := y ++ crlf) (by rw [h7]; exact List.prefix_append _ _) (List.prefix_append _ _) hg) hzu
  have h5 := congrArg List.length h3.split
  rw [ht.split, List.length_append, List.length_append, List.length_append] at h5
  omega

/-- If the data is text, or has at least four bytes behind its text, a save does not stop for invalid UTF-8. -/
theorem Target.save_goes_on {fh : FieldHeaders} {dat v y : Bytes} (hD : D.Sane) (hn : NoStall evs) (hr : Reachable D evs b s0) (hen : s0.readEntry D = (.ok (some fh), s))
    (hd : FieldData (dashes ++ b) s.unread dat) (ht : TextThen dat v y) (hy : y = [] ∨ 4 ≤ y.length) (d : SavedData) : (T.save cfg fuel w s).1 ≠ .part d .utf8 := by
  have hss := (hr.entry hen).spec hD
  obtain ⟨⟨p, hp⟩, hend⟩ := field_end hD hn hr hen hd
  have hU : ∀ x u, Took s x u → u.AtEof → ∀ v y, TextThen x v y → y = [] ∨ 4 ≤ y.length := by
    intro x u h1 h2 v' y' h3
    rcases hend x u h1 h2 with rfl | ⟨rfl, -⟩
    · rw [h3.eq.2, ← ht.eq.2]; exact hy
    · rcases hy with rfl | hy
      · left
        refine h3.of_utf8 (.append ?_ ((utf8Valid_iff _).mp (by decide)))
        rw [ht.split, List.append_nil]; exact ht.text
      · right
        have := h3.longer ht
        omega
  have hloop := textLoop_goes_on (L := cfg.memLimit 0) hss.1 (hn.suffix hss.2.2.2) hp hU fuel 0 0 [] s (Took.refl s) (BR.readEntry_st hD (hr.spec hD).1 hen)
    (by rw [(C22_min_buf_size hD hr).2 _ hen, hss.2.2.1]; exact Nat.le_refl _) .nil
  rw [T.save_eq]
  unfold withPath
  split
  · have hst := saveText_spec cfg fuel hss.1
    have hst' : ∀ x, (saveText cfg fuel s).1 ≠ .part x .utf8 := by
      intro x h
      unfold saveText tryCopyLimited at h
      generalize tryReadBuf (limited textStep (cfg.memLimit 0)) fuel 0 (0, []) s = q at h hloop
      obtain ⟨_ | _ | _ | _ | _, c, t⟩ := q <;> simp at h hloop
      exact hloop h.2
    generalize saveText cfg fuel s = q at hst hst'
    obtain ⟨r, t⟩ := q
    simp only at hst hst'
    cases hst with
    | hang => simp
    | full => simp
    | error => simp
    | io => simp
    | utf8 => exact absurd rfl (hst' _)
    | limit h1 =>
      simp only
      split
      · exact withPathMem_reason (h1.inv hss.1) d
      · simp
  · exact withPathMem_reason hss.1 d

namespace Sample

theorem entryBin : (withBody evsBin bnd).readEntry refDeps = (.ok (some fh), sBin) := by
  have h : ((withBody evsBin bnd).readEntry refDeps).1 = .ok (some fh) := by decide +kernel
  exact pair_eq h sBin.eq_def.symm

theorem dataBin : FieldData (dashes ++ bnd) sBin.unread ([0xFF, 0xFF, 0xFF, 0xFF] ++ b!"abc") := by
  have : sBin.unread = ([0xFF, 0xFF, 0xFF, 0xFF] ++ b!"abc") ++ b!"\r\n--b--\r\n" := by decide +kernel
  rw [this]
  exact .crlf (findSub_some (by decide +kernel)) ⟨b!"--b--\r\n", by decide +kernel⟩

def evsForced : List Ev := [.data (b!"--b\r\n" ++ hdr ++ b!"ab"), .data (b!"c" ++ [0xC3] ++ b!"\r\n--b--\r\n")]

def sForced : BR := ((withBody evsForced bnd).readEntry refDeps).2

theorem entryForced : (withBody evsForced bnd).readEntry refDeps = (.ok (some fh), sForced) := by
  have h : ((withBody evsForced bnd).readEntry refDeps).1 = .ok (some fh) := by decide +kernel
  exact pair_eq h sForced.eq_def.symm

theorem dataForced : FieldData (dashes ++ bnd) sForced.unread (b!"abc" ++ [0xC3]) := by
  have : sForced.unread = (b!"abc" ++ [0xC3]) ++ b!"\r\n--b--\r\n" := by decide +kernel
  rw [this]
  exact .crlf (findSub_some (by decide +kernel)) ⟨b!"--b--\r\n", by decide +kernel⟩

theorem textForced : TextThen (b!"abc" ++ [0xC3]) b!"abc" [0xC3] := textThen_validUpTo (b!"abc" ++ [0xC3])

theorem cleanForced : CleanSplit (dashes ++ bnd) evsForced := clean_two (by decide +kernel) (by decide +kernel)

end Sample

theorem forced_full {fh : FieldHeaders} {dat v y : Bytes} (hD : D.Sane) (hn : NoStall evs) (he : OnlyInterrupted evs) (hr : Reachable D evs b s0) (hen : s0.readEntry D = (.ok (some fh), s))
    (hd : FieldData (dashes ++ b) s.unread dat) (htt : TextThen dat v y) (hy : y = [] ∨ 4 ≤ y.length) (hc : cfg.Typed)
    (hl : dat.length + 2 ≤ cfg.sizeLimit ∨ ((CleanSplit (dashes ++ b) evs ∨ dat.length + 2 ≤ entryBuf (dashes ++ b)) ∧ dat.length ≤ cfg.sizeLimit)) (hw : DiskWorks w cfg.openOpts (T.file w))
    (ht : Nat.min cfg.sizeLimit cfg.memoryThreshold < u64Max) : ∃ n, ∀ fuel, n ≤ fuel → ∃ d w' t, T.save cfg fuel w s = (.full d, w', t) := by
  have hrs := hr.entry hen
  have hss := hrs.spec hD
  obtain ⟨-, hend⟩ := field_end hD hn hr hen hd
  obtain ⟨⟨n, hn'⟩, -⟩ := C44_terminates_partial (T := T) (w := w) (cfg := cfg) hD hrs (.inl ht)
  refine ⟨n, fun fuel hf => ?_⟩
  rcases h : T.save cfg fuel w s with ⟨r, w', t⟩
  have hbound : ∀ x u, Took s x u → x.length ≤ cfg.sizeLimit := by
    intro x u h1
    obtain ⟨k, _, hk⟩ := BR.reaches_eof (n := 1) (by omega) _ (h1.inv hss.1) (Nat.le_refl _)
    have hcl : crlf.length = 2 := rfl
    rcases hend _ _ (h1.trans (Took.reads _ _ _)) hk with h2 | ⟨h2, h3, h5⟩
    · have h4 := congrArg List.length h2
      rw [List.length_append] at h4
      rcases hl with hl | ⟨_, hl⟩ <;> omega
    · have h4 := congrArg List.length h2
      rw [List.length_append, List.length_append] at h4
      rcases hl with hl | ⟨hl, _⟩
      · omega
      · exact hl.elim (absurd · h3) fun h => by omega
  rcases Target.save_fine hss.1 hc (fun e g => he e (hss.2.2.2.subset g)) hw hbound h with g | ⟨d, g⟩ | ⟨-, x, _, _, g, -⟩
  · have := hn' fuel hf
    rw [h] at this
    exact absurd g this
  · exact ⟨d, w', t, by rw [g]⟩
  · have := Target.save_goes_on (T := T) (cfg := cfg) (fuel := fuel) (w := w) hD hn hr hen hd htt hy (.text x)
    rw [h] at this
    exact absurd g this

/-- C75 with forced text: a field that is text, of no more than `size_limit` bytes, is saved fully, whatever the text policy is (with the CRLF of the delimiter line, if a read of the
body may end inside it: see C01). -/
theorem C75_forced_text {fh : FieldHeaders} {dat : Bytes} (hD : D.Sane) (hn : NoStall evs) (he : OnlyInterrupted evs) (hr : Reachable D evs b s0) (hen : s0.readEntry D = (.ok (some fh), s))
    (hd : FieldData (dashes ++ b) s.unread dat) (hu : IsUtf8 dat) (hc : cfg.Typed) (hl : dat.length + 2 ≤ cfg.sizeLimit ∨ ((CleanSplit (dashes ++ b) evs ∨ dat.length + 2 ≤ entryBuf (dashes ++ b)) ∧ dat.length ≤ cfg.sizeLimit))
    (hw : DiskWorks w cfg.openOpts (T.file w)) (ht : Nat.min cfg.sizeLimit cfg.memoryThreshold < u64Max) :
    ∃ n, ∀ fuel, n ≤ fuel → ∃ d w' t, T.save cfg fuel w s = (.full d, w', t) :=
  forced_full hD hn he hr hen hd (v := dat) (y := []) ⟨(List.append_nil _).symm, hu, fun _ h1 h2 => absurd (List.prefix_nil.mp h2) h1⟩ (.inl rfl) hc hl hw ht

/-- Text of 1102 bytes, forced, saved to a file. -/
example : ∃ n, ∀ fuel, n ≤ fuel → ∃ d w' t,
    Target.save (.dir [b!"d"]) { Settings.default with sizeLimit := 1102, memoryThreshold := 7, textPolicy := .force } fuel Sample.disk Sample.sSplit = (.full d, w', t) :=
  C75_forced_text refDeps_sane (by decide +kernel) (by intro e; simp [Sample.evsSplit]) ⟨[], rfl⟩ Sample.entrySplit Sample.dataSplit Sample.textSplit ⟨by decide, by decide, by decide, rfl⟩
    (.inr ⟨.inl Sample.cleanSplit, by decide +kernel⟩) ⟨by simp [Sample.disk], by simp [Sample.disk], by intro ev h; simp [Sample.disk] at h, .inl ⟨rfl, .inl rfl⟩, .inl rfl, fun _ _ => rfl⟩ (by decide)

/-- What the code does in place of C43, if at least four bytes follow the text: the field is saved, and fully, although it is not text and text is forced. It is not saved as text. -/
theorem C43_saved_instead {fh : FieldHeaders} {dat v y : Bytes} (hD : D.Sane) (hn : NoStall evs) (he : OnlyInterrupted evs) (hr : Reachable D evs b s0)
    (hen : s0.readEntry D = (.ok (some fh), s)) (hd : FieldData (dashes ++ b) s.unread dat) (htt : TextThen dat v y) (hy : 4 ≤ y.length) (hc : cfg.Typed)
    (hl : dat.length + 2 ≤ cfg.sizeLimit ∨ ((CleanSplit (dashes ++ b) evs ∨ dat.length + 2 ≤ entryBuf (dashes ++ b)) ∧ dat.length ≤ cfg.sizeLimit)) (hw : DiskWorks w cfg.openOpts (T.file w))
    (ht : Nat.min cfg.sizeLimit cfg.memoryThreshold < u64Max) :
    ∃ n, ∀ fuel, n ≤ fuel → ∃ d w' t, T.save cfg fuel w s = (.full d, w', t) ∧ ∀ x, d ≠ .text x := by
  obtain ⟨n, h⟩ := forced_full (T := T) hD hn he hr hen hd htt (.inr hy) hc hl hw ht
  refine ⟨n, fun fuel hf => ?_⟩
  obtain ⟨d, w', t, h1⟩ := h fuel hf
  refine ⟨d, w', t, h1, ?_⟩
  rintro x rfl
  have hss := (hr.entry hen).spec hD
  have key : IsUtf8 x ∧ TookAll s x t := by
    cases Target.save_spec hss.1 h1 with
    | text _ g1 g2 => exact ⟨g2, g1⟩
    | file _ _ _ _ g => cases g
  obtain ⟨k1, _, u, k2, k3, _⟩ := key
  obtain ⟨-, hend⟩ := field_end hD hn hr hen hd
  rcases hend _ _ k2 k3 with rfl | ⟨rfl, -⟩
  · rw [htt.of_utf8 k1] at hy
    simp at hy
  · have k4 := textThen_validUpTo (dat ++ crlf)
    have k5 := k4.longer htt
    rw [k4.of_utf8 k1, List.length_nil] at k5
    omega

/-- Bytes that are not text, saved although text is forced. -/
example : ∃ n, ∀ fuel, n ≤ fuel → ∃ d w' t,
    Target.save (.temp []) { Settings.default with sizeLimit := 9, textPolicy := .force } fuel Sample.disk Sample.sBin = (.full d, w', t) ∧ ∀ x, d ≠ .text x :=
  C43_saved_instead (dat := [0xFF, 0xFF, 0xFF, 0xFF] ++ b!"abc") refDeps_sane (by decide +kernel) (by intro e; simp [Sample.evsBin]) ⟨[], rfl⟩ Sample.entryBin Sample.dataBin
    (textThen_validUpTo _) (by decide +kernel) ⟨by decide, by decide, by decide, rfl⟩ (.inl (by decide))
    ⟨by simp [Sample.disk], by simp [Sample.disk], by intro ev h; simp [Sample.disk] at h, .inl ⟨rfl, .inl rfl⟩, .inl rfl, fun _ _ => rfl⟩ (by decide)

/-- C43, as far as it holds: if the limits of memory leave room (see C76), no read of the body ends inside the CRLF before a delimiter or the field is short, and at most three bytes follow the text, then
the field is rejected, with nothing written. What is reported as read is the text except for at most three bytes. -/
theorem C43_rejects_partial {fh : FieldHeaders} {dat v y : Bytes} (hD : D.Sane) (hn : NoStall evs) (he : OnlyInterrupted evs)
    (hcs : CleanSplit (dashes ++ b) evs ∨ dat.length + 2 ≤ entryBuf (dashes ++ b))
    (hr : Reachable D evs b s0) (hen : s0.readEntry D = (.ok (some fh), s)) (hd : FieldData (dashes ++ b) s.unread dat) (htt : TextThen dat v y) (hy0 : y ≠ []) (hy : y.length < 4)
    (hp : cfg.textPolicy = .force) (hl : dat.length + dat.length / 169 + 3 ≤ Nat.min cfg.sizeLimit cfg.memoryThreshold) :
    ∃ n, ∀ fuel, n ≤ fuel → ∃ x w' t, T.save cfg fuel w s = (.part (.text x) .utf8, w', t) ∧ SameDisk w w' ∧ x <+: v ∧ v.length < x.length + 4 := by
  have hss := (hr.entry hen).spec hD
  obtain ⟨⟨p, hfirst⟩, hend⟩ := field_end hD hn hr hen hd
  refine ⟨s.unread.length + s.evs.length + 1, fun fuel hf => ?_⟩
  obtain ⟨k, c, t, x, h1, h2, h3⟩ := textLoop_stops (L := cfg.memLimit 0) hss.1 (fun e g => he e (hss.2.2.2.subset g)) (hn.suffix hss.2.2.2) hfirst
    (fun x u g1 g2 => (hend x u g1 g2).resolve_right fun g => hcs.elim g.2.1 fun h => by omega) htt hy0 hy (by simp only [Settings.memLimit, Nat.sub_zero]; omega) fuel 0 0 [] s
    (Took.refl s) (BR.readEntry_st hD (hr.spec hD).1 hen) (by rw [(C22_min_buf_size hD hr).2 _ hen, hss.2.2.1]; exact Nat.le_refl _) .nil (.inl (Nat.le_refl _)) (by omega)
  have hst : saveText cfg fuel s = (.part x .utf8, t) := by
    unfold saveText tryCopyLimited
    rw [h1]
  refine ⟨x, T.world w, t, ?_, ?_, h2, h3⟩
  · rw [T.save_eq]
    unfold withPath
    rw [if_pos (by rw [hp]; simp), hst]
    simp [hp]
  · have := T.world_same w
    exact ⟨this.1, this.2.1⟩

/-- Text with an incomplete character at its end. -/
example : ∃ n, ∀ fuel, n ≤ fuel → ∃ x w' t,
    Target.save (.temp []) { Settings.default with sizeLimit := 9, textPolicy := .force } fuel Sample.disk Sample.sForced = (.part (.text x) .utf8, w', t) ∧ SameDisk Sample.disk w' ∧
    x <+: b!"abc" ∧ (b!"abc").length < x.length + 4 :=
  C43_rejects_partial (y := [0xC3]) refDeps_sane (by decide +kernel) (by intro e; simp [Sample.evsForced]) (.inl Sample.cleanForced) ⟨[], rfl⟩ Sample.entryForced Sample.dataForced
    Sample.textForced (by decide) (by decide) rfl (by decide)

/-! ## C77 -/

theorem DiskReady.works {o : OpenOpts} {dir : Path} {n : Nat} (h : DiskReady w dir (n + 1)) (ho : o.createNew = true) (hw : o.write = true) : DiskWorks w o (Target.file (.dir dir) w) := by
  refine ⟨h.mkdirs, h.opens, h.writes, .inl ⟨?_, .inl ho⟩, .inl hw, fun _ _ => ho⟩
  have h4 := h.names
  have h6 := h.fresh
  rcases hnm : w.names with _ | ⟨a, as⟩
  · rw [hnm] at h4; simp at h4
  have : Target.file (.dir dir) w = dir ++ [a] := by simp [Target.file, hnm]
  rw [this]
  exact h6 a (by rw [hnm]; simp)

theorem DiskReady.seq {dir : Path} {fs : List SavedField} {n : Nat} (h : SavedSeq D cfg fuel dir w s fs w' t) (hw : DiskReady w dir (fs.length + n)) : DiskReady w' dir n := by
  induction h with
  | nil => simpa using hw
  | @cons w w1 w2 s s1 s2 t hd d fs h1 h2 h3 ih =>
    refine ih ?_
    rw [List.length_cons, Nat.add_right_comm] at hw
    exact hw.saved h2

/-- With nothing else in the way, saving a request is full, or stopped by the count limit, or by the end of what can be read. -/
theorem request_outcome_any (hD : D.Sane) (hn : NoStall evs) (hne : NoErr evs) (hc : cfg.Typed) (ho : cfg.openOpts.createNew = true) {es : List (FieldHeaders × Bytes)}
    (hp : cfg.textPolicy = .force → ∀ p ∈ es, p.1.isText = true → ∀ v y, TextThen p.2 v y → y = [] ∨ 4 ≤ y.length)
    (ht : Nat.min cfg.sizeLimit cfg.memoryThreshold < u64Max ∨ cfg.textPolicy = .ignore)
    {fin : Ending} (hP : Parts D (dashes ++ b) (Ev.bytes evs) es fin) (dir : SaveDir)
    (hz : ∀ p ∈ es, p.2.length + 2 ≤ cfg.sizeLimit ∨ ((CleanSplit (dashes ++ b) evs ∨ p.2.length + 2 ≤ entryBuf (dashes ++ b)) ∧ p.2.length ≤ cfg.sizeLimit)) (hw : DiskReady w dir.asPath es.length) :
    ∃ n, ∀ fuel, n ≤ fuel → (∃ e, (withEntries D cfg fuel (Entries.new dir) w (withBody evs b)).1 = .full e) ∨
      (∃ p, (withEntries D cfg fuel (Entries.new dir) w (withBody evs b)).1 = .part p .countLimit) ∨
      ∃ e er, fin = .failed er ∧ (withEntries D cfg fuel (Entries.new dir) w (withBody evs b)).1 = .part ⟨e, none⟩ (.io er) := by
  have hr : Reachable D evs b (withBody evs b) := ⟨[], rfl⟩
  have hdr : (withBody evs b).Drained := by intro h; simp [withBody, BR.fromReader] at h
  refine ⟨(withBody evs b).enough (cfg.memLimit 0) + 1, fun fuel hf => ?_⟩
  obtain ⟨e1, e2⟩ := withEntries_ends (e := Entries.new dir) (w := w) (fuel := fuel) hD hr ht
  have e1 := e1 (by omega)
  rcases h : withEntries D cfg fuel (Entries.new dir) w (withBody evs b) with ⟨r, w', t⟩
  rw [h] at e1 e2
  obtain ⟨fs, w1, s1, h1, h2, h3⟩ := withEntries_spec h
  have h3 : LoopEnd D cfg fuel ((Entries.new dir).recountFields.pushAll fs) w1 s1 r w' t := by
    rcases h3 with h3 | ⟨rfl, -⟩
    · exact h3
    · exact absurd rfl e1
  have hs1 := h1.reachable hD hr
  have hat := h1.atParts hD hn hne ho hr (.start hP) (.inl hdr)
  have hd1 : s1.Drained := by
    rcases h1.drained hD hn ho hr with g | ⟨-, g⟩
    · exact g
    · rw [g]; exact hdr
  have hfine : ∀ {hd : FieldHeaders} {s2 : BR} {r : SaveRes SavedData SavedData} {w2 : World} {t2 : BR}, s1.readEntry D = (.ok (some hd), s2) →
      (Target.dir dir.asPath).save { cfg with textPolicy := if hd.isText then cfg.textPolicy else .ignore } fuel w1 s2 = (r, w2, t2) → r = .hang ∨ ∃ d, r = .full d := by
    intro hd s2 r w2 t2 g1 g2
    have hs2 := (hs1.entry g1).spec hD
    obtain ⟨dat, es', g3, -⟩ := hat.entry hD hn hne (.inl hd1) g1
    have g4 : fs.length < es.length := by
      have := congrArg List.length g3
      rw [List.length_drop, List.length_cons] at this
      omega
    have hw1 : DiskReady w1 dir.asPath (es.length - fs.length - 1 + 1) := DiskReady.seq h1 (by
      have : fs.length + (es.length - fs.length - 1 + 1) = es.length := by omega
      show DiskReady w dir.asPath _
      rw [this]; exact hw)
    have hbound : ∀ x u, Took s2 x u → x.length ≤ cfg.sizeLimit := by
      intro x u hx
      obtain ⟨dat, es', y, k1, k2⟩ := hat.data hD hn hne hs1 g1 hx
      have hmem : (hd, dat) ∈ es := (List.drop_suffix fs.length es).subset (by rw [k1]; exact List.mem_cons_self ..)
      have hz := hz _ hmem
      simp only at hz ⊢
      have hcl : crlf.length = 2 := rfl
      rcases k2 with k2 | ⟨k2, k3, k5⟩
      · have := congrArg List.length k2
        rw [List.length_append] at this
        rcases hz with hz | ⟨-, hz⟩ <;> omega
      · have := congrArg List.length k2
        rw [List.length_append, List.length_append] at this
        rcases hz with hz | ⟨hz, -⟩
        · omega
        · exact hz.elim (absurd · k3) fun h => by omega
    rcases Target.save_fine (cfg := { cfg with textPolicy := if hd.isText then cfg.textPolicy else .ignore }) hs2.1 ⟨hc.size, hc.mem, hc.count, hc.write⟩
      (fun e g => absurd (hs2.2.2.2.subset g) (hne e)) (hw1.works ho hc.write) hbound g2 with g | g | ⟨g, x, -, -, gx, -⟩
    · exact .inl g
    · exact .inr g
    · simp only at g
      split at g
      next htx =>
        obtain ⟨dat, es', k1, -, k2⟩ := hat.entry_data hD hn hne (.inl hd1) g1
        have hmem : (hd, dat) ∈ es := (List.drop_suffix fs.length es).subset (by rw [k1]; exact List.mem_cons_self ..)
        have k3 := textThen_validUpTo dat
        have k4 := Target.save_goes_on (T := .dir dir.asPath) (cfg := { cfg with textPolicy := if hd.isText then cfg.textPolicy else .ignore }) (fuel := fuel) (w := w1) hD hn hs1 g1 k2 k3
          (hp g _ hmem htx _ _ k3) (.text x)
        rw [g2] at k4
        exact absurd gx k4
      next => simp at g
  have hdir : ((Entries.new dir).recountFields.pushAll fs).saveDir.asPath = dir.asPath := by rw [Entries.pushAll_dir]; rfl
  cases h3 with
  | full => exact .inl ⟨_, rfl⟩
  | count => exact .inr (.inl ⟨_, rfl⟩)
  | read h4 _ => exact .inr (.inr ⟨_, _, (hat.reads hD hn hne (.inl hd1) (.fail h4)).1.symm, rfl⟩)
  | part h4 _ h5 =>
    rw [hdir] at h5
    rcases hfine h4 h5 with g | ⟨_, g⟩ <;> simp at g
  | error h4 _ h5 =>
    rw [hdir] at h5
    rcases hfine h4 h5 with g | ⟨_, g⟩ <;> simp at g
  | panic => exact absurd rfl e2
  | hang => exact absurd rfl e1

/-- With nothing else in the way, saving a request is full or stopped by the count limit. -/
theorem request_outcome (hD : D.Sane) (hn : NoStall evs) (hne : NoErr evs) (hc : cfg.Typed) (ho : cfg.openOpts.createNew = true) {es : List (FieldHeaders × Bytes)}
    (hp : cfg.textPolicy = .force → ∀ p ∈ es, p.1.isText = true → ∀ v y, TextThen p.2 v y → y = [] ∨ 4 ≤ y.length)
    (ht : Nat.min cfg.sizeLimit cfg.memoryThreshold < u64Max ∨ cfg.textPolicy = .ignore)
    (hP : Parts D (dashes ++ b) (Ev.bytes evs) es .closed) (dir : SaveDir)
    (hz : ∀ p ∈ es, p.2.length + 2 ≤ cfg.sizeLimit ∨ ((CleanSplit (dashes ++ b) evs ∨ p.2.length + 2 ≤ entryBuf (dashes ++ b)) ∧ p.2.length ≤ cfg.sizeLimit)) (hw : DiskReady w dir.asPath es.length) :
    ∃ n, ∀ fuel, n ≤ fuel → (∃ e, (withEntries D cfg fuel (Entries.new dir) w (withBody evs b)).1 = .full e) ∨
      ∃ p, (withEntries D cfg fuel (Entries.new dir) w (withBody evs b)).1 = .part p .countLimit := by
  obtain ⟨n, h⟩ := request_outcome_any hD hn hne hc ho hp ht hP dir hz hw
  refine ⟨n, fun fuel hf => ?_⟩
  rcases h fuel hf with h | h | ⟨_, _, h, -⟩
  · exact .inl h
  · exact .inr h
  · cases h

/-- C77: a request whose body is well-formed up to its closing delimiter, with fewer parts than `count_limit`, each of at most `size_limit` bytes, is saved fully, if the
disk works, the parts that are text by their headers are UTF-8 if text is forced, and one of the limits of memory is set (or text is ignored). All parts are there, with their headers and their data. (If a read of the
body may end inside the CRLF before a delimiter, the limit needs room for it: see C01.) -/
theorem C77_request_succeeds (hD : D.Sane) (hn : NoStall evs) (hne : NoErr evs) (hc : cfg.Typed) (ho : cfg.openOpts.createNew = true) {es : List (FieldHeaders × Bytes)}
    (hp : cfg.textPolicy = .force → ∀ p ∈ es, p.1.isText = true → IsUtf8 p.2) (ht : Nat.min cfg.sizeLimit cfg.memoryThreshold < u64Max ∨ cfg.textPolicy = .ignore)
    (hP : Parts D (dashes ++ b) (Ev.bytes evs) es .closed) (dir : SaveDir) (hl : es.length < cfg.countLimit)
    (hz : ∀ p ∈ es, p.2.length + 2 ≤ cfg.sizeLimit ∨ ((CleanSplit (dashes ++ b) evs ∨ p.2.length + 2 ≤ entryBuf (dashes ++ b)) ∧ p.2.length ≤ cfg.sizeLimit)) (hw : DiskReady w dir.asPath es.length) :
    ∃ n, ∀ fuel, n ≤ fuel → ∃ e w' t fs, withEntries D cfg fuel (Entries.new dir) w (withBody evs b) = (.full e, w', t) ∧
      GroupedByName e.fields fs ∧ e.fieldsCount = es.length ∧ All2 (SavedAs b evs w') fs es := by
  obtain ⟨n, hn'⟩ := request_outcome hD hn hne hc ho (fun h p h1 h2 v y h3 => .inl (h3.of_utf8 (hp h p h1 h2))) ht hP dir hz hw
  refine ⟨n, fun fuel hf => ?_⟩
  have h := hn' fuel hf
  rcases hr : withEntries D cfg fuel (Entries.new dir) w (withBody evs b) with ⟨r, w', t⟩
  rw [hr] at h
  rcases h with ⟨e, rfl⟩ | ⟨p, rfl⟩
  · obtain ⟨-, fs, h1, h2, h3⟩ := C53_full_has_every_field hD hn hne hc ho hP dir hr
    exact ⟨e, w', t, fs, rfl, h1, h2, h3⟩
  · exact absurd hr (C50_below_limit_partial hD hn hne hc ho hP dir hl _)

/-- What the code does in place of C50: a request with at least `count_limit` parts that is otherwise within the limits (as for C77) is stopped by the count limit, with its first
`count_limit` parts saved, and no others. -/
theorem C50_stopped (hD : D.Sane) (hn : NoStall evs) (hne : NoErr evs) (hc : cfg.Typed) (ho : cfg.openOpts.createNew = true) {es : List (FieldHeaders × Bytes)}
    (hp : cfg.textPolicy = .force → ∀ p ∈ es, p.1.isText = true → IsUtf8 p.2) (ht : Nat.min cfg.sizeLimit cfg.memoryThreshold < u64Max ∨ cfg.textPolicy = .ignore)
    (hP : Parts D (dashes ++ b) (Ev.bytes evs) es .closed) (dir : SaveDir) (hl : cfg.countLimit ≤ es.length)
    (hz : ∀ p ∈ es, p.2.length + 2 ≤ cfg.sizeLimit ∨ ((CleanSplit (dashes ++ b) evs ∨ p.2.length + 2 ≤ entryBuf (dashes ++ b)) ∧ p.2.length ≤ cfg.sizeLimit)) (hw : DiskReady w dir.asPath es.length) :
    ∃ n, ∀ fuel, n ≤ fuel → ∃ e w' t fs, withEntries D cfg fuel (Entries.new dir) w (withBody evs b) = (.part ⟨e, none⟩ .countLimit, w', t) ∧
      GroupedByName e.fields fs ∧ All2 (SavedAs b evs w') fs (es.take cfg.countLimit) := by
  obtain ⟨n, hn'⟩ := request_outcome hD hn hne hc ho (fun h p h1 h2 v y h3 => .inl (h3.of_utf8 (hp h p h1 h2))) ht hP dir hz hw
  refine ⟨n, fun fuel hf => ?_⟩
  have h := hn' fuel hf
  rcases hr : withEntries D cfg fuel (Entries.new dir) w (withBody evs b) with ⟨r, w', t⟩
  rw [hr] at h
  have hre : Reachable D evs b (withBody evs b) := ⟨[], rfl⟩
  rcases h with ⟨e, rfl⟩ | ⟨p, rfl⟩
  · exfalso
    have h1 := C50_never_full hc hr
    obtain ⟨-, fs, h2, h3, h4⟩ := C53_full_has_every_field hD hn hne hc ho hP dir hr
    have := h4.length
    rw [h2.total] at h1
    omega
  · have h0 := count_no_part hD hre hr
    obtain ⟨fs, s1, h1, h2, h3, h4⟩ := count_spec hc (e := Entries.new dir) (by simp [Entries.new, total]) hr h0
    have h2 : fs.length = cfg.countLimit := by simpa [Entries.new, total] using h2
    have h5 := (h1.savedAs hD hn hne ho hre (.start hP) (.inl (by intro h; simp [withBody, BR.fromReader] at h))).1
    rw [h2] at h5
    obtain ⟨e, pt⟩ := p
    simp only at h0 h4
    subst h0 h4
    exact ⟨_, w', t, fs, rfl, Entries.pushAll_grouped fs (Entries.new dir).recountFields [] .nil, h5⟩

/-- Two fields of text, which is forced, saved to files, with an interrupted and a short write; the limits are met exactly (with room for the CRLF). -/
example : ∃ n, ∀ fuel, n ≤ fuel → ∃ e w' t fs,
    withEntries refDeps { Settings.default with memoryThreshold := 0, sizeLimit := 5, countLimit := 3, textPolicy := .force } fuel (Entries.new (.perm [b!"d"]))
      { Sample.disk with names := [b!"x", b!"y"], writes := [.err .interrupted, .accept 2] } (withBody Sample.evsTwo Sample.bnd) = (.full e, w', t) ∧
    GroupedByName e.fields fs ∧ e.fieldsCount = 2 ∧ All2 (SavedAs Sample.bnd Sample.evsTwo w') fs [(Sample.fh, b!"one"), (Sample.fh, b!"two")] :=
  C77_request_succeeds refDeps_sane (by decide +kernel) (by intro e; simp [Sample.evsTwo]) ⟨by decide, by decide, by decide, rfl⟩ rfl
    (by intro _ p hp _; simp at hp; rcases hp with rfl | rfl <;> exact (utf8Valid_iff _).mp (by decide)) (.inl (by decide)) Sample.partsTwo _
    (by decide) (by intro p hp; simp at hp; rcases hp with rfl | rfl <;> exact .inl (by decide))
    ⟨by simp [Sample.disk], by simp [Sample.disk], by rintro ev h e (⟨h1, h2⟩ | ⟨h1, h2⟩) <;> simp at h <;> rcases h with rfl | rfl <;> simp_all, by decide, by decide, fun _ _ => rfl⟩

/-- The same with a count limit of 2: both fields are saved, but the result is partial. -/
example : ∃ n, ∀ fuel, n ≤ fuel → ∃ e w' t fs,
    withEntries refDeps { Settings.default with memoryThreshold := 0, sizeLimit := 5, countLimit := 2 } fuel (Entries.new (.perm [b!"d"]))
      { Sample.disk with names := [b!"x", b!"y"], writes := [.err .interrupted, .accept 2] } (withBody Sample.evsTwo Sample.bnd) = (.part ⟨e, none⟩ .countLimit, w', t) ∧
    GroupedByName e.fields fs ∧ All2 (SavedAs Sample.bnd Sample.evsTwo w') fs [(Sample.fh, b!"one"), (Sample.fh, b!"two")] :=
  C50_stopped refDeps_sane (by decide +kernel) (by intro e; simp [Sample.evsTwo]) ⟨by decide, by decide, by decide, rfl⟩ rfl (fun h => by simp [Settings.default] at h) (.inl (by decide)) Sample.partsTwo _
    (by decide) (by intro p hp; simp at hp; rcases hp with rfl | rfl <;> exact .inl (by decide))
    ⟨by simp [Sample.disk], by simp [Sample.disk], by rintro ev h e (⟨h1, h2⟩ | ⟨h1, h2⟩) <;> simp at h <;> rcases h with rfl | rfl <;> simp_all, by decide, by decide, fun _ _ => rfl⟩

end Multipart

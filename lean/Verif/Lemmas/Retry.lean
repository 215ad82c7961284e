import Verif.Lemmas.Parts
import Verif.Spec.Retry
namespace Multipart

/-- A call failed with an error of the stream, and nothing of the next part was lost. -/
structure BR.Faulted (s t : BR) : Prop where
  inv : t.Inv
  st : t.st ≠ .atEnd
  drained : s.Drained → t.Drained
  delim : t.delim = s.delim
  script : t.evs <:+ s.evs
  shorter : t.evs.length < s.evs.length
  suffix : t.unread <:+ s.unread
  next : ∀ v, NextIs s.delim s.unread v → NextIs t.delim t.unread v

/-- `consume_boundary` on a stream that may fail. -/
theorem BR.consumeBoundary_faulty {s : BR} (h : s.Inv) (hm : s.EntryMin) (hst : s.st ≠ .atEnd) (hd : s.Drained)
    (hn : NoStall s.evs) {v : Verdict} (hv : NextIs s.delim s.unread v) :
    (∃ e, Ev.err e ∈ s.evs ∧ s.consumeBoundary.1 = .err e ∧ s.Faulted s.consumeBoundary.2) ∨
    (s.consumeBoundary.1 = v.result ∧ (∀ rest, v = .part rest ∨ v = .close rest → s.consumeBoundary.2.unread = rest)) := by
  have hc := BR.consumeBoundary_spec h
  have hne := h.delim_ne
  have hdl := h.delim_len
  generalize s.consumeBoundary.1 = r at hc ⊢
  generalize s.consumeBoundary.2 = t at hc ⊢
  have verdict : ∀ w, NextIs s.delim s.unread w → v = w := fun w hw => hv.unique hne hw
  cases hc with
  | done hc => exact absurd hc hst
  | next _ a b c _ _ _ _ _ _ =>
    right
    have := verdict _ (.part a (crlf_split b)); subst this
    refine ⟨rfl, ?_⟩
    rintro rest (hr | hr)
    · cases hr; rw [c, List.drop_drop]
    · cases hr
  | close _ a b c _ _ _ _ _ _ =>
    right
    have := verdict _ (.close a (dashes_split b)); subst this
    refine ⟨rfl, ?_⟩
    rintro rest (hr | hr)
    · cases hr
    · cases hr; rw [c, List.drop_drop]
  | damaged _ _ _ _ a b c d =>
    right
    have := verdict _ (.damaged a b c d); subst this
    exact ⟨rfl, by rintro rest (hr | hr) <;> cases hr⟩
  | io _ hsk hi ht hmem hdr hlt =>
    left
    exact ⟨_, hmem, rfl, hi, ht, hdr, hsk.delim, hsk.evs, hlt, by rw [hsk.unread]; exact List.drop_suffix _ _, fun w hw => hw.skipped hsk⟩
  | eof _ _ _ _ _ a =>
    right
    have := verdict _ (.none (a hn hm.2).1); subst this
    exact ⟨rfl, by rintro rest (hr | hr) <;> cases hr⟩
  | @short _ k p _ hsk _ _ a hkp b c d e =>
    right
    have hp2 : p ≤ k + 2 := by
      cases hs : s.st with
      | searching => exact d hs
      | boundaryRead => have := e hs; have := hd hs; omega
      | atEnd => exact absurd hs hst
    have hu : s.unread.length < p + s.delim.length + 2 := by
      rcases c hn with hf | hf
      · exfalso
        have h1 := hm.1; have h2 := hm.2
        rw [hsk.min] at hf
        unfold minBufSize at h1
        omega
      · have : t.unread = t.buf := by unfold BR.unread; rw [hf]; simp [Ev.bytes]
        rw [hsk.unread] at this
        have := congrArg List.length this
        rw [List.length_drop] at this
        omega
    have := verdict _ (.cut a hu); subst this
    exact ⟨rfl, by rintro rest (hr | hr) <;> cases hr⟩

/-- `read_entry` on a stream that may fail: the error is reported and the call can be repeated, or the result is the verdict on the unread stream; or
the error hit while the headers were read. -/
theorem BR.readEntry_faulty {D : Deps} (hD : D.Sane) {s : BR} (hi : s.Inv) (hst : s.st ≠ .atEnd) (hd : s.Drained) (hn : NoStall s.evs) :
    (∃ e, Ev.err e ∈ s.evs ∧ (s.readEntry D).1 = .err e ∧ s.Faulted (s.readEntry D).2) ∨
    ((∀ e, (s.readEntry D).1 = .err e → e.Own) ∧ ((∀ rest, NextIs s.delim s.unread (.close rest) → (s.readEntry D).1 = .ok none) ∧
     (NextIs s.delim s.unread .damaged → (s.readEntry D).1 = .err .invalidData) ∧
     (NextIs s.delim s.unread .truncated → (s.readEntry D).1 = .err .unexpectedEof) ∧
     (∀ rest, NextIs s.delim s.unread (.part rest) → NoFieldHeaders D s.delim rest → (s.readEntry D).1 = .err .invalidData)) ∧
    (∀ rest H X dat hs fh, NextIs s.delim s.unread (.part rest) → HeaderBlock D s.delim rest H hs X → FieldData s.delim X dat →
       (FirstAt s.delim X dat.length → ¬ crlf <:+ H ++ dat) →
       H.length + s.delim.length + 1 ≤ Nat.max minBufSize (2 * s.delim.length) → FieldHeaders.parse D hs = .ok fh →
       ((s.readEntry D).1 = .ok (some fh) ∧ (s.readEntry D).2.unread = X) ∨ ((s.readEntry D).1 = .err .invalidData ∧ ∃ e, Ev.err e ∈ s.evs))) := by
  have hsi := BR.setMin_inv hi minBufSize
  have key := fun v hv => BR.consumeBoundary_faulty (v := v) hsi s.setMin_entryMin hst hd hn hv
  by_cases hA : ∃ e, Ev.err e ∈ s.evs ∧ (s.setMin minBufSize).consumeBoundary.1 = .err e ∧ (s.setMin minBufSize).Faulted (s.setMin minBufSize).consumeBoundary.2
  · left
    obtain ⟨e, h1, h2, h3⟩ := hA
    have : s.readEntry D = (.err e, (s.setMin minBufSize).consumeBoundary.2) := by
      unfold BR.readEntry
      generalize (s.setMin minBufSize).consumeBoundary = x at h2 ⊢
      obtain ⟨x1, x2⟩ := x
      simp only at h2
      subst h2; rfl
    rw [this]
    exact ⟨e, h1, rfl, h3.inv, h3.st, h3.drained, h3.delim, h3.script, h3.shorter, h3.suffix, h3.next⟩
  · right
    have key' : ∀ v, NextIs s.delim s.unread v → _ := fun v hv => (key v hv).resolve_left hA
    refine ⟨fun e he => ?_, ⟨fun rest hN => ?_, fun hN => ?_, fun hN => ?_, fun rest hN hb => ?_⟩, fun rest H X dat hs fh hN hH hfd hsep hb hp => ?_⟩
    · obtain ⟨v, hv⟩ := NextIs.total s.delim s.unread
      have hx := (key' _ hv).1
      unfold BR.readEntry at he
      rcases hcb : (s.setMin minBufSize).consumeBoundary with ⟨r, t⟩
      rw [hcb] at hx he
      simp only at hx
      subst hx
      cases v with
      | close rest => simp [Verdict.result] at he
      | damaged => simp [Verdict.result] at he; exact .inr he.symm
      | truncated => simp [Verdict.result] at he; exact .inl he.symm
      | part rest =>
        have hh := BR.readHeaders_spec hD (BR.consumeBoundary_true hsi hcb).1
        simp only [Verdict.result] at he
        generalize BR.readHeaders D t = x at hh he
        obtain ⟨x1, x2⟩ := x
        simp only at hh he
        cases hh with
        | ok => simp at he
        | err => simp at he; exact .inr he.symm
    · have hx := (key' _ hN).1
      unfold BR.readEntry
      generalize (s.setMin minBufSize).consumeBoundary = x at hx ⊢
      obtain ⟨x1, x2⟩ := x
      simp only [Verdict.result] at hx
      subst hx; rfl
    · have hx := (key' _ hN).1
      unfold BR.readEntry
      generalize (s.setMin minBufSize).consumeBoundary = x at hx ⊢
      obtain ⟨x1, x2⟩ := x
      simp only [Verdict.result] at hx
      subst hx; rfl
    · have hx := (key' _ hN).1
      unfold BR.readEntry
      generalize (s.setMin minBufSize).consumeBoundary = x at hx ⊢
      obtain ⟨x1, x2⟩ := x
      simp only [Verdict.result] at hx
      subst hx; rfl
    · have hx := (key' _ hN).1
      have hsh := fun fh t => BR.readEntry_shown (fh := fh) (t := t) hD hi hn
      unfold BR.readEntry at hsh ⊢
      rcases hcb : (s.setMin minBufSize).consumeBoundary with ⟨r, t⟩
      rw [hcb] at hx hsh
      simp only [Verdict.result] at hx
      subst hx
      have hh := BR.readHeaders_spec hD (BR.consumeBoundary_true hsi hcb).1
      simp only at hsh ⊢
      generalize BR.readHeaders D t = x at hh hsh ⊢
      obtain ⟨x1, x2⟩ := x
      simp only at hh hsh ⊢
      cases hh with
      | err => rfl
      | ok =>
        obtain ⟨rest', P, n, hs, a, c, e, f, g, -⟩ := hsh _ _ rfl
        cases a.unique hi.delim_ne hN
        exact absurd g (hb _ _ _ c e f _)
    · have hx := key' _ hN
      rcases hcb : (s.setMin minBufSize).consumeBoundary with ⟨r, t⟩
      rw [hcb] at hx
      simp only [Verdict.result] at hx
      obtain ⟨rfl, hx2⟩ := hx
      obtain ⟨t1, t2, t3, t4, t5, t6⟩ := BR.consumeBoundary_true hsi hcb
      cases hf : (fill t.min t.buf t.evs).1 with
      | none =>
        left
        have h := BR.readEntry_block_fill hD hi hn (by rw [hcb]) (by rw [hcb]; exact hx2 rest (.inl rfl))
          (fun t' ht => by rw [hcb] at ht; simp only at ht; subst ht; exact hf) hH hfd hsep hb
        exact ⟨h.1 fh hp, h.2.2⟩
      | some e =>
        right
        refine ⟨?_, e, t6.subset ((fill_spec _ _ _).errmem e hf)⟩
        have hl : withHeadersLoop D (t.evs.length + 2) 0 t = (.err (.io e), t.refill) := by
          unfold withHeadersLoop
          rcases BR.readToBoundary_eq t1 with ⟨e', h1, he⟩ | ⟨h1, -⟩
          · rw [he, hf] at *; cases h1; rfl
          · rw [hf] at h1; simp at h1
        have hr : t.readHeaders D = (.err .invalidData, t.refill) := by
          unfold BR.readHeaders FieldHeaders.readFrom withHeaders
          rw [hl]
        unfold BR.readEntry
        rw [hcb]
        simp only [hr]

end Multipart

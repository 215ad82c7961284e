import Verif.Lemmas.LeakSave
import Verif.Lemmas.Session
import Verif.Lemmas.SaveField
import Verif.Model.Entries
import Verif.Spec.Saving
/-!
# How much of the stream is used up by a call

In terms of the bytes unread before and after. All of it holds for any fuel.
-/
namespace Multipart
variable {D : Deps} {cfg : Settings} {fuel : Nat} {w : World} {s t : BR} {p : Nat}

theorem BR.readToBoundary_length (hi : s.Inv) : s.readToBoundary.2.unread.length = s.unread.length ∧ s.readToBoundary.2.Inv := by
  rcases BR.readToBoundary_eq hi with ⟨e, _, he⟩ | ⟨_, he⟩
  · rw [he]; exact ⟨by rw [s.refill_unread], BR.refill_inv hi⟩
  · rw [he]; exact ⟨by rw [s.afterRead_unread], BR.afterRead_inv hi⟩

theorem BR.consume_length (hi : s.Inv) (n : Nat) : s.unread.length ≤ (s.consume n).unread.length + s.idx := by
  have := (BR.skipped_consume hi n).unread
  rw [this, List.length_drop]
  have : Nat.min n s.idx ≤ s.idx := Nat.min_le_right _ _
  omega

theorem tryReadBuf_loss {σ : Type} {f : σ → Bytes → SaveRes Nat Nat × σ} {limit : Nat} (hl : limit < u64Max) :
    ∀ {n total c : Nat} {st : σ} {s : BR}, s.Inv → c ≤ limit →
      s.unread.length + c ≤ (tryReadBuf (limited f limit) n total (c, st) s).2.2.unread.length + limit := by
  intro n
  induction n with
  | zero => intro total c st s _ hc; simp only [tryReadBuf]; omega
  | succ n ih =>
    intro total c st s hi hc
    have hr := BR.readToBoundary_length hi
    have hb := BR.readToBoundary_eq hi
    unfold tryReadBuf
    generalize s.readToBoundary = x at hr hb ⊢
    rcases x with ⟨r, t⟩
    obtain ⟨hlen, hti⟩ := hr
    simp only at hlen hti
    cases r with
    | err e =>
      cases e <;> simp only <;> first | (have := ih (total := total) (c := c) (st := st) hti hc; omega) | omega
    | panic => simp only; omega
    | hang => simp only; omega
    | ok buf =>
      simp only
      split
      · simp only; omega
      · have hbuf : buf.length = t.idx := by
          rcases hb with ⟨e, _, he⟩ | ⟨_, he⟩
          · simp at he
          · simp only [Prod.mk.injEq, Res.ok.injEq] at he
            rw [he.1, he.2, List.length_take]
            exact Nat.min_eq_left (BR.afterRead_inv hi).idx_le
        have hlim : limited f limit (c, st) buf = (.part 0 .sizeLimit, (c, st)) ∨
            (c + buf.length ≤ limit ∧ limited f limit (c, st) buf = ((f st buf).1, c + buf.length, (f st buf).2)) := by
          unfold limited
          simp only
          split
          · exact .inl rfl
          · rename_i hle
            have hnew : Nat.min (c + buf.length) u64Max = c + buf.length := by
              refine Nat.min_eq_left ?_
              change ¬ limit < Min.min (c + buf.length) u64Max at hle
              omega
            rw [hnew] at hle ⊢
            exact .inr ⟨by omega, rfl⟩
        rcases hlim with h | ⟨hle, h⟩
        · rw [h]
          simp only
          have := (BR.skipped_consume hti 0).unread
          rw [this]
          simp
          omega
        · rw [h]
          generalize f st buf = y
          rcases y with ⟨r, st'⟩
          cases r with
          | full k =>
            simp only
            have h1 := ih (total := total + k) (c := c + buf.length) (st := st') (BR.consume_inv hti k) hle
            have := BR.consume_length hti k
            omega
          | part k r => simp only; have := BR.consume_length hti k; omega
          | _ => simp only; omega

theorem tryCopyLimited_loss {σ : Type} {f : σ → Bytes → SaveRes Nat Nat × σ} {limit : Nat} (hl : limit < u64Max) {st : σ} (hi : s.Inv) :
    s.unread.length ≤ (tryCopyLimited f fuel limit st s).2.2.unread.length + limit := by
  have := tryReadBuf_loss (f := f) hl (n := fuel) (total := 0) (st := st) hi (Nat.zero_le _)
  unfold tryCopyLimited
  simpa using this

theorem saveMem_loss {x : Bytes} (hl : cfg.sizeLimit < u64Max) (hi : s.Inv) : s.unread.length ≤ (saveMem cfg fuel x s).2.unread.length + cfg.memLimit x.length := by
  have := tryCopyLimited_loss (f := memStep) (fuel := fuel) (limit := cfg.memLimit x.length) (st := x)
    (Nat.lt_of_le_of_lt (Nat.le_trans (Nat.sub_le _ _) (Nat.min_le_left _ _)) hl) hi
  unfold saveMem
  generalize tryCopyLimited memStep fuel (cfg.memLimit x.length) x s = y at this ⊢
  rcases y with ⟨r, acc, t⟩
  cases r <;> exact this

theorem saveText_loss (hl : cfg.sizeLimit < u64Max) (hi : s.Inv) : s.unread.length ≤ (saveText cfg fuel s).2.unread.length + cfg.memLimit 0 := by
  have := tryCopyLimited_loss (f := textStep) (fuel := fuel) (limit := cfg.memLimit 0) (st := [])
    (Nat.lt_of_le_of_lt (Nat.le_trans (Nat.sub_le _ _) (Nat.min_le_left _ _)) hl) hi
  unfold saveText
  generalize tryCopyLimited textStep fuel (cfg.memLimit 0) [] s = y at this ⊢
  rcases y with ⟨r, acc, t⟩
  cases r <;> exact this

theorem writeTo_loss {k : Sink} (hl : cfg.sizeLimit < u64Max) (hi : s.Inv) : s.unread.length ≤ (writeTo cfg fuel k s).2.2.unread.length + cfg.sizeLimit := by
  unfold writeTo
  rw [if_pos hl]
  exact tryCopyLimited_loss hl hi

theorem saveFile_loss {q : Path} {x : Bytes} (hl : cfg.sizeLimit < u64Max) (hi : s.Inv) : s.unread.length ≤ (saveFile cfg fuel q x w s).2.2.unread.length + cfg.sizeLimit := by
  unfold saveFile
  generalize w.createDirAll q = y
  rcases y with ⟨_ | e, w1⟩
  · simp only
    generalize w1.openFile cfg.openOpts q = y
    rcases y with ⟨e | old, w2⟩
    · simp only; omega
    · simp only
      generalize tryWriteAll x { script := w2.writes, got := [] } = y
      rcases y with ⟨r, k⟩
      cases r with
      | full size => exact writeTo_loss hl hi
      | _ => simp only; omega
  · simp only; omega

theorem withPathMem_loss {q : Path} {x : Bytes} (hl : cfg.sizeLimit < u64Max) (hi : s.Inv) :
    s.unread.length ≤ (withPathMem cfg fuel q x w s).2.2.unread.length + cfg.memLimit x.length + cfg.sizeLimit := by
  have hk := saveMem_loss (fuel := fuel) (x := x) hl hi
  have hv : (saveMem cfg fuel x s).2.Inv := saveMem_keeps (J := BR.Inv) (fun s h => (BR.readToBoundary_length h).2) (fun s t buf _ c hs hr _ => by
    have := (BR.readToBoundary_length hs).2; rw [hr] at this; exact BR.consume_inv this c) hi
  unfold withPathMem
  generalize saveMem cfg fuel x s = y at hk hv ⊢
  rcases y with ⟨r, v⟩
  cases r with
  | part x r =>
    simp only at hk hv ⊢
    split
    · have := saveFile_loss (fuel := fuel) (q := q) (x := x) (w := w) hl hv
      omega
    · simp only; omega
  | _ => simp only at hk ⊢; omega

theorem withPath_loss {q : Path} (hl : cfg.sizeLimit < u64Max) (hi : s.Inv) :
    s.unread.length ≤ (withPath cfg fuel q w s).2.2.unread.length + Nat.min cfg.sizeLimit cfg.memoryThreshold + cfg.sizeLimit := by
  have hm : cfg.memLimit 0 = Nat.min cfg.sizeLimit cfg.memoryThreshold := rfl
  unfold withPath
  split
  · have hs := saveText_spec cfg fuel hi
    have hk := saveText_loss (fuel := fuel) hl hi
    generalize saveText cfg fuel s = y at hs hk ⊢
    rcases y with ⟨r, v⟩
    rw [hm] at hk
    cases r with
    | part x r =>
      simp only at hk hs ⊢
      split
      · have key : ∀ {x : Bytes}, Took s x v → Nat.min x.length u64Max ≤ cfg.memLimit 0 →
            s.unread.length ≤ (withPathMem cfg fuel q x w v).2.2.unread.length + Nat.min cfg.sizeLimit cfg.memoryThreshold + cfg.sizeLimit := by
          intro x g g'
          have h1 := withPathMem_loss (fuel := fuel) (q := q) (x := x) (w := w) hl (g.inv hi)
          have h2 := congrArg List.length (g.unread hi)
          rw [List.length_append] at h2
          have h3 : cfg.memLimit x.length = Nat.min cfg.sizeLimit cfg.memoryThreshold - x.length := rfl
          have h4 : Nat.min cfg.sizeLimit cfg.memoryThreshold ≤ cfg.sizeLimit := Nat.min_le_left _ _
          rw [hm] at g'
          have : x.length ≤ Nat.min cfg.sizeLimit cfg.memoryThreshold := by
            change Min.min x.length u64Max ≤ _ at g'; omega
          omega
        cases hs with
        | limit h1 _ h2 => exact key h1 h2
        | utf8 h1 _ h2 => exact key h1 h2
        | io h1 _ h2 => exact key h1 h2
      · simp only; omega
    | _ => simp only at hk ⊢; omega
  · have := withPathMem_loss (fuel := fuel) (q := q) (x := []) (w := w) hl hi
    have h3 : cfg.memLimit ([] : Bytes).length = Nat.min cfg.sizeLimit cfg.memoryThreshold := rfl
    rw [h3] at this
    exact this

/-- Saving a field uses up at most `size_limit` bytes, and what may be kept in memory. -/
theorem Target.save_loss {T : Target} (hl : cfg.sizeLimit < u64Max) (hi : s.Inv) :
    s.unread.length ≤ (T.save cfg fuel w s).2.2.unread.length + Nat.min cfg.sizeLimit cfg.memoryThreshold + cfg.sizeLimit := by
  cases T with
  | path p => exact withPath_loss hl hi
  | dir d => exact withPath_loss hl hi
  | temp tmp => exact withPath_loss hl hi
  | filename tmp name => exact withPath_loss hl hi

/-! ## `read_entry` -/

theorem BR.readHeaders_loss (hD : D.Sane) (hi : s.Inv) :
    s.unread.length ≤ (s.readHeaders D).2.unread.length + (withHeadersLoop D (s.evs.length + 2) 0 s).2.buf.length ∧ BR.Skipped s (withHeadersLoop D (s.evs.length + 2) 0 s).2 0 := by
  have h := withHeadersLoop_spec hD (s.evs.length + 2) 0 s hi (.inl (Nat.le_refl _))
  unfold BR.readHeaders FieldHeaders.readFrom withHeaders
  generalize withHeadersLoop D (s.evs.length + 2) 0 s = r at h ⊢
  rcases r with ⟨r, t⟩
  simp only at h
  have key : ∀ {t : BR}, BR.Skipped s t 0 → s.unread.length = t.unread.length := fun g => by rw [g.unread]; simp
  cases h with
  | err k1 k2 k3 => exact ⟨by simp only; have := key k1; omega, k1⟩
  | @ok _ n hs k1 k2 =>
    refine ⟨?_, k1⟩
    simp only
    have h1 := BR.consume_length k2 n
    have h2 := k2.idx_le
    have h3 := key k1
    cases FieldHeaders.parse D hs <;> simp only <;> omega

/-- The bytes skipped by `read_entry` up to the delimiter, and the delimiter line. -/
theorem BR.consumeBoundary_loss (hi : s.Inv) : s.consumeBoundary.2.unread.length ≤ s.unread.length ∧
    (∀ p, FirstAt s.delim s.unread p → s.unread.length ≤ s.consumeBoundary.2.unread.length + p + s.delim.length + 2) := by
  have h := BR.consumeBoundary_spec hi
  generalize s.consumeBoundary = r at h ⊢
  rcases r with ⟨r, t⟩
  simp only at h ⊢
  have key : ∀ {t : BR} {k : Nat}, BR.Skipped s t k → t.unread.length ≤ s.unread.length ∧ (∀ p, FirstAt s.delim s.unread p → s.unread.length ≤ t.unread.length + p + s.delim.length + 2) := by
    intro t k g
    have h1 := congrArg List.length g.unread
    rw [List.length_drop] at h1
    refine ⟨by omega, fun p hp => ?_⟩
    have : k ≤ p := by
      have := g.none p
      by_cases hk : k ≤ p
      · exact hk
      · exact absurd hp.1 (this (by omega))
    omega
  have key' : ∀ {t : BR} {q : Nat}, FirstAt s.delim s.unread q → t.unread = s.unread.drop (q + s.delim.length + 2) → t.unread.length ≤ s.unread.length ∧ (∀ p, FirstAt s.delim s.unread p → s.unread.length ≤ t.unread.length + p + s.delim.length + 2) := by
    intro t q g h
    have h1 := congrArg List.length h
    rw [List.length_drop] at h1
    refine ⟨by omega, fun p hp => ?_⟩
    have := FirstAt.unique g hp
    omega
  cases h with
  | done => exact key (BR.Skipped.refl _)
  | next _ a b c => exact key' a c
  | close _ a b c => exact key' a c
  | damaged _ a => exact key a
  | io _ a => exact key a
  | eof _ a => exact key a
  | short _ a => exact key a

end Multipart

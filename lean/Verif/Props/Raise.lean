import Verif.Lemmas.Fuel
import Verif.Props.Exceeds
/-!
# C132: raising a limit
-/
namespace Multipart
variable {D : Deps} {cfg : Settings} {n m fuel : Nat} {T : Target} {w w' : World} {s t : BR}

/-- A limit that was not reported as the reason was not met. -/
theorem tryReadBuf_raise {σ : Type} {f : σ → Bytes → SaveRes Nat Nat × σ} {l l' : Nat} (hl : l ≤ l') : ∀ (n total : Nat) (st : Nat × σ) (s : BR),
    (∀ c, (tryReadBuf (limited f l) n total st s).1 ≠ .part c .sizeLimit) → tryReadBuf (limited f l') n total st s = tryReadBuf (limited f l) n total st s := by
  intro n
  induction n with
  | zero => intro total st s _; rfl
  | succ n ih =>
    intro total st s h
    simp only [tryReadBuf] at h ⊢
    generalize s.readToBoundary = r at h ⊢
    obtain ⟨r, s⟩ := r
    cases r with
    | ok buf =>
      simp only at h ⊢
      by_cases hb : buf = []
      · simp only [hb, if_true]
      · rw [if_neg hb] at h
        rw [if_neg hb, if_neg hb]
        unfold limited at h ⊢
        simp only at h ⊢
        by_cases h1 : l < Nat.min (st.1 + buf.length) u64Max
        · rw [if_pos h1] at h
          exact absurd rfl (h _)
        · rw [if_neg h1] at h
          rw [if_neg h1, if_neg (by omega)]
          generalize f st.2 buf = q at h ⊢
          obtain ⟨q, st1⟩ := q
          cases q with
          | full c => exact ih _ _ _ h
          | _ => rfl
    | err e =>
      cases e with
      | interrupted => exact ih _ _ _ h
      | _ => rfl
    | panic => rfl
    | hang => rfl

/-- The same without a limit. -/
theorem tryReadBuf_unlimited {σ : Type} {f : σ → Bytes → SaveRes Nat Nat × σ} {l : Nat} : ∀ (n total : Nat) (st : Nat × σ) (s : BR),
    (∀ c, (tryReadBuf (limited f l) n total st s).1 ≠ .part c .sizeLimit) →
    tryReadBuf f n total st.2 s = ((tryReadBuf (limited f l) n total st s).1, (tryReadBuf (limited f l) n total st s).2.1.2, (tryReadBuf (limited f l) n total st s).2.2) := by
  intro n
  induction n with
  | zero => intro total st s _; rfl
  | succ n ih =>
    intro total st s h
    simp only [tryReadBuf] at h ⊢
    generalize s.readToBoundary = r at h ⊢
    obtain ⟨r, s⟩ := r
    cases r with
    | ok buf =>
      simp only at h ⊢
      by_cases hb : buf = []
      · simp only [hb, if_true]
      · rw [if_neg hb] at h
        rw [if_neg hb, if_neg hb]
        unfold limited at h ⊢
        simp only at h ⊢
        by_cases h1 : l < Nat.min (st.1 + buf.length) u64Max
        · rw [if_pos h1] at h
          exact absurd rfl (h _)
        · rw [if_neg h1] at h
          rw [if_neg h1]
          generalize f st.2 buf = q at h ⊢
          obtain ⟨q, st1⟩ := q
          cases q with
          | full c => exact ih _ (_, st1) _ h
          | _ => rfl
    | err e =>
      cases e with
      | interrupted => exact ih _ _ _ h
      | _ => rfl
    | panic => rfl
    | hang => rfl

/-- `write_to` with a larger limit, or none. -/
theorem writeTo_raise {k : Sink} (hl : cfg.sizeLimit ≤ n) (h : ∀ c, (writeTo cfg fuel k s).1 ≠ .part c .sizeLimit) :
    writeTo { cfg with sizeLimit := n } fuel k s = writeTo cfg fuel k s := by
  unfold writeTo at h ⊢
  simp only at h ⊢
  by_cases h1 : cfg.sizeLimit < u64Max
  · rw [if_pos h1] at h
    rw [if_pos h1]
    unfold tryCopyLimited at h ⊢
    split
    · simp only at h ⊢
      rw [tryReadBuf_raise hl _ _ _ _ h]
    · exact tryReadBuf_unlimited fuel 0 (0, k) s h
  · rw [if_neg h1, if_neg (by omega)]

theorem saveFile_raise {p : Path} {x : Bytes} (hl : cfg.sizeLimit ≤ n) (h : ∀ d, (saveFile cfg fuel p x w s).1 ≠ .part d .sizeLimit) :
    saveFile { cfg with sizeLimit := n } fuel p x w s = saveFile cfg fuel p x w s := by
  unfold saveFile at h ⊢
  generalize w.createDirAll p = r at h ⊢
  obtain ⟨_ | e, w⟩ := r
  · simp only at h ⊢
    generalize w.openFile cfg.openOpts p = r at h ⊢
    obtain ⟨e | old, w⟩ := r
    · rfl
    · simp only at h ⊢
      generalize tryWriteAll x { script := w.writes, got := [] } = r at h ⊢
      obtain ⟨r, k⟩ := r
      cases r with
      | full size =>
        simp only at h ⊢
        rw [writeTo_raise hl]
        intro c h'
        generalize writeTo cfg fuel k s = r at h h'
        obtain ⟨r, k, t⟩ := r
        simp only at h' h
        subst h'
        exact h _ rfl
      | _ => rfl
  · rfl

theorem memLimit_raise (hm : cfg.memoryThreshold ≤ cfg.sizeLimit) (hl : cfg.sizeLimit ≤ n) (k : Nat) : ({ cfg with sizeLimit := n } : Settings).memLimit k = cfg.memLimit k := by
  unfold Settings.memLimit
  rw [show Nat.min cfg.sizeLimit cfg.memoryThreshold = cfg.memoryThreshold from Nat.min_eq_right hm]
  rw [show Nat.min n cfg.memoryThreshold = cfg.memoryThreshold from Nat.min_eq_right (Nat.le_trans hm hl)]

theorem withPathMem_raise {p : Path} {x : Bytes} (hm : cfg.memoryThreshold ≤ cfg.sizeLimit) (hl : cfg.sizeLimit ≤ n) (h : ∀ d, (withPathMem cfg fuel p x w s).1 ≠ .part d .sizeLimit) :
    withPathMem { cfg with sizeLimit := n } fuel p x w s = withPathMem cfg fuel p x w s := by
  have hs : saveMem { cfg with sizeLimit := n } fuel x s = saveMem cfg fuel x s := by unfold saveMem; rw [memLimit_raise hm hl]
  unfold withPathMem at h ⊢
  rw [hs]
  generalize saveMem cfg fuel x s = r at h ⊢
  obtain ⟨r, t⟩ := r
  cases r with
  | part y reason =>
    simp only at h ⊢
    by_cases hr : reason = .sizeLimit
    · subst hr
      by_cases hc : cfg.cmpSizeLimit y.length = false
      · rw [if_pos ⟨rfl, hc⟩] at h
        have hc' : ({ cfg with sizeLimit := n } : Settings).cmpSizeLimit y.length = false := by
          unfold Settings.cmpSizeLimit at hc ⊢
          rw [decide_eq_false_iff_not] at hc ⊢
          simp only
          omega
        rw [if_pos ⟨rfl, hc'⟩, if_pos ⟨rfl, hc⟩]
        exact saveFile_raise hl h
      · rw [if_neg (fun k => hc k.2)] at h
        exact absurd rfl (h _)
    · rw [if_neg (fun k => hr k.1), if_neg (fun k => hr k.1)]
  | _ => rfl

theorem withPath_raise {p : Path} (hm : cfg.memoryThreshold ≤ cfg.sizeLimit) (hl : cfg.sizeLimit ≤ n) (h : ∀ d, (withPath cfg fuel p w s).1 ≠ .part d .sizeLimit) :
    withPath { cfg with sizeLimit := n } fuel p w s = withPath cfg fuel p w s := by
  have hs : saveText { cfg with sizeLimit := n } fuel s = saveText cfg fuel s := by unfold saveText; rw [memLimit_raise hm hl]
  unfold withPath at h ⊢
  simp only at h ⊢
  by_cases ht : cfg.textPolicy ≠ .ignore
  · rw [if_pos ht] at h
    rw [if_pos ht, if_pos ht, hs]
    generalize saveText cfg fuel s = r at h ⊢
    obtain ⟨r, t⟩ := r
    cases r with
    | part y reason =>
      simp only at h ⊢
      by_cases hc : (reason = .sizeLimit ∧ cfg.cmpSizeLimit y.length = false) ∨ (reason = .utf8 ∧ cfg.textPolicy ≠ .force)
      · rw [if_pos hc] at h
        rw [if_pos hc, if_pos ?_]
        · exact withPathMem_raise hm hl h
        · refine hc.imp_left (fun ⟨h1, h2⟩ => ⟨h1, ?_⟩)
          unfold Settings.cmpSizeLimit at h2 ⊢
          rw [decide_eq_false_iff_not] at h2 ⊢
          simp only
          omega
      · rw [if_neg hc] at h
        rw [if_neg hc, if_neg ?_]
        rintro (⟨h1, -⟩ | h1)
        · subst h1; exact absurd rfl (h _)
        · exact hc (.inr h1)
    | _ => rfl
  · rw [if_neg ht] at h
    rw [if_neg ht, if_neg ht]
    exact withPathMem_raise hm hl h

/-- C132 for a field: what is saved in full is saved in full with a larger `size_limit` and `memory_threshold`. -/
def RaisingNeverHurts (D : Deps) : Prop := ∀ (evs : List Ev) (b : Bytes) (s : BR) (cfg : Settings) (size mem fuel : Nat) (T : Target) (w w' : World) (t : BR) (d : SavedData),
  cfg.Typed → size ≤ u64Max → mem < u64Max → NoErr evs → NoStall evs → Reachable D evs b s → DiskWorks w cfg.openOpts (T.file w) → cfg.textPolicy ≠ .force →
  cfg.sizeLimit ≤ size → cfg.memoryThreshold ≤ mem → T.save cfg fuel w s = (.full d, w', t) →
  ∃ k, ∀ fuel, k ≤ fuel → ∃ d' w'' t', T.save { cfg with sizeLimit := size, memoryThreshold := mem } fuel w s = (.full d', w'', t')

/-- C132 is false of the code: with `size_limit` 2200 and `memory_threshold` 1500 a field of 3300 bytes is saved in full (C38), with `memory_threshold` 2200 only the first 2200 bytes of it. -/
theorem C132_false : ¬ RaisingNeverHurts refDeps := by
  intro h
  obtain ⟨k, hk⟩ := h Sample.evsLong Sample.bnd Sample.sLong { Settings.default with sizeLimit := 2200, memoryThreshold := 1500 } 2200 2200 10 (.path [b!"x"]) Sample.disk _ _ (.file [b!"x"] 3300)
    ⟨by decide, by decide, by decide, rfl⟩ (by decide) (by decide) (by intro e; simp [Sample.evsLong]) (by decide +kernel) Sample.sLong_reachable Sample.disk_works (by decide) (by decide) (by decide) (Sample.save_eq (by decide +kernel))
  obtain ⟨d', w'', t', h1⟩ := hk (Nat.max k 10) (Nat.le_max_left _ _)
  have h2 := withPath_fuel (cfg := { Settings.default with sizeLimit := 2200, memoryThreshold := 2200 }) (fuel := 10) (p := [b!"x"]) (w := Sample.disk) (s := Sample.sLong) (by decide +kernel) (Nat.le_max_right k 10)
  have h3 : (withPath { Settings.default with sizeLimit := 2200, memoryThreshold := 2200 } 10 [b!"x"] Sample.disk Sample.sLong).1 = .full d' := by rw [← h2]; exact congrArg Prod.fst h1
  revert h3
  have h4 : (withPath { Settings.default with sizeLimit := 2200, memoryThreshold := 2200 } 10 [b!"x"] Sample.disk Sample.sLong).1 = .part (.text (List.replicate 2200 0x61)) .sizeLimit := by decide +kernel
  rw [h4]
  intro h5
  cases h5

namespace Sample
/-- A field of 3100 bytes that arrives in pieces of 1500, 1100 and 500 bytes. -/
def evsUneven : List Ev := [.data (b!"--b\r\n" ++ hdr ++ List.replicate 1500 0x61), .data (List.replicate 1100 0x61), .data (List.replicate 500 0x61 ++ b!"\r\n--b--\r\n")]
def sUneven : BR := ((withBody evsUneven bnd).readEntry refDeps).2
end Sample

/-- C132 is false also for `size_limit` alone: with 2000 the field is saved in full, with 2600 only its first 2600 bytes. -/
theorem C132_false_size : (Target.save (.path [b!"x"]) { Settings.default with sizeLimit := 2000 } 10 Sample.disk Sample.sUneven).1 = .full (.file [b!"x"] 3100) ∧
    (Target.save (.path [b!"x"]) { Settings.default with sizeLimit := 2600 } 10 Sample.disk Sample.sUneven).1 = .part (.text (List.replicate 2600 0x61)) .sizeLimit := by decide +kernel

theorem Target.save_raise (hm : cfg.memoryThreshold ≤ cfg.sizeLimit) (hl : cfg.sizeLimit ≤ n) (h : ∀ d, (T.save cfg fuel w s).1 ≠ .part d .sizeLimit) :
    T.save { cfg with sizeLimit := n } fuel w s = T.save cfg fuel w s := by
  cases T with
  | path p => exact withPath_raise hm hl h
  | dir d => exact withPath_raise (p := d ++ [w.randName.1]) hm hl h
  | temp tmp => exact withPath_raise (p := tmp ++ [w.randName.1]) hm hl h
  | filename tmp name => exact withPath_raise hm hl h

/-- C132, as far as it holds, for `size_limit`: if `memory_threshold` is not larger than `size_limit` (as by default), raising `size_limit` changes nothing but results that are cut by `size_limit`: in particular, a full
save stays the same, to the byte, on every disk and every stream. -/
theorem C132_size_partial (hm : cfg.memoryThreshold ≤ cfg.sizeLimit) (hl : cfg.sizeLimit ≤ n) {r : SaveRes SavedData SavedData} (hr : ∀ d, r ≠ .part d .sizeLimit)
    (h : T.save cfg fuel w s = (r, w', t)) : T.save (cfg.setSizeLimit (some n)) fuel w s = (r, w', t) := by
  have := Target.save_raise (T := T) (fuel := fuel) (w := w) (s := s) hm hl (by rw [h]; exact hr)
  rw [h] at this
  exact this

example : (Target.save (.path [b!"x"]) ({ Settings.default with sizeLimit := 2200, memoryThreshold := 1500 }.setSizeLimit (some 5000)) 10 Sample.disk Sample.sLong).1 = .full (.file [b!"x"] 3300) := by
  rw [C132_size_partial (T := .path [b!"x"]) (cfg := { Settings.default with sizeLimit := 2200, memoryThreshold := 1500 }) (fuel := 10) (w := Sample.disk) (s := Sample.sLong) (n := 5000) (r := .full (.file [b!"x"] 3300)) (by decide) (by decide)
    (by intro d; simp) (Sample.save_eq (by decide +kernel))]

theorem entriesLoop_raise (hm : cfg.memoryThreshold ≤ cfg.sizeLimit) (hl : cfg.sizeLimit ≤ n) : ∀ (m : Nat) (res : Res (Option FieldHeaders)) (e : Entries) (w : World) (s : BR),
    (∀ p, (entriesLoop D cfg fuel m res e w s).1 ≠ .part p .sizeLimit) → entriesLoop D { cfg with sizeLimit := n } fuel m res e w s = entriesLoop D cfg fuel m res e w s := by
  intro m
  induction m with
  | zero => intro res e w s _; rfl
  | succ m ih =>
    intro res e w s h
    simp only [entriesLoop] at h ⊢
    by_cases hc : e.fieldsCount < cfg.countLimit
    · rw [if_pos hc] at h
      rw [if_pos hc, if_pos hc]
      cases res with
      | ok o =>
        cases o with
        | none => rfl
        | some hd =>
          simp only at h ⊢
          have hs : withDir (fieldPolicy { cfg with sizeLimit := n } hd) fuel e.saveDir.asPath w s = withDir (fieldPolicy cfg hd) fuel e.saveDir.asPath w s := by
            refine Target.save_raise (T := .dir e.saveDir.asPath) (cfg := fieldPolicy cfg hd) hm hl ?_
            intro d hd'
            change (withDir (fieldPolicy cfg hd) fuel e.saveDir.asPath w s).1 = _ at hd'
            generalize withDir (fieldPolicy cfg hd) fuel e.saveDir.asPath w s = q at h hd'
            obtain ⟨q, w1, t⟩ := q
            simp only at hd'
            subst hd'
            exact absurd rfl (h _)
          rw [hs]
          generalize withDir (fieldPolicy cfg hd) fuel e.saveDir.asPath w s = q at h ⊢
          obtain ⟨q, w1, t⟩ := q
          cases q with
          | full d => exact ih _ _ _ _ h
          | _ => rfl
      | _ => rfl
    · rw [if_neg hc, if_neg hc]

/-- Used by the examples: a request of one field that is saved in full with the default settings. -/
theorem Sample.request_full : ∃ e w' t, withEntries refDeps Settings.default 10 (Entries.new (.perm [b!"d"])) Sample.disk (withBody Sample.evsLong Sample.bnd) = (.full e, w', t) ∧ e.fieldsCount = 1 := by
  generalize hx : withEntries refDeps Settings.default 10 (Entries.new (.perm [b!"d"])) Sample.disk (withBody Sample.evsLong Sample.bnd) = x
  have h1 : x.1.intoEntries.map (·.fieldsCount) = some 1 := by rw [← hx]; decide +kernel
  have h2 : (match x.1 with | .part _ _ => false | _ => true) = true := by rw [← hx]; decide +kernel
  obtain ⟨x, w', t⟩ := x
  cases x with
  | full e => exact ⟨e, w', t, rfl, by simpa [SaveRes.intoEntries] using h1⟩
  | part p q => simp at h2
  | _ => simp [SaveRes.intoEntries] at h1

/-- C132, as far as it holds, for `size_limit` and a whole request. -/
theorem C132_request_size_partial (hm : cfg.memoryThreshold ≤ cfg.sizeLimit) (hl : cfg.sizeLimit ≤ n) {e : Entries} {r : SaveRes Entries PartialEntries} (hr : ∀ p, r ≠ .part p .sizeLimit)
    (h : withEntries D cfg fuel e w s = (r, w', t)) : withEntries D (cfg.setSizeLimit (some n)) fuel e w s = (r, w', t) := by
  rw [← h]
  exact entriesLoop_raise hm hl fuel _ _ _ _ (by show ∀ p, (withEntries D cfg fuel e w s).1 ≠ _; rw [h]; exact hr)

example : ∃ e w' t, withEntries refDeps (Settings.default.setSizeLimit (some 10000000)) 10 (Entries.new (.perm [b!"d"])) Sample.disk (withBody Sample.evsLong Sample.bnd) = (.full e, w', t) ∧ e.fieldsCount = 1 := by
  obtain ⟨e, w', t, h, hc⟩ := Sample.request_full
  exact ⟨e, w', t, C132_request_size_partial (by decide) (by decide) (by intro p; simp) h, hc⟩

theorem entriesLoop_count (hl : cfg.countLimit ≤ n) : ∀ (m : Nat) (res : Res (Option FieldHeaders)) (e : Entries) (w : World) (s : BR),
    (∀ p, (entriesLoop D cfg fuel m res e w s).1 ≠ .part p .countLimit) → entriesLoop D { cfg with countLimit := n } fuel m res e w s = entriesLoop D cfg fuel m res e w s := by
  intro m
  induction m with
  | zero => intro res e w s _; rfl
  | succ m ih =>
    intro res e w s h
    simp only [entriesLoop] at h ⊢
    by_cases hc : e.fieldsCount < cfg.countLimit
    · rw [if_pos hc] at h
      rw [if_pos hc, if_pos (by omega)]
      cases res with
      | ok o =>
        cases o with
        | none => rfl
        | some hd =>
          simp only at h ⊢
          have hs : withDir (fieldPolicy { cfg with countLimit := n } hd) fuel e.saveDir.asPath w s = withDir (fieldPolicy cfg hd) fuel e.saveDir.asPath w s := rfl
          rw [hs]
          generalize withDir (fieldPolicy cfg hd) fuel e.saveDir.asPath w s = q at h ⊢
          obtain ⟨q, w1, t⟩ := q
          cases q with
          | full d => exact ih _ _ _ _ h
          | _ => rfl
      | _ => rfl
    · rw [if_neg hc] at h
      exact absurd rfl (h _)

/-- C132 for `count_limit`: raising it changes nothing but results that are cut by it. -/
theorem C132_count (hl : cfg.countLimit ≤ n) {e : Entries} {r : SaveRes Entries PartialEntries} (hr : ∀ p, r ≠ .part p .countLimit)
    (h : withEntries D cfg fuel e w s = (r, w', t)) : withEntries D (cfg.setCountLimit (some n)) fuel e w s = (r, w', t) := by
  rw [← h]
  exact entriesLoop_count hl fuel _ _ _ _ (by show ∀ p, (withEntries D cfg fuel e w s).1 ≠ _; rw [h]; exact hr)

example : ∃ e w' t, withEntries refDeps (Settings.default.setCountLimit (some 1000)) 10 (Entries.new (.perm [b!"d"])) Sample.disk (withBody Sample.evsLong Sample.bnd) = (.full e, w', t) ∧ e.fieldsCount = 1 := by
  obtain ⟨e, w', t, h, hc⟩ := Sample.request_full
  exact ⟨e, w', t, C132_count (by decide) (by intro p; simp) h, hc⟩

end Multipart

import Verif.Lemmas.CausalSave
import Verif.Props.Causal
import Verif.Props.Exceeds
import Verif.Props.Oversize
/-!
# C133: what is saved depends only on what has arrived, and too large fields are refused early
-/
namespace Multipart
variable {D : Deps} {b : Bytes} {m fuel : Nat} {s s0 t : BR} {cfg : Settings} {T : Target} {w w' : World} {before after es : List Ev} {os : List SOp} {B B' : List Ev}

theorem Target.save_cont (hB : B ≠ []) (hu : (T.save cfg fuel w (s.cont B)).2.2.Before B) : Agree2 B B' (T.save cfg fuel w (s.cont B)) (T.save cfg fuel w (s.cont B')) := by
  cases T with
  | path p => exact withPath_cont hB hu
  | dir d => exact withPath_cont hB hu
  | temp d => exact withPath_cont hB hu
  | filename d n => exact withPath_cont hB hu

theorem Agree2.eq {α γ : Type} {x y : α × γ × BR} {r : α} {g : γ} (h : Agree2 B B' x y) (hx : x = (r, g, t)) (ht : t.evs = es ++ B) : ∃ t', y = (r, g, t') ∧ t'.evs = es ++ B' := by
  subst hx
  obtain ⟨y1, y2, y3⟩ := y
  obtain ⟨h1, h2, u, h3, h4⟩ := h
  simp only at h1 h2 h3 h4
  subst h1 h2 h3 h4
  refine ⟨_, rfl, ?_⟩
  have : u.evs = es := List.append_cancel_right ht
  rw [← this]
  rfl

/-- C133 for a field: what a save results in, and what it leaves on the disk, is the same whatever the reads are that it did not make. The calls `os` are those that were made before. -/
theorem C133_field (hD : D.Sane) (ha : after ≠ []) {r : SaveRes SavedData SavedData} (h : T.save cfg fuel w ((withBody (before ++ after) b).session D os) = (r, w', t)) (ht : t.evs = es ++ after)
    (after' : List Ev) : ∃ t', T.save cfg fuel w ((withBody (before ++ after') b).session D os) = (r, w', t') ∧ t'.evs = es ++ after' := by
  have hc : ∀ C, withBody (before ++ C) b = (withBody before b).cont C := fun _ => rfl
  have hk := (kept_evs ((withBody (before ++ after) b).session D os).evs).save (cfg := cfg) (fuel := fuel) (w := w) (T := T) (s := (withBody (before ++ after) b).session D os) List.suffix_rfl
  rw [h] at hk
  have hb : ((withBody (before ++ after) b).session D os).Before after := BR.Before.of_suffix (t := t) ⟨es, ht⟩ hk
  rw [hc] at h hb
  obtain ⟨-, u, h2, h3⟩ := BR.session_cont (B' := after') hD ha os (withBody before b) (BR.fromReader_inv (before ++ after) b) (BR.fromReader_inv (before ++ after') b) hb
  rw [h2] at h
  rw [hc, h3]
  exact (Target.save_cont ha (by rw [h]; exact ⟨es, ht⟩)).eq h ht

namespace Sample
/-- A field whose first 1100 bytes have arrived. -/
def opsEntry : List SOp := [.readEntry]
/-- No more than 10 bytes, and none of them in memory. -/
def tiny : Settings := { Settings.default with sizeLimit := 10, memoryThreshold := 0 }
theorem tiny_first : Target.save (.path [b!"x"]) tiny 10 disk ((withBody (evsFirst ++ [.err (.other 5)]) bnd).session refDeps opsEntry) =
    (.part (.file [b!"x"] 0) .sizeLimit, (Target.save (.path [b!"x"]) tiny 10 disk ((withBody (evsFirst ++ [.err (.other 5)]) bnd).session refDeps opsEntry)).2.1,
      (Target.save (.path [b!"x"]) tiny 10 disk ((withBody (evsFirst ++ [.err (.other 5)]) bnd).session refDeps opsEntry)).2.2) := save_eq (by decide +kernel)
end Sample

example (after' : List Ev) : ∃ w' t', Target.save (.path [b!"x"]) Sample.tiny 10 Sample.disk ((withBody (Sample.evsFirst ++ after') Sample.bnd).session refDeps Sample.opsEntry) = (.part (.file [b!"x"] 0) .sizeLimit, w', t') ∧ t'.evs = after' := by
  obtain ⟨t', h1, h2⟩ := C133_field (es := []) refDeps_sane (by simp) Sample.tiny_first (by decide +kernel) after'
  exact ⟨_, t', h1, h2⟩

/-- C133 for a request. -/
theorem C133_request (hD : D.Sane) (ha : after ≠ []) {e : Entries} {r : SaveRes Entries PartialEntries} (h : withEntries D cfg fuel e w ((withBody (before ++ after) b).session D os) = (r, w', t)) (ht : t.evs = es ++ after)
    (after' : List Ev) : ∃ t', withEntries D cfg fuel e w ((withBody (before ++ after') b).session D os) = (r, w', t') ∧ t'.evs = es ++ after' := by
  have hc : ∀ C, withBody (before ++ C) b = (withBody before b).cont C := fun _ => rfl
  have hi : ∀ C, ((withBody (before ++ C) b).session D os).Inv := fun C => (BR.session_spec hD os (BR.fromReader_inv (before ++ C) b)).1
  have hk := (kept_inv ((withBody (before ++ after) b).session D os).evs).withEntries (cfg := cfg) (fuel := fuel) (w := w) (e := e)
    (fun s h => ⟨BR.sop_inv hD h.1 .readEntry, (BR.readEntry_evs hD h.1).trans h.2⟩) ⟨hi after, List.suffix_rfl⟩
  rw [h] at hk
  have hb : ((withBody (before ++ after) b).session D os).Before after := BR.Before.of_suffix (t := t) ⟨es, ht⟩ hk.2
  have hi1 := hi after
  have hi2 := hi after'
  rw [hc] at h hb hi1 hi2
  obtain ⟨-, u, h2, h3⟩ := BR.session_cont (B' := after') hD ha os (withBody before b) (BR.fromReader_inv (before ++ after) b) (BR.fromReader_inv (before ++ after') b) hb
  rw [h2] at h hi1
  rw [h3] at hi2
  rw [hc, h3]
  exact (withEntries_cont hD ha hi1 hi2 (by rw [h]; exact ⟨es, ht⟩)).eq h ht

namespace Sample
theorem tiny_request : ∃ p w' t, withEntries refDeps tiny 10 (Entries.new (.perm [b!"d"])) disk ((withBody (evsFirst ++ [.err (.other 5)]) bnd).session refDeps []) = (.part p .sizeLimit, w', t) ∧
    t.evs = [.err (.other 5)] ∧ 1024 ≤ t.unread.length := by
  generalize hx : withEntries refDeps tiny 10 (Entries.new (.perm [b!"d"])) disk ((withBody (evsFirst ++ [.err (.other 5)]) bnd).session refDeps []) = x
  have h1 : (match x.1 with | .part _ r => decide (r = .sizeLimit) | _ => false) = true := by rw [← hx]; decide +kernel
  have h2 : x.2.2.evs = [.err (.other 5)] := by rw [← hx]; decide +kernel
  have h3 : 1024 ≤ x.2.2.unread.length := by rw [← hx]; decide +kernel
  obtain ⟨x, w', t⟩ := x
  cases x with
  | part p r => have h1 : r = .sizeLimit := of_decide_eq_true h1; subst h1; exact ⟨p, w', t, rfl, h2, h3⟩
  | _ => exact absurd h1 (by simp)
end Sample

example : ∃ p w', ∀ after', ∃ t', withEntries refDeps Sample.tiny 10 (Entries.new (.perm [b!"d"])) Sample.disk ((withBody (Sample.evsFirst ++ after') Sample.bnd).session refDeps []) = (.part p .sizeLimit, w', t') ∧ t'.evs = after' := by
  obtain ⟨p, w', t, h1, h2, -⟩ := Sample.tiny_request
  exact ⟨p, w', fun after' => C133_request (es := []) refDeps_sane (by simp) h1 h2 after'⟩

theorem kept_late (hB : B ≠ []) : KeptByFields fun s => s.Late m B :=
  ⟨fun _ h => h.readToBoundary hB, fun s t buf n h hr => by have := (h.readToBoundary hB).consume n; rw [hr] at this; exact this⟩

/-- At EOF, on a stream that did not stall: the delimiter is next, or the stream is almost at its end. -/
theorem BR.atEof_short (hi : s.Inv) (hm : 2 * s.delim.length ≤ s.min) (hn : NoStall s.evs) (h : s.AtEof) (hst : s.st ≠ .atEnd) :
    (∃ p, p ≤ 2 ∧ OccursAt s.delim s.unread p) ∨ s.unread.length < s.delim.length + 2 := by
  rcases BR.atEof_cases hi hm hn h hst with g | ⟨g, -⟩ | g
  · exact .inl ⟨0, by omega, g.1⟩
  · exact .inl ⟨2, by omega, g.1⟩
  · right
    unfold BR.AtEof at h
    rcases BR.readToBoundary_eq hi with ⟨e, _, he⟩ | ⟨hf, he⟩
    · rw [he] at h; simp at h
    rw [he] at h
    have hai := s.afterRead_inv hi
    have hidx : s.afterRead.idx = 0 := by
      simp only [Res.ok.injEq] at h
      have := congrArg List.length h
      rw [List.length_take, Nat.min_eq_left hai.idx_le] at this
      simpa using this
    have hun := s.afterRead_unread
    have hde := s.afterRead_frame.2.2.2
    have hss : s.afterRead.st = .searching := by
      cases hs : s.afterRead.st with
      | atEnd => exact absurd (BR.afterRead_atEnd hi hs) hst
      | searching => rfl
      | boundaryRead =>
        have hc := hai.cursor
        unfold BR.CursorOk at hc
        simp only [hs] at hc
        obtain ⟨p, hp1, -⟩ := hc
        rw [hun, hde] at hp1
        exact absurd hp1.1 (g p)
    have hs : s.st = .searching := by
      apply Classical.byContradiction
      intro hs
      rw [BR.afterRead_other hs] at hss
      exact hs hss
    exact (BR.eof_absent hi hs hm hn hf hidx hss).2.2

/-- C133 for a field: so it depends only on the bytes that were taken, and on `m` more, where `m` is the size of the minimum buffer. -/
theorem C133_field_early (hD : D.Sane) (hm : entryBuf (dashes ++ b) ≤ m) (hos : ∀ n, SOp.field (.setMin n) ∈ os → n ≤ m) (ha : after ≠ []) {r : SaveRes SavedData SavedData}
    (h : T.save cfg fuel w ((withBody (before ++ after) b).session D os) = (r, w', t)) (hfar : m + (Ev.bytes after).length ≤ t.unread.length) (after' : List Ev) :
    ∃ t', T.save cfg fuel w ((withBody (before ++ after') b).session D os) = (r, w', t') := by
  have hl := (kept_late ha).save (cfg := cfg) (fuel := fuel) (w := w) (T := T) (BR.Late.session hD ha os (.new (b := b) (before := before) hm) hm hos)
  rw [h] at hl
  rcases hl.late with ⟨es, g⟩ | g
  · obtain ⟨t', h1, -⟩ := C133_field hD ha h g after'
    exact ⟨t', h1⟩
  · simp only at g; omega

example (after' : List Ev) : ∃ w' t', Target.save (.path [b!"x"]) Sample.tiny 10 Sample.disk ((withBody (Sample.evsFirst ++ after') Sample.bnd).session refDeps Sample.opsEntry) = (.part (.file [b!"x"] 0) .sizeLimit, w', t') := by
  obtain ⟨t', h1⟩ := C133_field_early (m := 1024) refDeps_sane (by decide +kernel) (by simp [Sample.opsEntry]) (by simp) Sample.tiny_first (by decide +kernel) after'
  exact ⟨_, t', h1⟩

/-- C133 for a request. -/
theorem C133_request_early (hD : D.Sane) (hm : entryBuf (dashes ++ b) ≤ m) (hos : ∀ n, SOp.field (.setMin n) ∈ os → n ≤ m) (ha : after ≠ []) {e : Entries} {r : SaveRes Entries PartialEntries}
    (h : withEntries D cfg fuel e w ((withBody (before ++ after) b).session D os) = (r, w', t)) (hfar : m + (Ev.bytes after).length ≤ t.unread.length) (after' : List Ev) :
    ∃ t', withEntries D cfg fuel e w ((withBody (before ++ after') b).session D os) = (r, w', t') := by
  have hJ : KeptByFields fun s => Reachable D (before ++ after) b s ∧ s.Late m after :=
    ⟨fun s ⟨h1, h2⟩ => ⟨h1.run [.fillBuf], h2.readToBoundary ha⟩,
      fun s t buf n ⟨h1, h2⟩ hr => ⟨by have := (h1.run [.fillBuf]).run [.consume n]; simp only [BR.run, BR.op, hr] at this; exact this, (kept_late ha).consume _ _ _ _ h2 hr⟩⟩
  have hl := hJ.withEntries (D := D) (cfg := cfg) (fuel := fuel) (w := w) (e := e) (fun s ⟨h1, h2⟩ => ⟨h1.entry rfl, h2.readEntry ha (by rw [(h1.spec hD).2.2.1]; exact hm)⟩)
    ⟨⟨os, rfl⟩, BR.Late.session hD ha os (.new (b := b) (before := before) hm) hm hos⟩
  rw [h] at hl
  rcases hl.2.late with ⟨es, g⟩ | g
  · obtain ⟨t', h1, -⟩ := C133_request hD ha h g after'
    exact ⟨t', h1⟩
  · simp only at g; omega

example : ∃ p w', ∀ after', ∃ t', withEntries refDeps Sample.tiny 10 (Entries.new (.perm [b!"d"])) Sample.disk ((withBody (Sample.evsFirst ++ after') Sample.bnd).session refDeps []) = (.part p .sizeLimit, w', t') := by
  obtain ⟨p, w', t, h1, -, h3⟩ := Sample.tiny_request
  exact ⟨p, w', fun after' => C133_request_early (m := 1024) refDeps_sane (by decide +kernel) (by simp) (by simp) h1 h3 after'⟩

theorem Target.save_fuel {fuel' : Nat} (h : (T.save cfg fuel w s).1 ≠ .hang) (hm : fuel ≤ fuel') : T.save cfg fuel' w s = T.save cfg fuel w s := by
  cases T with
  | path p => exact withPath_fuel h hm
  | dir d => exact withPath_fuel h hm
  | temp d => exact withPath_fuel h hm
  | filename d n => exact withPath_fuel h hm

/-- C133: when more bytes of a field have arrived than the limits allow, and `m` more, saving it is stopped by the size limit, whatever follows: it does not wait for more, and neither the end of the field nor an error of the
stream makes a difference. -/
theorem C133_refused (hD : D.Sane) (hm : entryBuf (dashes ++ b) ≤ m) (hos : ∀ n, SOp.field (.setMin n) ∈ os → n ≤ m) (ha : after ≠ []) (hn : NoStall before) (he : OnlyInterrupted before)
    (hsz : (Ev.bytes before).length ≤ u64Max) {fh : FieldHeaders} (hen : ((withBody (before ++ after) b).session D os).readEntry D = (.ok (some fh), s)) (hw : DiskWorks w cfg.openOpts (T.file w))
    (ho : cfg.openOpts.createNew = true) (hp : cfg.textPolicy ≠ .force) (hl : cfg.sizeLimit < u64Max)
    (hfar : cfg.sizeLimit + Nat.min cfg.sizeLimit cfg.memoryThreshold + m + (Ev.bytes after).length ≤ s.unread.length)
    (hfield : ∀ p, OccursAt (dashes ++ b) s.unread p → cfg.sizeLimit + Nat.min cfg.sizeLimit cfg.memoryThreshold + m ≤ p) :
    ∃ d w' n, ∀ fuel, n ≤ fuel → ∀ after', ∃ s' t', ((withBody (before ++ after') b).session D os).readEntry D = (.ok (some fh), s') ∧ T.save cfg fuel w s' = (.part d .sizeLimit, w', t') := by
  have hc : ∀ C, withBody (before ++ C) b = (withBody before b).cont C := fun _ => rfl
  have hses : ∀ C, ((withBody (before ++ C) b).session D (os ++ [.readEntry])) = (((withBody (before ++ C) b).session D os).readEntry D).2 := fun C => by rw [BR.session_append]; rfl
  have hos' : ∀ n, SOp.field (.setMin n) ∈ os ++ [.readEntry] → n ≤ m := by
    intro n h
    rcases List.mem_append.mp h with h | h
    · exact hos n h
    · simp at h
  -- nothing of `after` has been read
  have hb : ((withBody (before ++ after) b).session D (os ++ [.readEntry])).Before after := by
    rcases (BR.Late.session hD ha (os ++ [.readEntry]) (.new (b := b) (before := before) hm) hm hos').late with g | g
    · exact g
    · rw [hses, hen] at g; simp only at g; omega
  -- so the reader is the same on the stream that is only interrupted
  have key : ∀ C, ∃ u : BR, s = u.cont after ∧ ((withBody (before ++ C) b).session D os).readEntry D = (.ok (some fh), u.cont C) := by
    intro C
    rw [hc] at hb
    obtain ⟨h1, u, h2, h3⟩ := BR.session_cont (B' := C) hD ha (os ++ [.readEntry]) (withBody before b) (BR.fromReader_inv (before ++ after) b) (BR.fromReader_inv (before ++ C) b) hb
    rw [← hc, hses] at h2 h3
    rw [← hc, ← hc, BR.answers_append, BR.answers_append] at h1
    have h4 := (List.append_inj' h1 rfl).2
    simp only [BR.answers, BR.answer, List.cons.injEq, and_true, CallAnswer.entry.injEq] at h4
    rw [hen] at h2 h4
    exact ⟨u, h2, Prod.ext h4 h3⟩
  obtain ⟨u, hsu, hX⟩ := key [.err .interrupted]
  have hr1 : Reachable D (before ++ [.err .interrupted]) b (u.cont [.err .interrupted]) := Reachable.entry ⟨os, rfl⟩ hX
  obtain ⟨hi1, -, hd1, he1⟩ := hr1.spec hD
  have hbytes : Ev.bytes (before ++ [.err .interrupted]) = Ev.bytes before := by simp [Ev.bytes_append, Ev.bytes]
  have hun : s.unread = (u.cont [.err .interrupted]).unread ++ Ev.bytes after := by
    rw [hsu]; simp [BR.unread, BR.cont, Ev.bytes_append, Ev.bytes]
  have hlen1 : cfg.sizeLimit + Nat.min cfg.sizeLimit cfg.memoryThreshold + m ≤ (u.cont [.err .interrupted]).unread.length := by
    rw [hun, List.length_append] at hfar; omega
  have hn1 : NoStall (u.cont [.err .interrupted]).evs := by
    intro g
    rcases List.mem_append.mp (he1.subset g) with k | k
    · exact hn k
    · simp at k
  have ho1 : OnlyInterrupted (u.cont [.err .interrupted]).evs := by
    intro e g
    rcases List.mem_append.mp (he1.subset g) with k | k
    · exact he e k
    · simpa using k
  have hst1 : (u.cont [.err .interrupted]).st ≠ .atEnd := by
    have := BR.readEntry_spec hD (s := (withBody (before ++ [.err .interrupted]) b).session D os) (BR.session_spec hD os (BR.fromReader_inv _ b)).1
    rw [hX] at this
    cases this with
    | entry _ _ _ _ _ _ _ _ _ _ _ _ _ k => exact k
  have hmin1 : 2 * (u.cont [.err .interrupted]).delim.length ≤ (u.cont [.err .interrupted]).min := by
    have := BR.readEntry_entryMin hD (s := (withBody (before ++ [.err .interrupted]) b).session D os) (BR.session_spec hD os (BR.fromReader_inv _ b)).1
    rw [hX] at this
    exact this.2
  have hm2 : 1024 ≤ m ∧ 2 * (dashes ++ b).length ≤ m := ⟨Nat.le_trans (Nat.le_max_left _ _) hm, Nat.le_trans (Nat.le_max_right _ _) hm⟩
  have hocc : ∀ p, OccursAt (dashes ++ b) (u.cont [.err .interrupted]).unread p → cfg.sizeLimit + Nat.min cfg.sizeLimit cfg.memoryThreshold + m ≤ p := by
    intro p hp
    refine hfield p ?_
    rw [hun]
    exact occursAt_append_left _ hp (by simp [dashes])
  -- a field that ends there would be longer
  have hlong : ∀ x v, Took (u.cont [.err .interrupted]) x v → v.AtEof → cfg.sizeLimit + Nat.min cfg.sizeLimit cfg.memoryThreshold < x.length := by
    intro x v hx hv
    obtain ⟨fos, hfos⟩ := hx.run hi1
    have hsk := BR.run_skipped fos hi1
    have hmv := BR.run_min fos hi1 hmin1
    rw [hfos] at hsk hmv
    obtain ⟨k1, -, k3, k4, k5⟩ := hsk
    simp only at k1 k3 k4 k5 hmv
    apply Classical.byContradiction
    intro hle
    rcases BR.atEof_short (hx.inv hi1) hmv (fun g => hn1 (k4.subset g)) hv (fun g => hst1 (k5.mp g)) with ⟨p, hp1, hp2⟩ | g
    · rw [k1, k3, hd1] at hp2
      have : OccursAt (dashes ++ b) (u.cont [.err .interrupted]).unread (x.length + p) := by
        unfold OccursAt at hp2 ⊢
        rwa [List.drop_drop] at hp2
      have := hocc _ this
      omega
    · rw [k1, k3, hd1, List.length_drop] at g
      omega
  have hsz1 : (Ev.bytes (before ++ [.err .interrupted])).length ≤ u64Max := by rw [hbytes]; exact hsz
  have ht : Nat.min cfg.sizeLimit cfg.memoryThreshold < u64Max := Nat.lt_of_le_of_lt (Nat.min_le_left ..) hl
  obtain ⟨⟨n, hne⟩, -⟩ := C44_terminates_partial (T := T) (w := w) (cfg := cfg) hD hr1 (.inl ht)
  rcases hsv : T.save cfg n w (u.cont [.err .interrupted]) with ⟨r, w', t⟩
  have hnh := hne n (Nat.le_refl _)
  rw [hsv] at hnh
  have hbig := Target.save_big hD hr1 hsz1 ho1 hw ho hl hlong hsv
  have hr : ∃ d, r = .part d .sizeLimit := by
    rcases hbig with g | g | g
    · exact absurd g hnh
    · exact g
    · exact absurd g.1 hp
  obtain ⟨d, rfl⟩ := hr
  refine ⟨d, w', n, fun fuel hf after' => ?_⟩
  -- what was taken is not more than the limits allow
  obtain ⟨c, hc1, hc2⟩ := (C48_no_loss_partial hD hr1 (.inl ho)).1 d _ hsv
  have hun2 : (u.cont [.err .interrupted]).unread = c ++ t.unread := by
    rcases hc2 with g | ⟨-, -, e, g, -⟩
    · exact g
    · simp at g
  obtain ⟨c', hc3, hc4, -⟩ := C54_readable hD hr1 hsz1 (.inl ho) (.inr hsv)
  rw [hc1] at hc3
  cases hc3
  have hsize := (C38_size_limit_partial hD hr1 hsz1 hl (.inr hsv)).2
  rw [← Target.save_fuel (fuel' := fuel) (by rw [hsv]; simp) hf] at hsv
  have hXs := hses [.err .interrupted]
  rw [hX] at hXs
  simp only at hXs
  rw [← hXs] at hsv
  have hlen2 := congrArg List.length hun2
  rw [List.length_append] at hlen2
  obtain ⟨t', ht'⟩ := C133_field_early hD hm hos' (by simp) hsv (by simp only [Ev.bytes, List.length_nil]; omega) after'
  obtain ⟨u', -, hu'⟩ := key after'
  refine ⟨u'.cont after', t', hu', ?_⟩
  rw [hses, hu'] at ht'
  exact ht'

namespace Sample
/-- Behind the headers of this field. -/
def sFirst : BR := ((withBody (evsFirst ++ [.err (.other 5)]) bnd).readEntry refDeps).2
theorem entryFirst : ((withBody (evsFirst ++ [.err (.other 5)]) bnd).session refDeps []).readEntry refDeps = (.ok (some fh), sFirst) := by
  have h : ((withBody (evsFirst ++ [.err (.other 5)]) bnd).readEntry refDeps).1 = .ok (some fh) := by decide +kernel
  exact pair_eq h sFirst.eq_def.symm
end Sample

/-- 1100 bytes have arrived, and the limit is 10. -/
example : ∃ d w' n, ∀ fuel, n ≤ fuel → ∀ after', ∃ s' t', ((withBody (Sample.evsFirst ++ after') Sample.bnd).session refDeps []).readEntry refDeps = (.ok (some Sample.fh), s') ∧
    Target.save (.path [b!"x"]) Sample.tiny fuel Sample.disk s' = (.part d .sizeLimit, w', t') := by
  have hw : DiskWorks Sample.disk Sample.tiny.openOpts (Target.file (.path [b!"x"]) Sample.disk) := Sample.disk_works (p := [b!"x"])
  have he : OnlyInterrupted Sample.evsFirst := by intro e h; unfold Sample.evsFirst at h; rw [List.mem_singleton] at h; cases h
  exact C133_refused (m := 1024) refDeps_sane (by decide +kernel) (by simp) (by simp) (by decide +kernel) he (by decide +kernel) Sample.entryFirst hw rfl (by decide) (by decide) (by decide +kernel)
    (fun p h => absurd h (findSub_eq_none_iff.mp (by decide +kernel) p))

end Multipart

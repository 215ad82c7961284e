import Verif.Spec.Dirs
import Verif.Lemmas.Entries
import Verif.Props.Save
import Verif.Props.Entries
/-!
# C49-C53, C55-C57: saving whole requests

`withEntries D cfg fuel e w s` is `SaveBuilder::with_entries` on a `Multipart` in state `s` with settings `cfg` and entries `e`.
-/
namespace Multipart

variable {D : Deps} {evs : List Ev} {b : Bytes} {s s0 t : BR} {cfg : Settings} {fuel : Nat} {w w' : World} {e e' : Entries} {r : SaveRes Entries PartialEntries}

theorem withEntries_spec (h : withEntries D cfg fuel e w s = (r, w', t)) :
    ∃ fs w1 s1, SavedSeq D cfg fuel e.saveDir.asPath w s fs w1 s1 ∧
      (∀ init last, fs = init ++ [last] → (e.recountFields.pushAll init).fieldsCount < cfg.countLimit) ∧
      (LoopEnd D cfg fuel (e.recountFields.pushAll fs) w1 s1 r w' t ∨ (r = .hang ∧ fs.length = fuel)) :=
  entriesLoop_spec D cfg fuel fuel e.recountFields w s h

theorem Entries.recount_count (e : Entries) : e.recountFields.fieldsCount = Nat.min (total e.recountFields.fields) u32Max := by
  show Nat.min _ _ = Nat.min _ _
  exact Nat.min_comm _ _

theorem Entries.count_lt (hc : cfg.Typed) (e : Entries) (fs : List SavedField) (h : (e.recountFields.pushAll fs).fieldsCount < cfg.countLimit) :
    total e.fields + fs.length < cfg.countLimit ∧ (e.recountFields.pushAll fs).fieldsCount = total e.fields + fs.length := by
  rw [Entries.pushAll_count fs e.recountFields e.recount_count] at h ⊢
  have h : min (total e.fields + fs.length) u32Max < _ := h
  show _ ∧ min (total e.fields + fs.length) u32Max = _
  have := hc.count
  omega

theorem Entries.count_ge (e : Entries) (fs : List SavedField) (h : cfg.countLimit ≤ (e.recountFields.pushAll fs).fieldsCount) :
    cfg.countLimit ≤ total e.fields + fs.length := by
  rw [Entries.pushAll_count fs e.recountFields e.recount_count] at h
  have h : _ ≤ min (total e.fields + fs.length) u32Max := h
  omega

theorem eq_nil_or_snoc {α : Type} (l : List α) : l = [] ∨ ∃ init last, l = init ++ [last] := by
  rcases List.eq_nil_or_concat l with h | ⟨a, c, h⟩
  · exact .inl h
  · exact .inr ⟨a, c, by rw [h, List.concat_eq_append]⟩

/-! ## C49 -/

/-- C49: starting with at most `count_limit` fields (for example with none), saving never leaves more than `count_limit` fields in the
result, whatever it is; not even if the partially saved field is kept. -/
theorem C49_count_limit (hc : cfg.Typed) (he : total e.fields ≤ cfg.countLimit) (h : withEntries D cfg fuel e w s = (r, w', t)) :
    (∀ e', r = .full e' → total e'.fields ≤ cfg.countLimit) ∧
    (∀ p reason, r = .part p reason → total p.entries.fields ≤ cfg.countLimit ∧ total p.keepPartial.fields ≤ cfg.countLimit) := by
  obtain ⟨fs, w1, s1, h1, h2, h3⟩ := withEntries_spec h
  have htot := Entries.pushAll_total fs e.recountFields
  have hte : total e.recountFields.fields = total e.fields := rfl
  have hle : total (e.recountFields.pushAll fs).fields ≤ cfg.countLimit := by
    rcases eq_nil_or_snoc fs with rfl | ⟨init, last, rfl⟩
    · exact he
    · have := (Entries.count_lt hc e init (h2 _ _ rfl)).1
      rw [htot, hte]; simp; omega
  have hkeep : ∀ hd d, total ((e.recountFields.pushAll fs).pushField hd d).fields = total (e.recountFields.pushAll fs).fields + 1 :=
    fun hd d => pushInto_total _ _
  rcases h3 with h3 | ⟨rfl, -⟩
  · cases h3 with
    | full => exact ⟨by rintro _ ⟨⟩; exact hle, by simp⟩
    | count => exact ⟨by simp, by rintro _ _ ⟨⟩; exact ⟨hle, hle⟩⟩
    | read => exact ⟨by simp, by rintro _ _ ⟨⟩; exact ⟨hle, hle⟩⟩
    | part _ h4 =>
      refine ⟨by simp, ?_⟩
      rintro _ _ ⟨⟩
      have := (Entries.count_lt hc e fs h4).1
      refine ⟨hle, ?_⟩
      show total ((e.recountFields.pushAll fs).pushField _ _).fields ≤ _
      rw [hkeep, htot, hte]; omega
    | error => exact ⟨by simp, by rintro _ _ ⟨⟩; exact ⟨hle, hle⟩⟩
    | panic => simp
    | hang => simp
  · simp

/-! ## C52 -/

/-- C52: adding fields one after the other to an empty `Entries` groups them by name; the count is the number of fields, saturating. -/
theorem C52_grouped (dir : SaveDir) (fs : List SavedField) :
    let e := fs.foldl (fun e f => e.pushField f.headers f.data) (Entries.new dir)
    GroupedByName e.fields fs ∧ e.fieldsCount = Nat.min fs.length u32Max ∧ e.saveDir = dir ∧ (e.isEmpty = true ↔ fs = []) := by
  intro e
  have hg : GroupedByName e.fields ([] ++ fs) := Entries.pushAll_grouped fs (Entries.new dir) [] .nil
  rw [List.nil_append] at hg
  refine ⟨hg, ?_, Entries.pushAll_dir fs _, ?_⟩
  · have := Entries.pushAll_count fs (Entries.new dir) rfl
    rw [show total (Entries.new dir).fields = 0 from rfl, Nat.zero_add] at this
    exact this
  · have ht := hg.total
    constructor
    · intro h
      have : e.fields = [] := by simpa [Entries.isEmpty] using h
      rw [this] at ht
      exact List.length_eq_zero_iff.mp ht.symm
    · intro h
      subst h; rfl

/-- C52 for a map changed from outside: `recount_fields` finds the number of fields in it. -/
theorem C52_recount (e : Entries) : e.recountFields.fieldsCount = Nat.min (total e.fields) u32Max ∧ e.recountFields.fields = e.fields ∧ e.recountFields.saveDir = e.saveDir :=
  ⟨e.recount_count, rfl, rfl⟩

/-! ## C53 -/

theorem BR.fill_stable {shown : Bytes} (hi : s.Inv) (hn : NoStall s.evs) (h : s.readToBoundary = (.ok shown, t)) : t.readToBoundary = (.ok shown, t) := by
  rcases BR.readToBoundary_eq hi with ⟨e', h1, h2⟩ | ⟨h1, h2⟩
  · rw [h2] at h; simp at h
  rw [h2] at h
  simp only [Prod.mk.injEq, Res.ok.injEq] at h
  obtain ⟨rfl, rfl⟩ := h
  have hai := s.afterRead_inv hi
  have hf := s.afterRead_frame
  have hen := (fill_spec s.min s.evs s.buf).enough h1 hn
  have hsame := (fill_spec s.afterRead.min s.afterRead.evs s.afterRead.buf).same (by rw [hf.1, hf.2.1, hf.2.2.1]; exact hen)
  have hre : s.afterRead.refill = s.afterRead := by
    unfold BR.refill; rw [hsame.2.1, hsame.2.2]
  rcases BR.readToBoundary_eq hai with ⟨e', k1, _⟩ | ⟨_, k⟩
  · rw [hsame.1] at k1; simp at k1
  · rw [k, BR.settled_stable ⟨s, hi, rfl⟩ hre]

theorem TookAll.eof {x : Bytes} (hi : s.Inv) (hn : NoStall s.evs) (h : TookAll s x t) : Took s x t ∧ t.AtEof := by
  obtain ⟨h1, s1, h2, h3, h4⟩ := h
  refine ⟨h1, ?_⟩
  unfold BR.AtEof at h3 ⊢
  have := BR.fill_stable (h2.inv hi) (hn.suffix (h2.evs hi)) (Sample.pair_eq h3 h4.symm)
  rw [this]

/-- A full save, with the calls that take the bytes. -/
theorem Target.save_full (T : Target) (hD : D.Sane) (hn : NoStall evs) (hr : Reachable D evs b s) {d : SavedData}
    (h : T.save cfg fuel w s = (.full d, w', t)) (ho : OpensEmpty cfg w (T.file w)) : ∃ x, Took s x t ∧ t.AtEof ∧ d.readable w' = .ok x := by
  have hsp := hr.spec hD
  have hi := hsp.1
  have key : ∀ {x : Bytes}, TookAll s x t → d.readable w' = .ok x → ∃ x, Took s x t ∧ t.AtEof ∧ d.readable w' = .ok x := by
    intro x hx hx'
    obtain ⟨h1, h2⟩ := hx.eof hi (hn.suffix hsp.2.2.2)
    exact ⟨x, h1, h2, hx'⟩
  cases Target.save_spec hi h with
  | text h1 h2 h3 h4 h5 => exact key h2 rfl
  | bytes h1 h2 h3 => exact key h2 rfl
  | file h1 h2 h3 h4 h5 =>
    cases h5 with
    | full g1 g2 g3 g4 =>
      refine key (TookAll.after h1 g1) ?_
      rw [(ho.world (T := T)).overlay g2] at g3
      simp only [SavedData.readable]; rw [g3.at]

theorem FileOut.took {p : Path} {bytes : Bytes} {r : SaveRes SavedData SavedData} (h : FileOut cfg p bytes w s w' t r) (hr : r ≠ .hang) : ∃ x, Took s x t := by
  cases h with
  | hang => exact absurd rfl hr
  | noFile h _ _ => subst h; exact ⟨[], .refl _⟩
  | cut h => subst h; exact ⟨[], .refl _⟩
  | cut0 h => subst h; exact ⟨[], .refl _⟩
  | full h => exact ⟨_, h.1⟩
  | part h => exact ⟨_, h⟩
  | error h => exact ⟨_, h⟩

/-- A save only makes calls on the field. -/
theorem Target.save_took (T : Target) {r : SaveRes SavedData SavedData} (hi : s.Inv) (h : T.save cfg fuel w s = (r, w', t)) (hr : r ≠ .hang) : ∃ x, Took s x t := by
  cases Target.save_spec hi h with
  | hang => exact absurd rfl hr
  | text _ g => exact ⟨_, g.1⟩
  | bytes _ g => exact ⟨_, g.1⟩
  | partText _ g => exact ⟨_, g⟩
  | partBytes _ g => exact ⟨_, g⟩
  | error _ g => exact ⟨_, g⟩
  | file h1 _ _ _ h5 =>
    obtain ⟨x, hx⟩ := h5.took hr
    exact ⟨_, h1.trans hx⟩

theorem Target.save_keeps (T : Target) (hD : D.Sane) (hr : Reachable D evs b s) {r : SaveRes SavedData SavedData} (h : T.save cfg fuel w s = (r, w', t))
    (ho : cfg.openOpts.createNew = true) {q : Path} {c : Bytes} (hq : w.files q = some c) : w'.files q = some c := by
  have := (C46_no_overwrite (T := T) (fuel := fuel) (w := w) hD hr ho).1 q c hq
  rw [h] at this; exact this

theorem Reachable.entry {o : Res (Option FieldHeaders)} (hr : Reachable D evs b s) (h : s.readEntry D = (o, t)) : Reachable D evs b t := by
  have : Reachable D evs b (s.readEntry D).2 := hr.step .readEntry
  rw [h] at this; exact this

theorem SavedSeq.reachable (hD : D.Sane) {dir : Path} {fs : List SavedField} (h : SavedSeq D cfg fuel dir w s fs w' t) (hr : Reachable D evs b s) : Reachable D evs b t := by
  induction h with
  | nil => exact hr
  | cons h1 h2 _ ih =>
    have hr1 := hr.entry h1
    obtain ⟨x, hx⟩ := Target.save_took _ (hr1.spec hD).1 h2 (by simp)
    exact ih (hx.reachable hr1)

/-- Files stay as they are. -/
theorem SavedSeq.keeps (hD : D.Sane) (ho : cfg.openOpts.createNew = true) {dir : Path} {fs : List SavedField} (h : SavedSeq D cfg fuel dir w s fs w' t)
    (hr : Reachable D evs b s) {q : Path} {c : Bytes} (hq : w.files q = some c) : w'.files q = some c := by
  induction h with
  | nil => exact hq
  | cons h1 h2 _ ih =>
    have hr1 := hr.entry h1
    obtain ⟨x, hx⟩ := Target.save_took _ (hr1.spec hD).1 h2 (by simp)
    refine ih (hx.reachable hr1) ?_
    exact Target.save_keeps _ hD hr1 h2 ho hq

theorem SavedData.readable_mono {d : SavedData} {c : Bytes} (h : d.readable w = .ok c) (hk : ∀ q c, w.files q = some c → w'.files q = some c) : d.readable w' = .ok c := by
  cases d with
  | text => exact h
  | bytes => exact h
  | file p n =>
    simp only [SavedData.readable] at h ⊢
    cases hp : w.files p with
    | none => rw [hp] at h; simp at h
    | some c' => rw [hp] at h; rw [hk p c' hp]; exact h

/-- Fields saved one after the other were read one after the other to their ends. -/
theorem SavedSeq.reads (hD : D.Sane) (hn : NoStall evs) (ho : cfg.openOpts.createNew = true) {dir : Path} {fs : List SavedField}
    (h : SavedSeq D cfg fuel dir w s fs w' t) (hr : Reachable D evs b s) :
    ∃ got : List (FieldHeaders × Bytes), All2 (fun (f : SavedField) g => f.headers = g.1 ∧ f.data.readable w' = .ok g.2) fs got ∧
      ∀ es fin, Reads D t es fin → Reads D s (got ++ es) fin := by
  induction h with
  | nil => exact ⟨[], .nil, fun es fin h => h⟩
  | @cons w w1 w2 s s1 s2 t hd d fs h1 h2 h3 ih =>
    have hr1 := hr.entry h1
    obtain ⟨x, hx, heof, hread⟩ := Target.save_full (.dir dir) hD hn hr1 h2 (.inl ho)
    have hr2 := hx.reachable hr1
    obtain ⟨got, g1, g2⟩ := ih hr2
    obtain ⟨os, hos⟩ := hx.run (hr1.spec hD).1
    refine ⟨(hd, x) :: got, .cons ⟨rfl, SavedData.readable_mono hread (fun q c => h3.keeps hD ho hr2)⟩ g1, fun es fin hR => ?_⟩
    have := Reads.entry (os := os) h1 (by rw [hos]; exact heof) (by rw [hos]; exact g2 es fin hR)
    rw [hos] at this
    exact this

theorem All2.length {α β : Type} {R : α → β → Prop} {as : List α} {bs : List β} (h : All2 R as bs) : as.length = bs.length := by
  induction h with
  | nil => rfl
  | cons _ _ ih => simp [ih]

theorem All2.trans {α β γ : Type} {R : α → β → Prop} {S : β → γ → Prop} {as : List α} {bs : List β} {cs : List γ} (h : All2 R as bs) (h' : All2 S bs cs) :
    All2 (fun a c => ∃ b, R a b ∧ S b c) as cs := by
  induction h generalizing cs with
  | nil => cases h'; exact .nil
  | cons a _ ih => cases h' with | cons a' h' => exact .cons ⟨_, a, a'⟩ (ih h')

theorem All2.imp {α β : Type} {R S : α → β → Prop} {as : List α} {bs : List β} (h : All2 R as bs) (hi : ∀ a b, R a b → S a b) : All2 S as bs := by
  induction h with
  | nil => exact .nil
  | cons a _ ih => exact .cons (hi _ _ a) ih

theorem All2.split {α β : Type} {R : α → β → Prop} {as as' : List α} {bs : List β} (h : All2 R (as ++ as') bs) :
    All2 R as (bs.take as.length) ∧ All2 R as' (bs.drop as.length) := by
  induction as generalizing bs with
  | nil => simpa using ⟨All2.nil, h⟩
  | cons a as ih =>
    cases h with
    | cons h1 h2 =>
      obtain ⟨h3, h4⟩ := ih h2
      exact ⟨.cons h1 h3, h4⟩

/-- C53: if saving a whole request into new entries reports `Full`, then entries were read one after the other, each saved fully, until `read_entry`
reported the end; the result are exactly these fields, grouped by name, with their number. (No assumption on the stream.) -/
theorem C53_all_read (hc : cfg.Typed) (dir : SaveDir) (h : withEntries D cfg fuel (Entries.new dir) w s = (.full e, w', t)) :
    ∃ fs s1, SavedSeq D cfg fuel dir.asPath w s fs w' s1 ∧ s1.readEntry D = (.ok none, t) ∧ GroupedByName e.fields fs ∧ e.fieldsCount = fs.length ∧ e.saveDir = dir := by
  obtain ⟨fs, w1, s1, h1, h2, h3⟩ := withEntries_spec h
  rcases h3 with h3 | ⟨h3, -⟩
  · cases h3 with
    | full h4 h5 =>
      refine ⟨fs, s1, h1, h4, ?_, ?_, Entries.pushAll_dir _ _⟩
      · have := Entries.pushAll_grouped fs (Entries.new dir).recountFields [] .nil
        rwa [List.nil_append] at this
      · rw [(Entries.count_lt hc _ _ h5).2]; simp [Entries.new, total]
  · simp at h3

/-- Saved fields and parts of the body: same headers, and the saved contents can be read back and are the data (up to the CRLF of C01). -/
def SavedAs (b : Bytes) (evs : List Ev) (w : World) (f : SavedField) (p : FieldHeaders × Bytes) : Prop :=
  f.headers = p.1 ∧ ∃ c, f.data.readable w = .ok c ∧ SavedOk (dashes ++ b) evs p.2 c

theorem SavedSeq.drained (hD : D.Sane) (hn : NoStall evs) (ho : cfg.openOpts.createNew = true) {dir : Path} {fs : List SavedField}
    (h : SavedSeq D cfg fuel dir w s fs w' t) (hr : Reachable D evs b s) : t.Drained ∨ (fs = [] ∧ t = s) := by
  induction h with
  | nil => exact .inr ⟨rfl, rfl⟩
  | @cons w w1 w2 s s1 s2 t hd d fs h1 h2 h3 ih =>
    have hr1 := hr.entry h1
    obtain ⟨x, hx, heof, hread⟩ := Target.save_full (.dir dir) hD hn hr1 h2 (.inl ho)
    have hr2 := hx.reachable hr1
    rcases ih hr2 with h | ⟨_, rfl⟩
    · exact .inl h
    · exact .inl (BR.AtEof.drained (hr2.spec hD).1 heof)

theorem AtParts.took {es : List (FieldHeaders × Bytes)} {fin : Ending} {x : Bytes} (ha : AtParts D (dashes ++ b) evs s es fin) (h : Took s x t) : AtParts D (dashes ++ b) evs t es fin := by
  obtain ⟨os, hos⟩ := h.run ha.inv
  have := ha.run os
  rw [hos] at this
  exact this

theorem SavedSeq.atParts (hD : D.Sane) (hn : NoStall evs) (hne : NoErr evs) (ho : cfg.openOpts.createNew = true) {dir : Path} {fs : List SavedField}
    {es : List (FieldHeaders × Bytes)} {fin : Ending}
    (h : SavedSeq D cfg fuel dir w s fs w' t) (hr : Reachable D evs b s) (ha : AtParts D (dashes ++ b) evs s es fin)
    (hdr : s.Drained ∨ (s.readEntry D).1 ≠ .err .unexpectedEof) : AtParts D (dashes ++ b) evs t (es.drop fs.length) fin := by
  induction h generalizing es with
  | nil => exact ha
  | @cons w w1 w2 s s1 s2 t hd d fs h1 h2 h3 ih =>
    have hr1 := hr.entry h1
    obtain ⟨x, hx, heof, hread⟩ := Target.save_full (.dir dir) hD hn hr1 h2 (.inl ho)
    have hr2 := hx.reachable hr1
    obtain ⟨dat, es', rfl, ha'⟩ := ha.entry hD hn hne hdr h1
    exact ih hr2 (ha'.took hx) (.inl (BR.AtEof.drained (hr2.spec hD).1 heof))

theorem SavedSeq.savedAs (hD : D.Sane) (hn : NoStall evs) (hne : NoErr evs) (ho : cfg.openOpts.createNew = true) {dir : Path} {fs : List SavedField}
    {es : List (FieldHeaders × Bytes)} {fin : Ending}
    (h : SavedSeq D cfg fuel dir w s fs w' t) (hr : Reachable D evs b s) (ha : AtParts D (dashes ++ b) evs s es fin)
    (hdr : s.Drained ∨ (s.readEntry D).1 ≠ .err .unexpectedEof) : All2 (SavedAs b evs w') fs (es.take fs.length) ∧ fs.length ≤ es.length := by
  induction h generalizing es with
  | nil => exact ⟨.nil, Nat.zero_le _⟩
  | @cons w w1 w2 s s1 s2 t hd d fs h1 h2 h3 ih =>
    have hr1 := hr.entry h1
    obtain ⟨x, hx, heof, hread⟩ := Target.save_full (.dir dir) hD hn hr1 h2 (.inl ho)
    have hr2 := hx.reachable hr1
    obtain ⟨dat, es', rfl, ha', hfd⟩ := ha.entry_data hD hn hne hdr h1
    obtain ⟨i1, i2⟩ := ih hr2 (ha'.took hx) (.inl (BR.AtEof.drained (hr2.spec hD).1 heof))
    refine ⟨.cons ⟨rfl, x, SavedData.readable_mono hread (fun q c => h3.keeps hD ho hr2), hx.savedOk hD hn hr h1 hfd heof⟩ i1, ?_⟩
    simp only [List.length_cons]
    omega

/-- C53 against the bytes of the body: if saving a whole request reports `Full`, its body ended with the closing delimiter, and the saved fields
are all parts of the body in order, each with its headers, and its saved contents can be read back and are its data. (`SavedOk`: up to the CRLF of C01.) -/
theorem C53_full_has_every_field (hD : D.Sane) (hn : NoStall evs) (hne : NoErr evs) (hc : cfg.Typed) (ho : cfg.openOpts.createNew = true)
    {es : List (FieldHeaders × Bytes)} {fin : Ending} (hP : Parts D (dashes ++ b) (Ev.bytes evs) es fin) (dir : SaveDir)
    (h : withEntries D cfg fuel (Entries.new dir) w (withBody evs b) = (.full e, w', t)) :
    fin = .closed ∧ ∃ fs, GroupedByName e.fields fs ∧ e.fieldsCount = es.length ∧
      All2 (fun (f : SavedField) p => f.headers = p.1 ∧ ∃ c, f.data.readable w' = .ok c ∧ SavedOk (dashes ++ b) evs p.2 c) fs es := by
  obtain ⟨fs, s1, h1, h2, h3, h4, -⟩ := C53_all_read hc dir h
  obtain ⟨got, g1, g2⟩ := h1.reads hD hn ho ⟨[], rfl⟩
  obtain ⟨k1, k2⟩ := C10_entries_are_parts hD hn hne hP (g2 [] .closed (.close h2))
  rw [List.append_nil] at k2
  have hl : fs.length = es.length := by rw [g1.length, k2.length]
  refine ⟨k1.symm, fs, h3, by rw [h4, hl], ?_⟩
  have := (h1.savedAs hD hn hne ho ⟨[], rfl⟩ (.start hP) (.inl (by intro h; simp [withBody, BR.fromReader] at h))).1
  rw [hl, List.take_length] at this
  exact this

/-- What was saved when the count limit was hit. -/
theorem count_spec (hc : cfg.Typed) {p : PartialEntries} (he : total e.fields ≤ cfg.countLimit)
    (h : withEntries D cfg fuel e w s = (.part p .countLimit, w', t)) (hno : p.part = none) :
    ∃ fs s1, SavedSeq D cfg fuel e.saveDir.asPath w s fs w' s1 ∧ total e.fields + fs.length = cfg.countLimit ∧ t = (s1.readEntry D).2 ∧
      p.entries = e.recountFields.pushAll fs := by
  obtain ⟨fs, w1, s1, h1, h2, h3⟩ := withEntries_spec h
  rcases h3 with h3 | ⟨h3, -⟩
  · cases h3 with
    | count h4 =>
      refine ⟨fs, s1, h1, ?_, rfl, rfl⟩
      have h5 := Entries.count_ge e fs h4
      rcases eq_nil_or_snoc fs with rfl | ⟨init, last, rfl⟩
      · simp at h5 ⊢; omega
      · have := (Entries.count_lt hc e init (h2 _ _ rfl)).1
        simp at h5 ⊢; omega
    | part => simp at hno
  · simp at h3

/-- Saving one field never reports `CountLimit`. -/
theorem Target.save_not_count (T : Target) (hi : s.Inv) {d : SavedData} : T.save cfg fuel w s ≠ (.part d .countLimit, w', t) := by
  intro h
  cases Target.save_spec hi h with
  | partText _ _ _ _ _ h6 => simp at h6
  | partBytes _ _ _ h4 => simp at h4
  | file _ _ _ _ h5 =>
    cases h5 with
    | part _ _ _ _ h6 => simp at h6

theorem count_no_part (hD : D.Sane) (hr : Reachable D evs b s) {p : PartialEntries} (h : withEntries D cfg fuel e w s = (.part p .countLimit, w', t)) : p.part = none := by
  obtain ⟨fs, w1, s1, h1, h2, h3⟩ := withEntries_spec h
  rcases h3 with h3 | ⟨h3, -⟩
  · cases h3 with
    | count => rfl
    | part h4 h5 h6 => exact absurd h6 (Target.save_not_count _ ((((h1.reachable hD hr)).entry h4).spec hD).1)
  · simp at h3

/-! ## C50 -/

/-- The full claim C50: a request with no more than `count_limit` fields is never stopped by the count limit. -/
def CountLimitExact (D : Deps) : Prop :=
  ∀ (evs : List Ev) (b : Bytes) (cfg : Settings) (fuel : Nat) (dir : SaveDir) (w w' : World) (t : BR) (es : List (FieldHeaders × Bytes)) (fin : Ending) (p : PartialEntries),
    cfg.Typed → cfg.openOpts.createNew = true → NoStall evs → NoErr evs → Parts D (dashes ++ b) (Ev.bytes evs) es fin → es.length ≤ cfg.countLimit →
    withEntries D cfg fuel (Entries.new dir) w (withBody evs b) ≠ (.part p .countLimit, w', t)

/-- C50, as far as it holds: a request with fewer than `count_limit` fields is not stopped by the count limit. Missing: exactly
`count_limit` fields. -/
theorem C50_below_limit_partial (hD : D.Sane) (hn : NoStall evs) (hne : NoErr evs) (hc : cfg.Typed) (ho : cfg.openOpts.createNew = true)
    {es : List (FieldHeaders × Bytes)} {fin : Ending} (hP : Parts D (dashes ++ b) (Ev.bytes evs) es fin) (dir : SaveDir) (hl : es.length < cfg.countLimit)
    (p : PartialEntries) : withEntries D cfg fuel (Entries.new dir) w (withBody evs b) ≠ (.part p .countLimit, w', t) := by
  intro h
  have hr : Reachable D evs b (withBody evs b) := ⟨[], rfl⟩
  obtain ⟨fs, s1, h1, h2, h3, h4⟩ := count_spec hc (e := Entries.new dir) (by simp [Entries.new, total]) h (count_no_part hD hr h)
  have := (h1.savedAs hD hn hne ho hr (.start hP) (.inl (by intro h; simp [withBody, BR.fromReader] at h))).2
  simp [Entries.new, total] at h2
  omega

/-- What the code does instead: a full save holds fewer than `count_limit` fields, so a request with exactly `count_limit` fields is never
saved fully. -/
theorem C50_never_full (hc : cfg.Typed) (h : withEntries D cfg fuel e w s = (.full e', w', t)) : total e'.fields < cfg.countLimit := by
  obtain ⟨fs, w1, s1, h1, h2, h3⟩ := withEntries_spec h
  rcases h3 with h3 | ⟨h3, -⟩
  · cases h3 with
    | full _ h5 =>
      rw [Entries.pushAll_total]
      exact (Entries.count_lt hc _ _ h5).1
  · simp at h3

theorem Sample.entries_eq {D : Deps} {cfg : Settings} {fuel : Nat} {e : Entries} {w : World} {s : BR} {r : SaveRes Entries PartialEntries} (h : (withEntries D cfg fuel e w s).1 = r) :
    withEntries D cfg fuel e w s = (r, (withEntries D cfg fuel e w s).2.1, (withEntries D cfg fuel e w s).2.2) := by rw [← h]

theorem Sample.typed : ({ Settings.default with countLimit := 2 } : Settings).Typed := ⟨by decide, by decide, by decide, rfl⟩

/-- C50 is false of the code. -/
theorem C50_false : ¬ CountLimitExact refDeps := by
  intro h
  refine h Sample.evsTwo Sample.bnd { Settings.default with countLimit := 2 } 10 (.temp [b!"tmp"]) Sample.disk _ _ _ _
    { entries := { fields := [(b!"a", [⟨Sample.fh, .text b!"one"⟩, ⟨Sample.fh, .text b!"two"⟩])], saveDir := .temp [b!"tmp"], fieldsCount := 2 }, part := none }
    Sample.typed rfl (by decide +kernel) (by intro e; simp [Sample.evsTwo]) Sample.partsTwo (by decide) (Sample.entries_eq (by decide +kernel))

example : (withEntries refDeps { Settings.default with countLimit := 3 } 10 (Entries.new (.temp [b!"tmp"])) Sample.disk (withBody Sample.evsTwo Sample.bnd)).1 =
    .full { fields := [(b!"a", [⟨Sample.fh, .text b!"one"⟩, ⟨Sample.fh, .text b!"two"⟩])], saveDir := .temp [b!"tmp"], fieldsCount := 2 } := by decide +kernel
example : (withEntries refDeps { Settings.default with countLimit := 1 } 10 (Entries.new (.temp [b!"tmp"])) Sample.disk (withBody Sample.evsTwo Sample.bnd)).1 =
    .part { entries := { fields := [(b!"a", [⟨Sample.fh, .text b!"one"⟩])], saveDir := .temp [b!"tmp"], fieldsCount := 1 }, part := none } .countLimit := by decide +kernel

/-! ## C51 -/

/-- The full claim C51: after stopping at the count limit and resuming, if the resumed save reports `Full`, all fields of the request are saved. -/
def ResumeLosesNothing (D : Deps) : Prop :=
  ∀ (evs : List Ev) (b : Bytes) (cfg cfg2 : Settings) (fuel fuel2 : Nat) (dir : SaveDir) (w w1 w2 : World) (s1 t : BR) (es : List (FieldHeaders × Bytes)) (fin : Ending)
    (p : PartialEntries) (e : Entries), cfg.Typed → cfg2.Typed → cfg.openOpts.createNew = true → cfg2.openOpts.createNew = true → NoStall evs → NoErr evs →
    Parts D (dashes ++ b) (Ev.bytes evs) es fin → withEntries D cfg fuel (Entries.new dir) w (withBody evs b) = (.part p .countLimit, w1, s1) →
    withEntries D cfg2 fuel2 p.entries w1 s1 = (.full e, w2, t) → total e.fields = es.length

theorem All2.append {α β : Type} {R : α → β → Prop} {as as' : List α} {bs bs' : List β} (h : All2 R as bs) (h' : All2 R as' bs') : All2 R (as ++ as') (bs ++ bs') := by
  induction h with
  | nil => exact h'
  | cons a _ ih => exact .cons a ih

/-- C51, as far as it holds: after stopping at the count limit and resuming, if the resumed save reports `Full`, then all fields of the request are saved, in
order and completely, except the one behind the first `count_limit` ones. Missing: that field, which the first call had already begun to read. -/
theorem C51_resume_partial (hD : D.Sane) (hn : NoStall evs) (hne : NoErr evs) {cfg2 : Settings} (hc : cfg.Typed)
    (ho : cfg.openOpts.createNew = true) (ho2 : cfg2.openOpts.createNew = true)
    {es : List (FieldHeaders × Bytes)} {fin : Ending} (hP : Parts D (dashes ++ b) (Ev.bytes evs) es fin) (dir : SaveDir)
    (hl : fin = .closed ∨ cfg.countLimit < es.length)
    {p : PartialEntries} {w1 w2 : World} {s1 : BR} {fuel2 : Nat}
    (h1 : withEntries D cfg fuel (Entries.new dir) w (withBody evs b) = (.part p .countLimit, w1, s1))
    (h2 : withEntries D cfg2 fuel2 p.entries w1 s1 = (.full e, w2, t)) :
    fin = .closed ∧ ∃ fs, GroupedByName e.fields fs ∧ All2 (SavedAs b evs w2) fs (es.eraseIdx cfg.countLimit) := by
  have hr : Reachable D evs b (withBody evs b) := ⟨[], rfl⟩
  have hd0 : (withBody evs b).Drained ∨ ((withBody evs b).readEntry D).1 ≠ .err .unexpectedEof := .inl (by intro h; simp [withBody, BR.fromReader] at h)
  obtain ⟨fs, s1', a1, a2, a3, a4⟩ := count_spec hc (e := Entries.new dir) (by simp [Entries.new, total]) h1 (count_no_part hD hr h1)
  have a2 : fs.length = cfg.countLimit := by simpa [Entries.new, total] using a2
  obtain ⟨b1, b2⟩ := a1.savedAs hD hn hne ho hr (.start hP) hd0
  have b3 := a1.atParts hD hn hne ho hr (.start hP) hd0
  have hr1' := a1.reachable hD hr
  have hr1 : Reachable D evs b s1 := by rw [a3]; exact hr1'.step .readEntry
  have hd1 : s1'.Drained := by
    rcases a1.drained hD hn ho hr with h | ⟨_, rfl⟩
    · exact h
    · intro h; simp [withBody, BR.fromReader] at h
  have hgr : GroupedByName p.entries.fields fs := by
    rw [a4]
    have := Entries.pushAll_grouped fs (Entries.new dir).recountFields [] .nil
    rwa [List.nil_append] at this
  obtain ⟨fs2, w2', s2, c1, c2, c3⟩ := withEntries_spec h2
  rcases c3 with c3 | ⟨c3, -⟩
  case inr => simp at c3
  cases c3 with
  | full c4 c5 =>
    have hgr2 := Entries.pushAll_grouped fs2 p.entries.recountFields fs hgr
    have keep : ∀ f q, SavedAs b evs w1 f q → SavedAs b evs w2 f q := by
      rintro f q ⟨k1, c, k2, k3⟩
      exact ⟨k1, c, SavedData.readable_mono k2 (fun q c hq => c1.keeps hD ho2 hr1 hq), k3⟩
    have b1' := b1.imp keep
    rw [a2] at b1' b3
    rcases hre : s1'.readEntry D with ⟨o, s1''⟩
    have : s1'' = s1 := by rw [a3, hre]
    subst this
    have verdict : ∀ {got fin'}, Reads D s1' got fin' → fin' = fin ∧ All2 (fun a b_1 => a.1 = b_1.1 ∧ DataOk (dashes ++ b) evs b_1.2 a.2) got (es.drop cfg.countLimit) :=
      fun hR => b3.reads hD hn hne (.inl hd1) hR
    have hlast : ∀ {fin'}, Reads D s1' [] fin' → es.drop cfg.countLimit = [] ∧ fin' = fin := fun hR => by
      obtain ⟨v1, v2⟩ := verdict hR
      have := v2.length
      exact ⟨List.length_eq_zero_iff.mp this.symm, v1⟩
    cases o with
    | panic => exact absurd (by rw [hre]) (BR.readEntry_noPanic hD (hr1'.spec hD).1).1
    | hang => exact absurd (by rw [hre]) (BR.readEntry_noPanic hD (hr1'.spec hD).1).2
    | err er =>
      obtain ⟨v1, v2⟩ := hlast (.fail hre)
      have := List.drop_eq_nil_iff.mp v1
      rcases hl with hl | hl
      · rw [hl] at v2; simp at v2
      · omega
    | ok o =>
      cases o with
      | none =>
        obtain ⟨v1, v2⟩ := hlast (.close hre)
        have hlen := List.drop_eq_nil_iff.mp v1
        have hend := (C08_end_final hD hr1' hre []).1
        cases c1 with
        | nil =>
          refine ⟨v2.symm, fs, by simpa using hgr2, ?_⟩
          rw [List.eraseIdx_of_length_le hlen]
          rwa [List.take_of_length_le hlen] at b1'
        | cons k1 => simp only [BR.session] at hend; rw [k1] at hend; simp at hend
      | some fh =>
        obtain ⟨dat, es', d1, d2⟩ := b3.entry hD hn hne (.inl hd1) hre
        have hes' : es.drop (cfg.countLimit + 1) = es' := by rw [← List.drop_drop, d1]; rfl
        have hdr : s1''.Drained ∨ (s1''.readEntry D).1 ≠ .err .unexpectedEof := by
          refine .inr fun h => ?_
          cases c1 with
          | nil => rw [c4] at h; simp at h
          | cons k1 => rw [k1] at h; simp at h
        obtain ⟨q1, q2⟩ := c1.savedAs hD hn hne ho2 hr1 d2 hdr
        have q3 := c1.atParts hD hn hne ho2 hr1 d2 hdr
        have hdr2 : s2.Drained ∨ (s2.readEntry D).1 ≠ .err .unexpectedEof := .inr (by rw [c4]; simp)
        obtain ⟨z1, z2⟩ := q3.reads hD hn hne hdr2 (.close c4)
        have z3 := z2.length
        have hq : es'.take fs2.length = es' := List.take_of_length_le (by simp at z3; omega)
        rw [hq] at q1
        refine ⟨z1.symm, fs ++ fs2, hgr2, ?_⟩
        rw [List.eraseIdx_eq_take_drop_succ, hes']
        exact b1'.append q1

/-- C51, as far as it holds: if the request has exactly `count_limit` fields, nothing is lost: resuming with any higher limit gives a full
save with all of them. -/
theorem C51_at_end_partial (hD : D.Sane) (hn : NoStall evs) (hne : NoErr evs) {cfg2 : Settings} (hc : cfg.Typed)
    (ho : cfg.openOpts.createNew = true) {es : List (FieldHeaders × Bytes)} (hP : Parts D (dashes ++ b) (Ev.bytes evs) es .closed) (dir : SaveDir)
    (hl : es.length = cfg.countLimit) (hl2 : cfg.countLimit < cfg2.countLimit)
    {p : PartialEntries} {w1 : World} {s1 : BR} (fuel2 : Nat)
    (h1 : withEntries D cfg fuel (Entries.new dir) w (withBody evs b) = (.part p .countLimit, w1, s1)) :
    ∃ e t fs, withEntries D cfg2 (fuel2 + 1) p.entries w1 s1 = (.full e, w1, t) ∧ GroupedByName e.fields fs ∧ All2 (SavedAs b evs w1) fs es := by
  have hr : Reachable D evs b (withBody evs b) := ⟨[], rfl⟩
  have hd0 : (withBody evs b).Drained ∨ ((withBody evs b).readEntry D).1 ≠ .err .unexpectedEof := .inl (by intro h; simp [withBody, BR.fromReader] at h)
  obtain ⟨fs, s1', a1, a2, a3, a4⟩ := count_spec hc (e := Entries.new dir) (by simp [Entries.new, total]) h1 (count_no_part hD hr h1)
  have a2 : fs.length = cfg.countLimit := by simpa [Entries.new, total] using a2
  obtain ⟨b1, b2⟩ := a1.savedAs hD hn hne ho hr (.start hP) hd0
  have b3 := a1.atParts hD hn hne ho hr (.start hP) hd0
  rw [List.take_of_length_le (by omega)] at b1
  rw [List.drop_of_length_le (by omega)] at b3
  have hr1' := a1.reachable hD hr
  have hd1 : s1'.Drained := by
    rcases a1.drained hD hn ho hr with h | ⟨_, rfl⟩
    · exact h
    · intro h; simp [withBody, BR.fromReader] at h
  have hgr : GroupedByName p.entries.fields fs := by
    rw [a4]
    have := Entries.pushAll_grouped fs (Entries.new dir).recountFields [] .nil
    rwa [List.nil_append] at this
  obtain ⟨got, fin, hR⟩ := C10_reads_total hD hr1'
  obtain ⟨rfl, v2⟩ := b3.reads hD hn hne (.inl hd1) hR
  cases hR with
  | entry => cases v2
  | close hre =>
    have hend := (C08_end_final hD hr1' hre []).1
    simp only [BR.session] at hend
    rw [hre] at a3
    simp only at a3
    subst a3
    have htot : total p.entries.fields = fs.length := by rw [a4, Entries.pushAll_total]; simp [Entries.new, total, Entries.recountFields]
    have hlt : p.entries.recountFields.fieldsCount < cfg2.countLimit := by
      rw [Entries.recount_count]
      have h : total p.entries.recountFields.fields = fs.length := htot
      rw [h]
      show min fs.length u32Max < _
      omega
    exact ⟨p.entries.recountFields, (s1.readEntry D).2, fs, by simp only [withEntries, entriesLoop, if_pos hlt, hend], hgr, b1⟩

/-- C51 is false of the code: `"two"` is lost. -/
theorem C51_false : ¬ ResumeLosesNothing refDeps := by
  intro h
  have := h Sample.evsTwo Sample.bnd { Settings.default with countLimit := 1 } Settings.default 10 10 (.temp [b!"tmp"]) Sample.disk _ _ _ _ _ _
    { entries := { fields := [(b!"a", [⟨Sample.fh, .text b!"one"⟩])], saveDir := .temp [b!"tmp"], fieldsCount := 1 }, part := none }
    { fields := [(b!"a", [⟨Sample.fh, .text b!"one"⟩])], saveDir := .temp [b!"tmp"], fieldsCount := 1 }
    ⟨by decide, by decide, by decide, rfl⟩ ⟨by decide, by decide, by decide, rfl⟩ rfl rfl (by decide +kernel) (by intro e; simp [Sample.evsTwo]) Sample.partsTwo
    (Sample.entries_eq (by decide +kernel)) (Sample.entries_eq (by decide +kernel))
  simp [total] at this

/-- C51_at_end_partial. -/
example : ∃ p w1 s1 e t fs, withEntries refDeps { Settings.default with countLimit := 2 } 10 (Entries.new (.temp [b!"tmp"])) Sample.disk (withBody Sample.evsTwo Sample.bnd) = (.part p .countLimit, w1, s1) ∧
    withEntries refDeps Settings.default 1 p.entries w1 s1 = (.full e, w1, t) ∧
    GroupedByName e.fields fs ∧ All2 (SavedAs Sample.bnd Sample.evsTwo w1) fs [(Sample.fh, b!"one"), (Sample.fh, b!"two")] := by
  have h : withEntries refDeps { Settings.default with countLimit := 2 } 10 (Entries.new (.temp [b!"tmp"])) Sample.disk (withBody Sample.evsTwo Sample.bnd) = (.part
    { entries := { fields := [(b!"a", [⟨Sample.fh, .text b!"one"⟩, ⟨Sample.fh, .text b!"two"⟩])], saveDir := .temp [b!"tmp"], fieldsCount := 2 }, part := none } .countLimit, _, _) :=
    Sample.entries_eq (by decide +kernel)
  obtain ⟨e, t, fs, h'⟩ := C51_at_end_partial refDeps_sane (by decide +kernel) (by intro e; simp [Sample.evsTwo]) (cfg2 := Settings.default) Sample.typed rfl Sample.partsTwo _ rfl (by decide) 0 h
  exact ⟨_, _, _, e, t, fs, h, h'⟩

/-- C49_count_limit, C50_below_limit_partial, C50_never_full, C53_all_read and C53_full_has_every_field: a request of two fields and a count limit of three. -/
example : let e : Entries := { fields := [(b!"a", [⟨Sample.fh, .text b!"one"⟩, ⟨Sample.fh, .text b!"two"⟩])], saveDir := .temp [b!"tmp"], fieldsCount := 2 }
    total e.fields ≤ 3 ∧ total e.fields < 3 ∧ (∀ p w' t, withEntries refDeps { Settings.default with countLimit := 3 } 10 (Entries.new (.temp [b!"tmp"])) Sample.disk (withBody Sample.evsTwo Sample.bnd) ≠ (.part p .countLimit, w', t)) ∧
    (∃ fs, GroupedByName e.fields fs ∧ All2 (SavedAs Sample.bnd Sample.evsTwo (withEntries refDeps { Settings.default with countLimit := 3 } 10 (Entries.new (.temp [b!"tmp"])) Sample.disk (withBody Sample.evsTwo Sample.bnd)).2.1) fs [(Sample.fh, b!"one"), (Sample.fh, b!"two")]) ∧
    ∃ s1 : BR, (s1.readEntry refDeps).1 = .ok none := by
  intro e
  have h : withEntries refDeps { Settings.default with countLimit := 3 } 10 (Entries.new (.temp [b!"tmp"])) Sample.disk (withBody Sample.evsTwo Sample.bnd) = (.full e, _, _) := Sample.entries_eq (by decide +kernel)
  have hc : ({ Settings.default with countLimit := 3 } : Settings).Typed := ⟨by decide, by decide, by decide, rfl⟩
  obtain ⟨_, fs, h1, _, h2⟩ := C53_full_has_every_field refDeps_sane (by decide +kernel) Sample.noErrTwo hc rfl Sample.partsTwo _ h
  obtain ⟨_, s1, _, h3, _⟩ := C53_all_read hc _ h
  exact ⟨(C49_count_limit hc (by decide) h).1 e rfl, C50_never_full hc h, fun p w' t => C50_below_limit_partial refDeps_sane (by decide +kernel) Sample.noErrTwo hc rfl Sample.partsTwo _ (by decide) p,
    ⟨fs, h1, h2⟩, ⟨s1, by rw [h3]⟩⟩

/-- C51_resume_partial, for a count limit of one: the second field is lost (C51_false). -/
example : ∃ p w1 s1 e w2 t, withEntries refDeps { Settings.default with countLimit := 1 } 10 (Entries.new (.temp [b!"tmp"])) Sample.disk (withBody Sample.evsTwo Sample.bnd) = (.part p .countLimit, w1, s1) ∧
    withEntries refDeps Settings.default 10 p.entries w1 s1 = (.full e, w2, t) ∧ 1 < [(Sample.fh, b!"one"), (Sample.fh, b!"two")].length :=
  ⟨{ entries := { fields := [(b!"a", [⟨Sample.fh, .text b!"one"⟩])], saveDir := .temp [b!"tmp"], fieldsCount := 1 }, part := none }, _, _,
    { fields := [(b!"a", [⟨Sample.fh, .text b!"one"⟩])], saveDir := .temp [b!"tmp"], fieldsCount := 1 }, _, _, Sample.entries_eq (by decide +kernel), Sample.entries_eq (by decide +kernel), by decide⟩

/-! ## C55 -/

/-- The full claim C55 about `into_result_strict`: it gives `Ok` only if everything was saved. -/
def StrictIsStrict (D : Deps) : Prop :=
  ∀ (evs : List Ev) (b : Bytes) (cfg : Settings) (fuel : Nat) (dir : SaveDir) (w : World) (e : Entries),
    (withEntries D cfg fuel (Entries.new dir) w (withBody evs b)).1.intoResultStrict PartialEntries.into = .ok e →
    (withEntries D cfg fuel (Entries.new dir) w (withBody evs b)).1 = .full e

/-- C55, the part about `into_result`, `into_opt_both`, `okish`: for every result, `into_result` gives exactly the full or partial value or the error of
`Error`; `into_opt_both` gives the same value and, of a partial result, also its I/O error; `okish` is its first component. -/
theorem C55_conversions {α β : Type} (into : β → α) (r : SaveRes α β) (a : α) (er : IoErr) :
    (r.intoResult into = .ok a ↔ r = .full a ∨ ∃ q reason, r = .part q reason ∧ into q = a) ∧
    (r.intoResult into = .err er ↔ r = .error er) ∧
    ((r.intoOptBoth into).1 = some a ↔ r.intoResult into = .ok a) ∧
    ((r.intoOptBoth into).2 = some er ↔ r = .error er ∨ ∃ q, r = .part q (.io er)) ∧
    (r.okish into = some a ↔ r.intoResult into = .ok a) := by
  cases r with
  | part q reason => cases reason <;> simp [SaveRes.intoResult, SaveRes.intoOptBoth, SaveRes.okish]
  | _ => simp [SaveRes.intoResult, SaveRes.intoOptBoth, SaveRes.okish]

/-- C55, as far as it holds of `into_result_strict`: an `Error`, and a partial result because of an I/O error, give this error; and an `Ok` is a full result or
a partial one that was stopped by a limit or by the UTF-8 check. Missing: errors for the latter. -/
theorem C55_strict_partial {α β : Type} (into : β → α) (r : SaveRes α β) (a : α) (er : IoErr) :
    (r.intoResultStrict into = .err er ↔ r = .error er ∨ ∃ q, r = .part q (.io er)) ∧
    (r.intoResultStrict into = .ok a ↔ r = .full a ∨ ∃ q reason, r = .part q reason ∧ into q = a ∧ ∀ e, reason ≠ .io e) := by
  cases r with
  | part q reason =>
    cases reason with
    | io e =>
      simp only [SaveRes.intoResultStrict]
      refine ⟨by simp, by simp, ?_⟩
      rintro (h | ⟨q', r', h, -, h'⟩)
      · simp at h
      · cases h; exact absurd rfl (h' e)
    | _ =>
      simp only [SaveRes.intoResultStrict]
      refine ⟨by simp, fun h => .inr ⟨q, _, rfl, by simpa using h, by simp⟩, ?_⟩
      rintro (h | ⟨q', r', h, h', -⟩)
      · simp at h
      · cases h; rw [h']
  | _ => simp [SaveRes.intoResultStrict]

/-- C55: `into_entries` gives the fields saved before the save ended, without the field that was being saved; `unwrap_err` gives the I/O error, and panics exactly for the other reasons. -/
theorem C55_entries (r : SaveRes Entries PartialEntries) (e : Entries) (reason : Reason) (er : IoErr) :
    (r.intoEntries = some e ↔ r = .full e ∨ ∃ part why, r = .part ⟨e, part⟩ why) ∧
    (reason.unwrapErr = .ok er ↔ reason = .io er) ∧ (reason.unwrapErr = .panic ↔ reason = .sizeLimit ∨ reason = .countLimit ∨ reason = .utf8) := by
  constructor
  · cases r with
    | part q why =>
      obtain ⟨e', p'⟩ := q
      simp only [SaveRes.intoEntries, Option.some.injEq, reduceCtorEq, false_or]
      exact ⟨fun h => ⟨p', why, by rw [h]⟩, fun ⟨_, _, h⟩ => by cases h; rfl⟩
    | _ => simp [SaveRes.intoEntries]
  · cases reason <;> simp [Reason.unwrapErr]

example : ((withEntries refDeps { Settings.default with sizeLimit := 1, memoryThreshold := 0 } 10 (Entries.new (.temp [b!"tmp"])) Sample.disk (withBody Sample.evsTwo Sample.bnd)).1.intoEntries) =
    some { fields := [], saveDir := .temp [b!"tmp"], fieldsCount := 0 } := by decide +kernel

/-- C55 is false of the code: a save stopped by the count limit is `Ok`. -/
theorem C55_false : ¬ StrictIsStrict refDeps := by
  intro h
  have := h Sample.evsTwo Sample.bnd { Settings.default with countLimit := 1 } 10 (.temp [b!"tmp"]) Sample.disk
    { fields := [(b!"a", [⟨Sample.fh, .text b!"one"⟩])], saveDir := .temp [b!"tmp"], fieldsCount := 1 } (by decide +kernel)
  revert this
  decide +kernel

/-! ## C56 -/

/-- C56: whenever saving a request stops, `p.entries` (and so the conversion into `Entries`) are the fields `fs` that were saved before, and `keep_partial` adds to
them just the field being saved, if something of it was saved. -/
theorem C56_keeps_unfinished {p : PartialEntries} {reason : Reason} (dir : SaveDir) (h : withEntries D cfg fuel (Entries.new dir) w s = (.part p reason, w', t)) :
    ∃ fs, GroupedByName p.entries.fields fs ∧ p.into = p.entries ∧ p.keepPartial.saveDir = dir ∧
      ((p.part = none ∨ ∃ h, p.part = some ⟨h, none⟩) → p.keepPartial = p.entries) ∧
      (∀ hd d, p.part = some ⟨hd, some d⟩ → GroupedByName p.keepPartial.fields (fs ++ [⟨hd, d⟩]) ∧ p.keepPartial.fieldsCount = Nat.min (fs.length + 1) u32Max ∧
        ∃ w1 s1 s2, SavedSeq D cfg fuel dir.asPath w s fs w1 s1 ∧ s1.readEntry D = (.ok (some hd), s2) ∧
          (Target.dir dir.asPath).save { cfg with textPolicy := if hd.isText then cfg.textPolicy else .ignore } fuel w1 s2 = (.part d reason, w', t)) := by
  obtain ⟨fs, w1, s1, h1, h2, h3⟩ := withEntries_spec h
  have hgr := Entries.pushAll_grouped fs (Entries.new dir).recountFields [] .nil
  rw [List.nil_append] at hgr
  have hdir : ((Entries.new dir).recountFields.pushAll fs).saveDir = dir := Entries.pushAll_dir _ _
  refine ⟨fs, ?_⟩
  rcases h3 with h3 | ⟨h3, -⟩
  case inr => simp at h3
  cases h3 with
  | count => exact ⟨hgr, rfl, hdir, fun _ => rfl, by simp⟩
  | read => exact ⟨hgr, rfl, hdir, fun _ => rfl, by simp⟩
  | error => exact ⟨hgr, rfl, hdir, fun _ => rfl, by simp⟩
  | part h4 h5 h6 =>
    rw [hdir] at h6
    refine ⟨hgr, rfl, hdir, by simp, ?_⟩
    rintro hd d hh
    simp only [Option.some.injEq, PartialField.mk.injEq] at hh
    obtain ⟨rfl, rfl⟩ := hh
    refine ⟨hgr.push _, ?_, w1, s1, _, h1, h4, h6⟩
    show Nat.min (Entries.fieldsCount _ + 1) u32Max = _
    rw [Entries.pushAll_count fs _ (Entries.recount_count _)]
    show min (min (total [] + fs.length) u32Max + 1) u32Max = min (fs.length + 1) u32Max
    simp [total]; omega

/-- C56_keeps_unfinished: the first field is cut off by the size limit and kept; the disk fails, and nothing of the field is saved. -/
example : (withEntries refDeps { Settings.default with sizeLimit := 3, memoryThreshold := 3 } 10 (Entries.new (.temp [b!"tmp"])) Sample.disk (withBody Sample.evs Sample.bnd)).1 =
      .part { entries := { fields := [], saveDir := .temp [b!"tmp"], fieldsCount := 0 }, part := some ⟨Sample.fh, some (.file [b!"tmp", b!"rnd"] 0)⟩ } .sizeLimit ∧
    (withEntries refDeps { Settings.default with sizeLimit := 30, memoryThreshold := 3 } 10 (Entries.new (.temp [b!"tmp"])) { Sample.disk with opens := [some (.other 3)] } (withBody Sample.evs Sample.bnd)).1 =
      .part { entries := { fields := [], saveDir := .temp [b!"tmp"], fieldsCount := 0 }, part := some ⟨Sample.fh, none⟩ } (.io (.other 3)) := by decide +kernel

/-! ## C57 -/

/-- C57: any calls on a `SaveDir`, then one that ends it. The directory and all below it are gone afterwards exactly if it was deleted, or dropped while
temporary (so not after `keep`); otherwise, and elsewhere, nothing changes. `as_path` and `into_path` always give the same path. -/
theorem C57_lifecycle (d : SaveDir) (cs : List DirCall) (l : DirLast) (w : World) (q : Path) :
    let removed := l = .delete ∨ (l = .drop ∧ d.isTemporary = true ∧ DirCall.keep ∉ cs)
    let w' := (d.calls cs).2.last none w l
    (removed → Below d.asPath q → w'.files q = none ∧ q ∉ w'.dirs) ∧
    (¬ removed ∨ ¬ Below d.asPath q → w'.files q = w.files q ∧ (q ∈ w'.dirs ↔ q ∈ w.dirs)) ∧
    (d.calls cs).2.asPath = d.asPath ∧ (d.calls cs).2.intoPath = d.asPath ∧ (∀ p, DirRet.path p ∈ (d.calls cs).1 → p = d.asPath) := by
  have hkeep : ∀ (cs : List DirCall) (d : SaveDir), (d.calls cs).2 = if DirCall.keep ∈ cs then .perm d.asPath else d := by
    intro cs
    induction cs with
    | nil => intro d; rfl
    | cons c cs ih =>
      intro d
      simp only [SaveDir.calls]
      rw [ih]
      cases c <;> cases d <;> simp [SaveDir.call, SaveDir.keep, SaveDir.asPath]
  have hret : ∀ (cs : List DirCall) (d : SaveDir) (p : Path), DirRet.path p ∈ (d.calls cs).1 → p = d.asPath := by
    intro cs
    induction cs with
    | nil => intro d; simp [SaveDir.calls]
    | cons c cs ih =>
      intro d p
      simp only [SaveDir.calls, List.mem_cons]
      rintro (h | h)
      · cases c <;> simp [SaveDir.call] at h; exact h
      · rw [ih _ _ h]; cases c <;> cases d <;> rfl
  have hb : ∀ p : Path, (p.isPrefixOf q = true ↔ Below p q) := fun p => by
    rw [List.isPrefixOf_iff_prefix]; exact ⟨fun ⟨r, h⟩ => ⟨r, h.symm⟩, fun ⟨r, h⟩ => ⟨r, h.symm⟩⟩
  simp only [hkeep]
  refine ⟨?_, ?_, ?_, ?_, hret cs d⟩ <;> clear hkeep hret
  · rintro hr hq
    rw [← hb] at hq
    rcases hr with rfl | ⟨rfl, h1, h2⟩
    · split <;> cases d <;> simp_all [SaveDir.last, SaveDir.delete, World.removeDirAll, SaveDir.asPath]
    · rw [if_neg h2]
      cases d <;> simp_all [SaveDir.last, SaveDir.drop, World.removeDirAll, SaveDir.asPath, SaveDir.isTemporary]
  · intro hr
    rw [← hb] at hr
    clear hb
    have hm : ∀ (p : Path), p.isPrefixOf q = false → (World.removeDirAll w none p).2.files q = w.files q ∧ (q ∈ (World.removeDirAll w none p).2.dirs ↔ q ∈ w.dirs) := by
      intro p hp
      simp only [World.removeDirAll, hp, List.mem_filter]
      refine ⟨rfl, fun h => h.1, fun h => ⟨h, rfl⟩⟩
    cases l with
    | intoPath => exact ⟨rfl, Iff.rfl⟩
    | delete =>
      have hr : d.asPath.isPrefixOf q = false := Bool.eq_false_iff.mpr (hr.resolve_left (by simp))
      split <;> cases d <;> exact hm _ hr
    | drop =>
      split
      · exact ⟨rfl, Iff.rfl⟩
      · rename_i hk
        cases d with
        | perm p => exact ⟨rfl, Iff.rfl⟩
        | temp p =>
          have hr : p.isPrefixOf q = false := Bool.eq_false_iff.mpr (hr.resolve_left (by simp [hk, SaveDir.isTemporary]))
          exact hm _ hr
  · split <;> cases d <;> rfl
  · split <;> cases d <;> rfl

/-- C57, the answers of `is_temporary`: true exactly while the directory would be removed by dropping it. -/
theorem C57_is_temporary (d : SaveDir) (cs : List DirCall) : (d.calls cs).2.isTemporary = true ↔ d.isTemporary = true ∧ DirCall.keep ∉ cs := by
  induction cs generalizing d with
  | nil => simp [SaveDir.calls]
  | cons c cs ih =>
    simp only [SaveDir.calls]
    rw [ih]
    cases c <;> cases d <;> simp [SaveDir.call, SaveDir.keep, SaveDir.isTemporary]

example : ((SaveDir.temp [b!"tmp"]).calls [.asPath, .keep, .isTemporary]).1 = [.path [b!"tmp"], .unit, .bool false] := by decide

end Multipart

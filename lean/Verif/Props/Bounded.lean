import Verif.Lemmas.Loss
import Verif.Props.CausalSave
import Verif.Props.Requests
/-!
# C135: how much of a body is read by a save
-/
namespace Multipart
variable {D : Deps} {evs : List Ev} {b : Bytes} {m n : Nat} {s t : BR} {cfg : Settings} {fuel : Nat} {w : World} {T : Target}

/-- Reached by calls that read no further ahead than `m`. -/
structure BR.Frugal (D : Deps) (evs : List Ev) (b : Bytes) (m : Nat) (s : BR) : Prop where
  reach : Reachable D evs b s
  late : ∀ before after, evs = before ++ after → after ≠ [] → s.Late m after

theorem BR.Frugal.kept : KeptByFields (BR.Frugal D evs b m) :=
  ⟨fun s h => ⟨h.1.run [.fillBuf], fun before after g ha => (h.2 before after g ha).readToBoundary ha⟩,
    fun s t buf n h hr => ⟨by have := (h.1.run [.fillBuf]).run [.consume n]; simp only [BR.run, BR.op, hr] at this; exact this, fun before after g ha => by have := ((h.2 before after g ha).readToBoundary ha).consume n; rw [hr] at this; exact this⟩⟩

theorem BR.Frugal.entry (hD : D.Sane) (hm : entryBuf (dashes ++ b) ≤ m) (h : s.Frugal D evs b m) : (s.readEntry D).2.Frugal D evs b m :=
  ⟨h.1.entry rfl, fun before after g ha => (h.2 before after g ha).readEntry ha (by rw [(h.1.spec hD).2.2.1]; exact hm)⟩

theorem BR.Frugal.start (hm : entryBuf (dashes ++ b) ≤ m) : (withBody evs b).Frugal D evs b m :=
  ⟨⟨[], rfl⟩, fun before after h _ => by subst h; exact .new hm⟩

theorem BR.Frugal.buffer (hD : D.Sane) (hm : entryBuf (dashes ++ b) ≤ m) (hsz : ReadsUpTo n evs) (h : s.Frugal D evs b m) : s.buf.length < m + n := by
  obtain ⟨-, hu, -, he⟩ := h.1.spec hD
  exact BR.buffer_of_late (Nat.lt_of_lt_of_le (by decide) (Nat.le_trans (Nat.le_max_left 1024 _) hm)) hsz he hu h.2

/-- What `read_entry` uses up: all in front of the delimiter, the delimiter line, and headers that were in the buffer at once. -/
theorem BR.Frugal.entry_loss (hD : D.Sane) (hm : entryBuf (dashes ++ b) ≤ m) (hsz : ReadsUpTo n evs) (h : s.Frugal D evs b m) :
    (s.readEntry D).2.unread.length ≤ s.unread.length ∧ (s.st = .atEnd → (s.readEntry D).2.unread = s.unread) ∧
    (∀ p, FirstAt (dashes ++ b) s.unread p → s.unread.length ≤ (s.readEntry D).2.unread.length + p + (b.length + 4 + (m + n))) := by
  obtain ⟨hi, hu, hd, he⟩ := h.1.spec hD
  have hm1 : 1024 ≤ m := Nat.le_trans (Nat.le_max_left _ _) hm
  have hm2 : 2 * s.delim.length ≤ m := by rw [hd]; exact Nat.le_trans (Nat.le_max_right _ _) hm
  have hsi := BR.setMin_inv hi minBufSize
  have hcl := BR.consumeBoundary_loss hsi
  have hci := BR.consumeBoundary_inv hsi
  have hcs := BR.consumeBoundary_spec hsi
  have hc : ∀ before after, evs = before ++ after → after ≠ [] → (s.setMin minBufSize).consumeBoundary.2.Late m after := fun before after g ha =>
    ((h.2 before after g ha).setMin hm2 (n := minBufSize) hm1).consumeBoundary ha
  have hdl : s.delim.length = b.length + 2 := by rw [hd]; simp [dashes]
  change _ ≤ s.unread.length ∧ ∀ p, FirstAt s.delim s.unread p → s.unread.length ≤ _ + p + s.delim.length + 2 at hcl
  rw [hdl] at hcl
  rw [← hd]
  unfold BR.readEntry
  have hev : (s.setMin minBufSize).consumeBoundary.2.evs <:+ evs ∧ (s.setMin minBufSize).consumeBoundary.2.unread <:+ Ev.bytes evs ∧ (s.st = .atEnd → (s.setMin minBufSize).consumeBoundary = (.ok false, s.setMin minBufSize)) := by
    have hdrop : ∀ {t : BR} {k : Nat}, t.unread = s.unread.drop k → t.unread <:+ Ev.bytes evs := fun g => by rw [g]; exact (List.drop_suffix _ _).trans hu
    refine ⟨?_, ?_, fun ha => by unfold BR.consumeBoundary; rw [if_pos (show (s.setMin minBufSize).st = .atEnd from ha)]⟩
    · generalize (s.setMin minBufSize).consumeBoundary = r at hcs
      rcases r with ⟨r, t⟩
      refine List.IsSuffix.trans ?_ he
      simp only at hcs ⊢
      cases hcs with
      | done => exact List.suffix_rfl
      | next _ _ _ _ _ _ _ g => exact g
      | close _ _ _ _ _ _ _ g => exact g
      | damaged _ g => exact g.evs
      | io _ g => exact g.evs
      | eof _ g => exact g.evs
      | short _ g => exact g.evs
    · generalize (s.setMin minBufSize).consumeBoundary = r at hcs
      rcases r with ⟨r, t⟩
      simp only at hcs ⊢
      cases hcs with
      | done => exact hu
      | next _ _ _ g => exact hdrop g
      | close _ _ _ g => exact hdrop g
      | damaged _ g => exact hdrop g.unread
      | io _ g => exact hdrop g.unread
      | eof _ g => exact hdrop g.unread
      | short _ g => exact hdrop g.unread
  generalize (s.setMin minBufSize).consumeBoundary = r at hcl hc hev hci ⊢
  rcases r with ⟨r, t⟩
  simp only at hcl hc hev hci
  obtain ⟨hev, hun, hend⟩ := hev
  have plain : t.unread.length ≤ s.unread.length ∧ (s.st = .atEnd → t.unread = s.unread) ∧ (∀ p, FirstAt s.delim s.unread p → s.unread.length ≤ t.unread.length + p + (b.length + 4 + (m + n))) :=
    ⟨hcl.1, fun ha => by have := hend ha; simp only [Prod.mk.injEq] at this; rw [this.2]; rfl, fun p hp => by have := hcl.2 p hp; omega⟩
  cases r with
  | ok x =>
    cases x with
    | false => exact plain
    | true =>
      have hh := BR.readHeaders_loss hD hci
      have hb : (withHeadersLoop D (t.evs.length + 2) 0 t).2.buf.length < m + n := by
        refine BR.buffer_of_late (by omega) hsz (hh.2.evs.trans hev) ?_ fun before after g ha => BR.Late.withHeadersLoop ha _ _ (hc before after g ha)
        rw [hh.2.unread]; exact (List.drop_suffix _ _).trans hun
      have hho := BR.readHeaders_spec hD hci
      have hle : (t.readHeaders D).2.unread.length ≤ t.unread.length := by
        generalize t.readHeaders D = y at hho
        rcases y with ⟨y, v⟩
        simp only at hho ⊢
        cases hho with
        | ok g => rw [g.unread, List.length_drop]; omega
        | err g => rw [g.unread, List.length_drop]; omega
      have fin : (t.readHeaders D).2.unread.length ≤ s.unread.length ∧ (s.st = .atEnd → (t.readHeaders D).2.unread = s.unread) ∧
          (∀ p, FirstAt s.delim s.unread p → s.unread.length ≤ (t.readHeaders D).2.unread.length + p + (b.length + 4 + (m + n))) :=
        ⟨by omega, fun ha => by have := hend ha; simp at this, fun p hp => by have := hcl.2 p hp; omega⟩
      simp only
      generalize t.readHeaders D = y at fin ⊢
      rcases y with ⟨y, v⟩
      cases y <;> exact fin
  | _ => exact plain

/-- A field that was saved in full is at its end. -/
theorem Target.save_eof {d : SavedData} {w' : World} (hi : s.Inv) (hn : NoStall s.evs) (h : T.save cfg fuel w s = (.full d, w', t)) : ∃ x, Took s x t ∧ t.AtEof := by
  have key : ∀ {x : Bytes}, TookAll s x t → ∃ x, Took s x t ∧ t.AtEof := fun g => ⟨_, g.eof hi hn⟩
  cases Target.save_spec hi h with
  | text h1 h2 => exact key h2
  | bytes h1 h2 => exact key h2
  | file h1 h2 h3 h4 h5 =>
    cases h5 with
    | full g1 => exact key (TookAll.after h1 g1)

theorem entriesLoop_loss (hD : D.Sane) (hn : NoStall evs) (hm : entryBuf (dashes ++ b) ≤ m) (hsz : ReadsUpTo n evs) (hl : cfg.sizeLimit < u64Max) (hc : cfg.countLimit ≤ u32Max) :
    ∀ {k : Nat} {res : Res (Option FieldHeaders)} {e : Entries} {w : World} {s : BR}, s.Frugal D evs b m → 2 * s.delim.length ≤ s.min →
      s.unread.length ≤ (entriesLoop D cfg fuel k res e w s).2.2.unread.length +
        (cfg.countLimit - e.fieldsCount) * (Nat.min cfg.sizeLimit cfg.memoryThreshold + cfg.sizeLimit + (b.length + 6 + (m + n))) := by
  intro k
  induction k with
  | zero => intro _ _ _ _ _ _; simp only [entriesLoop]; omega
  | succ k ih =>
    intro res e w s hg hmin
    have hi := (hg.1.spec hD).1
    unfold entriesLoop
    split
    · rename_i hlt
      obtain ⟨q, hq⟩ : ∃ q, cfg.countLimit - e.fieldsCount = q + 1 := ⟨cfg.countLimit - e.fieldsCount - 1, by omega⟩
      rw [hq, Nat.succ_mul]
      generalize hC : Nat.min cfg.sizeLimit cfg.memoryThreshold + cfg.sizeLimit + (b.length + 6 + (m + n)) = C
      cases res with
      | ok o =>
        cases o with
        | none => simp only; omega
        | some fh =>
          simp only
          have hk : s.unread.length ≤ (withDir (fieldPolicy cfg fh) fuel e.saveDir.asPath w s).2.2.unread.length + Nat.min cfg.sizeLimit cfg.memoryThreshold + cfg.sizeLimit :=
            Target.save_loss (T := .dir e.saveDir.asPath) (cfg := fieldPolicy cfg fh) hl hi
          have hgk : (withDir (fieldPolicy cfg fh) fuel e.saveDir.asPath w s).2.2.Frugal D evs b m := BR.Frugal.kept.save (T := .dir e.saveDir.asPath) hg
          have hx := fun d w' t => Target.save_eof (T := .dir e.saveDir.asPath) (cfg := fieldPolicy cfg fh) (fuel := fuel) (w := w) (d := d) (w' := w') (t := t) hi (hn.suffix (hg.1.spec hD).2.2.2)
          change ∀ d w' t, withDir (fieldPolicy cfg fh) fuel e.saveDir.asPath w s = _ → _ at hx
          generalize withDir (fieldPolicy cfg fh) fuel e.saveDir.asPath w s = x at hk hgk hx ⊢
          rcases x with ⟨r, w1, s1⟩
          simp only at hk hgk
          cases r with
          | full d =>
            obtain ⟨x, ht, heof⟩ := hx d w1 s1 rfl
            obtain ⟨hi1, -, hd1, he1⟩ := hgk.1.spec hD
            have hel := hgk.entry_loss hD hm hsz
            have hrun := ht.run hi
            obtain ⟨os, hos⟩ := hrun
            have hmin1 : 2 * s1.delim.length ≤ s1.min := by
              have := BR.run_min os hi hmin
              rw [hos] at this
              exact this
            have hdl : s1.delim.length = b.length + 2 := by rw [hd1]; simp [dashes]
            have hloss : s1.unread.length ≤ (s1.readEntry D).2.unread.length + (b.length + 6 + (m + n)) := by
              by_cases hst : s1.st = .atEnd
              · rw [hel.2.1 hst]; omega
              · rcases BR.atEof_short hi1 hmin1 (hn.suffix he1) heof hst with ⟨p, hp, h⟩ | h
                · rcases firstAt_or_absent s1.delim s1.unread with ⟨q, hq⟩ | hq
                  · have hqp : q ≤ p := by
                      by_cases hqp : q ≤ p
                      · exact hqp
                      · exact absurd h (hq.2 p (by omega))
                    rw [hd1] at hq
                    have := hel.2.2 _ hq
                    omega
                  · exact absurd h (hq p)
                · omega
            have hcnt : (e.pushField fh d).fieldsCount = e.fieldsCount + 1 := Nat.min_eq_left (by omega)
            have := ih (res := (s1.readEntry D).1) (e := e.pushField fh d) (w := w1) (hgk.entry hD hm) (BR.readEntry_entryMin hD hi1).2
            rw [hcnt, hC, show cfg.countLimit - (e.fieldsCount + 1) = q by omega] at this
            simp only
            omega
          | _ => simp only; omega
      | _ => simp only; omega
    · simp only; omega

namespace Sample

/-- A field of any length, in reads of at most 64 bytes. -/
def evsLetters (k : Nat) : List Ev := .data b!"--b\r\nContent-Disposition: form-data; name=\"a\"\r\n\r\n" :: List.replicate k (.data [0x61])
/-- At most one field of 10 bytes. -/
def one : Settings := { Settings.default with sizeLimit := 10, memoryThreshold := 5, countLimit := 1 }

theorem evsLetters_size (k : Nat) : ReadsUpTo 64 (evsLetters k) := by
  intro bs h
  simp only [evsLetters, List.mem_cons, List.mem_replicate, Ev.data.injEq] at h
  rcases h with h | ⟨-, h⟩ <;> subst h <;> decide +kernel

theorem evsLetters_stall (k : Nat) : NoStall (evsLetters k) := by simp [NoStall, evsLetters]

end Sample

/-- C135 for a field: whatever the result, and however much data there is, saving it reads at most as many bytes as may be kept in memory and written to the file, and those that are left in the buffer. -/
theorem C135_field (hD : D.Sane) (hm : entryBuf (dashes ++ b) ≤ m) {os : List SOp} (hos : ∀ n, SOp.field (.setMin n) ∈ os → n ≤ m) (hsz : ReadsUpTo n evs)
    (hs : s = (withBody evs b).session D os) (hl : cfg.sizeLimit < u64Max) :
    (Ev.bytes s.evs).length < (Ev.bytes (T.save cfg fuel w s).2.2.evs).length + Nat.min cfg.sizeLimit cfg.memoryThreshold + cfg.sizeLimit + (m + n) := by
  have hg : s.Frugal D evs b m := ⟨⟨os, hs⟩, fun before after h ha => by subst h; subst hs; exact BR.Late.session hD ha os (.new hm) hm hos⟩
  have h1 := Target.save_loss (T := T) (cfg := cfg) (fuel := fuel) (w := w) hl (hg.1.spec hD).1
  have h2 := (BR.Frugal.kept.save (T := T) (cfg := cfg) (fuel := fuel) (w := w) hg).buffer hD hm hsz
  generalize (T.save cfg fuel w s).2.2 = t at h1 h2
  unfold BR.unread at h1
  simp only [List.length_append] at h1
  omega

/-- Of a field of any length, at most 1102 more bytes are read if 10 bytes are allowed. -/
example {k : Nat} {s : BR} (h : s = (withBody (Sample.evsLetters k) Sample.bnd).session refDeps Sample.opsEntry) : (Ev.bytes s.evs).length <
    (Ev.bytes (Target.save (.path [b!"x"]) Sample.one 10 Sample.disk s).2.2.evs).length + 5 + 10 + (1024 + 64) :=
  C135_field (m := 1024) refDeps_sane (by decide +kernel) (by simp [Sample.opsEntry]) (Sample.evsLetters_size _) h (by decide +kernel)

/-- C135 for a request: if the first delimiter is at offset `p` of the body, saving reads at most so many bytes, however long the body is, and whatever the result. What is missing: `p` itself is not bounded by the limits. -/
theorem C135_request_partial (hD : D.Sane) (hn : NoStall evs) (hsz : ReadsUpTo n evs) (hl : cfg.sizeLimit < u64Max) (hc : cfg.countLimit ≤ u32Max) {p : Nat} (hp : FirstAt (dashes ++ b) (Ev.bytes evs) p)
    (hm : m = Nat.max 1024 (2 * (b.length + 2))) (e : Entries) :
    (Ev.bytes evs).length < (Ev.bytes (withEntries D cfg fuel e w (withBody evs b)).2.2.evs).length + p +
      (cfg.countLimit + 1) * (Nat.min cfg.sizeLimit cfg.memoryThreshold + cfg.sizeLimit + (b.length + 6 + (m + n))) + (m + n) := by
  have hm' : entryBuf (dashes ++ b) ≤ m := by rw [hm]; simp [entryBuf, dashes, show b.length + 1 + 1 = b.length + 2 by omega]
  have hg : (withBody evs b).Frugal D evs b m := .start hm'
  have hu : (withBody evs b).unread = Ev.bytes evs := rfl
  have h1 := (hg.entry_loss hD hm' hsz).2.2 p (by rw [hu]; exact hp)
  have hi := (hg.1.spec hD).1
  have h2 := entriesLoop_loss (fuel := fuel) (k := fuel) (res := ((withBody evs b).readEntry D).1) (e := e.recountFields) (w := w) hD hn hm' hsz hl hc (hg.entry hD hm') (BR.readEntry_entryMin hD hi).2
  have h3 : ((withEntries D cfg fuel e w (withBody evs b)).2.2).Frugal D evs b m := BR.Frugal.kept.withEntries (fun s h => h.entry hD hm') hg
  have h4 := h3.buffer hD hm' hsz
  have h5 : withEntries D cfg fuel e w (withBody evs b) = entriesLoop D cfg fuel fuel ((withBody evs b).readEntry D).1 e.recountFields w ((withBody evs b).readEntry D).2 := rfl
  rw [← h5] at h2
  rw [hu] at h1
  generalize (withEntries D cfg fuel e w (withBody evs b)).2.2 = t at h2 h4 ⊢
  have h6 : (cfg.countLimit - e.recountFields.fieldsCount) * (Nat.min cfg.sizeLimit cfg.memoryThreshold + cfg.sizeLimit + (b.length + 6 + (m + n))) ≤
      cfg.countLimit * (Nat.min cfg.sizeLimit cfg.memoryThreshold + cfg.sizeLimit + (b.length + 6 + (m + n))) := Nat.mul_le_mul_right _ (Nat.sub_le _ _)
  rw [Nat.succ_mul]
  unfold BR.unread at h2
  simp only [List.length_append] at h2
  have h7 : ((withBody evs b).readEntry D).2.unread.length = ((withBody evs b).readEntry D).2.buf.length + (Ev.bytes ((withBody evs b).readEntry D).2.evs).length := by
    unfold BR.unread; rw [List.length_append]
  omega

/-- However long the field is: fewer than 3310 bytes are read. -/
example (k : Nat) : (Ev.bytes (Sample.evsLetters k)).length <
    (Ev.bytes (withEntries refDeps Sample.one 10 (.new (.temp [b!"t"])) Sample.disk (withBody (Sample.evsLetters k) Sample.bnd)).2.2.evs).length + 3310 := by
  have h := C135_request_partial (D := refDeps) (cfg := Sample.one) (fuel := 10) (w := Sample.disk) (m := 1024) (p := 0) refDeps_sane (Sample.evsLetters_stall k) (Sample.evsLetters_size k) (by decide +kernel) (by decide +kernel)
    (b := Sample.bnd) ((findSub_some (p := 0) (by decide +kernel) : FirstAt (dashes ++ Sample.bnd) b!"--b\r\nContent-Disposition: form-data; name=\"a\"\r\n\r\n" 0).append (by decide) _) (by decide +kernel) (.new (.temp [b!"t"]))
  exact Nat.lt_of_lt_of_le h (by rw [Nat.add_zero, Nat.add_assoc]; exact Nat.add_le_add_left (by decide +kernel) _)

/-- A body without a delimiter is read to its end, whatever the limits are. -/
theorem C135_no_delimiter (hD : D.Sane) (hn : NoStall evs) (he : NoErr evs) (ha : Absent (dashes ++ b) (Ev.bytes evs)) (e : Entries) :
    (withEntries D cfg fuel e w (withBody evs b)).2.2.evs = [] := by
  have hs : ((withBody evs b).readEntry D).2.evs = [] := by
    have hc := BR.consumeBoundary_spec (BR.setMin_inv (BR.fromReader_inv evs b) minBufSize)
    have hx : ((withBody evs b).setMin minBufSize).consumeBoundary.2.evs = [] ∧ ∃ e, ((withBody evs b).setMin minBufSize).consumeBoundary.1 = .err e := by
      change ConsumeOut ((withBody evs b).setMin minBufSize) ((withBody evs b).setMin minBufSize).consumeBoundary.1 ((withBody evs b).setMin minBufSize).consumeBoundary.2 at hc
      have hab : ∀ {p}, ¬ FirstAt ((withBody evs b).setMin minBufSize).delim ((withBody evs b).setMin minBufSize).unread p := fun h => ha _ h.1
      generalize ((withBody evs b).setMin minBufSize).consumeBoundary = r at hc ⊢
      rcases r with ⟨r, t⟩
      simp only at hc ⊢
      cases hc with
      | done h => exact absurd h (by simp [withBody, BR.fromReader, BR.setMin])
      | next _ h => exact absurd h hab
      | close _ h => exact absurd h hab
      | damaged _ _ _ _ h => exact absurd h hab
      | io _ _ _ _ h => exact absurd h (he _)
      | eof _ _ _ _ _ h => exact ⟨(h hn (BR.setMin_entryMin _).2).2, _, rfl⟩
      | short _ _ _ _ h => exact absurd h hab
    obtain ⟨h1, e, h2⟩ := hx
    unfold BR.readEntry
    generalize ((withBody evs b).setMin minBufSize).consumeBoundary = r at h1 h2 ⊢
    rcases r with ⟨r, t⟩
    simp only at h1 h2
    subst h2
    exact h1
  have := (kept_inv []).entriesLoop (D := D) (cfg := cfg) (fuel := fuel) (n := fuel) (res := ((withBody evs b).readEntry D).1) (e := e.recountFields) (w := w)
    (s := ((withBody evs b).readEntry D).2) (fun s h => ⟨BR.readEntry_inv hD h.1, (BR.readEntry_evs hD h.1).trans h.2⟩)
    ⟨BR.readEntry_inv hD (BR.fromReader_inv evs b), by rw [hs]; exact List.suffix_rfl⟩
  exact List.suffix_nil.mp this.2

theorem Ev.bytes_letters (N : Nat) : Ev.bytes (List.replicate N (.data [0x61])) = List.replicate N 0x61 := by
  induction N with
  | zero => rfl
  | succ N ih => simp [List.replicate_succ, Ev.bytes, ih]

example : (withEntries refDeps Sample.one 10 (.new (.temp [b!"t"])) Sample.disk (withBody [.data b!"--a\r\n", .data b!"--a--"] Sample.bnd)).2.2.evs = [] :=
  C135_no_delimiter refDeps_sane (by simp [NoStall]) (by intro e; simp) (findSub_eq_none_iff.mp (by decide +kernel)) _

/-- C135 is false: whatever the limits and the boundary are, no number bounds how much of a body is read by a save. -/
theorem C135_false (hD : D.Sane) (cfg : Settings) (fuel : Nat) (w : World) (b : Bytes) (e : Entries) (N : Nat) :
    ∃ evs, NoStall evs ∧ NoErr evs ∧ ReadsUpTo 1 evs ∧ (Ev.bytes (withEntries D cfg fuel e w (withBody evs b)).2.2.evs).length + N < (Ev.bytes evs).length := by
  have h1 : NoStall (List.replicate (N + 1) (.data [0x61])) := by simp [NoStall]
  have h2 : NoErr (List.replicate (N + 1) (.data [0x61])) := by intro e; simp
  refine ⟨List.replicate (N + 1) (.data [0x61]), h1, h2, by intro bs h; simp at h; rw [h]; simp, ?_⟩
  rw [C135_no_delimiter hD h1 h2 ?_ e, Ev.bytes_letters]
  · simp [Ev.bytes]
  · rw [Ev.bytes_letters]
    intro q hq
    obtain ⟨rest, hq⟩ := hq
    have : (0x2D : Byte) ∈ (List.replicate (N + 1) (0x61 : Byte)).drop q := by rw [← hq]; simp [dashes]
    have := List.mem_of_mem_drop this
    simp at this

/-- With the default limits, a gigabyte and more. -/
example : ∃ evs, NoStall evs ∧ NoErr evs ∧ ReadsUpTo 1 evs ∧
    (Ev.bytes (withEntries refDeps Settings.default 10 (.new (.temp [b!"t"])) Sample.disk (withBody evs Sample.bnd)).2.2.evs).length + 1000000000 < (Ev.bytes evs).length :=
  C135_false refDeps_sane _ _ _ _ _ _

end Multipart

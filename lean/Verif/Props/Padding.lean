import Verif.Spec.Padding
import Verif.Props.BadPart
/-!
# C142: spaces behind a delimiter
-/
namespace Multipart

variable {D : Deps} {evs : List Ev} {b : Bytes} {es got : List (FieldHeaders × Bytes)} {fin : Ending}

theorem writePadded_prefix (b epi : Bytes) (ps : List (Bytes × RawPart)) : dashes ++ b <+: writePadded b epi ps := by
  rcases ps with _ | ⟨⟨w, p⟩, ps⟩ <;> (simp only [writePadded, List.append_assoc]; rw [← List.append_assoc]; exact List.prefix_append _ _)

theorem padded_parts_to (hT : D.Tokenizes) (hcr : (0x0D : Byte) ∉ b) (hlf : (0x0A : Byte) ∉ b) {epi : Bytes} {ps : List RawPart} {qs : List (Bytes × RawPart)} (h : All2 (ReadablePart D b) ps es) :
    ∀ pre : Bytes, FirstAt (dashes ++ b) (pre ++ writePadded b epi (ps.map (fun p => ([], p)) ++ qs)) pre.length →
      ∃ pre', PartsTo D (dashes ++ b) (pre ++ writePadded b epi (ps.map (fun p => ([], p)) ++ qs)) es (pre' ++ writePadded b epi qs) ∧ FirstAt (dashes ++ b) (pre' ++ writePadded b epi qs) pre'.length := by
  induction h with
  | nil => exact fun pre hf => ⟨pre, .nil, hf⟩
  | @cons p e ps es hs _ ih =>
    intro pre hf
    obtain ⟨fh, dat⟩ := e
    have e1 : writePadded b epi ((p :: ps).map (fun p => ([], p)) ++ qs) =
        dashes ++ b ++ crlf ++ renderHeaders p.headers ++ p.data ++ crlf ++ writePadded b epi (ps.map (fun p => ([], p)) ++ qs) := by simp [writePadded]
    rw [e1] at hf ⊢
    obtain ⟨h1, h2, h3⟩ := raw_part hT hcr hlf (writePadded_prefix b epi (ps.map (fun p => ([], p)) ++ qs)) hs pre hf
    have hdat := hs.data
    simp only at hdat h2
    subst hdat
    obtain ⟨pre', i1, i2⟩ := ih _ h3
    exact ⟨pre', .part h1 h2 i1, i2⟩

theorem padded_parts (hT : D.Tokenizes) (hcr : (0x0D : Byte) ∉ b) (hlf : (0x0A : Byte) ∉ b) {pre epi w : Bytes} (hpre : Preamble b pre) {ps : List RawPart} {p : RawPart} {qs : List (Bytes × RawPart)}
    (hs : All2 (ReadablePart D b) ps es) (hw : Padding w) (h0 : w ≠ []) :
    Parts D (dashes ++ b) (pre ++ writePadded b epi (ps.map (fun p => ([], p)) ++ (w, p) :: qs)) es (.failed .invalidData) := by
  obtain ⟨pre', h1, h2⟩ := padded_parts_to hT hcr hlf (qs := (w, p) :: qs) hs pre (hpre.first hcr hlf (writePadded_prefix b epi _))
  obtain ⟨c, w, rfl⟩ : ∃ c v, w = c :: v := by cases w with | nil => exact absurd rfl h0 | cons c v => exact ⟨c, v, rfl⟩
  have : pre' ++ writePadded b epi ((c :: w, p) :: qs) = (pre' ++ (dashes ++ b)) ++ (c :: (w ++ crlf ++ (renderHeaders p.headers ++ (p.data ++ crlf ++ writePadded b epi qs)))) := by simp [writePadded]
  have hc : c = 0x20 ∨ c = 0x09 := hw c (by simp)
  have hd : (pre' ++ writePadded b epi ((c :: w, p) :: qs)).drop (pre'.length + (dashes ++ b).length) = c :: (w ++ crlf ++ (renderHeaders p.headers ++ (p.data ++ crlf ++ writePadded b epi qs))) := by
    rw [this, List.drop_left']; simp
  have h := h1.then (.damaged (.damaged h2 (by rw [this]; simp [crlf]; omega) (by rw [hd]; rcases hc with rfl | rfl <;> simp [crlf]) (by rw [hd]; rcases hc with rfl | rfl <;> simp [dashes])))
  rwa [List.append_nil] at h

/-- C142: padding does not matter; what is written with padding behind its delimiters is read as what was written. -/
def PaddingIgnored (D : Deps) : Prop := ∀ (b pre epi : Bytes) (ws : List Bytes) (ps : List RawPart) (es : List (FieldHeaders × Bytes)) (evs : List Ev) (got : List (FieldHeaders × Bytes)) (fin : Ending),
  (0x0D : Byte) ∉ b → (0x0A : Byte) ∉ b → Preamble b pre → (∀ w ∈ ws, Padding w) → ws.length = ps.length → All2 (ReadablePart D b) ps es → NoStall evs → NoErr evs → CleanSplit (dashes ++ b) evs →
  Ev.bytes evs = pre ++ writePadded b epi (ws.zip ps) → Reads D (withBody evs b) got fin → fin = .closed ∧ got = es

namespace Sample

/-- A part, and then one with a space and a tab behind the delimiter. -/
def evsPadded : List Ev := [.data (b!"--" ++ rawBnd ++ crlf ++ renderHeaders rawHeaders ++ b!"one--"), .data (b!"two\r\n--" ++ rawBnd ++ b!" "), .data (b!"\t" ++ crlf ++ renderHeaders rawHeaders ++ b!"x\r\n--" ++ rawBnd ++ b!"--")]

theorem evsPadded_bytes : Ev.bytes evsPadded = [] ++ writePadded rawBnd [] ([⟨rawHeaders, b!"one--two"⟩].map (fun p => ([], p)) ++ (b!" \t", ⟨rawHeaders, b!"x"⟩) :: []) := by decide +kernel

end Sample

/-- C142, what holds: the parts in front of the first padded delimiter are read, with their headers and data, and then `InvalidData` is reported: nothing is taken for data, and nothing behind the padding is read.
Missing: the parts behind it. -/
theorem C142_read_partial (hD : D.Sane) (hT : D.Tokenizes) (hcr : (0x0D : Byte) ∉ b) (hlf : (0x0A : Byte) ∉ b) {pre epi w : Bytes} (hpre : Preamble b pre) {ps : List RawPart} {p : RawPart}
    {qs : List (Bytes × RawPart)} (hs : All2 (ReadablePart D b) ps es) (hw : Padding w) (h0 : w ≠ []) (hn : NoStall evs) (hne : NoErr evs)
    (he : Ev.bytes evs = pre ++ writePadded b epi (ps.map (fun p => ([], p)) ++ (w, p) :: qs)) (hr : Reads D (withBody evs b) got fin) :
    fin = .failed .invalidData ∧ All2 (fun a e => a.1 = e.1 ∧ DataOk (dashes ++ b) evs e.2 a.2) got es :=
  C10_entries_are_parts hD hn hne (by rw [he]; exact padded_parts hT hcr hlf hpre hs hw h0) hr

/-- C142_read_partial. -/
example : ∃ got, Reads refDeps (withBody Sample.evsPadded Sample.rawBnd) got (.failed .invalidData) ∧ All2 (fun a e => a.1 = e.1 ∧ DataOk (dashes ++ Sample.rawBnd) Sample.evsPadded e.2 a.2) got [Sample.rawEntry] := by
  obtain ⟨got, fin, hr⟩ := C10_reads_total (evs := Sample.evsPadded) (b := Sample.rawBnd) refDeps_sane ⟨[], rfl⟩
  obtain ⟨rfl, h⟩ := C142_read_partial refDeps_sane refDeps_tokenizes (by decide) (by decide) (.inl rfl) (.cons Sample.raw_readable .nil) (w := b!" \t") (by simp [Padding]) (by simp)
    (by decide +kernel) (by intro e; simp [Sample.evsPadded]) Sample.evsPadded_bytes hr
  exact ⟨got, hr, h⟩

/-- C142 for saving: within the limits (as for C77), the parts in front of the first padded delimiter are saved and `InvalidData` is reported. -/
theorem C142_saves_partial {cfg : Settings} {v : World} (hD : D.Sane) (hT : D.Tokenizes) (hcr : (0x0D : Byte) ∉ b) (hlf : (0x0A : Byte) ∉ b) {pre epi w : Bytes} (hpre : Preamble b pre) {ps : List RawPart} {p : RawPart}
    {qs : List (Bytes × RawPart)} (hs : All2 (ReadablePart D b) ps es) (hw : Padding w) (h0 : w ≠ []) (hn : NoStall evs) (hne : NoErr evs)
    (he : Ev.bytes evs = pre ++ writePadded b epi (ps.map (fun p => ([], p)) ++ (w, p) :: qs)) (hc : cfg.Typed) (ho : cfg.openOpts.createNew = true)
    (hp : cfg.textPolicy = .force → ∀ p ∈ es, p.1.isText = true → IsUtf8 p.2) (ht : Nat.min cfg.sizeLimit cfg.memoryThreshold < u64Max ∨ cfg.textPolicy = .ignore)
    (dir : SaveDir) (hcl : es.length < cfg.countLimit) (hz : ∀ p ∈ es, p.2.length + 2 ≤ cfg.sizeLimit) (hv : DiskReady v dir.asPath es.length) :
    ∃ n, ∀ fuel, n ≤ fuel → ∃ e v' t fs, withEntries D cfg fuel (Entries.new dir) v (withBody evs b) = (.part ⟨e, none⟩ (.io .invalidData), v', t) ∧
      GroupedByName e.fields fs ∧ e.fieldsCount = es.length ∧ All2 (SavedAs b evs v') fs es :=
  C120_saves hD hn hne hc ho hp ht (by rw [he]; exact padded_parts hT hcr hlf hpre hs hw h0) dir hcl (fun p hp => .inl (hz p hp)) hv

/-- C142_saves_partial. -/
example : ∃ n, ∀ fuel, n ≤ fuel → ∃ e v' t fs, withEntries refDeps Settings.default fuel (Entries.new (.perm [b!"d"])) Sample.disk (withBody Sample.evsPadded Sample.rawBnd) = (.part ⟨e, none⟩ (.io .invalidData), v', t) ∧
    GroupedByName e.fields fs ∧ e.fieldsCount = 1 ∧ All2 (SavedAs Sample.rawBnd Sample.evsPadded v') fs [Sample.rawEntry] := by
  have h := C142_saves_partial (evs := Sample.evsPadded) (cfg := Settings.default) (v := Sample.disk) (es := [Sample.rawEntry]) (dir := .perm [b!"d"]) refDeps_sane refDeps_tokenizes
    (by decide) (by decide) (.inl rfl) (.cons Sample.raw_readable .nil) (w := b!" \t") (by simp [Padding]) (by simp)
    (by decide +kernel) (by intro e; simp [Sample.evsPadded]) Sample.evsPadded_bytes ⟨by decide, by decide, by decide, rfl⟩ rfl (fun h => absurd h (by decide)) (.inl (by decide)) (by decide)
    (fun p hp => by simp at hp; subst hp; decide) ⟨by simp [Sample.disk], by simp [Sample.disk], by intro ev h; simp [Sample.disk] at h, by decide, by decide, fun _ _ => rfl⟩
  exact h

/-- C142 is false in full: the first padded delimiter ends the request with an error. -/
theorem C142_false : ¬ PaddingIgnored refDeps := by
  intro h
  obtain ⟨got, fin, hr⟩ := C10_reads_total (evs := [.data (writePadded Sample.rawBnd [] [(b!" ", ⟨Sample.rawHeaders, b!"one--two"⟩)])]) (b := Sample.rawBnd) refDeps_sane ⟨[], rfl⟩
  obtain ⟨h1, -⟩ := C142_read_partial (ps := []) (es := []) (qs := []) (pre := []) refDeps_sane refDeps_tokenizes (by decide) (by decide) (.inl rfl) .nil (w := b!" ") (by simp [Padding]) (by simp) (by decide +kernel) (by intro e; simp)
    (epi := []) (p := ⟨Sample.rawHeaders, b!"one--two"⟩) (by simp [Ev.bytes]) hr
  obtain ⟨h2, -⟩ := h Sample.rawBnd [] [] [b!" "] [⟨Sample.rawHeaders, b!"one--two"⟩] [Sample.rawEntry] _ got fin (by decide) (by decide) (.inl rfl) (by simp [Padding]) rfl (.cons Sample.raw_readable .nil)
    (by decide +kernel) (by intro e; simp) (single_cleanSplit (by simp [dashes])) (by simp [Ev.bytes]) hr
  rw [h1] at h2
  cases h2

end Multipart

import Verif.Lemmas.Fuel
import Verif.Props.AnyBody
import Verif.Props.Exceeds
import Verif.Props.Requests
/-!
# Where the fields of a request are kept

C150: whether a saved field is kept as text, as bytes in memory or in a file follows from its content type, its length and the settings. The exact limit for text is
that of C76, and that for files is up to the CRLF of C01.
-/
namespace Multipart
variable {D : Deps} {evs : List Ev} {b : Bytes} {s0 s t : BR} {cfg : Settings} {fuel : Nat} {T : Target} {w w' : World} {fh : FieldHeaders} {dat : Bytes}

/-- A field is text by its type if it has no content type, or one of the top-level type `text`. -/
def TextType (fh : FieldHeaders) : Prop := ∀ m, fh.contentType = some m → m.type_ = b!"text"

/-- Where a part with the headers `fh` and the data `dat` may be kept with the settings `cfg`. -/
inductive KeptWhere (cfg : Settings) (d : Bytes) (evs : List Ev) (fh : FieldHeaders) (dat : Bytes) : SavedData → Prop
  /-- as text, if it is text by its type, is UTF-8, text is not ignored, and it fits in memory -/
  | text {x : Bytes} : TextType fh → cfg.textPolicy ≠ .ignore → IsUtf8 x → x.length ≤ cfg.sizeLimit → x.length ≤ cfg.memoryThreshold → KeptWhere cfg d evs fh dat (.text x)
  /-- as bytes, if it fits in memory, but is not text by its type, or text is ignored, or it is not UTF-8, or is nearly as long as the limit (see C76) -/
  | bytes {x : Bytes} : x.length ≤ cfg.sizeLimit → x.length ≤ cfg.memoryThreshold →
      (TextType fh → cfg.textPolicy ≠ .ignore → IsUtf8 dat → min cfg.sizeLimit cfg.memoryThreshold < dat.length + 2 + (dat.length + 2) / 169 ∧
        (CleanSplit d evs ∨ dat.length + 2 ≤ entryBuf d → min cfg.sizeLimit cfg.memoryThreshold < dat.length + dat.length / 169)) → KeptWhere cfg d evs fh dat (.bytes x)
  /-- in a file, if it does not fit in memory (up to the CRLF of C01) -/
  | file {p : Path} {n : Nat} : min cfg.sizeLimit cfg.memoryThreshold < dat.length + 2 →
      (CleanSplit d evs ∨ dat.length + 2 ≤ entryBuf d → min cfg.sizeLimit cfg.memoryThreshold < dat.length) → KeptWhere cfg d evs fh dat (.file p n)

theorem textType_iff : fh.isText = true ↔ TextType fh := by
  unfold FieldHeaders.isText TextType
  cases h : fh.contentType with
  | none => simp
  | some m => simp

theorem Target.save_moreFuel {fuel' : Nat} (h : (T.save cfg fuel w s).1 ≠ .hang) (hm : fuel ≤ fuel') : T.save cfg fuel' w s = T.save cfg fuel w s := by
  rw [T.save_eq] at h ⊢
  rw [T.save_eq]
  exact withPath_fuel h hm

/-- However a field is read, at most its data come out, unless the CRLF behind it may come out too. -/
theorem Took.data_le {x : Bytes} (hD : D.Sane) (hn : NoStall evs) (hr : Reachable D evs b s0) (hen : s0.readEntry D = (.ok (some fh), s)) (hd : FieldData (dashes ++ b) s.unread dat)
    (hc : CleanSplit (dashes ++ b) evs ∨ dat.length + 2 ≤ entryBuf (dashes ++ b)) (h : Took s x t) : x.length ≤ dat.length := by
  have hi := ((hr.entry hen).spec hD).1
  obtain ⟨k, _, hk⟩ := BR.reaches_eof (n := 1) (by omega) _ (h.inv hi) (Nat.le_refl _)
  rcases (h.trans (Took.reads 1 k t)).savedOk hD hn hr hen hd hk with h1 | ⟨h1, h3, h5⟩
  · have h2 := congrArg List.length h1
    rw [List.length_append] at h2
    omega
  · exact hc.elim (absurd · h3) fun h => by omega

/-- C150 for one field, saved as a request saves it: with the text policy only if it is text by its type. -/
theorem C150_field (hD : D.Sane) (hn : NoStall evs) (he : OnlyInterrupted evs) (hsz : (Ev.bytes evs).length ≤ u64Max) (hr : Reachable D evs b s0)
    (hen : s0.readEntry D = (.ok (some fh), s)) (hd : FieldData (dashes ++ b) s.unread dat) {d : SavedData}
    (h : T.save { cfg with textPolicy := if fh.isText then cfg.textPolicy else .ignore } fuel w s = (.full d, w', t)) :
    KeptWhere cfg (dashes ++ b) evs fh dat d := by
  have hr' := hr.entry hen
  have hi := (hr'.spec hD).1
  have hmem := C39_memory_bound hD hr' hsz (.inl h) (r := .sizeLimit)
  have hfile : ∀ {x}, Beyond s x (Settings.memLimit cfg 0) → min cfg.sizeLimit cfg.memoryThreshold < dat.length + 2 ∧
      (CleanSplit (dashes ++ b) evs ∨ dat.length + 2 ≤ entryBuf (dashes ++ b) → min cfg.sizeLimit cfg.memoryThreshold < dat.length) := by
    rintro x ⟨more, u, h1, h2⟩
    simp only [Settings.memLimit, Nat.sub_zero] at h2
    have e : Nat.min cfg.sizeLimit cfg.memoryThreshold = min cfg.sizeLimit cfg.memoryThreshold := rfl
    exact ⟨Nat.lt_of_lt_of_le (e ▸ h2) (h1.field_le hD hr' hd), fun hc => Nat.lt_of_lt_of_le (e ▸ h2) (h1.data_le hD hn hr hen hd hc)⟩
  cases d with
  | text x =>
    obtain ⟨h1, h2⟩ := hmem rfl
    have hu := ((C42_text_exact hD hr').1 h).1
    cases Target.save_spec hi h with
    | text _ _ _ hp _ =>
      by_cases ht : fh.isText = true
      · rw [if_pos ht] at hp
        exact .text (textType_iff.mp ht) hp hu h2 h1
      · rw [if_neg ht] at hp
        exact absurd rfl hp
    | file _ _ _ _ hf => cases hf
  | bytes x =>
    obtain ⟨h1, h2⟩ := hmem rfl
    refine .bytes h2 h1 fun ht hp hu => ?_
    rw [← textType_iff] at ht
    rw [if_pos ht] at h
    have key : ¬ (dat.length + 2 + (dat.length + 2) / 169 ≤ Nat.min cfg.sizeLimit cfg.memoryThreshold ∨
        ((CleanSplit (dashes ++ b) evs ∨ dat.length + 2 ≤ entryBuf (dashes ++ b)) ∧ dat.length + dat.length / 169 ≤ Nat.min cfg.sizeLimit cfg.memoryThreshold)) := by
      intro hl
      obtain ⟨n, hn'⟩ := C76_text_saved_partial (T := T) (w := w) hD hn he hr hen hd hu hp hl
      obtain ⟨y, w1, t1, g, -⟩ := hn' (Nat.max n fuel) (Nat.le_max_left _ _)
      have := Target.save_moreFuel (T := T) (cfg := cfg) (fuel := fuel) (w := w) (s := s) (by rw [h]; simp) (Nat.le_max_right n fuel)
      rw [g, h] at this
      simp at this
    rw [not_or] at key
    refine ⟨Nat.lt_of_not_le key.1, fun hc => Nat.lt_of_not_le fun hle => key.2 ⟨hc, hle⟩⟩
  | file p n =>
    cases Target.save_spec hi h with
    | file _ _ _ hb _ =>
      obtain ⟨h1, h2⟩ := hfile hb
      exact .file h1 h2

theorem SavedSeq.keptWhere (hD : D.Sane) (hn : NoStall evs) (hne : NoErr evs) (hsz : (Ev.bytes evs).length ≤ u64Max) (ho : cfg.openOpts.createNew = true) {dir : Path} {fs : List SavedField}
    {es : List (FieldHeaders × Bytes)} {fin : Ending} (h : SavedSeq D cfg fuel dir w s fs w' t) (hr : Reachable D evs b s) (ha : AtParts D (dashes ++ b) evs s es fin)
    (hdr : s.Drained ∨ (s.readEntry D).1 ≠ .err .unexpectedEof) :
    All2 (fun (f : SavedField) p => f.headers = p.1 ∧ KeptWhere cfg (dashes ++ b) evs p.1 p.2 f.data) fs (es.take fs.length) := by
  induction h generalizing es with
  | nil => exact .nil
  | @cons w w1 w2 s s1 s2 t hd d fs h1 h2 h3 ih =>
    have hr1 := hr.entry h1
    obtain ⟨x, hx, heof, hread⟩ := Target.save_full (.dir dir) hD hn hr1 h2 (.inl ho)
    have hr2 := hx.reachable hr1
    obtain ⟨dat, es', rfl, ha', hfd⟩ := ha.entry_data hD hn hne hdr h1
    exact .cons ⟨rfl, C150_field hD hn (fun e he => absurd he (hne e)) hsz hr h1 hfd h2⟩
      (ih hr2 (ha'.took hx) (.inl (BR.AtEof.drained (hr2.spec hD).1 heof)))

/-- C150: of a request that is saved, the fields that are saved in full are the first parts of its body, in order, and each is kept as its type, its length
and the settings say. -/
theorem C150_kinds (hD : D.Sane) (hn : NoStall evs) (hne : NoErr evs) (hsz : (Ev.bytes evs).length ≤ u64Max) (ho : cfg.openOpts.createNew = true)
    {es : List (FieldHeaders × Bytes)} {fin : Ending} (hP : Parts D (dashes ++ b) (Ev.bytes evs) es fin) (dir : SaveDir) {e : Entries}
    (h : withEntries D cfg fuel (Entries.new dir) w (withBody evs b) = (.full e, w', t) ∨
      ∃ p r, withEntries D cfg fuel (Entries.new dir) w (withBody evs b) = (.part p r, w', t) ∧ p.entries = e) :
    ∃ fs, GroupedByName e.fields fs ∧ fs.length ≤ es.length ∧
      All2 (fun (f : SavedField) p => f.headers = p.1 ∧ KeptWhere cfg (dashes ++ b) evs p.1 p.2 f.data) fs (es.take fs.length) := by
  have key : ∃ fs w1 s1, SavedSeq D cfg fuel dir.asPath w (withBody evs b) fs w1 s1 ∧ e = (Entries.new dir).recountFields.pushAll fs := by
    rcases h with h | ⟨p, r, h, rfl⟩
    · obtain ⟨fs, w1, s1, h1, h2, h3⟩ := withEntries_spec h
      rcases h3 with h3 | ⟨h3, -⟩
      · cases h3 with
        | full => exact ⟨fs, _, s1, h1, rfl⟩
      · simp at h3
    · obtain ⟨fs, w1, s1, h1, h2, h3⟩ := withEntries_spec h
      rcases h3 with h3 | ⟨h3, -⟩
      · exact ⟨fs, w1, s1, h1, by cases h3 <;> rfl⟩
      · simp at h3
  obtain ⟨fs, w1, s1, h1, rfl⟩ := key
  have hdr : (withBody evs b).Drained ∨ ((withBody evs b).readEntry D).1 ≠ .err .unexpectedEof := .inl (by intro h; simp [withBody, BR.fromReader] at h)
  refine ⟨fs, ?_, (h1.savedAs hD hn hne ho ⟨[], rfl⟩ (.start hP) hdr).2, h1.keptWhere hD hn hne hsz ho ⟨[], rfl⟩ (.start hP) hdr⟩
  have := Entries.pushAll_grouped fs (Entries.new dir).recountFields [] .nil
  rwa [List.nil_append] at this

namespace Sample

def hdrPng : Bytes := b!"Content-Disposition: form-data; name=\"p\"\r\nContent-Type: image/png\r\n\r\n"

def fhPng : FieldHeaders := { name := b!"p", filename := none, contentType := some { src := b!"image/png", type_ := b!"image" } }

/-- A field that is text, a short picture and a longer one. -/
def evsKinds : List Ev := [.data (b!"--b\r\n" ++ hdr ++ b!"one\r\n--b\r\n" ++ hdrPng), .data (b!"png\r\n--b\r\n" ++ hdrPng ++ b!"large\r\n--b--\r\n")]

def diskKinds : World := { disk with names := [b!"x", b!"y", b!"z"] }

end Sample

/-- C150_kinds and C150_field: with a threshold of three bytes the text is kept as text, the short picture as bytes and the longer one in a file. -/
example : let cfg := { Settings.default with memoryThreshold := 3 }
    let e : Entries := { fields := [(b!"a", [⟨Sample.fh, .text b!"one"⟩]), (b!"p", [⟨Sample.fhPng, .bytes b!"png"⟩, ⟨Sample.fhPng, .file [b!"tmp", b!"z"] 5⟩])], saveDir := .temp [b!"tmp"], fieldsCount := 3 }
    ∃ w' t fs es, withEntries refDeps cfg 10 (Entries.new (.temp [b!"tmp"])) Sample.diskKinds (withBody Sample.evsKinds Sample.bnd) = (.full e, w', t) ∧ GroupedByName e.fields fs ∧
      Parts refDeps (dashes ++ Sample.bnd) (Ev.bytes Sample.evsKinds) es .closed ∧ es.length = 3 ∧
      All2 (fun (f : SavedField) p => f.headers = p.1 ∧ KeptWhere cfg (dashes ++ Sample.bnd) Sample.evsKinds p.1 p.2 f.data) fs (es.take fs.length) := by
  intro cfg e
  have h : withEntries refDeps cfg 10 (Entries.new (.temp [b!"tmp"])) Sample.diskKinds (withBody Sample.evsKinds Sample.bnd) = (.full e, _, _) := Sample.entries_eq (by decide +kernel)
  have hne : NoErr Sample.evsKinds := by intro e; simp [Sample.evsKinds]
  obtain ⟨es, hP, hl, -⟩ := C127_full_partial refDeps_sane refDeps_incremental refDeps_blocks (by decide +kernel) hne ⟨by decide, by decide, by decide, rfl⟩ rfl (.of_small (by decide +kernel)) _ h
  obtain ⟨fs, h1, -, h3⟩ := C150_kinds refDeps_sane (by decide +kernel) hne (by decide +kernel) rfl hP _ (.inl h)
  exact ⟨_, _, fs, es, h, h1, hP, hl.symm, h3⟩

end Multipart

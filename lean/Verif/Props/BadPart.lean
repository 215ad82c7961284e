import Verif.Spec.BadPart
import Verif.Props.Success
import Verif.Props.Cut
import Verif.Props.OtherClients
import Verif.Props.HeaderOrder
/-!
# C120, C121: what is in front of a part with bad headers
-/
namespace Multipart

variable {D : Deps} {evs : List Ev} {b d : Bytes} {s t : BR} {es got : List (FieldHeaders × Bytes)} {fin : Ending} {u w rest : Bytes}

theorem refParseAux_many : ∀ (hs : List Header) (n pos : Nat) (acc : List Header) (more : Bytes), hs.length < n → acc.length ≤ 4 → 4 < acc.length + hs.length →
    (∀ h ∈ hs, HeaderName h.name ∧ HeaderText h.val) → refParseAux n pos acc (renderHeaders hs ++ more) = .error := by
  intro hs
  induction hs with
  | nil => intro n pos acc more _ h1 h2; simp at h2; omega
  | cons h hs ih =>
    intro n pos acc more hn hacc hm hok
    cases n with
    | zero => omega
    | succ n =>
      obtain ⟨h1, h2⟩ := hok h (by simp)
      have hno : (0x0D : Byte) ∉ h.name ++ b!": " ++ h.val := by
        simp only [List.mem_append, not_or]
        exact ⟨⟨fun hm => (h1.token _ hm).2.2 rfl, by decide⟩, fun hm => (value_byte (h2.bytes _ hm)).2 rfl⟩
      have hf := findSub_eq_some_iff.mpr (firstAt_crlf (ys := renderHeaders hs ++ more) hno)
      have e : renderHeaders (h :: hs) ++ more = h.name ++ b!": " ++ h.val ++ crlf ++ (renderHeaders hs ++ more) := by simp [renderHeaders]
      obtain ⟨i, hi⟩ : ∃ i, (h.name ++ b!": " ++ h.val).length = i + 1 := ⟨(h.name ++ b!": " ++ h.val).length - 1, by simp; omega⟩
      rw [e]
      unfold refParseAux
      rw [hf, hi]
      simp only
      have ht : List.take (i + 1) (h.name ++ b!": " ++ h.val ++ crlf ++ (renderHeaders hs ++ more)) = h.name ++ b!": " ++ h.val := by
        rw [List.append_assoc, List.take_left' hi]
      have hd : List.drop (i + 3) (h.name ++ b!": " ++ h.val ++ crlf ++ (renderHeaders hs ++ more)) = renderHeaders hs ++ more := by
        rw [List.drop_left']; rw [List.length_append, hi]; rfl
      rw [ht, hd, parseHeaderLine_eq h1 h2]
      simp only
      simp only [List.length_cons] at hm hn
      split
      · exact ih n _ _ more (by omega) (by simp; omega) (by simp; omega) fun x hx => hok x (by simp [hx])
      · rfl

/-- The reference tokenizer meets the assumption. -/
theorem refDeps_onlyFour : refDeps.OnlyFour := by
  intro hs h4 hok more
  have key : ∀ hs : List Header, hs.length ≤ (renderHeaders hs).length := by
    intro hs
    induction hs with
    | nil => simp
    | cons h hs ih => simp [renderHeaders]; omega
  exact refParseAux_many hs ((renderHeaders hs ++ more).length + 1) 0 [] more (by have := key hs; simp; omega) (by simp) (by simpa using h4) hok

namespace Sample

/-- Five header lines. -/
def fiveHeaders : List Header := [⟨b!"Content-Disposition", b!"form-data; name=\"a\""⟩, ⟨b!"X-A", b!"1"⟩, ⟨b!"X-B", b!"2"⟩, ⟨b!"X-C", b!"3"⟩, ⟨b!"X-D", b!"4"⟩]

def evsFive : List Ev := [.data (b!"--" ++ rawBnd ++ crlf ++ renderHeaders rawHeaders ++ b!"one--"), .data (b!"two\r\n--" ++ rawBnd ++ crlf ++ renderHeaders fiveHeaders), .data (b!"x\r\n--" ++ rawBnd ++ b!"--")]

theorem evsFive_bytes : Ev.bytes evsFive = [] ++ writeBody rawBnd [] ([⟨rawHeaders, b!"one--two"⟩] ++ ⟨fiveHeaders, b!"x"⟩ :: []) := by decide +kernel

end Sample

/-- C120: if the headers of a part are refused, whatever the reason, a caller who reads all entries gets all parts in front of it, with their headers and data, and then `InvalidData`. -/
theorem C120_reads (hD : D.Sane) (hn : NoStall evs) (hne : NoErr evs) (hP : PartsTo D (dashes ++ b) (Ev.bytes evs) es w) (hw : NextIs (dashes ++ b) w (.part rest)) (hb : NoFieldHeaders D (dashes ++ b) rest)
    (hr : Reads D (withBody evs b) got fin) : fin = .failed .invalidData ∧ All2 (fun a p => a.1 = p.1 ∧ DataOk (dashes ++ b) evs p.2 a.2) got es :=
  C10_entries_are_parts hD hn hne (by simpa using hP.then (.refused hw hb)) hr

namespace Sample

/-- A part, and then one whose disposition has no name. -/
def evsNoName : List Ev := [.data (b!"--b\r\n" ++ hdr ++ b!"one\r\n--b\r\nContent-Disposition: form-data\r\n\r"), .data b!"\ntwo\r\n--b--"]

def restNoName : Bytes := b!"Content-Disposition: form-data\r\n\r\ntwo\r\n--b--"

theorem noName : NoFieldHeaders refDeps (dashes ++ bnd) restNoName := by
  rintro P n hs ⟨⟨z, hz⟩, -, -⟩ hP - fh
  have h := refDeps_incremental P n hs hP z
  rw [hz] at h
  have h' : refDeps.parseHeaders restNoName = .complete 34 [⟨b!"Content-Disposition", b!"form-data"⟩] := by decide +kernel
  rw [h'] at h
  cases h
  intro hc
  have : (match FieldHeaders.parse refDeps [⟨b!"Content-Disposition", b!"form-data"⟩] with | .ok _ => true | .error _ => false) = false := by decide +kernel
  rw [hc] at this
  simp at this

theorem noName_parts : ∃ w, PartsTo refDeps (dashes ++ bnd) (Ev.bytes evsNoName) [(fh, b!"one")] w ∧ NextIs (dashes ++ bnd) w (.part restNoName) :=
  ⟨b!"one\r\n--b\r\n" ++ restNoName, .part (.part (p := 0) (by decide +kernel) (by decide +kernel))
    ⟨⟨hdr, _, headerBlock (by decide +kernel), by decide +kernel, by decide, fun h => absurd h (by decide)⟩, .crlf (by decide) ⟨b!"--b\r\n" ++ restNoName, rfl⟩⟩ .nil, .part (p := 5) (by decide +kernel) (by decide +kernel)⟩

end Sample

/-- C120_reads. -/
example : ∃ got, Reads refDeps (withBody Sample.evsNoName Sample.bnd) got (.failed .invalidData) ∧ All2 (fun a e => a.1 = e.1 ∧ DataOk (dashes ++ Sample.bnd) Sample.evsNoName e.2 a.2) got [(Sample.fh, b!"one")] := by
  obtain ⟨w, h1, h2⟩ := Sample.noName_parts
  obtain ⟨got, fin, hr⟩ := C10_reads_total (evs := Sample.evsNoName) (b := Sample.bnd) refDeps_sane ⟨[], rfl⟩
  obtain ⟨rfl, h⟩ := C120_reads refDeps_sane (by decide +kernel) (by intro e; simp [Sample.evsNoName]) h1 h2 Sample.noName hr
  exact ⟨got, hr, h⟩

/-- C120, which parts these are: for a tokenizer that keeps its answer when more follows, those in which it finds no complete header block, or one without `Content-Disposition`, with one that is not for a field, or
with a `Content-Type` that is none. -/
theorem C120_which (hI : D.Incremental) {d rest : Bytes}
    (h : (∀ n hs, D.parseHeaders rest ≠ .complete n hs) ∨ ∃ n hs, D.parseHeaders rest = .complete n hs ∧ ((∀ x ∈ hs, ¬ SameName x.name b!"Content-Disposition") ∨
      (∃ cd, FirstHeader hs b!"Content-Disposition" cd ∧ ¬ GoodDisposition cd.val) ∨ ∃ ct, FirstHeader hs b!"Content-Type" ct ∧ D.parseMime ct.val = none)) : NoFieldHeaders D d rest := by
  rintro P n hs ⟨⟨z, hz⟩, -, -⟩ hP - fh hf
  have h1 := hI P n hs hP z
  rw [hz] at h1
  rcases h with h | ⟨n', hs', h2, h⟩
  · exact h _ _ h1
  rw [h1] at h2
  cases h2
  obtain ⟨k1, k2, -, k4, -⟩ := C83_header_errors D hs
  rcases h with h | h | ⟨ct, h3, h4⟩
  · obtain ⟨t, ht⟩ := k1.mpr h
    rw [hf] at ht; cases ht
  · obtain ⟨r, c, ht⟩ := k2.mpr h
    rw [hf] at ht; cases ht
  · obtain ⟨m, hm⟩ := (k4.mp ⟨fh, hf⟩).2 ct h3
    rw [h4] at hm; cases hm

/-- C120_which: a content type that is none. -/
example : NoFieldHeaders refDeps (dashes ++ Sample.bnd) b!"Content-Disposition: form-data; name=a\r\nContent-Type: text\r\n\r\nx\r\n--b--" :=
  C120_which refDeps_incremental (.inr ⟨62, [⟨b!"Content-Disposition", b!"form-data; name=a"⟩, ⟨b!"Content-Type", b!"text"⟩], by decide +kernel, .inr (.inr ⟨_, ⟨[_], [], rfl, sameName_refl _, by simp only [← eqIgnoreCase_iff]; decide +kernel⟩, by decide +kernel⟩)⟩)

/-- C120: a request whose body cannot be read to its end, whatever the reason, is never saved fully. -/
theorem C120_never_full {cfg : Settings} {fuel : Nat} {v : World} {er : IoErr} (hD : D.Sane) (hn : NoStall evs) (hne : NoErr evs) (hc : cfg.Typed) (ho : cfg.openOpts.createNew = true)
    (hP : Parts D (dashes ++ b) (Ev.bytes evs) es (.failed er)) (dir : SaveDir) (e : Entries) : (withEntries D cfg fuel (Entries.new dir) v (withBody evs b)).1 ≠ .full e := by
  intro h
  rcases hr : withEntries D cfg fuel (Entries.new dir) v (withBody evs b) with ⟨r, v', t⟩
  rw [hr] at h
  simp only at h
  subst h
  cases (C53_full_has_every_field hD hn hne hc ho hP dir hr).1

/-- C120_never_full. -/
example (fuel : Nat) (e : Entries) : (withEntries refDeps Settings.default fuel (Entries.new (.perm [b!"d"])) Sample.disk (withBody Sample.evsNoName Sample.bnd)).1 ≠ .full e := by
  obtain ⟨w, h1, h2⟩ := Sample.noName_parts
  exact C120_never_full (er := .invalidData) refDeps_sane (by decide +kernel) (by intro e; simp [Sample.evsNoName]) ⟨by decide, by decide, by decide, rfl⟩ rfl (by simpa using h1.then (.refused h2 Sample.noName)) _ e

/-- C120 for saving: if a request whose body cannot be read behind its parts `es`, whatever the reason, is within the limits (as for C77), saving it reports the reason, and all the parts
in front are saved, with their headers and their data. -/
theorem C120_saves {cfg : Settings} {v : World} {er : IoErr} (hD : D.Sane) (hn : NoStall evs) (hne : NoErr evs) (hc : cfg.Typed) (ho : cfg.openOpts.createNew = true)
    (hp : cfg.textPolicy = .force → ∀ p ∈ es, p.1.isText = true → IsUtf8 p.2) (ht : Nat.min cfg.sizeLimit cfg.memoryThreshold < u64Max ∨ cfg.textPolicy = .ignore)
    (hP : Parts D (dashes ++ b) (Ev.bytes evs) es (.failed er)) (dir : SaveDir) (hl : es.length < cfg.countLimit)
    (hz : ∀ p ∈ es, p.2.length + 2 ≤ cfg.sizeLimit ∨ ((CleanSplit (dashes ++ b) evs ∨ p.2.length + 2 ≤ entryBuf (dashes ++ b)) ∧ p.2.length ≤ cfg.sizeLimit)) (hw : DiskReady v dir.asPath es.length) :
    ∃ n, ∀ fuel, n ≤ fuel → ∃ e v' t fs, withEntries D cfg fuel (Entries.new dir) v (withBody evs b) = (.part ⟨e, none⟩ (.io er), v', t) ∧
      GroupedByName e.fields fs ∧ e.fieldsCount = es.length ∧ All2 (SavedAs b evs v') fs es := by
  obtain ⟨n, hn'⟩ := request_outcome_any hD hn hne hc ho (fun h p h1 h2 v y h3 => .inl (h3.of_utf8 (hp h p h1 h2))) ht hP dir hz hw
  refine ⟨n, fun fuel hf => ?_⟩
  have h := hn' fuel hf
  have hre : Reachable D evs b (withBody evs b) := ⟨[], rfl⟩
  have hdr : (withBody evs b).Drained := by intro h; simp [withBody, BR.fromReader] at h
  rcases hr : withEntries D cfg fuel (Entries.new dir) v (withBody evs b) with ⟨r, v', t⟩
  rw [hr] at h
  rcases h with ⟨e, rfl⟩ | ⟨p, rfl⟩ | ⟨e, er', h, rfl⟩
  · cases (C53_full_has_every_field hD hn hne hc ho hP dir hr).1
  · exact absurd hr (C50_below_limit_partial hD hn hne hc ho hP dir hl _)
  · cases h
    obtain ⟨fs, w1, s1, h1, -, h3⟩ := withEntries_spec hr
    rcases h3 with h3 | ⟨h3, -⟩
    · cases h3 with
      | read h4 h5 =>
        obtain ⟨k1, k2⟩ := h1.savedAs hD hn hne ho hre (.start hP) (.inl hdr)
        have hd1 : s1.Drained := by
          rcases h1.drained hD hn ho hre with g | ⟨-, g⟩
          · exact g
          · rw [g]; exact hdr
        have k3 := ((h1.atParts hD hn hne ho hre (.start hP) (.inl hdr)).reads hD hn hne (.inl hd1) (.fail h4)).2.length
        rw [List.length_drop, List.length_nil] at k3
        have k4 : fs.length = es.length := by omega
        refine ⟨_, _, _, fs, rfl, Entries.pushAll_grouped fs (Entries.new dir).recountFields [] .nil, ?_, ?_⟩
        · rw [(Entries.count_lt hc _ _ h5).2, k4]; simp [Entries.new, total]
        · rw [k4, List.take_length] at k1; exact k1
    · cases h3

/-- C120_saves, for a part whose disposition has no name. -/
example : ∃ n, ∀ fuel, n ≤ fuel → ∃ e v' t fs, withEntries refDeps Settings.default fuel (Entries.new (.perm [b!"d"])) Sample.disk (withBody Sample.evsNoName Sample.bnd) = (.part ⟨e, none⟩ (.io .invalidData), v', t) ∧
    GroupedByName e.fields fs ∧ e.fieldsCount = 1 ∧ All2 (SavedAs Sample.bnd Sample.evsNoName v') fs [(Sample.fh, b!"one")] := by
  obtain ⟨w, h1, h2⟩ := Sample.noName_parts
  have h := C120_saves (evs := Sample.evsNoName) (b := Sample.bnd) (cfg := Settings.default) (v := Sample.disk) (es := [(Sample.fh, b!"one")]) (dir := .perm [b!"d"]) refDeps_sane (by decide +kernel) (by intro e; simp [Sample.evsNoName]) ⟨by decide, by decide, by decide, rfl⟩ rfl (fun h => absurd h (by decide)) (.inl (by decide))
    (by simpa using h1.then (.refused h2 Sample.noName)) (by decide) (fun p hp => .inl (by simp at hp; subst hp; decide)) ⟨by simp [Sample.disk], by simp [Sample.disk], by intro ev h; simp [Sample.disk] at h, by decide, by decide, fun _ _ => rfl⟩
  exact h

theorem raw_parts_to (hT : D.Tokenizes) (hcr : (0x0D : Byte) ∉ b) (hlf : (0x0A : Byte) ∉ b) {epi : Bytes} {ps qs : List RawPart} {es : List (FieldHeaders × Bytes)} (h : All2 (ReadablePart D b) ps es) :
    ∀ pre : Bytes, FirstAt (dashes ++ b) (pre ++ writeBody b epi (ps ++ qs)) pre.length →
      ∃ pre', PartsTo D (dashes ++ b) (pre ++ writeBody b epi (ps ++ qs)) es (pre' ++ writeBody b epi qs) ∧ FirstAt (dashes ++ b) (pre' ++ writeBody b epi qs) pre'.length := by
  induction h with
  | nil => exact fun pre hf => ⟨pre, .nil, hf⟩
  | @cons p e ps es hs _ ih =>
    intro pre hf
    obtain ⟨fh, dat⟩ := e
    obtain ⟨h1, h2, h3⟩ := raw_part hT hcr hlf (writeBody_prefix b epi (ps ++ qs)) hs pre hf
    have hdat := hs.data
    simp only at hdat h2
    subst hdat
    obtain ⟨pre', i1, i2⟩ := ih _ h3
    exact ⟨pre', .part h1 h2 i1, i2⟩

/-- More than four header lines are no headers of a field. -/
theorem noFieldHeaders_of_five (hI : D.Incremental) (hF : D.OnlyFour) {hs : List Header} (h : 4 < hs.length) (hl : ∀ h ∈ hs, HeaderName h.name ∧ HeaderText h.val) (more : Bytes) :
    NoFieldHeaders D d (renderHeaders hs ++ more) := by
  rintro P n hs' ⟨⟨z, hz⟩, -, -⟩ hP
  have := hI P n hs' hP z
  rw [hz, hF hs h hl more] at this
  cases this

theorem raw_parts_refused (hT : D.Tokenizes) (hI : D.Incremental) (hF : D.OnlyFour) (hcr : (0x0D : Byte) ∉ b) (hlf : (0x0A : Byte) ∉ b) {pre epi : Bytes} (hpre : Preamble b pre)
    {ps qs : List RawPart} {p : RawPart} (hs : All2 (ReadablePart D b) ps es) (h5 : 4 < p.headers.length) (hl : ∀ h ∈ p.headers, HeaderName h.name ∧ HeaderText h.val) :
    Parts D (dashes ++ b) (pre ++ writeBody b epi (ps ++ p :: qs)) es (.failed .invalidData) := by
  obtain ⟨pre', h1, h2⟩ := raw_parts_to hT hcr hlf hs pre (hpre.first hcr hlf (writeBody_prefix b epi (ps ++ p :: qs)))
  have : pre' ++ writeBody b epi (p :: qs) = (pre' ++ (dashes ++ b)) ++ (crlf ++ (renderHeaders p.headers ++ (p.data ++ crlf ++ writeBody b epi qs))) := by simp [writeBody]
  have h := h1.then (.refused (.part h2 (by rw [this, List.drop_left']; simp)) (noFieldHeaders_of_five hI hF h5 hl (p.data ++ crlf ++ writeBody b epi qs)))
  rwa [List.append_nil] at h

/-- C121: a part with more than four header lines is refused with `InvalidData`, even if they are all well-formed; the parts in front of it are read. -/
theorem C121_refused (hD : D.Sane) (hT : D.Tokenizes) (hI : D.Incremental) (hF : D.OnlyFour) (hcr : (0x0D : Byte) ∉ b) (hlf : (0x0A : Byte) ∉ b) {pre epi : Bytes} (hpre : Preamble b pre)
    {ps qs : List RawPart} {p : RawPart} (hs : All2 (ReadablePart D b) ps es) (h5 : 4 < p.headers.length) (hl : ∀ h ∈ p.headers, HeaderName h.name ∧ HeaderText h.val)
    (hn : NoStall evs) (hne : NoErr evs) (hbody : Ev.bytes evs = pre ++ writeBody b epi (ps ++ p :: qs)) (hr : Reads D (withBody evs b) got fin) :
    fin = .failed .invalidData ∧ All2 (fun a e => a.1 = e.1 ∧ DataOk (dashes ++ b) evs e.2 a.2) got es :=
  C10_entries_are_parts hD hn hne (by rw [hbody]; exact raw_parts_refused hT hI hF hcr hlf hpre hs h5 hl) hr

/-- A part with two header lines, and then one with five. -/
example : ∃ got, Reads refDeps (withBody Sample.evsFive Sample.rawBnd) got (.failed .invalidData) ∧ All2 (fun a e => a.1 = e.1 ∧ DataOk (dashes ++ Sample.rawBnd) Sample.evsFive e.2 a.2) got [Sample.rawEntry] := by
  obtain ⟨got, fin, hr⟩ := C10_reads_total (evs := Sample.evsFive) (b := Sample.rawBnd) refDeps_sane ⟨[], rfl⟩
  obtain ⟨rfl, h⟩ := C121_refused refDeps_sane refDeps_tokenizes refDeps_incremental refDeps_onlyFour (by decide) (by decide) (.inl rfl) (.cons Sample.raw_readable .nil) (by decide) (Sample.headers_ok (by decide +kernel))
    (by decide +kernel) (by intro e; simp [Sample.evsFive]) Sample.evsFive_bytes hr
  exact ⟨got, hr, h⟩

/-- C121 for saving: a request with such a part is never saved fully; within the limits (as for C77), the parts in front of it are saved and `InvalidData` is reported. -/
theorem C121_saves {cfg : Settings} {v : World} (hD : D.Sane) (hT : D.Tokenizes) (hI : D.Incremental) (hF : D.OnlyFour) (hcr : (0x0D : Byte) ∉ b) (hlf : (0x0A : Byte) ∉ b) {pre epi : Bytes} (hpre : Preamble b pre)
    {ps qs : List RawPart} {p : RawPart} (hs : All2 (ReadablePart D b) ps es) (h5 : 4 < p.headers.length) (hl : ∀ h ∈ p.headers, HeaderName h.name ∧ HeaderText h.val)
    (hn : NoStall evs) (hne : NoErr evs) (hbody : Ev.bytes evs = pre ++ writeBody b epi (ps ++ p :: qs)) (hc : cfg.Typed) (ho : cfg.openOpts.createNew = true)
    (hp : cfg.textPolicy = .force → ∀ p ∈ es, p.1.isText = true → IsUtf8 p.2) (ht : Nat.min cfg.sizeLimit cfg.memoryThreshold < u64Max ∨ cfg.textPolicy = .ignore)
    (dir : SaveDir) (hcl : es.length < cfg.countLimit) (hz : ∀ p ∈ es, p.2.length + 2 ≤ cfg.sizeLimit) (hw : DiskReady v dir.asPath es.length) :
    ∃ n, ∀ fuel, n ≤ fuel → ∃ e v' t fs, withEntries D cfg fuel (Entries.new dir) v (withBody evs b) = (.part ⟨e, none⟩ (.io .invalidData), v', t) ∧
      GroupedByName e.fields fs ∧ e.fieldsCount = es.length ∧ All2 (SavedAs b evs v') fs es :=
  C120_saves hD hn hne hc ho hp ht (by rw [hbody]; exact raw_parts_refused hT hI hF hcr hlf hpre hs h5 hl) dir hcl (fun p hp => .inl (hz p hp)) hw

/-- C121_saves. -/
example : ∃ n, ∀ fuel, n ≤ fuel → ∃ e v' t fs, withEntries refDeps Settings.default fuel (Entries.new (.perm [b!"d"])) Sample.disk (withBody Sample.evsFive Sample.rawBnd) = (.part ⟨e, none⟩ (.io .invalidData), v', t) ∧
    GroupedByName e.fields fs ∧ e.fieldsCount = 1 ∧ All2 (SavedAs Sample.rawBnd Sample.evsFive v') fs [Sample.rawEntry] := by
  have h := C121_saves (evs := Sample.evsFive) (cfg := Settings.default) (v := Sample.disk) (es := [Sample.rawEntry]) (dir := .perm [b!"d"]) refDeps_sane refDeps_tokenizes refDeps_incremental refDeps_onlyFour
    (by decide) (by decide) (.inl rfl) (.cons Sample.raw_readable .nil) (by decide) (Sample.headers_ok (by decide +kernel))
    (by decide +kernel) (by intro e; simp [Sample.evsFive]) Sample.evsFive_bytes ⟨by decide, by decide, by decide, rfl⟩ rfl (fun h => absurd h (by decide)) (.inl (by decide)) (by decide)
    (fun p hp => by simp at hp; subst hp; decide) ⟨by simp [Sample.disk], by simp [Sample.disk], by intro ev h; simp [Sample.disk] at h, by decide, by decide, fun _ _ => rfl⟩
  exact h

end Multipart

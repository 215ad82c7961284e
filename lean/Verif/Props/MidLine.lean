import Verif.Spec.MidLine
import Verif.Props.BadPart
/-!
# C143: the delimiter inside of a line
-/
namespace Multipart

variable {D : Deps} {evs : List Ev} {b : Bytes} {es es' got : List (FieldHeaders × Bytes)} {fin fin' : Ending}

theorem crlf_suffix_mid {h x : Bytes} (hx : x ≠ []) (hc : ¬ crlf <:+ x) : ¬ crlf <:+ (h ++ crlf) ++ x := by
  rintro ⟨t, ht⟩
  rcases x with _ | ⟨c, _ | ⟨c', x⟩⟩
  · exact hx rfl
  · have h1 : (t ++ [0x0D]) ++ [0x0A] = (h ++ [0x0D, 0x0A]) ++ [c] := by simpa [crlf] using ht
    have h2 := (List.append_inj' h1 rfl).1
    have h3 := (List.append_inj' (s₁ := t) (s₂ := h ++ [0x0D]) (t₁ := [0x0D]) (t₂ := [0x0A]) (by simpa using h2) rfl).2
    simp at h3
  · refine hc ?_
    have h1 : crlf <:+ (h ++ crlf) ++ (c :: c' :: x) := ⟨t, ht⟩
    exact List.suffix_of_suffix_length_le h1 (List.suffix_append _ _) (by simp [crlf])

theorem renderHeaders_crlf : ∀ hs : List Header, ∃ h, renderHeaders hs = h ++ crlf
  | [] => ⟨[], rfl⟩
  | x :: hs => by
    obtain ⟨h, e⟩ := renderHeaders_crlf hs
    refine ⟨x.name ++ b!": " ++ x.val ++ crlf ++ h, ?_⟩
    simp [renderHeaders, e]

theorem midLine_parts (hT : D.Tokenizes) (hcr : (0x0D : Byte) ∉ b) (hlf : (0x0A : Byte) ∉ b) {pre epi : Bytes} (hpre : Preamble b pre) {ps qs : List RawPart} {p : RawPart} {fh : FieldHeaders} {x y : Bytes}
    (hs : All2 (ReadablePart D b) ps es) (hh : FormHeaders D b p fh) (hp : MidLine b p x y) (hY : Parts D (dashes ++ b) (x ++ (dashes ++ b ++ (y ++ crlf ++ writeBody b epi qs))) es' fin) :
    Parts D (dashes ++ b) (pre ++ writeBody b epi (ps ++ p :: qs)) (es ++ (fh, x) :: es') fin := by
  have hd : dashes ++ b ≠ [] := by simp [dashes]
  obtain ⟨pre', h1, h2⟩ := raw_parts_to hT hcr hlf hs pre (hpre.first hcr hlf (writeBody_prefix b epi (ps ++ p :: qs)))
  refine h1.then (.part (.part h2 (rest := renderHeaders p.headers ++ (x ++ (dashes ++ b ++ (y ++ crlf ++ writeBody b epi qs)))) ?_) ⟨⟨renderHeaders p.headers, p.headers, ?_, (C18_exact _).mpr ⟨hh.disposition, hh.ctype⟩, hh.size, ?_⟩, ?_⟩ hY)
  · have : pre' ++ writeBody b epi (p :: qs) = (pre' ++ (dashes ++ b)) ++ (crlf ++ (renderHeaders p.headers ++ (x ++ (dashes ++ b ++ (y ++ crlf ++ writeBody b epi qs))))) := by simp [writeBody, hp.split]
    rw [this, List.drop_left']
    simp
  · have hne : p.headers ≠ [] := by
      obtain ⟨cd, ⟨x, y, hx, -⟩, -⟩ := hh.disposition
      simp [hx]
    refine ⟨rfl, renderHeaders_ne _, fun more => hT _ hne hh.count hh.lines more, fun x hx => (hh.lines x hx).2.utf8, fun q hq => ?_⟩
    have := hp.first.append hd (crlf ++ writeBody b epi qs)
    rw [hp.split] at this
    simp only [List.append_assoc] at this ⊢
    exact this.2 q (by simp; omega)
  · intro _
    obtain ⟨h, e⟩ := renderHeaders_crlf p.headers
    rw [e]
    exact crlf_suffix_mid hp.inside.1 hp.inside.2
  · refine .bare ?_ (List.prefix_append _ _) hp.inside.2
    have h3 := (hp.first.append hd (crlf ++ writeBody b epi qs)).drop (n := (renderHeaders p.headers).length) (by simp)
    rw [hp.split] at h3
    simp only [List.append_assoc, List.drop_left, List.length_append, Nat.add_sub_cancel_left] at h3 ⊢
    exact h3

theorem MidLine.first' {p : RawPart} {x y z : Bytes} (hp : MidLine b p x y) : FirstAt (dashes ++ b) (x ++ (dashes ++ b ++ (y ++ z))) x.length := by
  have h3 := (hp.first.append (by simp [dashes]) z).drop (n := (renderHeaders p.headers).length) (by simp)
  rw [hp.split] at h3
  simp only [List.append_assoc, List.drop_left, List.length_append, Nat.add_sub_cancel_left] at h3 ⊢
  exact h3

/-- The full claim C143: what is written as RFC 2046 says, without the delimiter at the beginning of a line of a part, is read as its parts. -/
def OnlyLineStarts (D : Deps) : Prop := ∀ (b pre epi : Bytes) (ps : List RawPart) (es : List (FieldHeaders × Bytes)) (evs : List Ev) (got : List (FieldHeaders × Bytes)) (fin : Ending),
  (0x0D : Byte) ∉ b → (0x0A : Byte) ∉ b → Preamble b pre → All2 (fun p e => FormHeaders D b p e.1 ∧ NoDelimiterLine b p ∧ e.2 = p.data) ps es → NoStall evs → NoErr evs → CleanSplit (dashes ++ b) evs →
  Ev.bytes evs = pre ++ writeBody b epi ps → Reads D (withBody evs b) got fin → fin = .closed ∧ got = es

namespace Sample

/-- Data with a whole part in it, of which no line begins with the delimiter. -/
def midPart : RawPart := ⟨rawHeaders, b!"see --" ++ rawBnd ++ crlf ++ renderHeaders rawHeaders ++ b!"one--two"⟩

/-- Data with the closing delimiter inside of a line. -/
def closePart : RawPart := ⟨rawHeaders, b!"see --" ++ rawBnd ++ b!"--."⟩

/-- Data with the delimiter as a part of a longer word. -/
def wordPart : RawPart := ⟨rawHeaders, b!"see --" ++ rawBnd ++ b!"s."⟩

theorem raw_form (d : Bytes) : FormHeaders refDeps rawBnd ⟨rawHeaders, d⟩ rawEntry.1 :=
  ⟨raw_readable.lines, raw_readable.count, raw_readable.size, raw_readable.disposition, raw_readable.ctype⟩

theorem mid_line : MidLine rawBnd midPart b!"see " (crlf ++ renderHeaders rawHeaders ++ b!"one--two") := ⟨by decide +kernel, findSub_some (by decide +kernel), by decide, by decide⟩

theorem close_line : MidLine rawBnd closePart b!"see " b!"--." := ⟨by decide +kernel, findSub_some (by decide +kernel), by decide, by decide⟩

theorem word_line : MidLine rawBnd wordPart b!"see " b!"s." := ⟨by decide +kernel, findSub_some (by decide +kernel), by decide, by decide⟩

end Sample

/-- C143, what the code does: a field ends in front of the bytes of the delimiter, wherever they stand. The parts in front are read as they are, the field with its headers and with the data up to there, and then what follows
is read as if this were a delimiter line. Missing: the rest of the data. (If these bytes stand nowhere in a part, all is read as written: C116_read_partial.) -/
theorem C143_read_partial (hD : D.Sane) (hT : D.Tokenizes) (hcr : (0x0D : Byte) ∉ b) (hlf : (0x0A : Byte) ∉ b) {pre epi : Bytes} (hpre : Preamble b pre) {ps qs : List RawPart} {p : RawPart} {fh : FieldHeaders} {x y : Bytes}
    (hs : All2 (ReadablePart D b) ps es) (hh : FormHeaders D b p fh) (hp : MidLine b p x y) (hY : Parts D (dashes ++ b) (dashes ++ b ++ (y ++ crlf ++ writeBody b epi qs)) es' fin') (hn : NoStall evs) (hne : NoErr evs)
    (he : Ev.bytes evs = pre ++ writeBody b epi (ps ++ p :: qs)) (hr : Reads D (withBody evs b) got fin) :
    fin = fin' ∧ All2 (fun a e => a.1 = e.1 ∧ DataOk (dashes ++ b) evs e.2 a.2) got (es ++ (fh, x) :: es') := by
  have hp' : Parts D (dashes ++ b) (x ++ (dashes ++ b ++ (y ++ crlf ++ writeBody b epi qs))) es' fin' := by
    refine hY.preamble (by simp [dashes]) ?_
    have := hp.first' (z := crlf ++ writeBody b epi qs)
    rw [← List.append_assoc y] at this
    exact this.2
  exact C10_entries_are_parts hD hn hne (by rw [he]; exact midLine_parts hT hcr hlf hpre hs hh hp hp') hr

/-- C143_read_partial: the field is cut in two, and the second half is read as a part that the client did not write. -/
example : ∃ got, Reads refDeps (withBody [.data (writeBody Sample.rawBnd [] [Sample.midPart])] Sample.rawBnd) got .closed ∧ got.map (·.1) = [Sample.rawEntry.1, Sample.rawEntry.1] := by
  obtain ⟨got, fin, hr⟩ := C10_reads_total (evs := [.data (writeBody Sample.rawBnd [] [Sample.midPart])]) (b := Sample.rawBnd) refDeps_sane ⟨[], rfl⟩
  have hY := raw_parts (epi := []) refDeps_tokenizes (by decide) (by decide) (.cons Sample.raw_readable .nil) [] ⟨writeBody_prefix Sample.rawBnd [] [⟨Sample.rawHeaders, b!"one--two"⟩], fun q hq => by simp at hq⟩
  obtain ⟨rfl, h⟩ := C143_read_partial (pre := []) (epi := []) (ps := []) (qs := []) (es := []) (es' := [Sample.rawEntry]) (fin' := .closed) refDeps_sane refDeps_tokenizes (by decide) (by decide) (.inl rfl) .nil (p := Sample.midPart) (Sample.raw_form _) Sample.mid_line
    (by simpa [writeBody] using hY) (by decide +kernel) (by intro e; simp) (by simp [Ev.bytes]) hr
  refine ⟨got, hr, ?_⟩
  cases h with | cons h1 h => cases h with | cons h2 h => cases h with | nil => simp [h1.1, h2.1]

/-- C143: if two dashes follow, this is taken for the end of the request. The rest of the field and all parts behind it are lost, and no error is reported. -/
theorem C143_lost (hD : D.Sane) (hT : D.Tokenizes) (hcr : (0x0D : Byte) ∉ b) (hlf : (0x0A : Byte) ∉ b) {pre epi : Bytes} (hpre : Preamble b pre) {ps qs : List RawPart} {p : RawPart} {fh : FieldHeaders} {x y : Bytes}
    (hs : All2 (ReadablePart D b) ps es) (hh : FormHeaders D b p fh) (hp : MidLine b p x y) (hy : dashes <+: y) (hn : NoStall evs) (hne : NoErr evs)
    (he : Ev.bytes evs = pre ++ writeBody b epi (ps ++ p :: qs)) (hr : Reads D (withBody evs b) got fin) :
    fin = .closed ∧ All2 (fun a e => a.1 = e.1 ∧ DataOk (dashes ++ b) evs e.2 a.2) got (es ++ [(fh, x)]) := by
  obtain ⟨y, rfl⟩ := hy
  refine C143_read_partial hD hT hcr hlf hpre hs hh hp (.close (.close (p := 0) (rest := y ++ crlf ++ writeBody b epi qs) ⟨List.prefix_append _ _, fun q hq => by omega⟩ ?_)) hn hne he hr
  rw [Nat.zero_add, List.drop_left]
  simp

/-- C143_lost: of two parts, half of the first one is read. -/
example : ∃ got, Reads refDeps (withBody [.data (writeBody Sample.rawBnd [] [Sample.closePart, ⟨Sample.rawHeaders, b!"one--two"⟩])] Sample.rawBnd) got .closed ∧ got.length = 1 := by
  obtain ⟨got, fin, hr⟩ := C10_reads_total (evs := [.data (writeBody Sample.rawBnd [] [Sample.closePart, ⟨Sample.rawHeaders, b!"one--two"⟩])]) (b := Sample.rawBnd) refDeps_sane ⟨[], rfl⟩
  obtain ⟨rfl, h⟩ := C143_lost (pre := []) (epi := []) (ps := []) (qs := [⟨Sample.rawHeaders, b!"one--two"⟩]) (es := []) refDeps_sane refDeps_tokenizes (by decide) (by decide) (.inl rfl) .nil (p := Sample.closePart) (Sample.raw_form _) Sample.close_line
    (by decide) (by decide +kernel) (by intro e; simp) (by simp [Ev.bytes]) hr
  exact ⟨got, hr, h.length⟩

/-- C143: if neither CRLF nor two dashes follow, `InvalidData` is reported behind this half of the field. -/
theorem C143_refused (hD : D.Sane) (hT : D.Tokenizes) (hcr : (0x0D : Byte) ∉ b) (hlf : (0x0A : Byte) ∉ b) {pre epi : Bytes} (hpre : Preamble b pre) {ps qs : List RawPart} {p : RawPart} {fh : FieldHeaders} {x y : Bytes}
    (hs : All2 (ReadablePart D b) ps es) (hh : FormHeaders D b p fh) (hp : MidLine b p x y) (h1 : ¬ crlf <+: y ++ crlf) (h2 : ¬ dashes <+: y) (hn : NoStall evs) (hne : NoErr evs)
    (he : Ev.bytes evs = pre ++ writeBody b epi (ps ++ p :: qs)) (hr : Reads D (withBody evs b) got fin) :
    fin = .failed .invalidData ∧ All2 (fun a e => a.1 = e.1 ∧ DataOk (dashes ++ b) evs e.2 a.2) got (es ++ [(fh, x)]) := by
  have hlen : ∀ {c z : Bytes}, c.length = 2 → c <+: y ++ crlf ++ z → c <+: y ++ crlf := fun hc h =>
    List.prefix_of_prefix_length_le h (List.prefix_append _ _) (by rw [hc]; simp [crlf])
  refine C143_read_partial hD hT hcr hlf hpre hs hh hp (.damaged (.damaged (p := 0) ⟨List.prefix_append _ _, fun q hq => by omega⟩ (by simp [crlf]; omega) ?_ ?_)) hn hne he hr
  · rw [Nat.zero_add, List.drop_left]
    exact fun h => h1 (hlen rfl h)
  · rw [Nat.zero_add, List.drop_left]
    intro h
    have h3 := hlen rfl h
    rcases y with _ | ⟨c, _ | ⟨c', y⟩⟩
    · simp [dashes, crlf] at h3
    · simp [dashes, crlf] at h3
    · exact h2 (List.prefix_of_prefix_length_le h3 (List.prefix_append _ _) (by simp [dashes]))

/-- C143_refused. -/
example : ∃ got, Reads refDeps (withBody [.data (writeBody Sample.rawBnd [] [Sample.wordPart])] Sample.rawBnd) got (.failed .invalidData) ∧ got.length = 1 := by
  obtain ⟨got, fin, hr⟩ := C10_reads_total (evs := [.data (writeBody Sample.rawBnd [] [Sample.wordPart])]) (b := Sample.rawBnd) refDeps_sane ⟨[], rfl⟩
  obtain ⟨rfl, h⟩ := C143_refused (pre := []) (epi := []) (ps := []) (qs := []) (es := []) refDeps_sane refDeps_tokenizes (by decide) (by decide) (.inl rfl) .nil (p := Sample.wordPart) (Sample.raw_form _) Sample.word_line
    (by decide) (by decide) (by decide +kernel) (by intro e; simp) (by simp [Ev.bytes]) hr
  exact ⟨got, hr, h.length⟩

/-- C143: if CRLF, headers and data follow, they are read as a part of their own, which the client did not write, and then the parts behind it. -/
theorem C143_smuggled (hD : D.Sane) (hT : D.Tokenizes) (hcr : (0x0D : Byte) ∉ b) (hlf : (0x0A : Byte) ∉ b) {pre epi : Bytes} (hpre : Preamble b pre) {ps qs : List RawPart} {p : RawPart} {fh : FieldHeaders} {x y : Bytes}
    (hs : All2 (ReadablePart D b) ps es) (hh : FormHeaders D b p fh) (hp : MidLine b p x y) {p' : RawPart} (hy : y = crlf ++ renderHeaders p'.headers ++ p'.data) (hs' : All2 (ReadablePart D b) (p' :: qs) es') (hn : NoStall evs) (hne : NoErr evs)
    (he : Ev.bytes evs = pre ++ writeBody b epi (ps ++ p :: qs)) (hr : Reads D (withBody evs b) got fin) :
    fin = .closed ∧ All2 (fun a e => a.1 = e.1 ∧ DataOk (dashes ++ b) evs e.2 a.2) got (es ++ (fh, x) :: es') := by
  subst hy
  have hY := raw_parts (epi := epi) hT hcr hlf hs' [] ⟨writeBody_prefix b epi (p' :: qs), fun q hq => by simp at hq⟩
  exact C143_read_partial hD hT hcr hlf hpre hs hh hp (by simpa [writeBody] using hY) hn hne he hr

/-- C143_smuggled: one part is written, two are read. -/
example : ∃ got, Reads refDeps (withBody [.data (writeBody Sample.rawBnd [] [Sample.midPart])] Sample.rawBnd) got .closed ∧ got.length = 2 := by
  obtain ⟨got, fin, hr⟩ := C10_reads_total (evs := [.data (writeBody Sample.rawBnd [] [Sample.midPart])]) (b := Sample.rawBnd) refDeps_sane ⟨[], rfl⟩
  obtain ⟨rfl, h⟩ := C143_smuggled (pre := []) (epi := []) (ps := []) (qs := []) (es := []) (p' := ⟨Sample.rawHeaders, b!"one--two"⟩) refDeps_sane refDeps_tokenizes (by decide) (by decide) (.inl rfl) .nil (p := Sample.midPart) (Sample.raw_form _) Sample.mid_line
    rfl (.cons Sample.raw_readable .nil) (by decide +kernel) (by intro e; simp) (by simp [Ev.bytes]) hr
  exact ⟨got, hr, h.length⟩

/-- C143 for saving: within the limits (as for C77), a save of a request with the closing delimiter inside of a line reports `Full`, though the rest of this field and all parts behind it are not saved. -/
theorem C143_saved {cfg : Settings} {v : World} (hD : D.Sane) (hT : D.Tokenizes) (hcr : (0x0D : Byte) ∉ b) (hlf : (0x0A : Byte) ∉ b) {pre epi : Bytes} (hpre : Preamble b pre) {ps qs : List RawPart} {p : RawPart} {fh : FieldHeaders} {x y : Bytes}
    (hs : All2 (ReadablePart D b) ps es) (hh : FormHeaders D b p fh) (hp : MidLine b p x y) (hy : dashes <+: y) (hn : NoStall evs) (hne : NoErr evs)
    (he : Ev.bytes evs = pre ++ writeBody b epi (ps ++ p :: qs)) (hc : cfg.Typed) (ho : cfg.openOpts.createNew = true) (hu : cfg.textPolicy ≠ .force)
    (ht : Nat.min cfg.sizeLimit cfg.memoryThreshold < u64Max ∨ cfg.textPolicy = .ignore)
    (dir : SaveDir) (hcl : es.length + 1 < cfg.countLimit) (hz : ∀ p ∈ es ++ [(fh, x)], p.2.length + 2 ≤ cfg.sizeLimit) (hv : DiskReady v dir.asPath (es.length + 1)) :
    ∃ n, ∀ fuel, n ≤ fuel → ∃ e v' t fs, withEntries D cfg fuel (Entries.new dir) v (withBody evs b) = (.full e, v', t) ∧
      GroupedByName e.fields fs ∧ e.fieldsCount = es.length + 1 ∧ All2 (SavedAs b evs v') fs (es ++ [(fh, x)]) := by
  obtain ⟨y, rfl⟩ := hy
  have hP : Parts D (dashes ++ b) (Ev.bytes evs) (es ++ [(fh, x)]) .closed := by
    rw [he]
    refine midLine_parts hT hcr hlf hpre hs hh hp (.close (.close (p := x.length) (rest := y ++ crlf ++ writeBody b epi qs) ?_ ?_))
    · have := hp.first' (z := crlf ++ writeBody b epi qs)
      rwa [← List.append_assoc (dashes ++ y)] at this
    · rw [← List.drop_drop, List.drop_left, List.drop_left]
      simp
  have h := C77_request_succeeds (w := v) hD hn hne hc ho (fun h => absurd h hu) ht hP dir (by simpa using hcl) (fun p hp => .inl (hz p hp)) (by simpa using hv)
  simpa using h

/-- C143_saved. -/
example : ∃ n, ∀ fuel, n ≤ fuel → ∃ e v' t fs, withEntries refDeps Settings.default fuel (Entries.new (.perm [b!"d"])) Sample.disk
      (withBody [.data (writeBody Sample.rawBnd [] [Sample.closePart, ⟨Sample.rawHeaders, b!"one--two"⟩])] Sample.rawBnd) = (.full e, v', t) ∧
    GroupedByName e.fields fs ∧ e.fieldsCount = 1 ∧ All2 (SavedAs Sample.rawBnd [.data (writeBody Sample.rawBnd [] [Sample.closePart, ⟨Sample.rawHeaders, b!"one--two"⟩])] v') fs [(Sample.rawEntry.1, b!"see ")] :=
  C143_saved (cfg := Settings.default) (v := Sample.disk) (dir := .perm [b!"d"]) (pre := []) (epi := []) (ps := []) (qs := [⟨Sample.rawHeaders, b!"one--two"⟩]) (es := []) refDeps_sane refDeps_tokenizes (by decide) (by decide) (.inl rfl) .nil
    (p := Sample.closePart) (Sample.raw_form _) Sample.close_line (by decide) (by decide +kernel) (by intro e; simp) (by simp [Ev.bytes]) ⟨by decide, by decide, by decide, rfl⟩ rfl (by decide) (.inl (by decide)) (by decide)
    (fun p hp => by simp at hp; subst hp; decide) ⟨by simp [Sample.disk], by simp [Sample.disk], by intro ev h; simp [Sample.disk] at h, by decide, by decide, fun _ _ => rfl⟩

/-- C143 is false in full. -/
theorem C143_false : ¬ OnlyLineStarts refDeps := by
  intro h
  obtain ⟨got, fin, hr⟩ := C10_reads_total (evs := [.data (writeBody Sample.rawBnd [] [Sample.wordPart])]) (b := Sample.rawBnd) refDeps_sane ⟨[], rfl⟩
  obtain ⟨h1, -⟩ := C143_refused (pre := []) (epi := []) (ps := []) (qs := []) (es := []) refDeps_sane refDeps_tokenizes (by decide) (by decide) (.inl rfl) .nil (p := Sample.wordPart) (Sample.raw_form _) Sample.word_line
    (by decide) (by decide) (by decide +kernel) (by intro e; simp) (by simp [Ev.bytes]) hr
  obtain ⟨h2, -⟩ := h Sample.rawBnd [] [] [Sample.wordPart] [(Sample.rawEntry.1, Sample.wordPart.data)] _ got fin (by decide) (by decide) (.inl rfl) (.cons ⟨Sample.raw_form _, findSub_eq_none_iff.mp (by decide +kernel), rfl⟩ .nil)
    (by decide +kernel) (by intro e; simp) (single_cleanSplit (by simp [dashes])) (by simp [Ev.bytes]) hr
  rw [h1] at h2
  cases h2

end Multipart

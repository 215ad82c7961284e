import Verif.Spec.OtherClients
import Verif.Lemmas.RoundTrip
import Verif.Props.Disposition
import Verif.Props.Success
import Verif.Props.Split
/-!
# C116: bodies that other clients write
-/
namespace Multipart

namespace Sample

/-- The content type in front of the disposition, lower case, and a bare name. -/
def rawHeaders : List Header := [⟨b!"content-type", b!"text/plain"⟩, ⟨b!"content-disposition", b!"form-data; name=a; filename=\"a.txt\""⟩]

def rawEntry : FieldHeaders × Bytes := (⟨b!"a", some b!"a.txt", some ⟨b!"text/plain", b!"text"⟩⟩, b!"one--two")

def rawBnd : Bytes := b!"----Form Boundary"

/-- Whether all headers are made of the allowed bytes. -/
def headersOk (hs : List Header) : Bool := hs.all fun h => h.name != [] && h.name.all (fun c => c == 0x2D || (0x41 ≤ c.toNat && c.toNat ≤ 0x5A) || (0x61 ≤ c.toNat && c.toNat ≤ 0x7A)) &&
  h.val.all (fun c => c == 0x09 || (0x20 ≤ c.toNat && c.toNat != 0x7F)) && h.val.head? != some 0x20 && h.val.head? != some 0x09 && h.val.getLast? != some 0x20 && h.val.getLast? != some 0x09 && utf8Valid h.val

theorem headers_ok {hs : List Header} (h : headersOk hs = true) : ∀ h ∈ hs, HeaderName h.name ∧ HeaderText h.val := by
  intro x hx
  have := List.all_eq_true.mp h x hx
  simp only [Bool.and_eq_true, bne_iff_ne, List.all_eq_true, Bool.or_eq_true, beq_iff_eq, decide_eq_true_eq] at this
  obtain ⟨⟨⟨⟨⟨⟨⟨h1, h2⟩, h3⟩, h4⟩, h5⟩, h6⟩, h7⟩, h8⟩ := this
  exact ⟨⟨h1, fun c hc => by rcases h2 c hc with (h | h) | h <;> simp [h]⟩, ⟨h3, ⟨h4, h5⟩, ⟨h6, h7⟩, (utf8Valid_iff _).mp h8⟩⟩

theorem raw_says : Says b!"form-data; name=a; filename=\"a.txt\"" b!"a" (some b!"a.txt") :=
  ⟨[], [], b!" name=a; filename=\"a.txt\"", b!"a", b!"; filename=\"a.txt\"", by decide, white_nil, white_nil, ⟨b!"; ", by decide, by decide, by decide, .inr rfl⟩, ⟨0, 0, by decide, by decide, by decide⟩,
    b!"\"a.txt\"", [], ⟨b!"; ", by decide, by decide, by decide, .inl rfl⟩, 1, 1, by decide, by decide, by decide⟩

theorem raw_readable : ReadablePart refDeps rawBnd ⟨rawHeaders, b!"one--two"⟩ rawEntry := by
  have hp : FieldHeaders.parse refDeps rawHeaders = .ok rawEntry.1 := by decide +kernel
  obtain ⟨-, h⟩ := (C18_exact _).mp hp
  refine ⟨⟨headers_ok (by decide +kernel), by decide, by decide +kernel, findSub_eq_none_iff.mp (by decide +kernel)⟩, ⟨_, ⟨[⟨b!"content-type", b!"text/plain"⟩], [], rfl, ?_, ?_⟩, raw_says⟩, h, rfl⟩
  · exact (eqIgnoreCase_iff _ _).mp (by decide)
  · intro x hx
    simp only [List.mem_singleton] at hx
    subst hx
    exact fun h => absurd ((eqIgnoreCase_iff _ _).mpr h) (by decide)

/-- The file `a;b.txt`, as browsers send it. -/
def semiPart : RawPart := ⟨[⟨b!"Content-Disposition", b!"form-data; name=\"f\"; filename=\"a;b.txt\""⟩, ⟨b!"Content-Type", b!"text/plain"⟩], b!"x"⟩

end Sample

variable {D : Deps} {b : Bytes} {evs : List Ev}

theorem renderHeaders_ne (hs : List Header) : renderHeaders hs ≠ [] := by
  cases hs <;> simp [renderHeaders, crlf]

theorem Absent.suffix {d x y : Bytes} (h : Absent d (x ++ y)) : Absent d y := by
  intro q hq
  refine h (x.length + q) ?_
  unfold OccursAt at *
  rw [List.drop_length_add_append]
  exact hq

/-- One part, and what follows it. -/
theorem raw_part (hT : D.Tokenizes) (hcr : (0x0D : Byte) ∉ b) (hlf : (0x0A : Byte) ∉ b) {z : Bytes} (hz : dashes ++ b <+: z) {p : RawPart} {e : FieldHeaders × Bytes} (hs : ReadablePart D b p e)
    (pre : Bytes) (hf : FirstAt (dashes ++ b) (pre ++ (dashes ++ b ++ crlf ++ renderHeaders p.headers ++ p.data ++ crlf ++ z)) pre.length) :
    NextIs (dashes ++ b) (pre ++ (dashes ++ b ++ crlf ++ renderHeaders p.headers ++ p.data ++ crlf ++ z)) (.part (renderHeaders p.headers ++ (p.data ++ crlf ++ z))) ∧
      WellFormedPart D (dashes ++ b) (renderHeaders p.headers ++ (p.data ++ crlf ++ z)) e.1 p.data (p.data ++ crlf ++ z) ∧
      FirstAt (dashes ++ b) (p.data ++ crlf ++ z) (p.data ++ crlf).length := by
  have hd : dashes ++ b ≠ [] := by simp [dashes]
  have hcr : (0x0D : Byte) ∉ dashes ++ b := by simpa [dashes] using hcr
  have hlf : (0x0A : Byte) ∉ dashes ++ b := by simpa [dashes] using hlf
  have hnil : Absent (dashes ++ b) [] := fun q h => hd (by simpa [OccursAt] using h)
  have h0 : FirstAt (dashes ++ b) z 0 := ⟨hz, fun q hq => by omega⟩
  have hfd : FirstAt (dashes ++ b) (p.data ++ crlf ++ z) (p.data ++ crlf).length := by
    have := FirstAt.sep hd hcr hs.absent.suffix (FirstAt.sep hd hlf hnil h0)
    simpa [crlf] using this
  have hne : p.headers ≠ [] := by
    obtain ⟨cd, ⟨x, y, hx, -⟩, -⟩ := hs.disposition
    simp [hx]
  refine ⟨.part hf ?_, ⟨⟨renderHeaders p.headers, p.headers, ?_, (C18_exact _).mpr ⟨hs.disposition, hs.ctype⟩, hs.size, ?_⟩, ?_⟩, hfd⟩
  · have : pre ++ (dashes ++ b ++ crlf ++ renderHeaders p.headers ++ p.data ++ crlf ++ z) = (pre ++ (dashes ++ b)) ++ (crlf ++ (renderHeaders p.headers ++ (p.data ++ crlf ++ z))) := by simp
    rw [this, List.drop_left']
    simp
  · refine ⟨rfl, renderHeaders_ne _, fun more => hT _ hne hs.count hs.lines more, fun x hx => (hs.lines x hx).2.utf8, fun q hq => ?_⟩
    have := FirstAt.sep hd hcr hs.absent (FirstAt.sep hd hlf hnil h0)
    have e : renderHeaders p.headers ++ (p.data ++ crlf ++ z) = renderHeaders p.headers ++ p.data ++ 0x0D :: ([] ++ 0x0A :: z) := by simp [crlf]
    rw [e]
    exact this.2 q (by simp; omega)
  · intro hc
    have := hfd.unique hc
    simp [crlf] at this
  · exact .crlf (by simpa [crlf] using hfd) (List.prefix_append _ _)

theorem writeBody_prefix (b epi : Bytes) (ps : List RawPart) : dashes ++ b <+: writeBody b epi ps := by
  cases ps <;> (simp only [writeBody, List.append_assoc]; rw [← List.append_assoc]; exact List.prefix_append _ _)

theorem raw_parts (hT : D.Tokenizes) (hcr : (0x0D : Byte) ∉ b) (hlf : (0x0A : Byte) ∉ b) {epi : Bytes} {ps : List RawPart} {es : List (FieldHeaders × Bytes)} (h : All2 (ReadablePart D b) ps es) :
    ∀ pre : Bytes, FirstAt (dashes ++ b) (pre ++ writeBody b epi ps) pre.length → Parts D (dashes ++ b) (pre ++ writeBody b epi ps) es .closed := by
  induction h with
  | nil =>
    intro pre hf
    refine .close (.close (rest := epi) hf ?_)
    have : pre ++ writeBody b epi [] = (pre ++ (dashes ++ b)) ++ (dashes ++ epi) := by simp [writeBody]
    rw [this, List.drop_left']
    simp
  | @cons p e ps es hs _ ih =>
    intro pre hf
    obtain ⟨fh, dat⟩ := e
    obtain ⟨h1, h2, h3⟩ := raw_part hT hcr hlf (writeBody_prefix b epi ps) hs pre hf
    have hdat := hs.data
    simp only at hdat h2
    subst hdat
    exact .part h1 h2 (ih _ h3)

theorem Preamble.first {pre z : Bytes} (hcr : (0x0D : Byte) ∉ b) (hlf : (0x0A : Byte) ∉ b) (h : Preamble b pre) (hz : dashes ++ b <+: z) : FirstAt (dashes ++ b) (pre ++ z) pre.length := by
  have hd : dashes ++ b ≠ [] := by simp [dashes]
  have hcr : (0x0D : Byte) ∉ dashes ++ b := by simpa [dashes] using hcr
  have hlf : (0x0A : Byte) ∉ dashes ++ b := by simpa [dashes] using hlf
  have hnil : Absent (dashes ++ b) [] := fun q h => hd (by simpa [OccursAt] using h)
  have h0 : FirstAt (dashes ++ b) z 0 := ⟨hz, fun q hq => by omega⟩
  rcases h with rfl | ⟨p, rfl, hp⟩
  · simpa using h0
  · have := FirstAt.sep hd hcr hp (FirstAt.sep hd hlf hnil h0)
    simpa [crlf] using this

/-- The full claim C116: every form that is written as RFC 7578 says is read as its parts. -/
def OtherClients (D : Deps) : Prop := ∀ (b pre epi : Bytes) (ps : List RawPart) (es : List (FieldHeaders × Bytes)) (evs : List Ev) (got : List (FieldHeaders × Bytes)) (fin : Ending),
  b ≠ [] → (0x0D : Byte) ∉ b → (0x0A : Byte) ∉ b → Preamble b pre → All2 (FormPart D b) ps es → NoStall evs → NoErr evs → CleanSplit (dashes ++ b) evs →
  Ev.bytes evs = pre ++ writeBody b epi ps → Reads D (withBody evs b) got fin → fin = .closed ∧ got = es

/-- C116, as far as it holds: with up to four header lines per part, in any order and with any names besides, with any boundary (without line breaks), preamble and epilogue, in any split, it is read as the parts
that were written. Missing: names with `;` (see C116_false), more or longer header lines, and the delimiter inside of a line. -/
theorem C116_read_partial (hD : D.Sane) (hT : D.Tokenizes) (hcr : (0x0D : Byte) ∉ b) (hlf : (0x0A : Byte) ∉ b) {pre epi : Bytes} (hpre : Preamble b pre) {ps : List RawPart} {es : List (FieldHeaders × Bytes)}
    (hs : All2 (ReadablePart D b) ps es) (hn : NoStall evs) (hne : NoErr evs) (he : Ev.bytes evs = pre ++ writeBody b epi ps) :
    (∃ got fin, Reads D (withBody evs b) got fin) ∧ ∀ got fin, Reads D (withBody evs b) got fin →
      fin = .closed ∧ All2 (fun a e => a.1 = e.1 ∧ DataOk (dashes ++ b) evs e.2 a.2) got es ∧ (CleanSplit (dashes ++ b) evs → got = es) := by
  refine ⟨C10_reads_total hD ⟨[], rfl⟩, fun got fin hr => ?_⟩
  have hP : Parts D (dashes ++ b) (Ev.bytes evs) es .closed := he ▸ raw_parts hT hcr hlf hs pre (hpre.first hcr hlf (writeBody_prefix _ _ _))
  obtain ⟨h1, h2⟩ := C10_entries_are_parts hD hn hne hP hr
  refine ⟨h1, h2, fun hc => ?_⟩
  clear hP hr hs he
  induction h2 with
  | nil => rfl
  | @cons a e as es hr _ ih =>
    obtain ⟨ha, hd | ⟨-, hd⟩⟩ := hr
    · rw [ih]; congr 1; exact Prod.ext ha hd
    · exact absurd hc hd

/-- The hypotheses are met: a preamble, a boundary with a blank, one part, and an epilogue. -/
example : ∀ got fin, Reads refDeps (withBody [.data (b!"preamble\r\n" ++ writeBody Sample.rawBnd b!" epilogue" [⟨Sample.rawHeaders, b!"one--two"⟩])] Sample.rawBnd) got fin → fin = .closed ∧ got = [Sample.rawEntry] := by
  intro got fin h
  obtain ⟨h1, -, h2⟩ := (C116_read_partial (pre := b!"preamble\r\n") (epi := b!" epilogue") refDeps_sane refDeps_tokenizes (by decide) (by decide) (.inr ⟨b!"preamble", rfl, findSub_eq_none_iff.mp (by decide +kernel)⟩)
    (.cons Sample.raw_readable .nil) (by decide +kernel) (by intro e; simp) (by simp [Ev.bytes])).2 got fin h
  exact ⟨h1, h2 (single_cleanSplit (by simp [dashes]))⟩

/-- C116, as far as it holds: and within the limits it is saved fully. -/
theorem C116_saved_partial {cfg : Settings} {w : World} (hD : D.Sane) (hT : D.Tokenizes) (hcr : (0x0D : Byte) ∉ b) (hlf : (0x0A : Byte) ∉ b) {pre epi : Bytes} (hpre : Preamble b pre) {ps : List RawPart}
    {es : List (FieldHeaders × Bytes)} (hs : All2 (ReadablePart D b) ps es) (hn : NoStall evs) (hne : NoErr evs) (he : Ev.bytes evs = pre ++ writeBody b epi ps)
    (hc : cfg.Typed) (ho : cfg.openOpts.createNew = true)
    (hp : cfg.textPolicy = .force → ∀ p ∈ es, p.1.isText = true → IsUtf8 p.2) (ht : Nat.min cfg.sizeLimit cfg.memoryThreshold < u64Max ∨ cfg.textPolicy = .ignore)
    (dir : SaveDir) (hl : ps.length < cfg.countLimit) (hz : ∀ p ∈ ps, p.data.length + 2 ≤ cfg.sizeLimit) (hw : DiskReady w dir.asPath ps.length) :
    ∃ n, ∀ fuel, n ≤ fuel → ∃ e w' t fs, withEntries D cfg fuel (Entries.new dir) w (withBody evs b) = (.full e, w', t) ∧
      GroupedByName e.fields fs ∧ e.fieldsCount = ps.length ∧ All2 (SavedAs b evs w') fs es := by
  have hP : Parts D (dashes ++ b) (Ev.bytes evs) es .closed := he ▸ raw_parts hT hcr hlf hs pre (hpre.first hcr hlf (writeBody_prefix _ _ _))
  have hlen : ps.length = es.length := by
    clear hP he hl hz hw hp
    induction hs with
    | nil => rfl
    | cons _ _ ih => simp [ih]
  have hz' : ∀ p ∈ es, p.2.length + 2 ≤ cfg.sizeLimit := by
    clear hP he hl hw hp hlen
    induction hs with
    | nil => simp
    | @cons p e ps es h _ ih =>
      intro q hq
      rcases List.mem_cons.mp hq with rfl | hq
      · rw [h.data]; exact hz p (by simp)
      · exact ih (fun p hp => hz p (by simp [hp])) q hq
  rw [hlen] at hl hw ⊢
  exact C77_request_succeeds hD hn hne hc ho hp ht hP dir hl (fun p hp => .inl (hz' p hp)) hw

/-- The hypotheses are met: the same request with the default settings. -/
example : ∃ n, ∀ fuel, n ≤ fuel → ∃ e w' t fs, withEntries refDeps Settings.default fuel (Entries.new (.perm [b!"d"])) Sample.disk
      (withBody [.data (b!"preamble\r\n" ++ writeBody Sample.rawBnd b!" epilogue" [⟨Sample.rawHeaders, b!"one--two"⟩])] Sample.rawBnd) = (.full e, w', t) ∧
    GroupedByName e.fields fs ∧ e.fieldsCount = 1 ∧ All2 (SavedAs Sample.rawBnd [.data (b!"preamble\r\n" ++ writeBody Sample.rawBnd b!" epilogue" [⟨Sample.rawHeaders, b!"one--two"⟩])] w') fs [Sample.rawEntry] :=
  C116_saved_partial (pre := b!"preamble\r\n") (epi := b!" epilogue") refDeps_sane refDeps_tokenizes (by decide) (by decide) (.inr ⟨b!"preamble", rfl, findSub_eq_none_iff.mp (by decide +kernel)⟩)
    (.cons Sample.raw_readable .nil) (by decide +kernel) (by intro e; simp) (by simp [Ev.bytes]) ⟨by decide, by decide, by decide, rfl⟩ rfl (fun h => by simp [Settings.default] at h) (.inl (by decide))
    (.perm [b!"d"]) (by decide) (by intro p hp; simp at hp; subst hp; decide)
    ⟨by simp [Sample.disk], by simp [Sample.disk], by intro ev h; simp [Sample.disk] at h, by decide, by decide, fun _ _ => rfl⟩

/-- Names as browsers write them are understood, if there is no `;` in them and no quote at their ends. -/
theorem formValue_says {n : Bytes} {f : Option Bytes} (hn : Plain n) (hf : ∀ x, f = some x → Plain x) : Says (formValue n f) n f := by
  have hu : ∀ {x : Bytes}, Plain x → Unquoted (0x22 :: x ++ [0x22]) x := fun h => ⟨1, 1, by simp, h.head, h.last⟩
  have hsemi : ∀ {x : Bytes}, Plain x → (0x3B : Byte) ∉ 0x22 :: x ++ [0x22] := fun h => by simp [h.semi]
  have hA : ∀ T : Bytes, FirstAt b!"name=" (b!"; name=" ++ T) 2 := fun T => by
    have : FirstAt b!"name=" b!"; name=" 2 := by decide
    exact this.append (by simp) T
  have hB : ∀ T : Bytes, FirstAt b!"filename=" (b!"; filename=" ++ T) 2 := fun T => by
    have : FirstAt b!"filename=" b!"; filename=" 2 := by decide
    exact this.append (by simp) T
  cases f with
  | none =>
    refine ⟨[], [], b!" name=" ++ (0x22 :: n ++ [0x22]), 0x22 :: n ++ [0x22], [], by simp [formValue], white_nil, white_nil, ⟨b!"; ", by simp, (by have := hA (0x22 :: n ++ [0x22]); simp only [List.cons_append, List.append_assoc, List.nil_append, List.append_nil] at this ⊢; exact this), hsemi hn, .inl rfl⟩, hu hn, ?_⟩
    exact findSub_eq_none_iff.mp (by decide)
  | some x =>
    have hx := hf x rfl
    refine ⟨[], [], b!" name=" ++ (0x22 :: n ++ [0x22]) ++ (b!"; filename=" ++ (0x22 :: x ++ [0x22])), 0x22 :: n ++ [0x22], b!"; filename=" ++ (0x22 :: x ++ [0x22]), by simp [formValue], white_nil, white_nil,
      ⟨b!"; ", by simp, (by have := hA (0x22 :: n ++ [0x22] ++ (b!"; filename=" ++ (0x22 :: x ++ [0x22]))); simp only [List.cons_append, List.append_assoc, List.nil_append] at this ⊢; exact this), hsemi hn, .inr (by simp)⟩, hu hn, ?_⟩
    exact ⟨0x22 :: x ++ [0x22], [], ⟨b!"; ", by simp, (by have := hB (0x22 :: x ++ [0x22]); simp only [List.cons_append, List.append_assoc, List.nil_append, List.append_nil] at this ⊢; exact this), hsemi hx, .inl rfl⟩, hu hx⟩

/-- The hypotheses are met. -/
example : Says (formValue b!"my \"field\" 1" (some b!"a.txt")) b!"my \"field\" 1" (some b!"a.txt") :=
  formValue_says ⟨by decide, by decide, by decide⟩ (by intro x h; cases h; exact ⟨by decide, by decide, by decide⟩)

/-- C116 is false of the code: of the file name `a;b.txt` the server reads `a`. -/
theorem C116_false : ¬ OtherClients refDeps := by
  intro h
  have hread : ((withBody [.data (writeBody b!"b" [] [Sample.semiPart])] b!"b").readEntry refDeps).1 = .ok (some ⟨b!"f", some b!"a", some ⟨b!"text/plain", b!"text"⟩⟩) := by decide +kernel
  obtain ⟨got, fin, hr⟩ := C10_reads_total (evs := [.data (writeBody b!"b" [] [Sample.semiPart])]) (b := b!"b") refDeps_sane ⟨[], rfl⟩
  obtain ⟨-, h2⟩ := h b!"b" [] [] [Sample.semiPart] [(⟨b!"f", some b!"a;b.txt", some ⟨b!"text/plain", b!"text"⟩⟩, b!"x")] [.data (writeBody b!"b" [] [Sample.semiPart])] got fin (by simp) (by decide) (by decide) (.inl rfl)
    (.cons ⟨Sample.headers_ok (by decide +kernel), ⟨by decide, by intro f hf; cases hf; decide⟩,
      ⟨_, ⟨[], _, rfl, (eqIgnoreCase_iff _ _).mp (by decide), by simp⟩, by decide⟩,
      ⟨⟨b!"Content-Type", b!"text/plain"⟩, ⟨[_], [], rfl, (eqIgnoreCase_iff _ _).mp (by decide), by
        intro x hx
        simp only [List.mem_singleton] at hx
        subst hx
        exact fun h => absurd ((eqIgnoreCase_iff _ _).mpr h) (by decide)⟩, by decide +kernel⟩,
      findSub_eq_none_iff.mp (by decide +kernel), rfl⟩ .nil) (by decide +kernel) (by intro e; simp) (single_cleanSplit (by simp [dashes])) (by simp [Ev.bytes]) hr
  cases hr with
  | close h => simp at h2
  | fail h => simp at h2
  | entry h =>
    simp only [BR.session] at h
    rw [h] at hread
    simp at h2 hread
    rw [hread] at h2
    simp at h2

end Multipart

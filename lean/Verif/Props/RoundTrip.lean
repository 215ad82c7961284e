import Verif.Lemmas.RoundTrip
import Verif.Props.Client
/-!
# C24: from the client to the server
-/
namespace Multipart

namespace Sample

def flds : List OutField := [⟨b!"a", none, none, b!"hello"⟩, ⟨b!"f", some b!"f.txt", some b!"text/plain", b!"filedata"⟩, ⟨b!"s", none, some b!"application/octet-stream", b!"xyz"⟩]

def flctypes : List (Option Mime) := [none, some ⟨b!"text/plain", b!"text"⟩, some octetStream]

theorem nameText {n : Bytes} (h1 : (0x3B : Byte) ∉ n) (h2 : n.head? ≠ some 0x22) (h3 : n.getLast? ≠ some 0x22) (h4 : ∀ c ∈ n, c = 0x09 ∨ (0x20 ≤ c.toNat ∧ c.toNat ≠ 0x7F)) (h5 : utf8Valid n = true) : NameText n :=
  ⟨⟨h1, h2, h3⟩, h4, (utf8Valid_iff _).mp h5⟩

theorem sendable : All2 (Sendable refDeps b!"b") flds flctypes := by
  have abs : ∀ v : Bytes, findSub (dashes ++ b!"b") v = none → Absent (dashes ++ b!"b") v := fun v h => findSub_eq_none_iff.mp h
  refine .cons ?_ (.cons ?_ (.cons ?_ .nil))
  · exact ⟨nameText (by decide) (by decide) (by decide) (by decide) (by decide +kernel), by simp, by simp, by decide +kernel, by decide +kernel,
      abs _ (by decide +kernel), by simp, by simp, abs _ (by decide +kernel)⟩
  · refine ⟨nameText (by decide) (by decide) (by decide) (by decide) (by decide +kernel), ?_, ?_, by decide +kernel, by decide +kernel,
      abs _ (by decide +kernel), ?_, ?_, abs _ (by decide +kernel)⟩
    · intro n h; cases h; exact nameText (by decide) (by decide) (by decide) (by decide) (by decide +kernel)
    · intro n h; cases h; exact ⟨by decide, by decide, by decide, (utf8Valid_iff _).mp (by decide +kernel)⟩
    · intro n h; cases h; exact abs _ (by decide +kernel)
    · intro n h; cases h; exact abs _ (by decide +kernel)
  · refine ⟨nameText (by decide) (by decide) (by decide) (by decide) (by decide +kernel), by simp, ?_, by decide +kernel, by decide +kernel,
      abs _ (by decide +kernel), by simp, ?_, abs _ (by decide +kernel)⟩
    · intro n h; cases h; exact ⟨by decide, by decide, by decide, (utf8Valid_iff _).mp (by decide +kernel)⟩
    · intro n h; cases h; exact abs _ (by decide +kernel)

/-- The body in two reads. -/
def sentEvs : List Ev := [.data (sent.sink.got.take 20), .data (sent.sink.got.drop 20)]

theorem sentEvs_clean : CleanSplit (dashes ++ b!"b") sentEvs := by
  refine .of_none ?_
  rintro k ⟨x, y, h1, h2⟩ hk
  have : (Ev.bytes x).length = 0 ∨ (Ev.bytes x).length = 20 ∨ (Ev.bytes x).length = sent.sink.got.length := by
    have hl : sentEvs = x ++ y := h1
    unfold sentEvs at hl
    match x, hl with
    | [], _ => exact .inl rfl
    | [_], hl => cases hl; right; left; decide +kernel
    | [_, _], hl => cases hl; right; right; decide +kernel
    | _ :: _ :: _ :: _, hl => simp at hl
  rw [h2] at this
  have hlen : sent.sink.got.length = 260 := by decide +kernel
  rw [hlen] at this
  rcases this with h | h | h
  · omega
  · have : k = 19 := by omega
    subst this; revert hk; decide +kernel
  · have : k = 259 := by omega
    subst this; revert hk; decide +kernel

def semiOps : List ClientOp := [.text b!"a;b" b!"x"]

def semiSent : ClientStream := ((plainRequest env req b!"b" semiOps).2).getD ⟨[], ⟨[], []⟩, none⟩

theorem semiSent_eq : plainRequest env req b!"b" semiOps = (.ok (), some semiSent) := by decide +kernel

theorem semi_read : ((withBody [.data semiSent.sink.got] b!"b").readEntry refDeps).1 = .ok (some ⟨b!"a", none, none⟩) := by decide +kernel

end Sample

variable {D : Deps} {env : FileEnv} {req : ClientReq} {b : Bytes} {os : List ClientOp} {fs : List OutField} {cts : List (Option Mime)} {s : ClientStream} {evs : List Ev}

/-- The full claim C24: whatever was sent with success is read back as the same fields. `cts` are the parsed content types. -/
def RoundTrip (D : Deps) : Prop := ∀ (env : FileEnv) (req : ClientReq) (b : Bytes) (os : List ClientOp) (fs : List OutField) (cts : List (Option Mime)) (s : ClientStream) (evs : List Ev)
  (got : List (FieldHeaders × Bytes)) (fin : Ending), SafeBoundary b → plainRequest env req b os = (.ok (), some s) → All2 (StandsFor env) os fs →
  All2 (fun f ct => f.ctype.map D.parseMime = ct.map some ∧ Absent (dashes ++ b) (f.headers ++ f.data)) fs cts →
  NoStall evs → NoErr evs → Ev.bytes evs = s.sink.got → Reads D (withBody evs b) got fin → fin = .closed ∧ got = List.zipWith OutField.asRead fs cts

theorem all2_of_nth {α β : Type} {R : α → β → Prop} {xs : List α} {ys : List β} (h : All2 R xs ys) {S : α → β → Prop} (hs : ∀ x y, R x y → S x y) : All2 S xs ys := by
  induction h with
  | nil => exact .nil
  | cons hr _ ih => exact .cons (hs _ _ hr) ih

theorem encoded_framed {es : List (FieldHeaders × Bytes)} (hT : D.Tokenizes) (hb : SafeBoundary b) (hs : All2 (fun f e => Framed D b f e.1 ∧ e.2 = f.data) fs es) : Parts D (dashes ++ b) (encode b fs) es .closed := by
  refine framed_parts hT hb hs [] ⟨?_, fun q hq => by simp at hq⟩
  unfold OccursAt
  simp only [List.nil_append, List.length_nil, List.drop_zero]
  cases fs with
  | nil => simp [encode]
  | cons f fs => simp only [encode, List.append_assoc]; rw [← List.append_assoc]; exact List.prefix_append _ _

theorem sent_encode (h : plainRequest env req b os = (.ok (), some s)) (hos : All2 (StandsFor env) os fs) : s.sink.got = encode b fs := by
  obtain ⟨fs', hos', hg, -⟩ := C23_body h
  have : fs' = fs := by
    clear h hg
    induction hos' generalizing fs with
    | nil => cases hos; rfl
    | cons hf _ ih =>
      cases hos with
      | cons hf' hos => rw [hf.unique hf', ih hos]
  rw [hg, this]

/-- What was sent with success consists of the parts for its fields. -/
theorem sent_framed {es : List (FieldHeaders × Bytes)} (hT : D.Tokenizes) (hb : SafeBoundary b) (h : plainRequest env req b os = (.ok (), some s)) (hos : All2 (StandsFor env) os fs)
    (hs : All2 (fun f e => Framed D b f e.1 ∧ e.2 = f.data) fs es) (he : Ev.bytes evs = s.sink.got) : Parts D (dashes ++ b) (Ev.bytes evs) es .closed := by
  rw [he, sent_encode h hos]
  exact encoded_framed hT hb hs

theorem encoded_parts (hT : D.Tokenizes) (hb : SafeBoundary b) (hs : All2 (Sendable D b) fs cts) : Parts D (dashes ++ b) (encode b fs) (List.zipWith OutField.asRead fs cts) .closed :=
  encoded_framed hT hb (all2_framed hb hs)

theorem sent_parts (hT : D.Tokenizes) (hb : SafeBoundary b) (h : plainRequest env req b os = (.ok (), some s)) (hos : All2 (StandsFor env) os fs)
    (hs : All2 (Sendable D b) fs cts) (he : Ev.bytes evs = s.sink.got) : Parts D (dashes ++ b) (Ev.bytes evs) (List.zipWith OutField.asRead fs cts) .closed :=
  sent_framed hT hb h hos (all2_framed hb hs) he

/-- C24, as far as it holds: if names and filenames have no `;` or control characters and no quotes at their ends, the header blocks are of bounded size and the delimiter
does not occur in what is sent, then a body sent with success (with any write schedule) and read back (in any split without
empty reads, with any read calls) has the same fields in the same order with the same headers, and then the end. The data is the same, but may have a CRLF appended if the
stream was split between a CR and LF in front of a delimiter (see C01). Missing: names that contain `;`, quotes or line breaks, which the client does not escape; large headers. -/
theorem C24_round_trip_partial (hD : D.Sane) (hT : D.Tokenizes) (hb : SafeBoundary b) (h : plainRequest env req b os = (.ok (), some s)) (hos : All2 (StandsFor env) os fs)
    (hs : All2 (Sendable D b) fs cts) (hn : NoStall evs) (hne : NoErr evs) (he : Ev.bytes evs = s.sink.got) {got : List (FieldHeaders × Bytes)} {fin : Ending}
    (hr : Reads D (withBody evs b) got fin) :
    fin = .closed ∧ All2 (fun a e => a.1 = e.1 ∧ DataOk (dashes ++ b) evs e.2 a.2) got (List.zipWith OutField.asRead fs cts) := by
  exact C10_entries_are_parts hD hn hne (sent_parts hT hb h hos hs he) hr

/-- If no read ends inside a CRLF in front of a delimiter, it is exactly the same fields. -/
theorem C24_clean_split_partial (hD : D.Sane) (hT : D.Tokenizes) (hb : SafeBoundary b) (h : plainRequest env req b os = (.ok (), some s)) (hos : All2 (StandsFor env) os fs)
    (hs : All2 (Sendable D b) fs cts) (hn : NoStall evs) (hne : NoErr evs) (he : Ev.bytes evs = s.sink.got) (hc : CleanSplit (dashes ++ b) evs) :
    (∃ got fin, Reads D (withBody evs b) got fin) ∧ ∀ got fin, Reads D (withBody evs b) got fin → fin = .closed ∧ got = List.zipWith OutField.asRead fs cts := by
  refine ⟨C10_reads_total hD ⟨[], rfl⟩, fun got fin hr => ?_⟩
  obtain ⟨h1, h2⟩ := C24_round_trip_partial hD hT hb h hos hs hn hne he hr
  refine ⟨h1, ?_⟩
  clear hr he hs hos
  generalize List.zipWith OutField.asRead fs cts = es at h2
  induction h2 with
  | nil => rfl
  | @cons a e as es hr _ ih =>
    obtain ⟨ha, hd | ⟨-, hd⟩⟩ := hr
    · rw [ih]; congr 1; exact Prod.ext ha hd
    · exact absurd hc hd

/-- The hypotheses of C24_round_trip_partial are met, too. -/
example : refDeps.Sane ∧ refDeps.Tokenizes ∧ SafeBoundary b!"b" ∧ plainRequest Sample.env Sample.req b!"b" Sample.ops = (.ok (), some Sample.sent) ∧
    All2 (StandsFor Sample.env) Sample.ops Sample.flds ∧ All2 (Sendable refDeps b!"b") Sample.flds Sample.flctypes ∧ NoStall Sample.sentEvs ∧ NoErr Sample.sentEvs ∧
    Ev.bytes Sample.sentEvs = Sample.sent.sink.got ∧ CleanSplit (dashes ++ b!"b") Sample.sentEvs :=
  ⟨refDeps_sane, refDeps_tokenizes, ⟨by simp, by decide⟩, Sample.sent_eq, Sample.ops_fields, Sample.sendable, by decide +kernel, by intro e; simp [Sample.sentEvs], by decide +kernel, Sample.sentEvs_clean⟩

/-- C24 is false of the code: the client writes the name `a;b` as it is, the server reads the name `a`. -/
theorem C24_false : ¬ RoundTrip refDeps := by
  intro h
  obtain ⟨got, fin, hr⟩ := C10_reads_total (evs := [.data Sample.semiSent.sink.got]) (b := b!"b") refDeps_sane ⟨[], rfl⟩
  obtain ⟨-, h2⟩ := h Sample.env Sample.req b!"b" Sample.semiOps [⟨b!"a;b", none, none, b!"x"⟩] [none] Sample.semiSent [.data Sample.semiSent.sink.got] got fin
    ⟨by simp, by decide⟩ Sample.semiSent_eq (.cons (.text _ _) .nil) (.cons ⟨rfl, findSub_eq_none_iff.mp (by decide +kernel)⟩ .nil)
    (by decide +kernel) (by intro e; simp) (by simp [Ev.bytes]) hr
  have hs := Sample.semi_read
  cases hr with
  | close h => simp at h2
  | fail h => simp at h2
  | entry h =>
    simp only [BR.session] at h
    rw [h] at hs
    simp [OutField.asRead] at h2 hs
    rw [hs] at h2
    simp at h2

end Multipart

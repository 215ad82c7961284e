import Verif.Lemmas.Progress
import Verif.Lemmas.Case
import Verif.Props.Sample
/-!
# C14 - C19: headers of a field
-/
namespace Multipart

variable {D : Deps} {evs : List Ev} {b : Bytes} {s t : BR} {fh : FieldHeaders}

/-- The reader is fresh, or the current field was read to its end. -/
def BR.FreshOrEof (evs : List Ev) (b : Bytes) (s : BR) : Prop := s = withBody evs b ∨ s.AtEof

theorem BR.FreshOrEof.drained (hi : s.Inv) (h : s.FreshOrEof evs b) : s.Drained := by
  rcases h with rfl | h
  · intro h; simp [withBody, BR.fromReader] at h
  · exact h.drained hi

/-! ## C14 -/

/-- C14: a well-formed header block within the bound is parsed, and exactly its bytes are consumed, for every split of the body. -/
theorem C14_headers_parse (hD : D.Sane) (hn : NoStall evs) (hne : NoErr evs) (hr : Reachable D evs b s) (hf : s.FreshOrEof evs b)
    (hend : (s.readEntry D).1 ≠ .ok none) {rest H X dat : Bytes} {hs : List Header}
    (hN : NextIs (dashes ++ b) s.unread (.part rest)) (hH : HeaderBlock D (dashes ++ b) rest H hs X)
    (hfd : FieldData (dashes ++ b) X dat) (hsep : FirstAt (dashes ++ b) X dat.length → ¬ crlf <:+ H ++ dat)
    (hb : H.length + (dashes ++ b).length + 1 ≤ Nat.max 1024 (2 * (dashes ++ b).length))
    (hp : FieldHeaders.parse D hs = .ok fh) :
    (s.readEntry D).1 = .ok (some fh) ∧ (s.readEntry D).2.unread = X := by
  obtain ⟨hi, hu, hdl, hev⟩ := hr.spec hD
  rw [← hdl] at hN hH hfd hsep hb
  exact BR.readEntry_exact hD hi (fun h => hend (by rw [BR.readEntry_atEnd h])) (hf.drained hi) (hn.suffix hev) (hne.suffix hev)
    hN hH hfd hsep hb hp

/-- C14_headers_parse. -/
example : NextIs (dashes ++ Sample.bnd) (withBody Sample.evs Sample.bnd).unread (.part (Sample.hdr ++ b!"hello\r\n--b--\r\nepi")) ∧
    HeaderBlock refDeps (dashes ++ Sample.bnd) (Sample.hdr ++ b!"hello\r\n--b--\r\nepi") Sample.hdr
      [{ name := b!"Content-Disposition", val := b!"form-data; name=\"a\"" }] b!"hello\r\n--b--\r\nepi" ∧
    FieldData (dashes ++ Sample.bnd) b!"hello\r\n--b--\r\nepi" b!"hello" :=
  ⟨.part (p := 3) (by decide +kernel) (by decide +kernel), Sample.headerBlock (by decide +kernel),
    .crlf (by decide) ⟨b!"--b--\r\nepi", rfl⟩⟩

example : ((withBody Sample.evs Sample.bnd).readEntry refDeps).2.unread = b!"hello\r\n--b--\r\nepi" :=
  (C14_headers_parse (evs := Sample.evs) (fh := Sample.fh) (rest := Sample.hdr ++ b!"hello\r\n--b--\r\nepi") (dat := b!"hello") refDeps_sane (by decide +kernel) Sample.noErr1 ⟨[], rfl⟩ (.inl rfl) (by decide +kernel)
    (.part (p := 3) (by decide +kernel) (by decide +kernel)) (Sample.headerBlock (by decide +kernel)) (.crlf (by decide) ⟨b!"--b--\r\nepi", rfl⟩) (fun h => absurd h (by decide)) (by decide) (by decide +kernel)).2

/-! ## C15 -/

/-- C15: if the tokenizer accepts no prefix of the part that ends before the next delimiter, `read_entry` gives no entry, whatever
the state and the stream; and for a fresh reader or a field read to its end, with no I/O failure, the error is `InvalidData`. -/
theorem C15_bad_headers_rejected (hD : D.Sane) (hr : Reachable D evs b s) {rest : Bytes}
    (hN : NextIs (dashes ++ b) s.unread (.part rest))
    (hbad : ∀ P, P <+: rest → (∀ q, q < P.length → ¬ OccursAt (dashes ++ b) rest q) → ∀ n hs, D.parseHeaders P ≠ .complete n hs) :
    (∀ fh, (s.readEntry D).1 ≠ .ok (some fh)) ∧
    (NoStall evs → NoErr evs → s.FreshOrEof evs b → (s.readEntry D).1 ≠ .ok none → (s.readEntry D).1 = .err .invalidData) := by
  obtain ⟨hi, hu, hdl, hev⟩ := hr.spec hD
  rw [← hdl] at hN hbad
  have hne : ∀ fh, (s.readEntry D).1 ≠ .ok (some fh) := by
    intro fh h
    have hsp := BR.readEntry_spec hD hi
    rw [h] at hsp
    cases hsp with
    | entry _ a c d e =>
      have := a.unique hi.delim_ne hN
      cases this
      exact hbad _ c d _ _ e
  refine ⟨hne, fun h1 h2 h3 h4 => ?_⟩
  have hst : s.st ≠ .atEnd := fun h => h4 (by rw [BR.readEntry_atEnd h])
  have hsi := BR.setMin_inv hi minBufSize
  have hdr : s.Drained := h3.drained hi
  have hx := BR.consumeBoundary_exact hsi s.setMin_entryMin hst hdr (h2.suffix hev) (h1.suffix hev) hN
  rcases hcb : (s.setMin minBufSize).consumeBoundary with ⟨r, t⟩
  rw [hcb] at hx
  simp only [Verdict.result] at hx
  obtain ⟨rfl, -⟩ := hx
  have hh := BR.readHeaders_spec hD (BR.consumeBoundary_true hsi hcb).1
  unfold BR.readEntry at hne ⊢
  rw [hcb] at hne ⊢
  simp only at hne ⊢
  generalize BR.readHeaders D t = r at hh hne ⊢
  rcases r with ⟨r1, w⟩
  simp only at hh
  cases hh with
  | ok => exact absurd rfl (hne _)
  | err => rfl

example : ((withBody [.data b!"--b\r\nContent-Disposition: form-data; na", .data b!"me=\"a\"\r\n--b--"] b!"b").readEntry refDeps).1 = .err .invalidData := by
  decide +kernel

/-! ## C16 -/

/-- The full claim C16: the next `read_entry` reports what the next delimiter says. -/
def ContinuesAfterBadHeaders (D : Deps) : Prop :=
  ∀ (evs : List Ev) (b : Bytes) (s t : BR) (rest : Bytes), NoStall evs → NoErr evs → Reachable D evs b s →
    NextIs (dashes ++ b) s.unread (.part rest) → s.readEntry D = (.err .invalidData, t) →
    ∀ r', NextIs (dashes ++ b) rest (.close r') → (t.readEntry D).1 = .ok none

/-- C16, as far as it holds: after an error about the headers of the part `rest`, nothing up to the next delimiter behind them is decided
differently: the next `read_entry` reports the part, end or damage found there. Missing: in the case of C07's defect (a read ended
right behind that delimiter or one byte later, which filled the buffer) it may report an unexpected EOF instead. -/
theorem C16_continues_partial (hD : D.Sane) (hn : NoStall evs) (hne : NoErr evs) (hr : Reachable D evs b s) {rest : Bytes}
    (hN : NextIs (dashes ++ b) s.unread (.part rest)) (he : s.readEntry D = (.err .invalidData, t)) :
    (∀ v, NextIs (dashes ++ b) rest v → NextIs (dashes ++ b) t.unread v) ∧
    (((∀ r', NextIs (dashes ++ b) rest (.close r') → (t.readEntry D).1 = .ok none) ∧
      (NextIs (dashes ++ b) rest .damaged → (t.readEntry D).1 = .err .invalidData) ∧
      (NextIs (dashes ++ b) rest .truncated → (t.readEntry D).1 = .err .unexpectedEof) ∧
      (∀ r' fh dat X, NextIs (dashes ++ b) rest (.part r') → WellFormedPart D (dashes ++ b) r' fh dat X →
        (t.readEntry D).1 = .ok (some fh) ∧ (t.readEntry D).2.unread = X) ∧
      (∀ r', NextIs (dashes ++ b) rest (.part r') → NoFieldHeaders D (dashes ++ b) r' → (t.readEntry D).1 = .err .invalidData)) ∨
     ((t.readEntry D).1 = .err .unexpectedEof ∧ ∃ gone p, Ev.bytes evs = gone ++ t.unread ∧ FirstAt (dashes ++ b) t.unread p ∧ entryBuf (dashes ++ b) < p + (dashes ++ b).length + 2 ∧
      (SplitAt evs (gone.length + p + (dashes ++ b).length) ∨ SplitAt evs (gone.length + p + (dashes ++ b).length + 1)))) := by
  obtain ⟨hi, hu, hdl, hev⟩ := hr.spec hD
  have h1 := hr.step .readEntry
  have h2 : s.sop D .readEntry = t := by show (s.readEntry D).2 = t; rw [he]
  rw [h2] at h1
  obtain ⟨hi1, hu1, hdl1, hev1⟩ := h1.spec hD
  rw [← hdl] at hN ⊢
  have hkey : ∃ k, t.unread = rest.drop k ∧ (∀ q, q < k → ¬ OccursAt s.delim rest q) ∧ t.st ≠ .atEnd := by
    have hsp := BR.readEntry_spec hD hi
    rw [he] at hsp
    simp only at hsp
    cases hsp with
    | badHeaders _ a c d _ _ _ _ e =>
      have := a.unique hi.delim_ne hN
      cases this
      exact ⟨_, c, d, e⟩
    | noBoundary _ _ _ _ _ h =>
      rcases h with h | h | ⟨_, h⟩
      · exact absurd h ((hne.suffix hev) _)
      · simp at h
      · have := h.unique hi.delim_ne hN; simp at this
  obtain ⟨k, k1, k2, k3⟩ := hkey
  have hsame : ∀ v, NextIs s.delim rest v → NextIs s.delim t.unread v := by
    intro v hv; rw [k1]; exact hv.drop k2
  refine ⟨hsame, ?_⟩
  obtain ⟨gone, hg⟩ := hu1
  have hdt : t.delim = s.delim := by rw [hdl1, hdl]
  rcases BR.readEntry_any hD hi1 k3 (hne.suffix hev1) (hn.suffix hev1) hev1 hg.symm with ⟨a1, a2, a3, a4, a6⟩ | ⟨a1, p, a2, -, a5, a3⟩
  · left
    rw [hdt] at a1 a2 a3 a4
    refine ⟨fun r' h => (a1 r' (hsame _ h)).1, fun h => a2 (hsame _ h), fun h => a3 (hsame _ h), fun r' fh dat X h w => ?_, fun r' h hb => ?_⟩
    · obtain ⟨H, hs, w1, w2, w3, w4⟩ := w.headers
      exact a4 r' H X dat hs fh (hsame _ h) w1 w.data w4 w3 w2
    · exact BR.readEntry_refused hD hi1 k3 (.inr (a6 r' (hdt ▸ hsame _ h))) hn hne hev1 (hdt ▸ hsame _ h) (hdt ▸ hb)
  · right
    rw [hdt] at a2 a3 a5
    exact ⟨a1, gone, p, hg.symm, a2, a5, a3⟩

namespace Sample
/-- A part with a malformed header line and 1100 more bytes, read up to just behind the next delimiter. -/
def evsBad : List Ev := [.data (b!"--b\r\nbad\r\n\r\n" ++ big ++ b!"\r\n--b"), .data b!"--\r\n"]
def sBad : BR := ((withBody evsBad bnd).readEntry refDeps).2
theorem bad1 : (withBody evsBad bnd).readEntry refDeps = (.err .invalidData, sBad) :=
  pair_eq (by decide +kernel) sBad.eq_def.symm
theorem bad2 : (sBad.readEntry refDeps).1 = .err .unexpectedEof := by decide +kernel
def badRest : Bytes := b!"bad\r\n\r\n" ++ big ++ b!"\r\n--b--\r\n"
end Sample

/-- C16 is false of the code as stated. -/
theorem C16_false : ¬ ContinuesAfterBadHeaders refDeps := by
  intro h
  have := h Sample.evsBad Sample.bnd (withBody Sample.evsBad Sample.bnd) Sample.sBad Sample.badRest
    (by decide +kernel) (by intro e; simp [Sample.evsBad]) ⟨[], rfl⟩
    (.part (p := 0) (findSub_some (by decide +kernel)) (by decide +kernel)) Sample.bad1 b!"\r\n"
    (.close (p := 1109) (findSub_some (by decide +kernel)) (by decide +kernel))
  rw [Sample.bad2] at this
  simp at this

/-- C16_continues_partial; its second case is in C16_false. -/
example : (((withBody [.data b!"--b\r\nbad\r\n\r\nx\r\n--b--\r\n"] b!"b").session refDeps [.readEntry]).readEntry refDeps).1 = .ok none := by
  decide +kernel

/-! ## C17 -/

/-- C17: the headers of a field are decided by the first header named `Content-Disposition` and the first named `Content-Type`, up to
ASCII case; there is no entry without the former. -/
theorem C17_header_lookup {hs : List Header} (h : FieldHeaders.parse D hs = .ok fh) :
    (∃ cd, FirstHeader hs b!"Content-Disposition" cd ∧
      ∀ hs', FirstHeader hs' b!"Content-Disposition" cd → (∀ ct, FirstHeader hs b!"Content-Type" ct ↔ FirstHeader hs' b!"Content-Type" ct) →
        FieldHeaders.parse D hs' = .ok fh) ∧
    (fh.contentType = none ↔ ∀ x ∈ hs, ¬ SameName x.name b!"Content-Type") ∧
    (∀ ct, FirstHeader hs b!"Content-Type" ct → fh.contentType = D.parseMime ct.val) := by
  unfold FieldHeaders.parse at h
  cases hcd : findHeader hs b!"Content-Disposition" with
  | none => rw [ContentDisp.parseRequired, hcd] at h; simp at h
  | some cd =>
    have hfirst := (findHeader_some_iff _ _ _).mp hcd
    have hct : parseContentType D hs = .ok fh.contentType := by
      cases hp : ContentDisp.parseRequired hs with
      | error e => rw [hp] at h; simp at h
      | ok c =>
        rw [hp] at h
        simp only at h
        cases hq : parseContentType D hs with
        | error e => rw [hq] at h; simp at h
        | ok m => rw [hq] at h; simp only [Except.ok.injEq] at h; rw [← h]
    refine ⟨⟨cd, hfirst, fun hs' h1 h2 => ?_⟩, ?_, ?_⟩
    · have e1 : ContentDisp.parseRequired hs' = ContentDisp.parseRequired hs := by
        unfold ContentDisp.parseRequired; rw [hcd, (findHeader_some_iff _ _ _).mpr h1]
      have e2 : findHeader hs' b!"Content-Type" = findHeader hs b!"Content-Type" := by
        cases hx : findHeader hs b!"Content-Type" with
        | some x => exact (findHeader_some_iff _ _ _).mpr ((h2 x).mp ((findHeader_some_iff _ _ _).mp hx))
        | none =>
          cases hy : findHeader hs' b!"Content-Type" with
          | none => rfl
          | some y =>
            have := (findHeader_some_iff _ _ _).mpr ((h2 y).mpr ((findHeader_some_iff _ _ _).mp hy))
            rw [hx] at this; simp at this
      have e3 : parseContentType D hs' = parseContentType D hs := by unfold parseContentType; rw [e2]
      unfold FieldHeaders.parse; rw [e1, e3]; exact h
    · rw [← findHeader_none_iff]
      unfold parseContentType at hct
      cases hx : findHeader hs b!"Content-Type" with
      | none => rw [hx] at hct; simp at hct; simp [← hct]
      | some x =>
        rw [hx] at hct
        simp only at hct
        cases hm : D.parseMime x.val with
        | none => rw [hm] at hct; simp at hct
        | some m => rw [hm] at hct; simp at hct; simp [← hct]
    · intro ct hc
      unfold parseContentType at hct
      rw [(findHeader_some_iff _ _ _).mpr hc] at hct
      simp only at hct
      cases hm : D.parseMime ct.val with
      | none => rw [hm] at hct; simp at hct
      | some m => rw [hm] at hct; simp at hct; exact hct.symm

/-- C17, the other direction: without a `Content-Disposition` header there is no entry. -/
theorem C17_required {hs : List Header} (h : ∀ x ∈ hs, ¬ SameName x.name b!"Content-Disposition") :
    FieldHeaders.parse D hs = .error (.missingContentDisposition (displayHeaders hs)) := by
  unfold FieldHeaders.parse ContentDisp.parseRequired
  rw [(findHeader_none_iff _ _).mpr h]

/-- C17_header_lookup and C17_required. -/
example : FieldHeaders.parse refDeps [{ name := b!"X-Y", val := b!"1" }, { name := b!"content-DISPOSITION", val := b!"form-data; name=a" },
    { name := b!"Content-Disposition", val := b!"form-data; name=b" }, { name := b!"CONTENT-type", val := b!"text/plain" }] =
    .ok { name := b!"a", filename := none, contentType := some { src := b!"text/plain", type_ := b!"text" } } := by decide +kernel

/-! ## C18 -/

/-- The full claim C18 for the field name alone: a quoted name without quotes in it is returned as it is. -/
def NameExact (D : Deps) : Prop :=
  ∀ (n : Bytes) (fh : FieldHeaders), (0x22 : Byte) ∉ n →
    FieldHeaders.parse D [{ name := b!"Content-Disposition", val := b!"form-data; name=\"" ++ n ++ b!"\"" }] = .ok fh → fh.name = n

/-- The full claim C18 for the order of parameters. -/
def ParamOrderIrrelevant (D : Deps) : Prop :=
  ∀ (n f : Bytes) (fh : FieldHeaders), Plain n → Plain f →
    FieldHeaders.parse D [{ name := b!"Content-Disposition", val := b!"form-data; filename=\"" ++ f ++ b!"\"; name=\"" ++ n ++ b!"\"" }] = .ok fh →
    fh.name = n

/-- C18 is false of the code: a semicolon inside the quotes cuts the name. -/
theorem C18_false_semicolon : ¬ NameExact refDeps := by
  intro h
  have := h b!"a;b" { name := b!"a", filename := none, contentType := none } (by decide) (by decide +kernel)
  simp at this

/-- C18 is false of the code: a `filename` in front of `name` is taken for the name. -/
theorem C18_false_order : ¬ ParamOrderIrrelevant refDeps := by
  intro h
  have := h b!"n" b!"f" { name := b!"f", filename := none, contentType := none } ⟨by decide, by decide, by decide⟩ ⟨by decide, by decide, by decide⟩
    (by decide +kernel)
  simp at this

theorem Quoting.noSemi {n qn : Bytes} (hq : Quoting n qn) (hn : Plain n) : (0x3B : Byte) ∉ qn := by
  cases hq with
  | bare => exact hn.semi
  | quoted => have := hn.semi; simp [this]

theorem Quoting.trim {n qn : Bytes} (hq : Quoting n qn) (hn : Plain n) : trimQuotes qn = n := by
  cases hq with
  | bare => exact trimQuotes_plain hn.head hn.last
  | quoted => exact trimQuotes_quoted hn.head hn.last

theorem parseContentType_ok_iff (hs : List Header) :
    (∃ m, parseContentType D hs = .ok m) ↔ ∀ ct, FirstHeader hs b!"Content-Type" ct → ∃ m, D.parseMime ct.val = some m := by
  unfold parseContentType
  cases hx : findHeader hs b!"Content-Type" with
  | none =>
    refine ⟨fun _ ct hc => ?_, fun _ => ⟨_, rfl⟩⟩
    rw [(findHeader_some_iff _ _ _).mpr hc] at hx; simp at hx
  | some x =>
    simp only
    constructor
    · rintro ⟨m, hm⟩ ct hc
      rw [(findHeader_some_iff _ _ _).mpr hc] at hx
      simp only [Option.some.injEq] at hx
      subst hx
      cases hp : D.parseMime ct.val with
      | none => rw [hp] at hm; simp at hm
      | some m => exact ⟨m, rfl⟩
    · intro h
      obtain ⟨m, hm⟩ := h x ((findHeader_some_iff _ _ _).mp hx)
      rw [hm]; exact ⟨_, rfl⟩

theorem ContentDisp.parseRequired_params {hs : List Header} {h : Header} {w1 w2 A n qn T : Bytes} (hf : FirstHeader hs b!"Content-Disposition" h)
    (hv : h.val = w1 ++ b!"form-data" ++ w2 ++ (0x3B :: A) ++ b!"name=" ++ qn ++ T)
    (hw1 : White w1) (hw2 : White w2)
    (hq : Quoting n qn) (hn : Plain n) (hT : Rest T)
    (hA : FirstAt b!"name=" ((0x3B :: A) ++ b!"name=" ++ qn ++ T) (0x3B :: A).length) :
    ContentDisp.parseRequired hs = .ok { fieldName := n, filename := (getStrAfter b!"filename=" 0x3B T).map (fun p => trimQuotes p.1) } := by
  have hsplit : splitOnce h.val 0x3B = some (w1 ++ b!"form-data" ++ w2, (0x3B :: A) ++ b!"name=" ++ qn ++ T) := by
    have e : h.val = (w1 ++ b!"form-data" ++ w2) ++ 0x3B :: (A ++ b!"name=" ++ qn ++ T) := by rw [hv]; simp
    have hno : (0x3B : Byte) ∉ w1 ++ b!"form-data" ++ w2 := by
      simp only [List.mem_append, not_or]
      exact ⟨⟨hw1.noSemi, by decide⟩, hw2.noSemi⟩
    unfold splitOnce
    rw [e, findByte_append hno]
    simp only [Option.map_some, List.take_left' rfl, List.drop_left' rfl]
    simp
  have hget : getStrAfter b!"name=" 0x3B ((0x3B :: A) ++ b!"name=" ++ qn ++ T) = some (qn, T) := getStrAfter_eq hA (hq.noSemi hn) hT
  unfold ContentDisp.parseRequired
  rw [(findHeader_some_iff _ _ _).mpr hf]
  simp only [hsplit]
  rw [if_neg (by rw [trimWs_formData_iff.mpr ⟨w1, w2, hw1, hw2, rfl⟩]; simp)]
  simp only [hget, hq.trim hn]

/-- C18, as far as it holds: for values without `;` that do not begin or end with a quote, bare or quoted, `name` in front of
`filename`, nothing before them that contains `name=` (resp. `filename=`), any white space around the type and any other parameters: the headers
are accepted (if their content type is), and name and filename are exact. Missing: `;` and quotes inside values, other orders. -/
theorem C18_params_partial {hs : List Header} {h : Header} {w1 w2 A n qn T : Bytes} (hf : FirstHeader hs b!"Content-Disposition" h)
    (hv : h.val = w1 ++ b!"form-data" ++ w2 ++ (0x3B :: A) ++ b!"name=" ++ qn ++ T)
    (hw1 : White w1) (hw2 : White w2)
    (hq : Quoting n qn) (hn : Plain n) (hT : Rest T)
    (hA : FirstAt b!"name=" ((0x3B :: A) ++ b!"name=" ++ qn ++ T) (0x3B :: A).length)
    (hct : ∀ ct, FirstHeader hs b!"Content-Type" ct → ∃ m, D.parseMime ct.val = some m) :
    ∃ fh, FieldHeaders.parse D hs = .ok fh ∧ fh.name = n ∧ (Absent b!"filename=" T → fh.filename = none) ∧
    (∀ B f qf T', T = B ++ b!"filename=" ++ qf ++ T' → FirstAt b!"filename=" T B.length → Quoting f qf → Plain f → Rest T' → fh.filename = some f) := by
  have hcd := ContentDisp.parseRequired_params hf hv hw1 hw2 hq hn hT hA
  obtain ⟨ct, hct⟩ := (parseContentType_ok_iff hs).mpr hct
  unfold FieldHeaders.parse
  rw [hcd]
  simp only [hct]
  refine ⟨_, rfl, rfl, fun habs => ?_, fun B f qf T' e1 e2 e3 e4 e5 => ?_⟩
  · simp only; unfold getStrAfter; rw [findSub_eq_none_iff.mpr habs]; rfl
  · simp only
    rw [e1, getStrAfter_eq (by rw [← e1]; exact e2) (e3.noSemi e4) e5]
    simp [e3.trim e4]

example : FieldHeaders.parse refDeps [{ name := b!"Content-Disposition", val := b!" form-data ; x=y; name=\"a b\"; z=1; filename=\"c.txt\"; k" }] =
    .ok { name := b!"a b", filename := some b!"c.txt", contentType := none } ∧
    FirstAt b!"name=" (b!"; x=y; name=\"a b\"; z=1; filename=\"c.txt\"; k") (b!"; x=y; ").length ∧
    FirstAt b!"filename=" b!"; z=1; filename=\"c.txt\"; k" (b!"; z=1; ").length ∧ Plain b!"a b" ∧ Plain b!"c.txt" ∧ White b!" " :=
  ⟨by decide +kernel, by decide, by decide, ⟨by decide, by decide, by decide⟩, ⟨by decide, by decide, by decide⟩, [' '], by decide +kernel, by decide +kernel⟩

/-! ## C19 -/

/-- C19: a field is text iff it has no `Content-Type` header, or the (first) one has top-level type `text`. -/
theorem C19_is_text {hs : List Header} (h : FieldHeaders.parse D hs = .ok fh) :
    fh.isText = true ↔ (∀ x ∈ hs, ¬ SameName x.name b!"Content-Type") ∨
      ∃ ct m, FirstHeader hs b!"Content-Type" ct ∧ D.parseMime ct.val = some m ∧ m.type_ = b!"text" := by
  obtain ⟨_, h2, h3⟩ := C17_header_lookup h
  unfold FieldHeaders.isText
  cases hc : fh.contentType with
  | none =>
    simp only [true_iff]
    exact .inl (h2.mp hc)
  | some m =>
    simp only [decide_eq_true_eq]
    constructor
    · intro hm
      right
      cases hx : findHeader hs b!"Content-Type" with
      | none => have := h2.mpr ((findHeader_none_iff _ _).mp hx); rw [hc] at this; simp at this
      | some ct =>
        have hf := (findHeader_some_iff _ _ _).mp hx
        exact ⟨ct, m, hf, by rw [← h3 ct hf, hc], hm⟩
    · rintro (hn | ⟨ct, m', hf, hp, ht⟩)
      · have := h2.mpr hn; rw [hc] at this; simp at this
      · have := h3 ct hf
        rw [hc, hp] at this
        simp at this; rw [this]; exact ht

example : ∃ hs fh, FieldHeaders.parse refDeps hs = .ok fh ∧ fh.isText = false :=
  ⟨[{ name := b!"Content-Disposition", val := b!"form-data; name=a" }, { name := b!"Content-Type", val := b!"image/png" }],
   { name := b!"a", filename := none, contentType := some { src := b!"image/png", type_ := b!"image" } }, by decide +kernel, by decide +kernel⟩

/-! ## C83 -/

theorem getStrAfter_none {needle hay : Bytes} {c : Byte} : getStrAfter needle c hay = none ↔ Absent needle hay := by
  unfold getStrAfter
  cases h : findSub needle hay with
  | none => simp [findSub_eq_none_iff.mp h]
  | some i =>
    simp only [reduceCtorEq, false_iff]
    intro ha
    rw [findSub_eq_none_iff.mpr ha] at h; simp at h

theorem findByte_absent {c : Byte} : ∀ {xs : Bytes}, findByte c xs = none ↔ c ∉ xs
  | [] => by simp [findByte]
  | x :: xs => by
    unfold findByte
    split
    · rename_i h; simp [h]
    · rename_i h
      rw [Option.map_eq_none_iff, findByte_absent]
      simp only [List.mem_cons, not_or]
      exact ⟨fun h1 => ⟨fun e => h e.symm, h1⟩, fun h1 => h1.2⟩

theorem findByte_cut {c : Byte} : ∀ {xs : Bytes} {i : Nat}, findByte c xs = some i → c ∉ xs.take i ∧ xs.drop i = c :: xs.drop (i + 1)
  | [], i, h => by simp [findByte] at h
  | x :: xs, i, h => by
    unfold findByte at h
    split at h
    · rename_i hx
      simp only [Option.some.injEq] at h
      subst h; simp [hx]
    · rename_i hx
      rw [Option.map_eq_some_iff] at h
      obtain ⟨j, h1, rfl⟩ := h
      obtain ⟨a, b⟩ := findByte_cut h1
      refine ⟨?_, by simpa using b⟩
      simp only [List.take_succ_cons, List.mem_cons, not_or]
      exact ⟨fun e => hx e.symm, a⟩

theorem absent_cons_semi {A : Bytes} : Absent b!"name=" (0x3B :: A) ↔ Absent b!"name=" A := by
  constructor
  · intro h p ho
    exact h (p + 1) (by simpa [OccursAt] using ho)
  · intro h p ho
    cases p with
    | zero => simp [OccursAt] at ho
    | succ p => exact h p (by simpa [OccursAt] using ho)

theorem splitAt_unique {c : Byte} {P Q A B : Bytes} (hP : c ∉ P) (hQ : c ∉ Q) (h : P ++ c :: A = Q ++ c :: B) : P = Q ∧ A = B := by
  have h1 := findByte_append hP (b := A)
  rw [h, findByte_append hQ] at h1
  simp only [Option.some.injEq] at h1
  obtain ⟨e1, e2⟩ := List.append_inj h h1.symm
  simp only [List.cons.injEq, true_and] at e2
  exact ⟨e1, e2⟩

theorem ContentDisp.parseRequired_spec {hs : List Header} {cd : Header} (hf : FirstHeader hs b!"Content-Disposition" cd) :
    (GoodDisposition cd.val → ∃ c, ContentDisp.parseRequired hs = .ok c) ∧
    (¬ GoodDisposition cd.val → ∃ r c, ContentDisp.parseRequired hs = .error (.invalidContDisp r c)) := by
  unfold ContentDisp.parseRequired
  rw [(findHeader_some_iff _ _ _).mpr hf]
  simp only
  unfold splitOnce
  cases hs1 : findByte 0x3B cd.val with
  | none =>
    refine ⟨?_, fun _ => ⟨_, _, rfl⟩⟩
    rintro ⟨w1, w2, A, e, _⟩
    have := findByte_absent.mp hs1
    rw [e] at this
    simp at this
  | some i =>
    obtain ⟨h1, h2⟩ := findByte_cut hs1
    have hv : cd.val = cd.val.take i ++ 0x3B :: cd.val.drop (i + 1) := by rw [← h2, List.take_append_drop]
    have hg : GoodDisposition cd.val ↔ trimWs (cd.val.take i) = b!"form-data" ∧ ¬ Absent b!"name=" (cd.val.drop i) := by
      rw [h2, absent_cons_semi, trimWs_formData_iff]
      constructor
      · rintro ⟨w1, w2, A, e, g1, g2, g3⟩
        have hno : (0x3B : Byte) ∉ w1 ++ b!"form-data" ++ w2 := by
          simp only [List.mem_append, not_or]
          exact ⟨⟨g1.noSemi, by decide⟩, g2.noSemi⟩
        obtain ⟨e1, e2⟩ := splitAt_unique h1 hno (hv.symm.trans e)
        exact ⟨⟨w1, w2, g1, g2, e1⟩, by rw [e2]; exact g3⟩
      · rintro ⟨⟨w1, w2, g1, g2, e1⟩, g3⟩
        exact ⟨w1, w2, _, by rw [← e1]; exact hv, g1, g2, g3⟩
    rw [hg]
    simp only [Option.map_some]
    by_cases ht : trimWs (cd.val.take i) = b!"form-data"
    · rw [if_neg (by simp [ht])]
      cases hn : getStrAfter b!"name=" 0x3B (cd.val.drop i) with
      | none =>
        have := getStrAfter_none.mp hn
        exact ⟨fun h => absurd this h.2, fun _ => ⟨_, _, rfl⟩⟩
      | some p =>
        have : ¬ Absent b!"name=" (cd.val.drop i) := fun h => by rw [getStrAfter_none.mpr h] at hn; simp at hn
        exact ⟨fun _ => ⟨_, rfl⟩, fun h => absurd ⟨ht, this⟩ h⟩
    · rw [if_pos ht]
      exact ⟨fun h => absurd h.1 ht, fun _ => ⟨_, _, rfl⟩⟩

/-- C83: which headers are accepted, and which error is reported for the others. -/
theorem C83_header_errors (D : Deps) (hs : List Header) :
    ((∃ t, FieldHeaders.parse D hs = .error (.missingContentDisposition t)) ↔ ∀ x ∈ hs, ¬ SameName x.name b!"Content-Disposition") ∧
    ((∃ r c, FieldHeaders.parse D hs = .error (.invalidContDisp r c)) ↔ ∃ cd, FirstHeader hs b!"Content-Disposition" cd ∧ ¬ GoodDisposition cd.val) ∧
    ((∃ t, FieldHeaders.parse D hs = .error (.mime t)) ↔ (∃ cd, FirstHeader hs b!"Content-Disposition" cd ∧ GoodDisposition cd.val) ∧
      ∃ ct, FirstHeader hs b!"Content-Type" ct ∧ D.parseMime ct.val = none) ∧
    ((∃ fh, FieldHeaders.parse D hs = .ok fh) ↔ (∃ cd, FirstHeader hs b!"Content-Disposition" cd ∧ GoodDisposition cd.val) ∧
      ∀ ct, FirstHeader hs b!"Content-Type" ct → ∃ m, D.parseMime ct.val = some m) ∧
    (∀ e, FieldHeaders.parse D hs = .error e → (∃ t, e = .missingContentDisposition t) ∨ (∃ r c, e = .invalidContDisp r c) ∨ ∃ t, e = .mime t) := by
  cases hcd : findHeader hs b!"Content-Disposition" with
  | none =>
    have h0 := (findHeader_none_iff _ _).mp hcd
    have hno : ∀ cd, ¬ FirstHeader hs b!"Content-Disposition" cd := fun cd h => by rw [(findHeader_some_iff _ _ _).mpr h] at hcd; simp at hcd
    rw [C17_required h0]
    exact ⟨by simpa using h0, ⟨by simp, fun ⟨cd, h, _⟩ => absurd h (hno cd)⟩, ⟨by simp, fun ⟨⟨cd, h, _⟩, _⟩ => absurd h (hno cd)⟩,
      ⟨by simp, fun ⟨⟨cd, h, _⟩, _⟩ => absurd h (hno cd)⟩, fun e h => by cases h; exact .inl ⟨_, rfl⟩⟩
  | some cd =>
    have hf := (findHeader_some_iff _ _ _).mp hcd
    have huniq : ∀ c, FirstHeader hs b!"Content-Disposition" c → c = cd := fun c h => by
      rw [(findHeader_some_iff _ _ _).mpr h] at hcd; simpa using hcd
    have hmiss : ¬ ∀ x ∈ hs, ¬ SameName x.name b!"Content-Disposition" := fun h => by rw [(findHeader_none_iff _ _).mpr h] at hcd; simp at hcd
    obtain ⟨s1, s2⟩ := ContentDisp.parseRequired_spec hf
    by_cases hg : GoodDisposition cd.val
    · obtain ⟨c, hc⟩ := s1 hg
      have hmime : (∃ m, parseContentType D hs = .ok m) ∨ (∃ t, parseContentType D hs = .error (.mime t)) := by
        unfold parseContentType
        cases findHeader hs b!"Content-Type" with
        | none => exact .inl ⟨_, rfl⟩
        | some x => simp only; cases D.parseMime x.val with
          | none => exact .inr ⟨_, rfl⟩
          | some m => exact .inl ⟨_, rfl⟩
      have hbad : (∃ t, parseContentType D hs = .error (.mime t)) ↔ ∃ ct, FirstHeader hs b!"Content-Type" ct ∧ D.parseMime ct.val = none := by
        unfold parseContentType
        cases hx : findHeader hs b!"Content-Type" with
        | none => exact ⟨by simp, fun ⟨ct, h, _⟩ => by rw [(findHeader_some_iff _ _ _).mpr h] at hx; simp at hx⟩
        | some x =>
          have hxf := (findHeader_some_iff _ _ _).mp hx
          simp only
          constructor
          · rintro ⟨t, h⟩
            refine ⟨x, hxf, ?_⟩
            cases hm : D.parseMime x.val with
            | none => rfl
            | some m => rw [hm] at h; simp at h
          · rintro ⟨ct, h1, h2⟩
            rw [(findHeader_some_iff _ _ _).mpr h1] at hx
            simp only [Option.some.injEq] at hx
            subst hx; rw [h2]; exact ⟨_, rfl⟩
      unfold FieldHeaders.parse
      rw [hc]
      simp only
      rw [← hbad, ← parseContentType_ok_iff]
      refine ⟨⟨?_, fun h => absurd h hmiss⟩, ⟨?_, fun ⟨c', h, h'⟩ => absurd hg (by rw [← huniq _ h]; exact h')⟩, ?_, ?_, ?_⟩ <;> rcases hmime with ⟨m, hm⟩ | ⟨t, hm⟩ <;> rw [hm]
      · simp
      · simp
      · simp
      · simp
      · simp
      · exact ⟨fun _ => ⟨⟨cd, hf, hg⟩, _, rfl⟩, fun _ => ⟨_, rfl⟩⟩
      · exact ⟨fun _ => ⟨⟨cd, hf, hg⟩, _, rfl⟩, fun _ => ⟨_, rfl⟩⟩
      · simp
      · simp
      · intro e h; cases h; simp
    · have hno : ¬ ∃ cd, FirstHeader hs b!"Content-Disposition" cd ∧ GoodDisposition cd.val := fun ⟨c, h, h'⟩ => hg (by rw [← huniq _ h]; exact h')
      unfold FieldHeaders.parse
      obtain ⟨r, c, s2⟩ := s2 hg
      rw [s2]
      refine ⟨⟨by simp, fun h => absurd h hmiss⟩, ⟨fun _ => ⟨cd, hf, hg⟩, fun _ => ⟨_, _, rfl⟩⟩, ⟨by simp, fun h => absurd h.1 hno⟩, ⟨by simp, fun h => absurd h.1 hno⟩, ?_⟩
      intro e h; cases h; simp

example : (FieldHeaders.parse refDeps [{ name := b!"Content-Type", val := b!"text/plain" }] = .error (.missingContentDisposition b!"Content-Type: text/plain\n")) ∧
    (FieldHeaders.parse refDeps [{ name := b!"Content-Disposition", val := b!"form-data, name=a" }] = .error (.invalidContDisp b!"expected additional data after Content-Disposition type" b!"form-data, name=a")) ∧
    (FieldHeaders.parse refDeps [{ name := b!"Content-Disposition", val := b!"attachment; name=a" }] = .error (.invalidContDisp b!"unexpected Content-Disposition value" b!"attachment")) ∧
    (FieldHeaders.parse refDeps [{ name := b!"Content-Disposition", val := b!"form-data; filename-a" }] = .error (.invalidContDisp b!"expected field name and maybe filename, got" b!"; filename-a")) ∧
    (FieldHeaders.parse refDeps [{ name := b!"Content-Disposition", val := b!"form-data; name=a" }, { name := b!"Content-Type", val := b!"text" }] = .error (.mime b!"text")) ∧
    GoodDisposition ([0xC2, 0xA0] ++ b!"form-data" ++ [0xE3, 0x80, 0x80, 0x20] ++ b!"; filename=x") := by
  refine ⟨by decide +kernel, by decide +kernel, by decide +kernel, by decide +kernel, by decide +kernel, [0xC2, 0xA0], [0xE3, 0x80, 0x80, 0x20], b!" filename=x", rfl,
    ⟨[Char.ofNat 0xA0], by decide +kernel, by decide +kernel⟩, ⟨[Char.ofNat 0x3000, ' '], by decide +kernel, by decide +kernel⟩, fun h => h 5 (by decide)⟩

/-- C83: `read_entry` reports headers that are not accepted as `InvalidData`, and has then consumed exactly the header block, for every split of the body. -/
theorem C83_rejected (hD : D.Sane) (hn : NoStall evs) (hne : NoErr evs) (hr : Reachable D evs b s) (hf : s.FreshOrEof evs b)
    (hend : (s.readEntry D).1 ≠ .ok none) {rest H X dat : Bytes} {hs : List Header}
    (hN : NextIs (dashes ++ b) s.unread (.part rest)) (hH : HeaderBlock D (dashes ++ b) rest H hs X)
    (hfd : FieldData (dashes ++ b) X dat) (hsep : FirstAt (dashes ++ b) X dat.length → ¬ crlf <:+ H ++ dat)
    (hb : H.length + (dashes ++ b).length + 1 ≤ Nat.max 1024 (2 * (dashes ++ b).length)) :
    ((∃ fh, FieldHeaders.parse D hs = .ok fh ∧ (s.readEntry D).1 = .ok (some fh)) ∨
      (∃ e, FieldHeaders.parse D hs = .error e ∧ (s.readEntry D).1 = .err .invalidData)) ∧ (s.readEntry D).2.unread = X := by
  obtain ⟨hi, hu, hdl, hev⟩ := hr.spec hD
  rw [← hdl] at hN hH hfd hsep hb
  have hst : s.st ≠ .atEnd := fun h => hend (by rw [BR.readEntry_atEnd h])
  have hdr : s.Drained := hf.drained hi
  have hx := BR.consumeBoundary_exact (BR.setMin_inv hi minBufSize) s.setMin_entryMin hst hdr (hne.suffix hev) (hn.suffix hev) hN
  obtain ⟨h1, h2, h3⟩ := BR.readEntry_block_of hD hi (hn.suffix hev) (hne.suffix hev) hx.1 (hx.2 rest (.inl rfl)) hH hfd hsep hb
  refine ⟨?_, h3⟩
  cases hp : FieldHeaders.parse D hs with
  | ok fh => exact .inl ⟨fh, rfl, h1 fh hp⟩
  | error e => exact .inr ⟨e, rfl, h2 e hp⟩

namespace Sample
def hdrBad : Bytes := b!"Content-Disposition: attachment; name=\"a\"\r\n\r\n"
def evsHdrBad : List Ev := [.data (b!"--b\r\n" ++ hdrBad ++ b!"hello\r\n--b--\r\n")]
end Sample

theorem refParse_hdrBad (more : Bytes) : refParseHeaders (Sample.hdrBad ++ more) =
    .complete Sample.hdrBad.length [{ name := b!"Content-Disposition", val := b!"attachment; name=\"a\"" }] := by
  unfold refParseHeaders
  have h1 : findSub crlf (Sample.hdrBad ++ more) = some 41 := by
    apply findSub_eq_some_iff.mpr
    exact (findSub_some (xs := Sample.hdrBad) (by decide)).append (by decide) more
  have h2 : findSub crlf (b!"\r\n" ++ more) = some 0 := by
    apply findSub_eq_some_iff.mpr
    exact (findSub_some (xs := b!"\r\n") (by decide)).append (by decide) more
  have hl : (Sample.hdrBad ++ more).length + 1 = (more.length + 44) + 1 + 1 := by simp [Sample.hdrBad]
  rw [hl]
  unfold refParseAux
  rw [h1]
  simp only
  have h3 : parseHeaderLine ((Sample.hdrBad ++ more).take (40 + 1)) =
      some { name := b!"Content-Disposition", val := b!"attachment; name=\"a\"" } := by
    rw [List.take_append_of_le_length (by decide)]; decide
  rw [h3]
  simp only
  rw [if_pos (by decide)]
  have h4 : (Sample.hdrBad ++ more).drop (40 + 3) = b!"\r\n" ++ more := by
    rw [List.drop_append_of_le_length (by decide)]; rfl
  rw [h4]
  unfold refParseAux
  rw [h2]
  rfl

/-- C83_rejected. -/
example : NextIs (dashes ++ Sample.bnd) (withBody Sample.evsHdrBad Sample.bnd).unread (.part (Sample.hdrBad ++ b!"hello\r\n--b--\r\n")) ∧
    HeaderBlock refDeps (dashes ++ Sample.bnd) (Sample.hdrBad ++ b!"hello\r\n--b--\r\n") Sample.hdrBad
      [{ name := b!"Content-Disposition", val := b!"attachment; name=\"a\"" }] b!"hello\r\n--b--\r\n" ∧
    FieldData (dashes ++ Sample.bnd) b!"hello\r\n--b--\r\n" b!"hello" ∧
    ((withBody Sample.evsHdrBad Sample.bnd).readEntry refDeps).1 = .err .invalidData :=
  ⟨.part (p := 0) (by decide +kernel) (by decide +kernel), ⟨rfl, by decide, refParse_hdrBad, by simp only [← utf8Valid_iff]; decide, by decide +kernel⟩,
    .crlf (by decide) ⟨b!"--b--\r\n", rfl⟩, by decide +kernel⟩

end Multipart

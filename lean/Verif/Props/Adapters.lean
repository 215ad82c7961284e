import Verif.Spec.Adapters
import Verif.Spec.RoundTrip
import Verif.Lemmas.Case
import Verif.Lemmas.Find
/-!
# C61, C62, C69, C70: the HTTP library adapters
-/
namespace Multipart

variable {r : HyperReq} {m m' : HMime} {b : Bytes}

/-! ## The first parameter with a property -/

theorem find_first {α : Type} {p : α → Bool} {l : List α} {x : α} : l.find? p = some x ↔ ∃ pre post, l = pre ++ x :: post ∧ p x = true ∧ ∀ y ∈ pre, p y = false := by
  induction l with
  | nil => simp
  | cons a l ih =>
    rw [List.find?_cons]
    cases ha : p a with
    | true =>
      simp only [Option.some.injEq]
      constructor
      · rintro rfl; exact ⟨[], l, rfl, ha, by simp⟩
      · rintro ⟨pre, post, h1, h2, h3⟩
        cases pre with
        | nil => simp at h1; exact h1.1
        | cons c pre =>
          simp only [List.cons_append, List.cons.injEq] at h1
          have := h3 c (by simp)
          rw [← h1.1, ha] at this; simp at this
    | false =>
      simp only [ih]
      constructor
      · rintro ⟨pre, post, h1, h2, h3⟩
        refine ⟨a :: pre, post, by rw [h1]; rfl, h2, ?_⟩
        intro y hy
        rcases List.mem_cons.mp hy with rfl | hy
        · exact ha
        · exact h3 y hy
      · rintro ⟨pre, post, h1, h2, h3⟩
        cases pre with
        | nil => simp at h1; rw [h1.1, h2] at ha; simp at ha
        | cons c pre =>
          simp only [List.cons_append, List.cons.injEq] at h1
          exact ⟨pre, post, h1.2, h2, fun y hy => h3 y (by simp [hy])⟩

theorem HMime.getParam_boundary : (m.getParam b!"boundary").map Value.asStr = some b ↔ m.HasBoundary b := by
  unfold HMime.getParam HMime.HasBoundary
  rw [Option.map_map, Option.map_eq_some_iff]
  constructor
  · rintro ⟨⟨a, v⟩, h1, h2⟩
    obtain ⟨pre, post, h3, h4, h5⟩ := find_first.mp h1
    exact ⟨pre, a, v, post, h3, by simpa using h4, h2, fun p hp => by simpa using h5 p hp⟩
  · rintro ⟨pre, a, v, post, h1, h2, h3, h4⟩
    exact ⟨(a, v), find_first.mpr ⟨pre, post, h1, by simpa using h2, fun p hp => by simpa using h4 p hp⟩, h3⟩

theorem TopLevel.asStr_multipart {t : TopLevel} (h : t ≠ .ext b!"multipart") : t.asStr = b!"multipart" ↔ t = .multipart := by
  cases t with
  | multipart => simp [TopLevel.asStr]
  | ext s => simp [TopLevel.asStr] at h ⊢; exact h

theorem SubLevel.asStr_formData {t : SubLevel} (h : t ≠ .ext b!"form-data") : t.asStr = b!"form-data" ↔ t = .formData := by
  cases t with
  | formData => simp [SubLevel.asStr]
  | ext s => simp [SubLevel.asStr] at h ⊢; exact h

theorem Attr.asStr_boundary {t : Attr} (h : t ≠ .ext b!"boundary") : t.asStr = b!"boundary" ↔ t = .boundary := by
  cases t with
  | boundary => simp [Attr.asStr]
  | ext s => simp [Attr.asStr] at h ⊢; exact h

theorem HMime.Parsed.formData (h : m.Parsed) : m.IsFormData ↔ m.top = .multipart ∧ m.sub = .formData := by
  unfold HMime.IsFormData
  rw [TopLevel.asStr_multipart h.top, SubLevel.asStr_formData h.sub]

/-! ## C61 -/

/-- C61 for Hyper, in both directions: the boundary is found exactly in POST requests with the type `multipart/form-data`; it is the value of the (first) parameter `boundary`.
(The value must not be `utf-8`, which the library represents differently.) -/
theorem C61_hyper (hp : ∀ m, r.contentType = some m → m.Parsed) :
    hyperBoundary r = some b ↔ r.method = .post ∧ b ≠ b!"utf-8" ∧ ∃ m, r.contentType = some m ∧ m.IsFormData ∧ m.HasBoundary b := by
  unfold hyperBoundary
  by_cases hm : r.method = .post
  · rw [if_neg (by simp [hm])]
    cases hct : r.contentType with
    | none => simp
    | some m =>
      have hpm := hp m hct
      simp only [Option.bind_some, Option.some.injEq, hm, true_and, exists_eq_left', hpm.formData]
      obtain ⟨top, sub, params⟩ := m
      unfold hyperMimeBoundary
      cases top with
      | ext s => simp
      | multipart =>
        cases sub with
        | ext s => simp
        | formData =>
          simp only [true_and]
          have hfind : ∀ x, params.find? (fun p => p.1.isBoundary) = some x ↔
              ∃ pre post, params = pre ++ x :: post ∧ x.1 = .boundary ∧ ∀ y ∈ pre, y.1.asStr ≠ b!"boundary" := by
            intro x
            rw [find_first]
            constructor
            · rintro ⟨pre, post, h1, h2, h3⟩
              refine ⟨pre, post, h1, ?_, fun y hy => ?_⟩
              · cases h : x.1 <;> rw [h] at h2 <;> simp [Attr.isBoundary] at h2 ⊢
              · have hne : y.1 ≠ .boundary := by intro h; have := h3 y hy; rw [h] at this; simp [Attr.isBoundary] at this
                intro h
                exact hne ((Attr.asStr_boundary (hpm.attr y (by simp only [h1]; simp [hy]))).mp h)
            · rintro ⟨pre, post, h1, h2, h3⟩
              refine ⟨pre, post, h1, by rw [h2]; rfl, fun y hy => ?_⟩
              cases h : y.1 with
              | boundary => exact absurd (by rw [h]; rfl) (h3 y hy)
              | ext s => rfl
          constructor
          · intro h
            split at h
            · rename_i a v hf
              obtain ⟨pre, post, h1, h2, h3⟩ := (hfind _).mp hf
              cases h
              simp only at h2
              subst h2
              refine ⟨?_, pre, .boundary, .ext b, post, h1, rfl, rfl, h3⟩
              intro hb
              exact hpm.val (.boundary, .ext b) (by simp only [h1]; simp) (by rw [hb])
            · simp at h
            · simp at h
          · rintro ⟨hb, pre, a, v, post, h1, h2, h3, h4⟩
            have ha : a = .boundary := (Attr.asStr_boundary (hpm.attr (a, v) (by simp only at h1 ⊢; rw [h1]; simp))).mp h2
            subst ha
            rw [(hfind (.boundary, v)).mpr ⟨pre, post, h1, rfl, h4⟩]
            cases v with
            | utf8 => exact absurd h3.symm hb
            | ext s => simp only [Value.asStr] at h3; rw [h3]
  · rw [if_pos hm]; simp [hm]

/-- C61 for Iron, in both directions: the boundary is found exactly in requests with the type `multipart/form-data`; it is the value of the (first) parameter `boundary`. -/
theorem C61_iron (hp : ∀ m, r.contentType = some m → m.Parsed) :
    ironBoundary r = some b ↔ ∃ m, r.contentType = some m ∧ m.IsFormData ∧ m.HasBoundary b := by
  unfold ironBoundary
  cases hct : r.contentType with
  | none => simp
  | some m =>
    simp only [Option.some.injEq, exists_eq_left', (hp m hct).formData]
    obtain ⟨top, sub, params⟩ := m
    cases top with
    | ext s => simp
    | multipart =>
      cases sub with
      | ext s => simp
      | formData => simp only [true_and]; exact HMime.getParam_boundary

namespace Sample

def mime : HMime := { top := .multipart, sub := .formData, params := [(.ext b!"x", .ext b!"y"), (.boundary, .ext b!"bnd")] }

theorem mime_parsed : mime.Parsed := ⟨by simp [mime], by simp [mime], by simp [mime], by simp [mime]⟩

end Sample

/-- The hypotheses of C61_hyper and C61_iron are met. -/
example : ∀ m, (⟨.post, some Sample.mime, []⟩ : HyperReq).contentType = some m → m.Parsed := by intro m h; cases h; exact Sample.mime_parsed
example : Sample.mime.IsFormData ∧ Sample.mime.HasBoundary b!"bnd" := ⟨⟨rfl, rfl⟩, [_], _, _, [], rfl, rfl, rfl, by simp [Attr.asStr]⟩
example : hyperBoundary ⟨.post, some Sample.mime, []⟩ = some b!"bnd" ∧ hyperBoundary ⟨.ext b!"PUT", some Sample.mime, []⟩ = none ∧
    ironBoundary ⟨.ext b!"PUT", some Sample.mime, []⟩ = some b!"bnd" := by decide

/-! ## C62 -/

/-- The full claim C62 for Nickel. -/
def NickelStrict : Prop := ∀ (r : HyperReq) (b : Bytes), (∀ m, r.contentType = some m → m.Parsed) → nickelBoundary r = some b →
  r.method = .post ∧ ∃ m, r.contentType = some m ∧ m.IsFormData ∧ m.HasBoundary b

/-- The media type in a `Content-Type` header is `multipart/form-data`, in any case. -/
def FormDataText (v : Bytes) : Prop := ∃ t rest, v = t ++ rest ∧ SameName t b!"multipart/form-data" ∧ (rest = [] ∨ rest.head? = some 0x3B ∨ rest.head? = some 0x20 ∨ rest.head? = some 0x09)

/-- The header has a parameter `boundary`, bare or in quotes, with the value `b`. -/
def HasBoundaryText (v b : Bytes) : Prop := ∃ pre w raw tail, v = pre ++ b!";" ++ w ++ b!"boundary=" ++ raw ++ tail ∧ (∀ c ∈ w, c = 0x20 ∨ c = 0x09) ∧ Rest tail ∧
  (raw = 0x22 :: b ++ [0x22] ∨ (raw = b ∧ b.head? ≠ some 0x22))

/-- The full claim C62 for `tiny_http`: the header has the right type, and a parameter `boundary`, bare or in quotes, with the value `b`. -/
def TinyStrict : Prop := ∀ (r : TinyReq) (b : Bytes), tinyBoundary r = some b →
  r.method = .post ∧ ∃ h, FirstHeader r.headers b!"Content-Type" h ∧ FormDataText h.val ∧ HasBoundaryText h.val b

/-- What is left of it for requests of the right method and type: the value is that of the parameter. -/
def TinyValue : Prop := ∀ (r : TinyReq) (b : Bytes) (h : Header), r.method = .post → FirstHeader r.headers b!"Content-Type" h → FormDataText h.val →
  tinyBoundary r = some b → HasBoundaryText h.val b

/-- C62 for Nickel, as far as it holds (in both directions): the boundary is the value of the (first) parameter `boundary` of the content type. Missing: method and type are not looked at. -/
theorem C62_nickel_partial : nickelBoundary r = some b ↔ ∃ m, r.contentType = some m ∧ m.HasBoundary b := by
  unfold nickelBoundary
  cases hct : r.contentType with
  | none => simp
  | some m => simp only [Option.some.injEq, exists_eq_left']; exact HMime.getParam_boundary

/-- C62 is false of the code: Nickel. -/
theorem C62_nickel_false : ¬ NickelStrict := by
  intro h
  have := (h ⟨.ext b!"GET", some ⟨.ext b!"text", .ext b!"plain", [(.boundary, .ext b!"x")]⟩, []⟩ b!"x" (by rintro m ⟨⟩; exact ⟨by simp, by simp, by simp, by simp⟩) (by decide)).1
  simp at this

/-- C62 for `tiny_http`, as far as it holds (in both directions): the first `Content-Type` header contains `boundary=`; the result is what follows its first occurrence, up to `;` or the end.
Missing: method and type are not looked at; `boundary=` can stand anywhere; quotes are not removed. -/
theorem C62_tiny_partial {r : TinyReq} : tinyBoundary r = some b ↔ ∃ h pre tail, FirstHeader r.headers b!"Content-Type" h ∧ h.val = pre ++ b!"boundary=" ++ b ++ tail ∧
    FirstAt b!"boundary=" h.val pre.length ∧ (0x3B : Byte) ∉ b ∧ Rest tail := by
  unfold tinyBoundary
  have hfh : ∀ h, r.headers.find? (fun h => eqIgnoreCase h.name b!"Content-Type") = some h ↔ FirstHeader r.headers b!"Content-Type" h := findHeader_some_iff r.headers _
  have hgs : ∀ v : Bytes, tinyValueBoundary v = (getStrAfter b!"boundary=" 0x3B v).map Prod.fst := by
    intro v
    unfold tinyValueBoundary getStrAfter
    cases findSub b!"boundary=" v with
    | none => rfl
    | some i =>
      simp only [Option.map_some]
      cases findByte 0x3B (v.drop (i + b!"boundary=".length)) with
      | none => rfl
      | some j => simp only; rw [Nat.add_comm j]
  constructor
  · intro h
    split at h
    · simp at h
    · rename_i hd hf
      rw [hfh] at hf
      rw [hgs] at h
      obtain ⟨⟨v, T⟩, h1, h2⟩ := Option.map_eq_some_iff.mp h
      simp only at h2
      rw [h2] at h1
      clear h2 v
      unfold getStrAfter at h1
      split at h1
      · simp at h1
      · rename_i i hi
        have hfi := findSub_some hi
        have hlen := occursAt_lt hfi.1 (by simp)
        have hpre : hd.val.take i ++ b!"boundary=" ++ hd.val.drop (i + 9) = hd.val := by
          obtain ⟨y, hy⟩ := hfi.1
          have : hd.val.drop (i + 9) = y := by rw [← List.drop_drop, ← hy]; rfl
          rw [this, List.append_assoc, hy, List.take_append_drop]
        have hl : b!"boundary=".length = 9 := rfl
        rw [hl] at hlen
        simp only [hl] at h1
        have hpl : (hd.val.take i).length = i := by rw [List.length_take]; omega
        cases hb : findByte 0x3B (hd.val.drop (i + 9)) with
        | none =>
          rw [hb] at h1
          simp only [Option.some.injEq, Prod.mk.injEq] at h1
          obtain ⟨h1, h2⟩ := h1
          have hall : b = hd.val.drop (i + 9) := by rw [← h1]; rw [List.take_of_length_le (by rw [List.length_drop]; omega)]
          have hnm : (0x3B : Byte) ∉ b := by
            intro hm
            rw [hall] at hm
            obtain ⟨x, y, hxy⟩ := List.append_of_mem hm
            obtain ⟨x', y', hxy', hx'⟩ := List.eq_append_cons_of_mem (hm : (0x3B : Byte) ∈ hd.val.drop (i + 9))
            rw [hxy', findByte_append hx'] at hb
            simp at hb
          exact ⟨hd, hd.val.take i, [], hf, by rw [List.append_nil, hall, hpre], by rw [hpl]; exact hfi, hnm, .inl rfl⟩
        | some j =>
          rw [hb] at h1
          simp only [Option.some.injEq, Prod.mk.injEq] at h1
          obtain ⟨h1, h2⟩ := h1
          rw [show j + (i + 9) - (i + 9) = j by omega] at h1
          obtain ⟨h3, h4⟩ := findByte_some hb
          rw [h1] at h3
          refine ⟨hd, hd.val.take i, (hd.val.drop (i + 9)).drop j, hf, ?_, by rw [hpl]; exact hfi, h3, .inr ?_⟩
          · rw [← h1, List.append_assoc, List.take_append_drop, hpre]
          · rw [List.head?_drop, h4]
  · rintro ⟨h, pre, tail, h1, h2, h3, h4, h5⟩
    rw [(hfh h).mpr h1]
    simp only
    rw [hgs]
    rw [h2] at h3 ⊢
    rw [getStrAfter_eq h3 h4 h5]
    rfl

/-- C62 is false of the code: `tiny_http`. -/
theorem C62_tiny_false : ¬ TinyStrict := by
  intro h
  have := (h ⟨.ext b!"GET", [⟨b!"content-type", b!"text/plain; xboundary=foo"⟩], []⟩ b!"foo" (by decide +kernel)).1
  simp at this

/-- C62 is false of the code for requests of the right method and type as well: `tiny_http` returns the quotes of a quoted boundary. -/
theorem C62_tiny_quotes_false : ¬ TinyValue := by
  intro h
  obtain ⟨p, w, raw, tail, h4, h5, h6, h7⟩ :=
    h ⟨.post, [⟨b!"Content-Type", b!"multipart/form-data; boundary=\"q\""⟩], []⟩ b!"\"q\"" ⟨b!"Content-Type", b!"multipart/form-data; boundary=\"q\""⟩ rfl
      ((findHeader_some_iff _ _ _).mp (by decide +kernel)) ⟨b!"multipart/form-data", b!"; boundary=\"q\"", rfl, (eqIgnoreCase_iff _ _).mp (by decide +kernel), .inr (.inl rfl)⟩ (by decide +kernel)
  rcases h7 with h7 | ⟨-, h7⟩
  · -- two quotes in a row do not occur
    have : (b!"\"\"" : Bytes) <:+: b!"multipart/form-data; boundary=\"q\"" := ⟨p ++ b!";" ++ w ++ b!"boundary=", b!"q\"\"" ++ tail, by
      have h4 : b!"multipart/form-data; boundary=\"q\"" = _ := h4
      rw [h4, h7]; simp⟩
    revert this
    decide +kernel
  · simp at h7

/-- An ordinary request: -/
example : tinyBoundary ⟨.post, [⟨b!"Host", b!"h"⟩, ⟨b!"content-type", b!"multipart/form-data; boundary=bnd; x=y"⟩], []⟩ = some b!"bnd" :=
  C62_tiny_partial.mpr ⟨⟨b!"content-type", b!"multipart/form-data; boundary=bnd; x=y"⟩, b!"multipart/form-data; ", b!"; x=y",
    (findHeader_some_iff _ _ _).mp (by decide +kernel), rfl, findSub_some (by decide +kernel), by decide, .inr rfl⟩
example : nickelBoundary ⟨.post, some Sample.mime, []⟩ = some b!"bnd" := by decide

/-! ## C69 -/

/-- C69: after Hyper's `apply_headers` the request carries a content type from which (sent as a header and parsed again) each adapter reads the boundary that was applied, and the
content length if one is given. For methods other than POST the request is refused and left as it is. -/
theorem C69_hyper_client (q : HyperClientReq) (len : Option Nat) (hb : SafeBoundary b) :
    (q.method = .post → ∃ m, q.applyHeaders b len = (true, ⟨.post, some m, match len with | some n => some n | none => q.contentLength⟩) ∧ (∃ m', m.SentAs m') ∧
      ∀ m' body, m.SentAs m' → hyperBoundary ⟨.post, some m', body⟩ = some b ∧ ironBoundary ⟨.post, some m', body⟩ = some b ∧ nickelBoundary ⟨.post, some m', body⟩ = some b) ∧
    (q.method ≠ .post → q.applyHeaders b len = (false, q)) := by
  have hu : b ≠ b!"utf-8" := by
    rintro rfl
    have := hb.2 0x2D (by decide)
    revert this; decide
  constructor
  · intro hq
    refine ⟨multipartMime b, ?_, ?_, ?_⟩
    · unfold HyperClientReq.applyHeaders
      rw [if_neg (by simp [hq])]
      cases len <;> simp [hq]
    · exact ⟨⟨.multipart, .formData, [(.boundary, .ext b)]⟩, ⟨by simp, by simp, by simp, by simpa using hu⟩, rfl, rfl, rfl⟩
    · rintro m' body ⟨hp, h1, h2, h3⟩
      have hfd : m'.IsFormData := ⟨h1, h2⟩
      have hbd : m'.HasBoundary b := by
        obtain ⟨top, sub, params⟩ := m'
        simp only [multipartMime, List.map_cons, List.map_nil] at h3
        cases params with
        | nil => simp at h3
        | cons p rest =>
          simp only [List.map_cons, List.cons.injEq, Prod.mk.injEq, List.map_eq_nil_iff] at h3
          obtain ⟨⟨h4, h5⟩, rfl⟩ := h3
          exact ⟨[], p.1, p.2, [], rfl, h4, h5, by simp⟩
      have hps : ∀ m, (⟨.post, some m', body⟩ : HyperReq).contentType = some m → m.Parsed := by intro m h; cases h; exact hp
      exact ⟨(C61_hyper hps).mpr ⟨rfl, hu, _, rfl, hfd, hbd⟩, (C61_iron hps).mpr ⟨_, rfl, hfd, hbd⟩, C62_nickel_partial.mpr ⟨_, rfl, hbd⟩⟩
  · intro hq
    unfold HyperClientReq.applyHeaders
    rw [if_pos hq]

example : SafeBoundary b!"bnd" ∧ (multipartMime b!"bnd").SentAs ⟨.multipart, .formData, [(.boundary, .ext b!"bnd")]⟩ :=
  ⟨⟨by simp, by decide⟩, ⟨by simp, by simp, by simp, by simp⟩, rfl, rfl, rfl⟩

/-! ## C70 -/

/-- C70: `Switch` gives a POST request with the type `multipart/form-data` and a boundary to the multipart handler, as a reader of its body with this boundary;
and every other request, unchanged, to the normal handler. -/
theorem C70_switch {α : Type} (normal : HyperReq → α) (multipart : BR → α) (hp : ∀ m, r.contentType = some m → m.Parsed) :
    (∀ m b, r.method = .post → r.contentType = some m → m.IsFormData → m.HasBoundary b → b ≠ b!"utf-8" → switchHandle normal multipart r = multipart (withBody r.body b)) ∧
    ((r.method ≠ .post ∨ r.contentType = none ∨ (∃ m, r.contentType = some m ∧ (¬ m.IsFormData ∨ ∀ b, m.HasBoundary b → b = b!"utf-8"))) → switchHandle normal multipart r = normal r) := by
  have key : switchHandle normal multipart r = match hyperBoundary r with | some b => multipart (withBody r.body b) | none => normal r := by
    unfold switchHandle fromRequest hyperHttp
    simp only
    cases hyperBoundary r <;> rfl
  rw [key]
  constructor
  · intro m b h1 h2 h3 h4 h5
    rw [(C61_hyper hp).mpr ⟨h1, h5, m, h2, h3, h4⟩]
  · intro h
    cases hb : hyperBoundary r with
    | none => rfl
    | some b =>
      obtain ⟨h1, h2, m, h3, h4, h5⟩ := (C61_hyper hp).mp hb
      rcases h with h | h | ⟨m', h, h'⟩
      · exact absurd h1 h
      · rw [h] at h3; simp at h3
      · rw [h] at h3; cases h3
        rcases h' with h' | h'
        · exact absurd h4 h'
        · exact absurd (h' b h5) h2

example : (∀ m, (⟨.post, some ⟨.multipart, .formData, [(.boundary, .ext b!"bnd")]⟩, []⟩ : HyperReq).contentType = some m → m.Parsed) ∧
    switchHandle (fun _ => false) (fun _ => true) ⟨.post, some ⟨.multipart, .formData, [(.boundary, .ext b!"bnd")]⟩, []⟩ = true ∧
    switchHandle (fun _ => false) (fun _ => true) ⟨.ext b!"GET", some ⟨.multipart, .formData, [(.boundary, .ext b!"bnd")]⟩, []⟩ = false :=
  ⟨by rintro m ⟨⟩; exact ⟨by simp, by simp, by simp, by simp⟩, by decide, by decide⟩

/-- C70: Nickel's `multipart_body` gives a reader exactly if the content type has a parameter `boundary`; it reads the body with this boundary. -/
theorem C70_nickel {br : BR} : multipartBody r = some br ↔ ∃ m b, r.contentType = some m ∧ m.HasBoundary b ∧ br = withBody r.body b := by
  have key : multipartBody r = (nickelBoundary r).map (withBody r.body) := by
    unfold multipartBody fromRequest nickelHttp
    simp only
    cases nickelBoundary r <;> rfl
  rw [key, Option.map_eq_some_iff]
  constructor
  · rintro ⟨b, h1, h2⟩
    obtain ⟨m, h3, h4⟩ := C62_nickel_partial.mp h1
    exact ⟨m, b, h3, h4, h2.symm⟩
  · rintro ⟨m, b, h1, h2, h3⟩
    exact ⟨b, C62_nickel_partial.mpr ⟨m, h1, h2⟩, h3.symm⟩

example : ∃ br, multipartBody ⟨.post, some ⟨.multipart, .formData, [(.boundary, .ext b!"bnd")]⟩, [.data b!"--bnd--"]⟩ = some br :=
  ⟨_, C70_nickel.mpr ⟨_, b!"bnd", rfl, ⟨[], .boundary, .ext b!"bnd", [], rfl, by decide, by decide, by simp⟩, rfl⟩⟩

end Multipart

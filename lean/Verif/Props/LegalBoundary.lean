import Verif.Props.ContentType
/-!
# C156: which boundaries are accepted
-/
namespace Multipart
variable {D : Deps} {b : Bytes} {evs : List Ev}

/-- A character that may stand in a boundary (RFC 2046, 5.1.1). -/
def BoundaryChar (c : Byte) : Prop := c ∈ b!"'()+_,-./:=? " ∨ (0x30 ≤ c ∧ c ≤ 0x39) ∨ (0x41 ≤ c ∧ c ≤ 0x5A) ∨ (0x61 ≤ c ∧ c ≤ 0x7A)

instance (c : Byte) : Decidable (BoundaryChar c) := by unfold BoundaryChar; infer_instance

/-- A boundary that RFC 2046 allows: 1 to 70 of these characters, of which the last one is no space. -/
structure LegalBoundary (b : Bytes) : Prop where
  chars : ∀ c ∈ b, BoundaryChar c
  nonempty : b ≠ []
  length : b.length ≤ 70
  last : b.getLast? ≠ some 0x20

/-- The statement, first half: a request is accepted only if its boundary is a legal one. -/
def OnlyLegal {R : Type} (http : HttpRequest R) : Prop := ∀ r b, fromRequest http r = .ok (withBody (http.body r) b) → LegalBoundary b

/-- The statement, second half, for Hyper: each POST request with the type `multipart/form-data` and a legal boundary is accepted. -/
def AllLegalHyper : Prop := ∀ (r : HyperReq) (m : HMime) (b : Bytes), m.Parsed → r.method = .post → r.contentType = some m → m.IsFormData → m.HasBoundary b → LegalBoundary b →
  fromRequest hyperHttp r = .ok (withBody r.body b)

/-- C156, as far as it holds: legal boundaries are accepted: by Hyper all but `utf-8`, by Iron and Nickel all. Missing: illegal ones are accepted as well (C156_false), and `utf-8` (C156_utf8_false); for `tiny_http`
see C136. -/
theorem C156_legal_partial {r : HyperReq} {m : HMime} (hm : m.Parsed) (hr : r.contentType = some m) (hf : m.IsFormData) (hb : m.HasBoundary b) :
    (r.method = .post → b ≠ b!"utf-8" → fromRequest hyperHttp r = .ok (withBody r.body b)) ∧ fromRequest ironHttp r = .ok (withBody r.body b) ∧ fromRequest nickelHttp r = .ok (withBody r.body b) := by
  have hp : ∀ m', r.contentType = some m' → m'.Parsed := by rw [hr]; rintro _ ⟨⟩; exact hm
  refine ⟨fun h1 h2 => ?_, ?_, ?_⟩
  · have := (C61_hyper hp).mpr ⟨h1, h2, m, hr, hf, hb⟩
    simp [fromRequest, hyperHttp, this]
  · have := (C61_iron hp).mpr ⟨m, hr, hf, hb⟩
    simp [fromRequest, ironHttp, this]
  · have := C62_nickel_partial.mpr ⟨m, hr, hb⟩
    simp [fromRequest, nickelHttp, this]

namespace Sample

/-- A legal boundary with all kinds of characters. -/
def oddMime : HMime := ⟨.multipart, .formData, [(.ext b!"x", .ext b!"y"), (.boundary, .ext b!"(a b)'+_,-./:=?")]⟩
/-- A boundary that is one character too long. -/
def longBoundary : Bytes := List.replicate 71 0x61
def longMime : HMime := ⟨.multipart, .formData, [(.boundary, .ext longBoundary)]⟩
def emptyTiny (body : List Ev) : TinyReq := ⟨.post, [⟨b!"Content-Type", b!"multipart/form-data; boundary="⟩], body⟩

end Sample

example : LegalBoundary b!"(a b)'+_,-./:=?" ∧ fromRequest hyperHttp ⟨.post, some Sample.oddMime, []⟩ = .ok (withBody [] b!"(a b)'+_,-./:=?") :=
  ⟨⟨by decide, by decide, by decide, by decide⟩, (C156_legal_partial (r := ⟨.post, some Sample.oddMime, []⟩) (m := Sample.oddMime) ⟨by simp [Sample.oddMime], by simp [Sample.oddMime], by simp [Sample.oddMime], by simp [Sample.oddMime]⟩ rfl
    ⟨rfl, rfl⟩ ⟨[(.ext b!"x", .ext b!"y")], .boundary, _, [], rfl, rfl, rfl, by simp [Attr.asStr]⟩).1 rfl (by decide)⟩

/-- C156 is false of the code: Hyper, Iron and Nickel accept a boundary of 71 characters, `tiny_http` an empty one. -/
theorem C156_false : ¬ OnlyLegal hyperHttp ∧ ¬ OnlyLegal ironHttp ∧ ¬ OnlyLegal nickelHttp ∧ ¬ OnlyLegal tinyHttp := by
  have hl : ¬ LegalBoundary Sample.longBoundary := fun h => absurd h.length (by decide)
  have hb : Sample.longMime.HasBoundary Sample.longBoundary := ⟨[], .boundary, _, [], rfl, rfl, rfl, by simp⟩
  obtain ⟨h1, h2, h3⟩ := C156_legal_partial (r := ⟨.post, some Sample.longMime, []⟩) (m := Sample.longMime)
    ⟨by simp [Sample.longMime], by simp [Sample.longMime], by simp [Sample.longMime], by simp [Sample.longMime, Sample.longBoundary]⟩ rfl ⟨rfl, rfl⟩ hb
  refine ⟨fun h => hl (h _ _ (h1 rfl (by decide))), fun h => hl (h _ _ h2), fun h => hl (h _ _ h3), fun h => (h (Sample.emptyTiny []) [] ?_).nonempty rfl⟩
  have : tinyBoundary (Sample.emptyTiny []) = some [] := by decide +kernel
  simp [fromRequest, tinyHttp, this]

/-- C156 is false of the code in the other direction as well: Hyper refuses the legal boundary `utf-8`, which its parser does not take for an ordinary value. -/
theorem C156_utf8_false : ¬ AllLegalHyper := by
  intro h
  have := h ⟨.post, some ⟨.multipart, .formData, [(.boundary, .utf8)]⟩, []⟩ ⟨.multipart, .formData, [(.boundary, .utf8)]⟩ b!"utf-8" ⟨by simp, by simp, by simp, by simp⟩ rfl rfl ⟨rfl, rfl⟩
    ⟨[], .boundary, .utf8, [], rfl, rfl, rfl, by simp⟩ ⟨by decide, by decide, by decide, by decide⟩
  have h2 : hyperBoundary ⟨.post, some ⟨.multipart, .formData, [(.boundary, .utf8)]⟩, []⟩ = none := rfl
  simp [fromRequest, hyperHttp, h2] at this

/-- What is read of a field does not contain the delimiter. -/
theorem run_absent {s : BR} (hD : D.Sane) (hr : Reachable D evs b s) (os : List FieldOp) : Absent (dashes ++ b) (s.run os).1 := by
  intro i hi
  have hpre : (s.run os).1 <+: s.unread := ⟨_, BR.run_unread os (hr.spec hD).1⟩
  have hlen := hi.length_le
  rw [List.length_drop] at hlen
  have hd : 2 ≤ (dashes ++ b).length := by simp [dashes]
  have hocc : OccursAt (dashes ++ b) s.unread i := by
    obtain ⟨t, ht⟩ := hpre
    unfold OccursAt at hi ⊢
    rw [← ht, List.drop_append_of_le_length (by omega)]
    exact hi.trans (List.prefix_append _ _)
  obtain ⟨p, hp⟩ : ∃ p, FirstAt (dashes ++ b) s.unread p ∧ p ≤ i := by
    clear hlen hi
    induction i using Nat.strongRecOn with
    | _ i ih =>
      by_cases h : ∃ q, q < i ∧ OccursAt (dashes ++ b) s.unread q
      · obtain ⟨q, h1, h2⟩ := h
        obtain ⟨p, h3, h4⟩ := ih q h1 h2
        exact ⟨p, h3, by omega⟩
      · exact ⟨i, ⟨hocc, fun q hq ho => h ⟨q, hq, ho⟩⟩, Nat.le_refl _⟩
  have h1 := (C02_never_past_delimiter hD hr os hp.1).1.length_le
  rw [List.length_take] at h1
  omega

/-- C156: with the header `boundary=` (an empty boundary), `tiny_http` requests are accepted, and no field of them that can be read, by any calls, contains two dashes: fields are cut off there. -/
theorem C156_empty (hD : D.Sane) (body : List Ev) : ∃ br, fromRequest tinyHttp (Sample.emptyTiny body) = .ok br ∧ ∀ os fs, Absent b!"--" ((br.session D os).run fs).1 := by
  have h : tinyBoundary (Sample.emptyTiny body) = some [] := by
    have : tinyBoundary (Sample.emptyTiny body) = tinyBoundary (Sample.emptyTiny []) := rfl
    rw [this]; decide +kernel
  refine ⟨withBody body [], by simp [fromRequest, tinyHttp, h]; rfl, fun os fs => ?_⟩
  exact run_absent (evs := body) (b := []) hD ⟨os, rfl⟩ fs

/-- A part with `1--2` in it. -/
example : refDeps.Sane ∧ (((withBody [.data b!"--\r\nContent-Disposition: form-data; name=\"a\"\r\n\r\n1--2\r\n----\r\n"] []).session refDeps [.readEntry]).run [.read 9]).1 = b!"1" :=
  ⟨refDeps_sane, by decide +kernel⟩

end Multipart

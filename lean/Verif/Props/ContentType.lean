import Verif.Spec.ContentType
import Verif.Props.Integrations
/-!
# C136: the Content-Type headers that the `tiny_http` integration understands
-/
namespace Multipart
variable {D : Deps} {b v : Bytes} {ps qs : List CtParam} {p q : CtParam} {req : TinyReq} {h : Header}

/-! ## Where the word is -/

theorem absent_nil {d : Bytes} (hd : d ≠ []) : Absent d [] := by
  intro q hq
  simp [OccursAt] at hq
  exact hd hq

theorem absent_without {d x : Bytes} {c : Byte} (hc : c ∈ d) (h : c ∉ x) : Absent d x := by
  intro q ho
  exact h (List.drop_subset _ _ (ho.subset hc))

theorem Absent.then {d x y : Bytes} (hd : d ≠ []) (hx : Absent d x) (hy : Absent d y) (hc : ∀ c ∈ y.head?, c ∉ d) : Absent d (x ++ y) := by
  cases y with
  | nil => simpa using hx
  | cons c y => exact hx.sep hd (hc c rfl) (fun q ho => hy (q + 1) (by simpa [OccursAt] using ho))

theorem absent_behind {x y : Bytes} {e : Byte} (hx : e ∉ x) (hs : ¬ b!"boundary" <:+ x) (he : e = 0x3D) (hy : Absent b!"boundary=" y) : Absent b!"boundary=" (x ++ e :: y) := by
  subst he
  induction x with
  | nil =>
    intro q ho
    cases q with
    | zero => simp [OccursAt] at ho
    | succ q => exact hy q (by simpa [OccursAt] using ho)
  | cons c x ih =>
    intro q ho
    cases q with
    | zero =>
      obtain ⟨z, hz⟩ := ho
      have hz : b!"boundary" ++ 0x3D :: z = (c :: x) ++ 0x3D :: y := by simpa using hz
      have := (splitAt_unique (by decide) hx hz).1
      exact hs (this ▸ List.suffix_rfl)
    | succ q =>
      exact ih (hs := fun hh => hs (hh.trans (List.suffix_cons _ _))) (hx := fun hh => hx (List.mem_cons_of_mem _ hh)) q (by simpa [OccursAt] using ho)

theorem TokenChar.plain {c : Byte} (h : TokenChar c) : c ≠ 0x3D ∧ c ≠ 0x3B ∧ c ≠ 0x22 ∧ c ≠ 0x20 ∧ c ≠ 0x09 := by
  refine ⟨?_, ?_, ?_, ?_, ?_⟩ <;> (rintro rfl; revert h; decide)

theorem space_absent {x : Bytes} (h : ∀ c ∈ x, c = 0x20 ∨ c = 0x09) : Absent b!"boundary=" x :=
  absent_without (c := 0x3D) (by decide) (fun hc => by rcases h _ hc with h | h <;> simp at h)

theorem space_then {x y : Bytes} (h : ∀ c ∈ x, c = 0x20 ∨ c = 0x09) (hy : Absent b!"boundary=" y) : Absent b!"boundary=" (x ++ y) := by
  induction x with
  | nil => simpa using hy
  | cons c x ih =>
    intro q ho
    cases q with
    | zero =>
      obtain ⟨z, hz⟩ := ho
      have : (0x62 : Byte) = c := by simpa using congrArg List.head? hz
      rcases h c (by simp) with h | h <;> rw [h] at this <;> simp at this
    | succ q => exact ih (fun d hd => h d (by simp [hd])) q (by simpa [OccursAt] using ho)

theorem space_head {x y : Bytes} (h : ∀ c ∈ x, c = 0x20 ∨ c = 0x09) : ∀ c ∈ (x ++ 0x3B :: y).head?, c ∉ (b!"boundary=" : Bytes) := by
  intro c hc
  cases x with
  | nil => simp at hc; subst hc; decide
  | cons d x =>
    simp at hc
    subst hc
    rcases h d (by simp) with h | h <;> rw [h] <;> decide

theorem CtParam.Legal.absent (hl : q.Legal) (hn : q.NoDecoy) : Absent b!"boundary=" q.text := by
  have hr : Absent b!"boundary=" q.raw := by
    unfold CtParam.raw
    cases hq : q.quoted with
    | false => exact absent_without (c := 0x3D) (by decide) (fun hc => ((hl.token hq).2 _ hc).plain.1 rfl)
    | true =>
      simp only [if_true]
      exact Absent.sep (xs := []) (by simp) (by decide) (absent_nil (by simp)) ((hn.2 hq).sep (by simp) (by decide) (absent_nil (by simp)))
  have hm := absent_behind (e := 0x3D) (fun hc => (hl.name _ hc).plain.1 rfl) hn.1 rfl hr
  have : q.text = q.before ++ 0x3B :: (q.after ++ (q.name ++ 0x3D :: q.raw)) := by simp [CtParam.text]
  rw [this]
  exact (space_absent hl.before).sep (by simp) (by decide) (space_then hl.after hm)

theorem params_absent {x : Bytes} (hx : Absent b!"boundary=" x) : ∀ {ps : List CtParam}, (∀ q ∈ ps, q.Legal ∧ q.NoDecoy) → Absent b!"boundary=" (x ++ ps.flatMap CtParam.text)
  | [], _ => by simpa using hx
  | q :: ps, hp => by
    obtain ⟨hl, hn⟩ := hp q (by simp)
    rw [List.flatMap_cons, ← List.append_assoc]
    refine params_absent (Absent.then (by simp) hx (hl.absent hn) ?_) (fun r hr => hp r (by simp [hr]))
    have : q.text = q.before ++ 0x3B :: (q.after ++ (q.name ++ 0x3D :: q.raw)) := by simp [CtParam.text]
    rw [this]
    exact space_head hl.before

theorem type_absent {t : Bytes} (h : SameName t b!"multipart/form-data") : Absent b!"boundary=" t := by
  refine absent_without (c := 0x3D) (by decide) ?_
  have aux : ∀ {xs ys : Bytes}, SameName xs ys → (0x3D : Byte) ∈ xs → (0x3D : Byte) ∈ ys := by
    intro xs ys h
    induction h with
    | nil => simp
    | @cons a c as cs hac _ ih =>
      intro hm
      rcases List.mem_cons.mp hm with rfl | hm
      · rcases hac with rfl | ⟨h1, h2, -⟩ | ⟨h1, h2, h3⟩
        · simp
        · simp at h1
        · have : (0x3D : Byte).toNat = 61 := rfl
          omega
      · exact List.mem_cons_of_mem _ (ih hm)
  intro hm
  exact absurd (aux h hm) (by decide)

/-! ## C136 -/

namespace Sample

/-- `boundary=q` behind `; `, and the same in quotes, with a capital letter, and a parameter before and behind it. -/
def ctBare : CtParam := ⟨[], b!" ", b!"boundary", b!"q", false⟩
def ctQuoted : CtParam := { ctBare with quoted := true }
def ctCase : CtParam := { ctBare with name := b!"Boundary" }
def ctX : CtParam := ⟨b!" ", [], b!"x", b!"a b", true⟩

/-- A request with the type, the parameter `x`, and then these. -/
def ctReq (ps : List CtParam) (body : List Ev) : TinyReq := ⟨.post, [⟨b!"Host", b!"h"⟩, ⟨b!"content-type", b!"Multipart/form-data" ++ (ctX :: ps).flatMap CtParam.text⟩], body⟩

theorem ctX_legal : ctX.Legal := ⟨by decide, by decide, by decide, by decide, by decide⟩
theorem ctBare_legal : ctBare.Legal := ⟨by decide, by decide, by decide, by decide, by decide⟩
theorem ctQuoted_legal : ctQuoted.Legal := ⟨by decide, by decide, by decide, by decide, by decide⟩
theorem ctCase_legal : ctCase.Legal := ⟨by decide, by decide, by decide, by decide, by decide⟩
theorem ctX_plain : ctX.NoDecoy := ⟨by decide, fun _ => findSub_eq_none_iff.mp (by decide +kernel)⟩
theorem ctCase_plain : ctCase.NoDecoy := ⟨by decide, fun h => absurd h (by decide)⟩

theorem ctReq_first (ps : List CtParam) (body : List Ev) : FirstHeader (ctReq ps body).headers b!"Content-Type" ⟨b!"content-type", b!"Multipart/form-data" ++ (ctX :: ps).flatMap CtParam.text⟩ :=
  (findHeader_some_iff _ _ _).mp rfl

theorem ct_announces {p : CtParam} {qs : List CtParam} (hp : p.Legal) (hn : SameName p.name b!"boundary") (hq : ∀ q ∈ qs, q.Legal) :
    Announces (b!"Multipart/form-data" ++ (ctX :: p :: qs).flatMap CtParam.text) [ctX] p qs where
  text := ⟨b!"Multipart/form-data", (eqIgnoreCase_iff _ _).mp (by decide +kernel), rfl⟩
  legal := by
    intro q h
    simp only [List.cons_append, List.nil_append, List.mem_cons] at h
    rcases h with rfl | rfl | h
    · exact ctX_legal
    · exact hp
    · exact hq q h
  name := hn
  first := by
    intro q h
    simp only [List.mem_singleton] at h
    subst h
    exact fun h => absurd ((eqIgnoreCase_iff _ _).mpr h) (by decide +kernel)

theorem sameName_self (x : Bytes) : SameName x x := (eqIgnoreCase_iff _ _).mp (by unfold eqIgnoreCase; simp)
theorem ctCase_name : SameName ctCase.name b!"boundary" := (eqIgnoreCase_iff _ _).mp (by decide +kernel)

end Sample

/-- The full claim C136: whichever legal way a request uses to say that it is `multipart/form-data` with the boundary `b`, its body is read with this boundary. -/
def HeaderUnderstood : Prop := ∀ (req : TinyReq) (h : Header) (ps : List CtParam) (p : CtParam) (qs : List CtParam), req.method = .post →
  FirstHeader req.headers b!"Content-Type" h → Announces h.val ps p qs → fromRequest tinyHttp req = .ok (withBody req.body p.value)

/-- What the boundary is taken to be: the value with its quotes and the white space up to the next `;`. -/
theorem C136_value (hh : FirstHeader req.headers b!"Content-Type" h) (ha : Announces h.val ps p qs) (hp : ∀ q ∈ ps, q.NoDecoy) (hn : p.name = b!"boundary") (hv : (0x3B : Byte) ∉ p.value) :
    fromRequest tinyHttp req = .ok (withBody req.body (p.raw ++ spaceBehind qs)) := by
  obtain ⟨t, ht, hval⟩ := ha.text
  have hl := ha.legal p (by simp)
  refine C70_tiny.1.mpr ⟨h, t ++ ps.flatMap CtParam.text ++ p.before ++ 0x3B :: p.after, p.raw ++ spaceBehind qs, (qs.flatMap CtParam.text).drop (spaceBehind qs).length, hh, ?_, ?_, ?_, ?_, rfl⟩
  · have hq : spaceBehind qs ++ (qs.flatMap CtParam.text).drop (spaceBehind qs).length = qs.flatMap CtParam.text := by
      cases qs with
      | nil => rfl
      | cons q qs => simp [spaceBehind, CtParam.text]
    rw [hval, List.append_assoc _ (p.raw ++ _), List.append_assoc p.raw, hq]
    simp [CtParam.text, hn]
  · have hx : Absent b!"boundary=" (t ++ ps.flatMap CtParam.text ++ p.before) :=
      Absent.then (by simp) (params_absent (type_absent ht) fun q hq => ⟨ha.legal q (by simp [hq]), hp q hq⟩) (space_absent hl.before) (by
        intro c hc
        rcases hl.before c (List.mem_of_mem_head? hc) with h | h <;> rw [h] <;> decide)
    have hf : FirstAt b!"boundary=" (p.after ++ b!"boundary=" ++ (p.raw ++ qs.flatMap CtParam.text)) p.after.length := by
      refine ⟨?_, ?_⟩
      · unfold OccursAt; rw [List.append_assoc, List.drop_append]; simp
      · intro q hq ho
        obtain ⟨z, hz⟩ := ho
        have h2 : (p.after ++ b!"boundary=" ++ (p.raw ++ qs.flatMap CtParam.text))[q]? = some 0x62 := by
          rw [← List.head?_drop, ← hz]; rfl
        rw [List.append_assoc, List.getElem?_append_left hq] at h2
        rcases hl.after _ (List.mem_of_getElem? h2) with h | h <;> simp at h
    have := FirstAt.sep (by simp) (by decide : (0x3B : Byte) ∉ (b!"boundary=" : Bytes)) hx hf
    have hlen : (t ++ ps.flatMap CtParam.text ++ p.before ++ 0x3B :: p.after).length = (t ++ ps.flatMap CtParam.text ++ p.before).length + 1 + p.after.length := by
      simp only [List.length_append, List.length_cons]; omega
    rw [hlen]
    have he : h.val = t ++ ps.flatMap CtParam.text ++ p.before ++ 0x3B :: (p.after ++ b!"boundary=" ++ (p.raw ++ qs.flatMap CtParam.text)) := by
      rw [hval]; simp [CtParam.text, hn]
    rw [he]
    exact this
  · simp only [List.mem_append, not_or]
    constructor
    · unfold CtParam.raw
      split
      · simp [hv]
      · exact hv
    · cases qs with
      | nil => simp [spaceBehind]
      | cons q qs =>
        intro hc
        rcases (ha.legal q (by simp)).before _ hc with h | h <;> simp at h
  · cases qs with
    | nil => exact .inl rfl
    | cons q qs => right; simp [spaceBehind, CtParam.text]

example (body : List Ev) : fromRequest tinyHttp (Sample.ctReq [Sample.ctQuoted, Sample.ctX] body) = .ok (withBody body b!"\"q\" ") :=
  C136_value (Sample.ctReq_first _ _) (Sample.ct_announces Sample.ctQuoted_legal (Sample.sameName_self _) (by simpa using Sample.ctX_legal)) (by simpa using Sample.ctX_plain) rfl (by decide)

/-- C136, as far as it holds, in both directions: a request is read with the announced boundary if and only if the value is not in quotes and no white space is between it and the next `;`.
Missing: names other than `boundary` in small letters; parameters before it that contain `boundary=` (NoDecoy). -/
theorem C136_when_partial (hh : FirstHeader req.headers b!"Content-Type" h) (ha : Announces h.val ps p qs) (hp : ∀ q ∈ ps, q.NoDecoy) (hn : p.name = b!"boundary") (hv : (0x3B : Byte) ∉ p.value) :
    fromRequest tinyHttp req = .ok (withBody req.body p.value) ↔ p.quoted = false ∧ spaceBehind qs = [] := by
  rw [C136_value hh ha hp hn hv]
  constructor
  · intro he
    have he : p.raw ++ spaceBehind qs = p.value := by
      have := congrArg BR.delim (Except.ok.inj he)
      simpa [withBody, BR.fromReader] using this
    have hlen := congrArg List.length he
    unfold CtParam.raw at hlen
    cases hq : p.quoted with
    | false => rw [hq] at hlen; simp at hlen; exact ⟨rfl, hlen⟩
    | true => rw [hq] at hlen; simp at hlen; omega
  · rintro ⟨h1, h2⟩
    simp [CtParam.raw, h1, h2]

example (body : List Ev) : fromRequest tinyHttp (Sample.ctReq [Sample.ctBare] body) = .ok (withBody body b!"q") :=
  (C136_when_partial (Sample.ctReq_first _ _) (Sample.ct_announces Sample.ctBare_legal (Sample.sameName_self _) (by simp)) (by simpa using Sample.ctX_plain) rfl (by decide)).mpr ⟨rfl, rfl⟩

/-- A reader whose delimiter does not occur in the body never returns an entry and never the end. -/
theorem no_entry {evs : List Ev} {s : BR} (hD : D.Sane) (hab : Absent (dashes ++ b) (Ev.bytes evs)) (hr : Reachable D evs b s) : ∀ x, (s.readEntry D).1 ≠ .ok x := by
  intro x hx
  cases x with
  | none =>
    obtain ⟨x, y, hxy⟩ := C09_end_is_real hD hr hx
    refine hab x.length ?_
    unfold OccursAt
    rw [← hxy]
    simp
  | some fh =>
    obtain ⟨q, _, _, _, _, h1, _⟩ := C10_entry_introduced (t := (s.readEntry D).2) hD hr (Prod.ext hx rfl)
    obtain ⟨z, hz⟩ := (hr.spec hD).2.1
    exact hab (z.length + q) (by have := h1.1; unfold OccursAt at this ⊢; rw [← hz, ← List.drop_drop, List.drop_left]; exact this)

/-- Requests with a boundary in quotes: unless the body contains the boundary in quotes, no call in any history returns an entry or the end. -/
theorem C136_quoted (hD : D.Sane) (hh : FirstHeader req.headers b!"Content-Type" h) (ha : Announces h.val ps p qs) (hp : ∀ q ∈ ps, q.NoDecoy) (hn : p.name = b!"boundary") (hv : (0x3B : Byte) ∉ p.value)
    (hq : p.quoted = true) (hb : Absent (b!"--\"" ++ p.value) (Ev.bytes req.body)) :
    ∃ br, fromRequest tinyHttp req = .ok br ∧ ∀ os x, ((br.session D os).readEntry D).1 ≠ .ok x := by
  refine ⟨_, C136_value hh ha hp hn hv, fun os x => no_entry hD (b := p.raw ++ spaceBehind qs) (evs := req.body) ?_ ⟨os, rfl⟩ x⟩
  have : dashes ++ (p.raw ++ spaceBehind qs) = (b!"--\"" ++ p.value) ++ (0x22 :: spaceBehind qs) := by simp [CtParam.raw, hq, dashes]
  rw [this]
  exact fun i hi => hb i ((List.prefix_append _ _).trans hi)

example : ∃ br, fromRequest tinyHttp (Sample.ctReq [Sample.ctQuoted] [.data b!"--q\r\n", .data b!"--q--"]) = .ok br ∧ ∀ os x, ((br.session refDeps os).readEntry refDeps).1 ≠ .ok x :=
  C136_quoted refDeps_sane (Sample.ctReq_first _ _) (Sample.ct_announces Sample.ctQuoted_legal (Sample.sameName_self _) (by simp)) (by simpa using Sample.ctX_plain) rfl (by decide) rfl
    (findSub_eq_none_iff.mp (by decide +kernel))

/-- Requests that write the name of the parameter in other letters are not taken for multipart requests. -/
theorem C136_case (hh : FirstHeader req.headers b!"Content-Type" h) (ha : Announces h.val ps p qs) (hp : ∀ q ∈ ps ++ p :: qs, q.NoDecoy) : fromRequest tinyHttp req = .error req := by
  obtain ⟨t, ht, hval⟩ := ha.text
  have hab := params_absent (type_absent ht) fun q hq => ⟨ha.legal q hq, hp q hq⟩
  rw [← hval] at hab
  cases he : fromRequest tinyHttp req with
  | error q => rw [(C70_tiny (br := withBody [] [])).2 q he]
  | ok br =>
    obtain ⟨h', pre, b, tail, h1, h2, h3, -⟩ := C70_tiny.1.mp he
    have : h' = h := by
      have e1 := (findHeader_some_iff _ _ _).mpr h1
      have e2 := (findHeader_some_iff _ _ _).mpr hh
      rw [e1] at e2
      exact Option.some.inj e2
    rw [this] at h3
    exact absurd h3.1 (hab _)

example (body : List Ev) : fromRequest tinyHttp (Sample.ctReq [Sample.ctCase] body) = .error (Sample.ctReq [Sample.ctCase] body) :=
  C136_case (Sample.ctReq_first _ _) (Sample.ct_announces Sample.ctCase_legal Sample.ctCase_name (by simp)) (by
    intro q h
    simp only [List.cons_append, List.nil_append, List.mem_cons, List.not_mem_nil, or_false] at h
    rcases h with rfl | rfl
    · exact Sample.ctX_plain
    · exact Sample.ctCase_plain)

/-- C136 is false of the code: a boundary in quotes. -/
theorem C136_false : ¬ HeaderUnderstood := by
  intro h
  have hs := Sample.ctReq_first [Sample.ctQuoted] []
  have ha := Sample.ct_announces (qs := []) Sample.ctQuoted_legal (Sample.sameName_self _) (by simp)
  have := (C136_when_partial hs ha (by simpa using Sample.ctX_plain) rfl (by decide)).mp (h _ _ _ _ _ rfl hs ha)
  exact absurd this.1 (by decide)

end Multipart

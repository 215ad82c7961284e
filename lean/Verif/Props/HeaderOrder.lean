import Verif.Props.OtherClients
/-!
# C117: order and case of headers, and other headers
-/
namespace Multipart

namespace Sample

/-- Other letters, another order, and another header. -/
def rawHeaders' : List Header := [⟨b!"Content-Disposition", b!"form-data; name=a; filename=\"a.txt\""⟩, ⟨b!"X-Y", b!"1"⟩, ⟨b!"CONTENT-TYPE", b!"text/plain"⟩]

theorem sameName_iff {x y : Bytes} : SameName x y ↔ eqIgnoreCase x y = true := (eqIgnoreCase_iff x y).symm

theorem raw_same : SameField rawHeaders rawHeaders' := by
  refine ⟨⟨?_, ?_⟩, ⟨?_, ?_⟩, ⟨?_, ?_⟩, ?_, ?_⟩ <;> (first | unfold Once | skip) <;> simp only [sameName_iff] <;> decide +kernel

end Sample

variable {D : Deps} {b : Bytes} {evs : List Ev} {hs hs' : List Header} {fh : FieldHeaders}

theorem Once.of_mem {n : Bytes} (h : Once n hs) {x y : Header} (hx : x ∈ hs) (hy : y ∈ hs) (h1 : SameName x.name n) (h2 : SameName y.name n) : x = y := by
  unfold Once at h
  induction hs with
  | nil => simp at hx
  | cons z zs ih =>
    rw [List.pairwise_cons] at h
    rcases List.mem_cons.mp hx with rfl | hx' <;> rcases List.mem_cons.mp hy with rfl | hy'
    · rfl
    · exact absurd ⟨h1, h2⟩ (h.1 y hy')
    · exact absurd ⟨h2, h1⟩ (h.1 x hx')
    · exact ih h.2 hx' hy'

theorem firstHeader_exists {n : Bytes} {x : Header} (hx : x ∈ hs) (h : SameName x.name n) : ∃ y, FirstHeader hs n y := by
  cases hf : findHeader hs n with
  | none => exact absurd h ((findHeader_none_iff _ _).mp hf x hx)
  | some y => exact ⟨y, (findHeader_some_iff _ _ _).mp hf⟩

theorem FirstHeader.mem {n : Bytes} {x : Header} (h : FirstHeader hs n x) : x ∈ hs ∧ SameName x.name n := by
  obtain ⟨pre, post, rfl, h, -⟩ := h
  exact ⟨by simp, h⟩

theorem AgreeOn.symm {n : Bytes} (h : AgreeOn n hs hs') : AgreeOn n hs' hs := ⟨h.2, h.1⟩

theorem SameField.symm (h : SameField hs hs') : SameField hs' hs := ⟨h.disposition.symm, h.ctype.symm, h.once', h.once⟩

/-- The header that is looked at has the same value in both lists. -/
theorem AgreeOn.first {n : Bytes} (h : AgreeOn n hs hs') (ho : Once n hs') {x : Header} (hx : FirstHeader hs n x) : ∃ y, FirstHeader hs' n y ∧ y.val = x.val := by
  obtain ⟨y, hy, hn, hv⟩ := h.1 x hx.mem.1 hx.mem.2
  obtain ⟨z, hz⟩ := firstHeader_exists hy hn
  exact ⟨z, hz, by rw [ho.of_mem hz.mem.1 hy hz.mem.2 hn]; exact hv⟩

theorem AgreeOn.none {n : Bytes} (h : AgreeOn n hs hs') (hx : ∀ x ∈ hs, ¬ SameName x.name n) : ∀ x ∈ hs', ¬ SameName x.name n := by
  intro x hm hn
  obtain ⟨y, hy, hn', -⟩ := h.2 x hm hn
  exact hx y hy hn'

theorem SameField.typeIs (h : SameField hs hs') {m : Option Mime} (hm : TypeIs D hs m) : TypeIs D hs' m := by
  cases m with
  | none => exact h.ctype.none hm
  | some m =>
    obtain ⟨ct, h1, h2⟩ := hm
    obtain ⟨y, hy, hv⟩ := h.ctype.first h.once'.2 h1
    exact ⟨y, hy, hv ▸ h2⟩

theorem SameField.says (h : SameField hs hs') {n : Bytes} {f : Option Bytes} (hm : ∃ cd, FirstHeader hs b!"Content-Disposition" cd ∧ Says cd.val n f) : ∃ cd, FirstHeader hs' b!"Content-Disposition" cd ∧ Says cd.val n f := by
  obtain ⟨cd, h1, h2⟩ := hm
  obtain ⟨y, hy, hv⟩ := h.disposition.first h.once'.1 h1
  exact ⟨y, hy, hv ▸ h2⟩

/-- C117: two lists of headers that say the same about a field are both accepted, with the same name, filename and content type, or both are refused for the same reason. -/
theorem C117_headers (h : SameField hs hs') :
    (FieldHeaders.parse D hs = .ok fh ↔ FieldHeaders.parse D hs' = .ok fh) ∧
    ((∃ t, FieldHeaders.parse D hs = .error (.missingContentDisposition t)) ↔ ∃ t, FieldHeaders.parse D hs' = .error (.missingContentDisposition t)) ∧
    ((∃ r c, FieldHeaders.parse D hs = .error (.invalidContDisp r c)) ↔ ∃ r c, FieldHeaders.parse D hs' = .error (.invalidContDisp r c)) ∧
    ((∃ t, FieldHeaders.parse D hs = .error (.mime t)) ↔ ∃ t, FieldHeaders.parse D hs' = .error (.mime t)) := by
  have key : ∀ {hs hs' : List Header}, SameField hs hs' →
      (FieldHeaders.parse D hs = .ok fh → FieldHeaders.parse D hs' = .ok fh) ∧
      ((∃ t, FieldHeaders.parse D hs = .error (.missingContentDisposition t)) → ∃ t, FieldHeaders.parse D hs' = .error (.missingContentDisposition t)) ∧
      ((∃ r c, FieldHeaders.parse D hs = .error (.invalidContDisp r c)) → ∃ r c, FieldHeaders.parse D hs' = .error (.invalidContDisp r c)) ∧
      ((∃ t, FieldHeaders.parse D hs = .error (.mime t)) → ∃ t, FieldHeaders.parse D hs' = .error (.mime t)) := by
    intro hs hs' h
    refine ⟨fun hp => ?_, fun hp => ?_, fun hp => ?_, fun hp => ?_⟩
    · obtain ⟨h1, h2⟩ := (C18_exact _).mp hp
      exact (C18_exact _).mpr ⟨h.says h1, h.typeIs h2⟩
    · exact (C83_header_errors D hs').1.mpr (h.disposition.none ((C83_header_errors D hs).1.mp hp))
    · obtain ⟨cd, h1, h2⟩ := (C83_header_errors D hs).2.1.mp hp
      obtain ⟨y, hy, hv⟩ := h.disposition.first h.once'.1 h1
      exact (C83_header_errors D hs').2.1.mpr ⟨y, hy, hv ▸ h2⟩
    · obtain ⟨⟨cd, h1, h2⟩, ct, h3, h4⟩ := (C83_header_errors D hs).2.2.1.mp hp
      obtain ⟨y, hy, hv⟩ := h.disposition.first h.once'.1 h1
      obtain ⟨z, hz, hw⟩ := h.ctype.first h.once'.2 h3
      exact (C83_header_errors D hs').2.2.1.mpr ⟨⟨y, hy, hv ▸ h2⟩, z, hz, hw ▸ h4⟩
  obtain ⟨a1, a2, a3, a4⟩ := key h
  obtain ⟨b1, b2, b3, b4⟩ := key h.symm
  exact ⟨⟨a1, b1⟩, ⟨a2, b2⟩, ⟨a3, b3⟩, ⟨a4, b4⟩⟩

/-- The hypotheses are met: two lists in different order and case, one of them with another header. -/
example : SameField Sample.rawHeaders Sample.rawHeaders' ∧ FieldHeaders.parse refDeps Sample.rawHeaders = .ok Sample.rawEntry.1 :=
  ⟨Sample.raw_same, by decide +kernel⟩

theorem Once.perm {n : Bytes} (h : Once n hs) (hp : hs.Perm hs') : Once n hs' :=
  List.Pairwise.perm h hp (fun h1 h2 => h1 ⟨h2.2, h2.1⟩)

/-- C117: in particular, the order of the headers does not matter if none of the two names occurs twice. -/
theorem C117_order (hp : hs.Perm hs') (h1 : Once b!"Content-Disposition" hs) (h2 : Once b!"Content-Type" hs) : SameField hs hs' := by
  have hm : ∀ x, x ∈ hs ↔ x ∈ hs' := fun x => hp.mem_iff
  have agree : ∀ n, AgreeOn n hs hs' := fun n => ⟨fun x hx hn => ⟨x, (hm x).mp hx, hn, rfl⟩, fun x hx hn => ⟨x, (hm x).mpr hx, hn, rfl⟩⟩
  exact ⟨agree _, agree _, ⟨h1, h2⟩, h1.perm hp, h2.perm hp⟩

/-- The hypotheses are met. -/
example : FieldHeaders.parse refDeps Sample.rawHeaders.reverse = .ok Sample.rawEntry.1 :=
  (C117_headers (C117_order (List.reverse_perm _).symm Sample.raw_same.once.1 Sample.raw_same.once.2)).1.mp (by decide +kernel)

/-- C117: if a body is read as `es`, so is every body whose parts have headers that say the same, as far as the server has room for them; the boundaries, preambles and epilogues, and the splits
into reads, may be different. -/
theorem C117_bodies (hD : D.Sane) (hT : D.Tokenizes) {ps ps' : List RawPart} {es : List (FieldHeaders × Bytes)} (hs : All2 (ReadablePart D b) ps es)
    (hsame : All2 (fun p p' => SameField p.headers p'.headers ∧ p'.data = p.data) ps ps') {b' pre epi : Bytes} (hcr : (0x0D : Byte) ∉ b') (hlf : (0x0A : Byte) ∉ b') (hpre : Preamble b' pre)
    (hfit : ∀ p ∈ ps', FittingPart b' p) (hn : NoStall evs) (hne : NoErr evs) (he : Ev.bytes evs = pre ++ writeBody b' epi ps') :
    (∃ got fin, Reads D (withBody evs b') got fin) ∧ ∀ got fin, Reads D (withBody evs b') got fin →
      fin = .closed ∧ All2 (fun a e => a.1 = e.1 ∧ DataOk (dashes ++ b') evs e.2 a.2) got es ∧ (CleanSplit (dashes ++ b') evs → got = es) := by
  refine C116_read_partial hD hT hcr hlf hpre ?_ hn hne he
  clear he
  induction hsame generalizing es with
  | nil => cases hs; exact .nil
  | @cons p p' ps ps' h _ ih =>
    cases hs with
    | cons hp hs => exact .cons ⟨hfit p' (by simp), h.1.says hp.disposition, h.1.typeIs hp.ctype, by rw [hp.data, h.2]⟩ (ih hs fun q hq => hfit q (by simp [hq]))

/-- The hypotheses are met: the sample of C116, with the other headers and another boundary. -/
example : ∀ got fin, Reads refDeps (withBody [.data (writeBody b!"other" b!"the end" [⟨Sample.rawHeaders', b!"one--two"⟩])] b!"other") got fin → fin = .closed ∧ got = [Sample.rawEntry] := by
  intro got fin h
  obtain ⟨h1, -, h2⟩ := (C117_bodies (pre := []) (epi := b!"the end") refDeps_sane refDeps_tokenizes (.cons Sample.raw_readable .nil) (ps' := [⟨Sample.rawHeaders', b!"one--two"⟩]) (.cons ⟨Sample.raw_same, rfl⟩ .nil) (by decide) (by decide) (.inl rfl)
    (by
      intro p hp
      simp only [List.mem_singleton] at hp
      subst hp
      exact ⟨Sample.headers_ok (by decide +kernel), by decide, by decide +kernel, findSub_eq_none_iff.mp (by decide +kernel)⟩)
    (by decide +kernel) (by intro e; simp) (by simp [Ev.bytes])).2 got fin h
  exact ⟨h1, h2 (single_cleanSplit (by simp [dashes]))⟩

end Multipart

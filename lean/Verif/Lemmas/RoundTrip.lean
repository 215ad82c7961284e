import Verif.Spec.Cut
import Verif.Spec.Injection
import Verif.Lemmas.Tokenizer
import Verif.Lemmas.Utf8
import Verif.Props.Headers
import Verif.Props.Reading
/-!
# Bodies written by the client, seen by the server
-/
namespace Multipart

/-! ## Occurrences around a byte that is not part of the pattern -/

theorem occursAt_sep {d xs ys : Bytes} {c : Byte} {q : Nat} (hc : c ∉ d) (h : OccursAt d (xs ++ c :: ys) q) :
    q + d.length ≤ xs.length ∨ xs.length + 1 ≤ q ∨ d = [] := by
  by_cases h1 : q + d.length ≤ xs.length
  · exact .inl h1
  by_cases h2 : xs.length + 1 ≤ q
  · exact .inr (.inl h2)
  right; right
  exfalso
  apply hc
  obtain ⟨t, ht⟩ := h
  have hg : (d ++ t)[xs.length - q]? = some c := by
    rw [ht, List.getElem?_drop]
    have : q + (xs.length - q) = xs.length := by omega
    rw [this, List.getElem?_append_right (Nat.le_refl _)]
    simp
  rw [List.getElem?_append_left (by omega)] at hg
  exact List.mem_of_getElem? hg

theorem Absent.sep {d xs ys : Bytes} {c : Byte} (hd : d ≠ []) (hc : c ∉ d) (hx : Absent d xs) (hy : Absent d ys) : Absent d (xs ++ c :: ys) := by
  intro q h
  rcases occursAt_sep hc h with h1 | h1 | h1
  · exact hx q (occursAt_of_append h h1)
  · have : OccursAt d (List.drop (xs.length + 1) (xs ++ c :: ys)) (q - (xs.length + 1)) := by
      rw [occursAt_drop]
      have : xs.length + 1 + (q - (xs.length + 1)) = q := by omega
      rw [this]; exact h
    have e : List.drop (xs.length + 1) (xs ++ c :: ys) = ys := by
      rw [List.drop_append]; simp
    rw [e] at this
    exact hy _ this
  · exact hd h1

theorem FirstAt.sep {d xs ys : Bytes} {c : Byte} {p : Nat} (hd : d ≠ []) (hc : c ∉ d) (hx : Absent d xs) (hy : FirstAt d ys p) : FirstAt d (xs ++ c :: ys) (xs.length + 1 + p) := by
  have e : List.drop (xs.length + 1) (xs ++ c :: ys) = ys := by
    rw [List.drop_append]; simp
  have hy' : FirstAt d (List.drop (xs.length + 1) (xs ++ c :: ys)) p := by rw [e]; exact hy
  refine hy'.of_drop fun q hq h => ?_
  rcases occursAt_sep hc h with h1 | h1 | h1
  · exact hx q (occursAt_of_append h h1)
  · omega
  · exact hd h1

theorem Absent.of_sub {d e xs : Bytes} (h : Absent e xs) (hs : e <+: d) : Absent d xs := fun q hq => h q (hs.trans hq)

/-! ## The reference tokenizer -/

theorem HeaderName.token {n : Bytes} (h : HeaderName n) : ∀ c ∈ n, isTokenByte c = true ∧ c ≠ 0x3A ∧ c ≠ 0x0D := by
  have hall : ∀ k : Fin 256, (UInt8.ofNat k.val = 0x2D ∨ (0x41 ≤ k.val ∧ k.val ≤ 0x5A) ∨ (0x61 ≤ k.val ∧ k.val ≤ 0x7A)) →
      isTokenByte (UInt8.ofNat k.val) = true ∧ UInt8.ofNat k.val ≠ 0x3A ∧ UInt8.ofNat k.val ≠ 0x0D := by decide +kernel
  intro c hc
  have := hall ⟨c.toNat, c.toNat_lt⟩
  simp only [UInt8.ofNat_toNat] at this
  exact this (h.2 c hc)

theorem value_byte {c : Byte} (h : c = 0x09 ∨ (0x20 ≤ c.toNat ∧ c.toNat ≠ 0x7F)) : isValueByte c = true ∧ c ≠ 0x0D := by
  have hall : ∀ k : Fin 256, (UInt8.ofNat k.val = 0x09 ∨ (0x20 ≤ k.val ∧ k.val ≠ 0x7F)) → isValueByte (UInt8.ofNat k.val) = true ∧ UInt8.ofNat k.val ≠ 0x0D := by decide +kernel
  have := hall ⟨c.toNat, c.toNat_lt⟩
  simp only [UInt8.ofNat_toNat] at this
  exact this h

theorem trimBlank_eq {v : Bytes} (h : v.head? ≠ some 0x20 ∧ v.head? ≠ some 0x09) (hl : v.getLast? ≠ some 0x20 ∧ v.getLast? ≠ some 0x09) : trimBlank (0x20 :: v) = v := by
  have key : ∀ w : Bytes, w.head? ≠ some 0x20 → w.head? ≠ some 0x09 → w.dropWhile isBlank = w := by
    intro w h1 h2
    cases w with
    | nil => rfl
    | cons x xs =>
      have : isBlank x = false := by
        simp at h1 h2
        simp [isBlank, h1, h2]
      simp [List.dropWhile, this]
  unfold trimBlank
  have e : List.dropWhile isBlank (0x20 :: v) = v := by
    have : isBlank 0x20 = true := by decide
    rw [List.dropWhile_cons, if_pos this]
    exact key v h.1 h.2
  rw [e, key v.reverse (by rw [List.head?_reverse]; exact hl.1) (by rw [List.head?_reverse]; exact hl.2), List.reverse_reverse]

theorem parseHeaderLine_eq {h : Header} (hn : HeaderName h.name) (hv : HeaderText h.val) : parseHeaderLine (h.name ++ b!": " ++ h.val) = some h := by
  unfold parseHeaderLine
  have hc : (0x3A : Byte) ∉ h.name := fun hm => (hn.token _ hm).2.1 rfl
  have e : h.name ++ b!": " ++ h.val = h.name ++ 0x3A :: (0x20 :: h.val) := by simp
  rw [e, findByte_append hc]
  have h0 : h.name.length ≠ 0 := fun h0 => hn.1 (List.length_eq_zero_iff.mp h0)
  have ht : List.drop (h.name.length + 1) (h.name ++ 0x3A :: (0x20 :: h.val)) = 0x20 :: h.val := by
    rw [List.drop_append]; simp
  simp only [List.take_left' rfl, ht]
  have h1 : h.name.all isTokenByte = true := List.all_eq_true.mpr fun c hc => (hn.token c hc).1
  have h2 : (0x20 :: h.val).all isValueByte = true := by
    rw [List.all_cons, Bool.and_eq_true]
    exact ⟨by decide, List.all_eq_true.mpr fun c hc => (value_byte (hv.bytes c hc)).1⟩
  rw [h1, h2, trimBlank_eq hv.head hv.last]
  simp [h0]

theorem firstAt_crlf {xs ys : Bytes} (h : (0x0D : Byte) ∉ xs) : FirstAt crlf (xs ++ crlf ++ ys) xs.length := by
  constructor
  · unfold OccursAt; rw [List.append_assoc, List.drop_left' rfl]; exact List.prefix_append _ _
  · intro q hq ⟨t, ht⟩
    have : (xs ++ crlf ++ ys)[q]? = some 0x0D := by
      have := congrArg (·[0]?) ht
      simpa [crlf, List.getElem?_drop] using this.symm
    rw [List.append_assoc, List.getElem?_append_left hq] at this
    exact h (List.mem_of_getElem? this)

theorem refParseAux_render : ∀ (hs : List Header) (n pos : Nat) (acc : List Header) (more : Bytes), hs.length < n → acc.length + hs.length ≤ 4 →
    (∀ h ∈ hs, HeaderName h.name ∧ HeaderText h.val) → refParseAux n pos acc (renderHeaders hs ++ more) = .complete (pos + (renderHeaders hs).length) (acc ++ hs) := by
  intro hs
  induction hs with
  | nil =>
    intro n pos acc more hn _ _
    cases n with
    | zero => omega
    | succ n =>
      have : findSub crlf (crlf ++ more) = some 0 := by
        have := firstAt_crlf (xs := []) (ys := more) (by simp)
        exact findSub_eq_some_iff.mpr (by simpa using this)
      unfold refParseAux renderHeaders
      rw [this]
      simp [crlf]
  | cons h hs ih =>
    intro n pos acc more hn hacc hok
    cases n with
    | zero => omega
    | succ n =>
      obtain ⟨h1, h2⟩ := hok h (by simp)
      have hno : (0x0D : Byte) ∉ h.name ++ b!": " ++ h.val := by
        simp only [List.mem_append, not_or]
        exact ⟨⟨fun hm => (h1.token _ hm).2.2 rfl, by decide⟩, fun hm => (value_byte (h2.bytes _ hm)).2 rfl⟩
      have hf := findSub_eq_some_iff.mpr (firstAt_crlf (ys := renderHeaders hs ++ more) hno)
      have e : renderHeaders (h :: hs) ++ more = h.name ++ b!": " ++ h.val ++ crlf ++ (renderHeaders hs ++ more) := by simp [renderHeaders]
      obtain ⟨i, hi⟩ : ∃ i, (h.name ++ b!": " ++ h.val).length = i + 1 := ⟨(h.name ++ b!": " ++ h.val).length - 1, by simp; omega⟩
      rw [e]
      unfold refParseAux
      rw [hf, hi]
      simp only
      have ht : List.take (i + 1) (h.name ++ b!": " ++ h.val ++ crlf ++ (renderHeaders hs ++ more)) = h.name ++ b!": " ++ h.val := by
        rw [List.append_assoc, List.take_left' hi]
      have hd : List.drop (i + 3) (h.name ++ b!": " ++ h.val ++ crlf ++ (renderHeaders hs ++ more)) = renderHeaders hs ++ more := by
        rw [List.drop_left']; rw [List.length_append, hi]; rfl
      rw [ht, hd, parseHeaderLine_eq h1 h2]
      simp only
      simp only [List.length_cons] at hacc hn
      rw [if_pos (by omega), ih n _ _ more (by omega) (by simp; omega) fun x hx => hok x (by simp [hx])]
      have hl : (renderHeaders (h :: hs)).length = i + 3 + (renderHeaders hs).length := by
        simp only [renderHeaders, List.length_append] at hi ⊢
        have : crlf.length = 2 := rfl
        omega
      simp [hl]; omega

/-- The reference tokenizer meets the assumption. -/
theorem refDeps_tokenizes : refDeps.Tokenizes := by
  intro hs _ hl hok more
  have key : ∀ hs : List Header, hs.length ≤ (renderHeaders hs).length := by
    intro hs
    induction hs with
    | nil => simp
    | cons h hs ih => simp [renderHeaders]; omega
  have := refParseAux_render hs ((renderHeaders hs ++ more).length + 1) 0 [] more (by have := key hs; simp; omega) (by simpa using hl) hok
  simpa [refDeps, refParseHeaders] using this

/-! ## The header block of a field -/

/-- The headers of a field. -/
def OutField.hdrs (f : OutField) : List Header := ⟨b!"Content-Disposition", f.disposition⟩ :: (match f.ctype with
  | some t => [⟨b!"Content-Type", t⟩]
  | none => [])

theorem OutField.headers_render (f : OutField) : f.headers = renderHeaders f.hdrs := by
  unfold OutField.headers OutField.hdrs
  cases f.ctype <;> simp [renderHeaders]

theorem utf8_ascii {v : Bytes} (h : utf8Valid v = true) : IsUtf8 v := (utf8Valid_iff v).mp h

theorem Sendable.oneLine {D : Deps} {b : Bytes} {f : OutField} {ct : Option Mime} (h : Sendable D b f ct) : OneLine D b f ct :=
  ⟨⟨h.name.bytes, h.name.utf8⟩, fun n hn => ⟨(h.filename n hn).bytes, (h.filename n hn).utf8⟩, h.ctype, h.mime, h.size, h.noDelim⟩

theorem OutField.disposition_text {D : Deps} {b : Bytes} {f : OutField} {ct : Option Mime} (h : OneLine D b f ct) : HeaderText f.disposition := by
  have fixed : ∀ v : Bytes, (∀ c ∈ v, c = 0x09 ∨ (0x20 ≤ c.toNat ∧ c.toNat ≠ 0x7F)) → utf8Valid v = true → (∀ c ∈ v, c = 0x09 ∨ (0x20 ≤ c.toNat ∧ c.toNat ≠ 0x7F)) ∧ IsUtf8 v := fun v h1 h2 => ⟨h1, utf8_ascii h2⟩
  have app : ∀ {v w : Bytes}, (∀ c ∈ v, c = 0x09 ∨ (0x20 ≤ c.toNat ∧ c.toNat ≠ 0x7F)) ∧ IsUtf8 v → (∀ c ∈ w, c = 0x09 ∨ (0x20 ≤ c.toNat ∧ c.toNat ≠ 0x7F)) ∧ IsUtf8 w →
      (∀ c ∈ v ++ w, c = 0x09 ∨ (0x20 ≤ c.toNat ∧ c.toNat ≠ 0x7F)) ∧ IsUtf8 (v ++ w) := fun h1 h2 =>
    ⟨fun c hc => (List.mem_append.mp hc).elim (h1.1 c) (h2.1 c), h1.2.append h2.2⟩
  have f1 := fixed b!"form-data; name=\"" (by decide) (by decide +kernel)
  have f2 := fixed b!"\"" (by decide) (by decide +kernel)
  have f3 := fixed b!"; filename=\"" (by decide) (by decide +kernel)
  have hn : (∀ c ∈ f.name, c = 0x09 ∨ (0x20 ≤ c.toNat ∧ c.toNat ≠ 0x7F)) ∧ IsUtf8 f.name := ⟨h.name.bytes, h.name.utf8⟩
  have last : ∀ v : Bytes, (v ++ b!"\"").getLast? = some 0x22 := by intro v; simp
  cases hfn : f.filename with
  | none =>
    have e : f.disposition = b!"form-data; name=\"" ++ f.name ++ b!"\"" := by simp [OutField.disposition, hfn]
    rw [e]
    have := app (app f1 hn) f2
    exact ⟨this.1, by simp, by rw [last]; decide, this.2⟩
  | some n =>
    have hfn' := h.filename n hfn
    have e : f.disposition = b!"form-data; name=\"" ++ f.name ++ b!"\"" ++ (b!"; filename=\"" ++ n ++ b!"\"") := by simp [OutField.disposition, hfn]
    rw [e]
    have := app (app (app f1 hn) f2) (app (app f3 ⟨hfn'.bytes, hfn'.utf8⟩) f2)
    exact ⟨this.1, by simp, by rw [← List.append_assoc, last]; decide, this.2⟩

theorem OutField.hdrs_ok {D : Deps} {b : Bytes} {f : OutField} {ct : Option Mime} (h : OneLine D b f ct) : ∀ x ∈ f.hdrs, HeaderName x.name ∧ HeaderText x.val := by
  have h1 : HeaderName b!"Content-Disposition" := ⟨by simp, by decide⟩
  have h2 : HeaderName b!"Content-Type" := ⟨by simp, by decide⟩
  unfold OutField.hdrs
  cases hct : f.ctype with
  | none => intro x hx; simp at hx; subst hx; exact ⟨h1, f.disposition_text h⟩
  | some t =>
    intro x hx
    simp at hx
    rcases hx with rfl | rfl
    · exact ⟨h1, f.disposition_text h⟩
    · exact ⟨h2, h.ctype t hct⟩

theorem SafeBoundary.notMem {b : Bytes} (hb : SafeBoundary b) {c : Byte} (h : c ∈ b!"\r\n\"; :=") : c ∉ dashes ++ b := by
  intro hm
  have : (c = 0x2D) ∨ c ∈ b := by simpa [dashes] using hm
  rcases this with rfl | hm
  · revert h; decide
  · have := hb.2 c hm
    simp at h
    rcases h with rfl | rfl | rfl | rfl | rfl | rfl | rfl <;> simp at this

theorem OutField.headers_absent {D : Deps} {b : Bytes} (hb : SafeBoundary b) {f : OutField} {ct : Option Mime} (h : OneLine D b f ct) : Absent (dashes ++ b) (f.headers ++ f.data) := by
  have hd : dashes ++ b ≠ [] := by simp [dashes]
  have lit : ∀ v : Bytes, findSub dashes v = none → Absent (dashes ++ b) v := fun v hv => (findSub_eq_none_iff.mp hv).of_sub (List.prefix_append _ _)
  have hq : (0x22 : Byte) ∉ dashes ++ b := hb.notMem (by decide)
  have hsp : (0x20 : Byte) ∉ dashes ++ b := hb.notMem (by decide)
  have hcr : (0x0D : Byte) ∉ dashes ++ b := hb.notMem (by decide)
  have hlf : (0x0A : Byte) ∉ dashes ++ b := hb.notMem (by decide)
  obtain ⟨n1, n2, n3, n4⟩ := h.noDelim
  -- the end: content type, empty line, data
  have hend : ∃ c X, (match f.ctype with | some t => b!"Content-Type: " ++ t ++ crlf | none => []) ++ crlf ++ f.data = c ++ X ∧ c = [] ∧ Absent (dashes ++ b) X := by
    refine ⟨[], _, rfl, rfl, ?_⟩
    cases hct : f.ctype with
    | none =>
      have : Absent (dashes ++ b) ([] ++ 0x0D :: ([] ++ 0x0A :: f.data)) := .sep hd hcr (lit [] (by decide)) (.sep hd hlf (lit [] (by decide)) n4)
      simpa [crlf] using this
    | some t =>
      have : Absent (dashes ++ b) (b!"Content-Type:" ++ 0x20 :: (t ++ 0x0D :: (b!"\n\r" ++ 0x0A :: f.data))) :=
        .sep hd hsp (lit _ (by decide)) (.sep hd hcr (n3 t hct) (.sep hd hlf (lit _ (by decide)) n4))
      simpa [crlf] using this
  obtain ⟨c, X, e, rfl, hX⟩ := hend
  rw [List.nil_append] at e
  have hX' : Absent (dashes ++ b) (b!"\r" ++ 0x0A :: X) := .sep hd hlf (lit _ (by decide)) hX
  cases hfn : f.filename with
  | none =>
    have : Absent (dashes ++ b) (b!"Content-Disposition: form-data; name=" ++ 0x22 :: (f.name ++ 0x22 :: (b!"\r" ++ 0x0A :: X))) :=
      .sep hd hq (lit _ (by decide)) (.sep hd hq n1 hX')
    have e' : f.headers ++ f.data = b!"Content-Disposition: form-data; name=" ++ 0x22 :: (f.name ++ 0x22 :: (b!"\r" ++ 0x0A :: X)) := by
      rw [← e]; cases hct : f.ctype <;> simp [OutField.headers, OutField.disposition, hfn, hct, crlf]
    rw [e']; exact this
  | some n =>
    have : Absent (dashes ++ b) (b!"Content-Disposition: form-data; name=" ++ 0x22 :: (f.name ++ 0x22 :: (b!"; filename=" ++ 0x22 :: (n ++ 0x22 :: (b!"\r" ++ 0x0A :: X))))) :=
      .sep hd hq (lit _ (by decide)) (.sep hd hq n1 (.sep hd hq (lit _ (by decide)) (.sep hd hq (n2 n hfn) hX')))
    have e' : f.headers ++ f.data = b!"Content-Disposition: form-data; name=" ++ 0x22 :: (f.name ++ 0x22 :: (b!"; filename=" ++ 0x22 :: (n ++ 0x22 :: (b!"\r" ++ 0x0A :: X)))) := by
      rw [← e]; cases hct : f.ctype <;> simp [OutField.headers, OutField.disposition, hfn, hct, crlf]
    rw [e']; exact this

theorem sameName_refl (n : Bytes) : SameName n n := by
  unfold SameName
  induction n with
  | nil => exact .nil
  | cons x xs ih => exact .cons (.inl rfl) ih

theorem OutField.parse_ctype {D : Deps} {f : OutField} {ct : Option Mime} (hm : f.ctype.map D.parseMime = ct.map some) : parseContentType D f.hdrs = .ok ct := by
  unfold parseContentType OutField.hdrs
  cases hct : f.ctype with
  | none =>
    rw [hct] at hm
    have e : findHeader [⟨b!"Content-Disposition", f.disposition⟩] b!"Content-Type" = none := by
      have h1 : eqIgnoreCase b!"Content-Disposition" b!"Content-Type" = false := by decide
      simp only [findHeader, List.find?, h1]
    simp only [e]
    cases ct <;> simp_all
  | some t =>
    rw [hct] at hm
    have e : findHeader [⟨b!"Content-Disposition", f.disposition⟩, ⟨b!"Content-Type", t⟩] b!"Content-Type" = some ⟨b!"Content-Type", t⟩ := by
      have h1 : eqIgnoreCase b!"Content-Disposition" b!"Content-Type" = false := by decide
      have h2 : eqIgnoreCase b!"Content-Type" b!"Content-Type" = true := by decide
      simp only [findHeader, List.find?, h1, h2]
    simp only [e]
    cases ct with
    | none => simp at hm
    | some m => simp at hm; simp [hm]

/-- The server's reading of the headers. -/
theorem OutField.parse_hdrs {D : Deps} {b : Bytes} {f : OutField} {ct : Option Mime} (h : Sendable D b f ct) : FieldHeaders.parse D f.hdrs = .ok ⟨f.name, f.filename, ct⟩ := by
  have hfirst : FirstHeader f.hdrs b!"Content-Disposition" ⟨b!"Content-Disposition", f.disposition⟩ := ⟨[], _, rfl, sameName_refl _, by simp⟩
  have hA : ∀ qn T : Bytes, FirstAt b!"name=" ((0x3B :: b!" ") ++ b!"name=" ++ qn ++ T) (0x3B :: b!" ").length := by
    intro qn T
    have : FirstAt b!"name=" b!"; name=" 2 := by decide
    simpa using this.append (by simp) (qn ++ T)
  have hcd : ContentDisp.parseRequired f.hdrs = .ok { fieldName := f.name, filename := f.filename } := by
    cases hfn : f.filename with
    | none =>
      rw [ContentDisp.parseRequired_params (w1 := []) (w2 := []) (A := b!" ") (T := []) hfirst (by simp [OutField.disposition, hfn]) white_nil white_nil (.quoted) h.name.plain (.inl rfl) (hA _ _)]
      have : getStrAfter b!"filename=" 0x3B [] = none := by decide
      rw [this]; rfl
    | some n =>
      have hp := (h.filename n hfn).plain
      rw [ContentDisp.parseRequired_params (w1 := []) (w2 := []) (A := b!" ") (T := b!"; filename=" ++ (0x22 :: n ++ [0x22])) hfirst (by simp [OutField.disposition, hfn]) white_nil white_nil
        (.quoted) h.name.plain (.inr (by simp)) (hA _ _)]
      have hB : FirstAt b!"filename=" (b!"; " ++ b!"filename=" ++ (0x22 :: n ++ [0x22]) ++ []) (b!"; ").length := by
        have : FirstAt b!"filename=" b!"; filename=" 2 := by decide
        simpa [List.append_assoc] using this.append (by simp) (0x22 :: (n ++ [0x22]))
      have := getStrAfter_eq hB (Quoting.quoted.noSemi hp) (.inl rfl)
      simp only [List.append_nil] at this
      have e : b!"; filename=" ++ (0x22 :: n ++ [0x22]) = b!"; " ++ b!"filename=" ++ (0x22 :: n ++ [0x22]) := by simp
      rw [e, this]
      simp only [Option.map_some, Quoting.quoted.trim hp]
  unfold FieldHeaders.parse
  rw [hcd]
  simp only [OutField.parse_ctype h.mime]

/-- A field whose header block is read as `fh`. -/
structure Framed (D : Deps) (b : Bytes) (f : OutField) (fh : FieldHeaders) : Prop where
  hdrs : ∀ x ∈ f.hdrs, HeaderName x.name ∧ HeaderText x.val
  parse : FieldHeaders.parse D f.hdrs = .ok fh
  size : f.headers.length + (dashes ++ b).length + 1 ≤ entryBuf (dashes ++ b)
  absent : Absent (dashes ++ b) (f.headers ++ f.data)
  data : Absent (dashes ++ b) f.data

theorem OneLine.framed {D : Deps} {b : Bytes} (hb : SafeBoundary b) {f : OutField} {ct : Option Mime} {fh : FieldHeaders} (h : OneLine D b f ct) (hp : FieldHeaders.parse D f.hdrs = .ok fh) :
    Framed D b f fh := ⟨f.hdrs_ok h, hp, h.size, f.headers_absent hb h, h.noDelim.2.2.2⟩

theorem all2_framed {D : Deps} {b : Bytes} (hb : SafeBoundary b) {fs : List OutField} {cts : List (Option Mime)} (h : All2 (Sendable D b) fs cts) :
    All2 (fun f e => Framed D b f e.1 ∧ e.2 = f.data) fs (List.zipWith OutField.asRead fs cts) := by
  induction h with
  | nil => exact .nil
  | @cons f ct fs cts hs _ ih => exact .cons ⟨hs.oneLine.framed hb (f.parse_hdrs hs), rfl⟩ ih

/-- A body that ends with `tail` behind the closing delimiter. -/
def encodeWith (b tail : Bytes) : List OutField → Bytes
  | [] => dashes ++ b ++ dashes ++ tail
  | f :: fs => dashes ++ b ++ crlf ++ f.headers ++ f.data ++ crlf ++ encodeWith b tail fs

theorem encode_with (b : Bytes) (fs : List OutField) : encode b fs = encodeWith b crlf fs := by
  induction fs with
  | nil => rfl
  | cons f fs ih => simp [encode, encodeWith, ih]

theorem encodeWith_prefix (b tail : Bytes) (fs : List OutField) : dashes ++ b <+: encodeWith b tail fs := by
  cases fs with
  | nil => simp only [encodeWith, List.append_assoc]; rw [← List.append_assoc]; exact List.prefix_append _ _
  | cons f fs => simp only [encodeWith, List.append_assoc]; rw [← List.append_assoc]; exact List.prefix_append _ _

/-- The fields, and `z` behind them. -/
def encodeTo (b z : Bytes) : List OutField → Bytes
  | [] => z
  | f :: fs => dashes ++ b ++ crlf ++ f.headers ++ f.data ++ crlf ++ encodeTo b z fs

theorem encodeWith_to (b tail : Bytes) (fs : List OutField) : encodeWith b tail fs = encodeTo b (dashes ++ b ++ dashes ++ tail) fs := by
  induction fs with
  | nil => rfl
  | cons f fs ih => simp [encodeTo, encodeWith, ih]

/-- One field of an encoded body, and what follows it. -/
theorem framed_part {D : Deps} (hT : D.Tokenizes) {b : Bytes} (hb : SafeBoundary b) {z : Bytes} (hz : dashes ++ b <+: z) {f : OutField} {fh : FieldHeaders} (hs : Framed D b f fh)
    (pre : Bytes) (hf : FirstAt (dashes ++ b) (pre ++ (dashes ++ b ++ crlf ++ f.headers ++ f.data ++ crlf ++ z)) pre.length) :
    NextIs (dashes ++ b) (pre ++ (dashes ++ b ++ crlf ++ f.headers ++ f.data ++ crlf ++ z)) (.part (f.headers ++ (f.data ++ crlf ++ z))) ∧
      WellFormedPart D (dashes ++ b) (f.headers ++ (f.data ++ crlf ++ z)) fh f.data (f.data ++ crlf ++ z) ∧
      FirstAt (dashes ++ b) (f.data ++ crlf ++ z) (f.data ++ crlf).length := by
  have hd : dashes ++ b ≠ [] := by simp [dashes]
  have hcr : (0x0D : Byte) ∉ dashes ++ b := hb.notMem (by decide)
  have hlf : (0x0A : Byte) ∉ dashes ++ b := hb.notMem (by decide)
  have hnil : Absent (dashes ++ b) [] := fun q h => hd (by simpa [OccursAt] using h)
  have h0 : FirstAt (dashes ++ b) z 0 := ⟨hz, fun q hq => by omega⟩
  have hfd : FirstAt (dashes ++ b) (f.data ++ crlf ++ z) (f.data ++ crlf).length := by
    have := FirstAt.sep hd hcr hs.data (FirstAt.sep hd hlf hnil h0)
    simpa [crlf] using this
  refine ⟨.part hf ?_, ⟨⟨f.headers, f.hdrs, ?_, hs.parse, hs.size, ?_⟩, ?_⟩, hfd⟩
  · have : pre ++ (dashes ++ b ++ crlf ++ f.headers ++ f.data ++ crlf ++ z) = (pre ++ (dashes ++ b)) ++ (crlf ++ (f.headers ++ (f.data ++ crlf ++ z))) := by simp
    rw [this, List.drop_left']
    simp
  · refine ⟨rfl, ?_, ?_, fun x hx => (hs.hdrs x hx).2.utf8, ?_⟩
    · simp [OutField.headers]
    · intro more
      rw [f.headers_render]
      exact hT _ (by simp [OutField.hdrs]) (by unfold OutField.hdrs; cases f.ctype <;> simp) hs.hdrs more
    · intro q hq
      have := FirstAt.sep hd hcr hs.absent (FirstAt.sep hd hlf hnil h0)
      have e : f.headers ++ (f.data ++ crlf ++ z) = f.headers ++ f.data ++ 0x0D :: ([] ++ 0x0A :: z) := by simp [crlf]
      rw [e]
      exact this.2 q (by simp; omega)
  · intro hc
    have := hfd.unique hc
    simp [crlf] at this
  · exact .crlf (by simpa [crlf] using hfd) (List.prefix_append _ _)

theorem encodeTo_prefix {b z : Bytes} (hz : dashes ++ b <+: z) (fs : List OutField) : dashes ++ b <+: encodeTo b z fs := by
  cases fs with
  | nil => exact hz
  | cons f fs => simp only [encodeTo, List.append_assoc]; rw [← List.append_assoc]; exact List.prefix_append _ _

/-- The parts of an encoded body are its fields. -/
theorem framed_partsTo {D : Deps} (hT : D.Tokenizes) {b : Bytes} (hb : SafeBoundary b) {z : Bytes} (hz : dashes ++ b <+: z) : ∀ {fs : List OutField} {es : List (FieldHeaders × Bytes)}, All2 (fun f e => Framed D b f e.1 ∧ e.2 = f.data) fs es →
    ∀ pre : Bytes, FirstAt (dashes ++ b) (pre ++ encodeTo b z fs) pre.length →
      ∃ pre', PartsTo D (dashes ++ b) (pre ++ encodeTo b z fs) es (pre' ++ z) ∧ FirstAt (dashes ++ b) (pre' ++ z) pre'.length := by
  intro fs es h
  induction h with
  | nil =>
    intro pre hf
    exact ⟨pre, .nil, hf⟩
  | @cons f e fs es hs _ ih =>
    intro pre hf
    obtain ⟨fh, _⟩ := e
    obtain ⟨hs, rfl⟩ := hs
    obtain ⟨h1, h2, h3⟩ := framed_part hT hb (encodeTo_prefix hz fs) hs pre hf
    obtain ⟨pre', h4, h5⟩ := ih _ h3
    exact ⟨pre', .part h1 h2 h4, h5⟩

theorem encodeTo_partsTo {D : Deps} (hT : D.Tokenizes) {b : Bytes} (hb : SafeBoundary b) {z : Bytes} (hz : dashes ++ b <+: z) {fs : List OutField} {cts : List (Option Mime)}
    (h : All2 (Sendable D b) fs cts) (pre : Bytes) (hf : FirstAt (dashes ++ b) (pre ++ encodeTo b z fs) pre.length) :
    ∃ pre', PartsTo D (dashes ++ b) (pre ++ encodeTo b z fs) (List.zipWith OutField.asRead fs cts) (pre' ++ z) ∧ FirstAt (dashes ++ b) (pre' ++ z) pre'.length :=
  framed_partsTo hT hb hz (all2_framed hb h) pre hf

theorem PartsTo.closed {D : Deps} {d u w tail : Bytes} {es : List (FieldHeaders × Bytes)} (h : PartsTo D d u es w) (hw : NextIs d w (.close tail)) : Parts D d u es .closed := by
  induction h with
  | nil => exact .close hw
  | part a b _ ih => exact .part a b (ih hw)

/-- An encoded body as a body that can be cut off: its parts, and the closing delimiter. -/
theorem framed_partsToWith {D : Deps} (hT : D.Tokenizes) {b : Bytes} (hb : SafeBoundary b) (tail : Bytes) {fs : List OutField} {es : List (FieldHeaders × Bytes)} (hs : All2 (fun f e => Framed D b f e.1 ∧ e.2 = f.data) fs es)
    (pre : Bytes) (hf : FirstAt (dashes ++ b) (pre ++ encodeWith b tail fs) pre.length) :
    ∃ w, PartsTo D (dashes ++ b) (pre ++ encodeWith b tail fs) es w ∧ NextIs (dashes ++ b) w (.close tail) := by
  rw [encodeWith_to] at hf ⊢
  obtain ⟨pre', h1, h2⟩ := framed_partsTo hT hb (z := dashes ++ b ++ dashes ++ tail) (by rw [List.append_assoc]; exact List.prefix_append _ _) hs pre hf
  refine ⟨_, h1, .close h2 ?_⟩
  have : pre' ++ (dashes ++ b ++ dashes ++ tail) = (pre' ++ (dashes ++ b)) ++ (dashes ++ tail) := by simp
  rw [this, List.drop_left']
  simp

theorem framed_partsWith {D : Deps} (hT : D.Tokenizes) {b : Bytes} (hb : SafeBoundary b) (tail : Bytes) {fs : List OutField} {es : List (FieldHeaders × Bytes)} (hs : All2 (fun f e => Framed D b f e.1 ∧ e.2 = f.data) fs es)
    (pre : Bytes) (hf : FirstAt (dashes ++ b) (pre ++ encodeWith b tail fs) pre.length) :
    Parts D (dashes ++ b) (pre ++ encodeWith b tail fs) es .closed := by
  obtain ⟨w, h1, h2⟩ := framed_partsToWith hT hb tail hs pre hf
  exact h1.closed h2

theorem framed_parts {D : Deps} (hT : D.Tokenizes) {b : Bytes} (hb : SafeBoundary b) {fs : List OutField} {es : List (FieldHeaders × Bytes)} (hs : All2 (fun f e => Framed D b f e.1 ∧ e.2 = f.data) fs es)
    (pre : Bytes) (hf : FirstAt (dashes ++ b) (pre ++ encode b fs) pre.length) :
    Parts D (dashes ++ b) (pre ++ encode b fs) es .closed := by
  rw [encode_with] at hf ⊢
  exact framed_partsWith hT hb crlf hs pre hf

theorem encodeWith_partsTo {D : Deps} (hT : D.Tokenizes) {b : Bytes} (hb : SafeBoundary b) (tail : Bytes) {fs : List OutField} {cts : List (Option Mime)} (hs : All2 (Sendable D b) fs cts)
    (pre : Bytes) (hf : FirstAt (dashes ++ b) (pre ++ encodeWith b tail fs) pre.length) :
    ∃ w, PartsTo D (dashes ++ b) (pre ++ encodeWith b tail fs) (List.zipWith OutField.asRead fs cts) w ∧ NextIs (dashes ++ b) w (.close tail) :=
  framed_partsToWith hT hb tail (all2_framed hb hs) pre hf

end Multipart

import Verif.Props.Lazy
import Verif.Props.Injection
/-!
# C118: different requests are different on the wire
-/
namespace Multipart

variable {env env' : FileEnv} {req req' : ClientReq} {b b' : Bytes} {os os' : List ClientOp} {fs fs' : List OutField} {s s' : ClientStream}

/-- The full claim C118: what was sent determines the boundary and the fields, if the delimiter does not occur in a field. -/
def WireDetermines : Prop := ∀ (env env' : FileEnv) (req req' : ClientReq) (b b' : Bytes) (os os' : List ClientOp) (fs fs' : List OutField) (s s' : ClientStream),
  SafeBoundary b → SafeBoundary b' → plainRequest env req b os = (.ok (), some s) → plainRequest env' req' b' os' = (.ok (), some s') →
  All2 (StandsFor env) os fs → All2 (StandsFor env') os' fs' → (∀ f ∈ fs, Absent (dashes ++ b) (f.headers ++ f.data)) → (∀ f ∈ fs', Absent (dashes ++ b') (f.headers ++ f.data)) →
  s.sink.got = s'.sink.got → b = b' ∧ fs = fs'

/-- A field whose headers are on one line each and whose name has no `;`. -/
structure Telling (f : OutField) : Prop where
  name : (0x0D : Byte) ∉ f.name ∧ (0x3B : Byte) ∉ f.name
  filename : ∀ n, f.filename = some n → (0x0D : Byte) ∉ n
  ctype : ∀ t, f.ctype = some t → (0x0D : Byte) ∉ t

theorem split_unique {P : Byte → Prop} : ∀ {x x' : Bytes} {c c' : Byte} {y y' : Bytes}, (∀ a ∈ x, P a) → (∀ a ∈ x', P a) → ¬ P c → ¬ P c' → x ++ c :: y = x' ++ c' :: y' → x = x' ∧ c = c' ∧ y = y'
  | [], [], c, c', y, y', _, _, _, _, h => by simp at h; exact ⟨rfl, h⟩
  | [], a :: x', c, c', y, y', _, h2, h3, _, h => by simp at h; exact absurd (h2 a (by simp)) (h.1 ▸ h3)
  | a :: x, [], c, c', y, y', h1, _, _, h4, h => by simp at h; exact absurd (h1 a (by simp)) (h.1 ▸ h4)
  | a :: x, a' :: x', c, c', y, y', h1, h2, h3, h4, h => by
    simp only [List.cons_append, List.cons.injEq] at h
    obtain ⟨r1, r2, r3⟩ := split_unique (fun a ha => h1 a (by simp [ha])) (fun a ha => h2 a (by simp [ha])) h3 h4 h.2
    exact ⟨by rw [h.1, r1], r2, r3⟩

theorem split_byte {x x' y y' : Bytes} (c : Byte) (h1 : c ∉ x) (h2 : c ∉ x') (h : x ++ c :: y = x' ++ c :: y') : x = x' ∧ y = y' := by
  obtain ⟨r1, -, r2⟩ := split_unique (P := fun a => a ≠ c) (fun a ha hc => h1 (hc ▸ ha)) (fun a ha hc => h2 (hc ▸ ha)) (fun h => h rfl) (fun h => h rfl) h
  exact ⟨r1, r2⟩

/-- The line determines the names. -/
theorem Telling.disposition_inj {f f' : OutField} (h : Telling f) (h' : Telling f') (he : f.disposition = f'.disposition) : f.name = f'.name ∧ f.filename = f'.filename := by
  obtain ⟨n, x, _, _⟩ := f
  obtain ⟨n', x', _, _⟩ := f'
  have hn : (0x3B : Byte) ∉ n ++ b!"\"" := by simpa using h.name.2
  have hn' : (0x3B : Byte) ∉ n' ++ b!"\"" := by simpa using h'.name.2
  simp only [OutField.disposition, List.append_assoc] at he ⊢
  replace he := List.append_cancel_left he
  cases x with
  | none =>
    cases x' with
    | none => simp only [List.append_nil] at he; exact ⟨List.append_cancel_right he, rfl⟩
    | some g =>
      exfalso
      simp only [List.append_nil] at he
      rw [he] at hn
      simp at hn
  | some g =>
    cases x' with
    | none =>
      exfalso
      simp only [List.append_nil] at he
      rw [← he] at hn'
      simp at hn'
    | some g' =>
      have he : (n ++ b!"\"") ++ 0x3B :: (b!" filename=\"" ++ (g ++ b!"\"")) = (n' ++ b!"\"") ++ 0x3B :: (b!" filename=\"" ++ (g' ++ b!"\"")) := by simpa using he
      obtain ⟨r1, r2⟩ := split_byte _ hn hn' he
      exact ⟨List.append_cancel_right r1, by rw [List.append_cancel_right (List.append_cancel_left r2)]⟩

theorem Telling.disposition_line {f : OutField} (h : Telling f) : (0x0D : Byte) ∉ f.disposition := by
  obtain ⟨n, x, _, _⟩ := f
  cases x with
  | none => simpa [OutField.disposition] using h.name.1
  | some g => simpa [OutField.disposition] using ⟨h.name.1, h.filename g rfl⟩

/-- Headers and data determine the field. -/
theorem Telling.inj {f f' : OutField} (h : Telling f) (h' : Telling f') (he : f.headers ++ f.data = f'.headers ++ f'.data) : f = f' := by
  have e : ∀ f : OutField, f.headers ++ f.data = b!"Content-Disposition: " ++ (f.disposition ++ 0x0D :: (0x0A :: ((match f.ctype with | some t => b!"Content-Type: " ++ t ++ crlf | none => []) ++ crlf ++ f.data))) := by
    intro f; cases hf : f.ctype <;> simp [OutField.headers, crlf, hf]
  rw [e, e] at he
  obtain ⟨r1, r2⟩ := split_byte _ h.disposition_line h'.disposition_line (List.append_cancel_left he)
  obtain ⟨q1, q2⟩ := h.disposition_inj h' r1
  obtain ⟨n, x, t, d⟩ := f
  obtain ⟨n', x', t', d'⟩ := f'
  simp only at q1 q2 r2
  subst q1 q2
  cases t with
  | none =>
    cases t' with
    | none => simp at r2; simp [r2]
    | some t' => simp [crlf] at r2
  | some t =>
    cases t' with
    | none => simp [crlf] at r2
    | some t' =>
      have r2 : b!"\nContent-Type: " ++ (t ++ 0x0D :: (b!"\n\r\n" ++ d)) = b!"\nContent-Type: " ++ (t' ++ 0x0D :: (b!"\n\r\n" ++ d')) := by simpa [crlf] using r2
      obtain ⟨p1, p2⟩ := split_byte _ (h.ctype t rfl) (h'.ctype t' rfl) (List.append_cancel_left r2)
      rw [p1, List.append_cancel_left p2]

theorem SafeBoundary.inj {tl tl' : Bytes} (hb : SafeBoundary b) (hb' : SafeBoundary b') {c c' : Byte} (hc : c = 0x0D ∨ c = 0x2D) (hc' : c' = 0x0D ∨ c' = 0x2D)
    (h : dashes ++ b ++ c :: tl = dashes ++ b' ++ c' :: tl') : b = b' ∧ c = c' ∧ tl = tl' := by
  simp only [List.append_assoc] at h
  refine split_unique hb.2 hb'.2 ?_ ?_ (List.append_cancel_left h)
  · rcases hc with rfl | rfl <;> decide
  · rcases hc' with rfl | rfl <;> decide

theorem encodeWith_boundary {tail tail' : Bytes} (hb : SafeBoundary b) (hb' : SafeBoundary b') (h : encodeWith b tail fs = encodeWith b' tail' fs') : b = b' ∧ (fs = [] ↔ fs' = []) := by
  have e : ∀ (b tail : Bytes) (fs : List OutField), ∃ c tl, encodeWith b tail fs = dashes ++ b ++ c :: tl ∧ (c = 0x0D ∨ c = 0x2D) ∧ (fs = [] ↔ c = 0x2D) := by
    intro b tail fs
    cases fs with
    | nil => exact ⟨0x2D, 0x2D :: tail, by simp [encodeWith, dashes], .inr rfl, by simp⟩
    | cons f fs => exact ⟨0x0D, 0x0A :: (f.headers ++ f.data ++ crlf ++ encodeWith b tail fs), by simp [encodeWith, crlf], .inl rfl, by simp⟩
  obtain ⟨c, tl, h1, h2, h3⟩ := e b tail fs
  obtain ⟨c', tl', h1', h2', h3'⟩ := e b' tail' fs'
  rw [h1, h1'] at h
  obtain ⟨r1, r2, -⟩ := hb.inj hb' h2 h2' h
  exact ⟨r1, by rw [h3, h3', r2]⟩

/-- The bytes determine the fields. -/
theorem encodeWith_inj {tail : Bytes} (hb : SafeBoundary b) : ∀ {fs fs' : List OutField}, (∀ f ∈ fs, Telling f ∧ Absent (dashes ++ b) (f.headers ++ f.data)) →
    (∀ f ∈ fs', Telling f ∧ Absent (dashes ++ b) (f.headers ++ f.data)) → encodeWith b tail fs = encodeWith b tail fs' → fs = fs' := by
  intro fs
  induction fs with
  | nil => intro fs' _ _ h; exact ((encodeWith_boundary hb hb h).2.mp rfl).symm
  | cons f fs ih =>
    intro fs' h1 h2 h
    cases fs' with
    | nil => exact (encodeWith_boundary hb hb h).2.mpr rfl
    | cons f' fs' =>
      have hd : dashes ++ b ≠ [] := by simp [dashes]
      have hcr : (0x0D : Byte) ∉ dashes ++ b := hb.notMem (by decide)
      have hlf : (0x0A : Byte) ∉ dashes ++ b := hb.notMem (by decide)
      have hnil : Absent (dashes ++ b) [] := fun q h => hd (by simpa [OccursAt] using h)
      have first : ∀ (f : OutField) (fs : List OutField), Absent (dashes ++ b) (f.headers ++ f.data) → FirstAt (dashes ++ b) ((f.headers ++ f.data) ++ crlf ++ encodeWith b tail fs) ((f.headers ++ f.data) ++ crlf).length := by
        intro f fs hf
        have h0 : FirstAt (dashes ++ b) (encodeWith b tail fs) 0 := ⟨encodeWith_prefix b tail fs, fun q hq => by omega⟩
        generalize f.headers ++ f.data = x at hf ⊢
        simpa [crlf] using FirstAt.sep hd hcr hf (FirstAt.sep hd hlf hnil h0)
      have r3 : (f.headers ++ f.data) ++ crlf ++ encodeWith b tail fs = (f'.headers ++ f'.data) ++ crlf ++ encodeWith b tail fs' := by
        have h' : (dashes ++ b ++ crlf) ++ ((f.headers ++ f.data) ++ crlf ++ encodeWith b tail fs) = (dashes ++ b ++ crlf) ++ ((f'.headers ++ f'.data) ++ crlf ++ encodeWith b tail fs') := by
          simpa only [encodeWith, List.append_assoc] using h
        exact List.append_cancel_left h'
      have hf := first f fs (h1 f (by simp)).2
      rw [r3] at hf
      obtain ⟨q1, q2⟩ := List.append_inj r3 (hf.unique (first f' fs' (h2 f' (by simp)).2)) 
      rw [(h1 f (by simp)).1.inj (h2 f' (by simp)).1 (List.append_cancel_right q1), ih (fun g hg => h1 g (by simp [hg])) (fun g hg => h2 g (by simp [hg])) q2]

/-- C118, as far as it holds: if no name contains `;` or a CR and no filename or type a CR, what was sent determines the boundary and the fields. Missing: other names, with which different requests are
the same on the wire (C118_false). -/
theorem C118_determines_partial (hb : SafeBoundary b) (hb' : SafeBoundary b') (h : plainRequest env req b os = (.ok (), some s)) (h' : plainRequest env' req' b' os' = (.ok (), some s'))
    (hos : All2 (StandsFor env) os fs) (hos' : All2 (StandsFor env') os' fs') (hf : ∀ f ∈ fs, Telling f ∧ Absent (dashes ++ b) (f.headers ++ f.data))
    (hf' : ∀ f ∈ fs', Telling f ∧ Absent (dashes ++ b') (f.headers ++ f.data)) (he : s.sink.got = s'.sink.got) : b = b' ∧ fs = fs' := by
  rw [sent_encode h hos, sent_encode h' hos', encode_with, encode_with] at he
  obtain ⟨rfl, -⟩ := encodeWith_boundary hb hb' he
  exact ⟨rfl, encodeWith_inj hb hf hf' he⟩

/-- The hypotheses are met: the sample request. -/
example : SafeBoundary b!"b" ∧ plainRequest Sample.env Sample.req b!"b" Sample.ops = (.ok (), some Sample.sent) ∧ All2 (StandsFor Sample.env) Sample.ops Sample.flds ∧
    ∀ f ∈ Sample.flds, Telling f ∧ Absent (dashes ++ b!"b") (f.headers ++ f.data) := by
  refine ⟨⟨by simp, by decide⟩, Sample.sent_eq, Sample.ops_fields, fun f hf => ?_⟩
  simp only [Sample.flds, List.mem_cons, List.not_mem_nil, or_false] at hf
  rcases hf with rfl | rfl | rfl
  all_goals exact ⟨⟨by decide, by intro n h; cases h <;> decide, by intro n h; cases h <;> decide⟩, findSub_eq_none_iff.mp (by decide +kernel)⟩

/-- C118, as far as it holds, for lazy requests, which are sent with the text fields first. -/
theorem C118_lazy_partial {lenv lenv' : LazyEnv} {p p' : Prepared} {ns ns' : List Nat} {u : Bytes} (hb : SafeBoundary b) (hb' : SafeBoundary b') (h : PreparedFrom lenv b os p) (h' : PreparedFrom lenv' b' os' p')
    (hn : NoReadErr lenv.toFileEnv os) (hn' : NoReadErr lenv'.toFileEnv os') (ho : os ≠ []) (hos : All2 (StandsFor lenv.toFileEnv) os fs) (hos' : All2 (StandsFor lenv'.toFileEnv) os' fs')
    (hf : ∀ f ∈ fs, Telling f ∧ Absent (dashes ++ b) (f.headers ++ f.data)) (hf' : ∀ f ∈ fs', Telling f ∧ Absent (dashes ++ b') (f.headers ++ f.data)) (hr : ReadsOut p ns u) (hr' : ReadsOut p' ns' u) :
    b = b' ∧ lazyOrder fs = lazyOrder fs' := by
  have hm : ∀ {fs : List OutField} {f : OutField}, f ∈ lazyOrder fs → f ∈ fs := by
    intro fs f h
    simp only [lazyOrder, List.mem_append, List.mem_filter, List.mem_reverse] at h
    exact h.elim (·.1) (·.1)
  have hm' : ∀ {fs : List OutField} {f : OutField}, f ∈ fs → f ∈ lazyOrder fs := by
    intro fs f h
    simp only [lazyOrder, List.mem_append, List.mem_filter, List.mem_reverse]
    cases hc : f.ctype <;> simp [h]
  have hne : lazyOrder fs ≠ [] := by
    cases hos with
    | nil => exact absurd rfl ho
    | cons _ _ => exact List.ne_nil_of_mem (hm' List.mem_cons_self)
  have he := readsOut_eq h hn hos hr
  have he' := readsOut_eq h' hn' hos' hr'
  rw [encodeLazy_with b _ hne] at he
  have hne' : lazyOrder fs' ≠ [] := by
    intro hc
    rw [hc] at he'
    rw [he'] at he
    simp [encodeLazy, crlf] at he
  rw [encodeLazy_with b' _ hne', he] at he'
  replace he' := List.append_cancel_left he'
  obtain ⟨rfl, -⟩ := encodeWith_boundary hb hb' he'
  exact ⟨rfl, encodeWith_inj hb (fun f h => hf f (hm h)) (fun f h => hf' f (hm h)) he'⟩

/-- The hypotheses are met: a lazy request, read in several pieces or at once. -/
example : PreparedFrom Sample.lenv b!"b" Sample.lops (Sample.lprep Sample.lops) ∧ NoReadErr Sample.lenv.toFileEnv Sample.lops ∧ Sample.lops ≠ [] ∧ All2 (StandsFor Sample.lenv.toFileEnv) Sample.lops Sample.lflds ∧
    (∀ f ∈ Sample.lflds, Telling f ∧ Absent (dashes ++ b!"b") (f.headers ++ f.data)) ∧ ∃ u, ReadsOut (Sample.lprep Sample.lops) [50, 1000, 1] u ∧ ReadsOut (Sample.lprep Sample.lops) [1000, 1000] u := by
  refine ⟨Sample.lprep_ok (by decide +kernel), Sample.lops_noErr, by decide, Sample.lops_fields, fun f hf => ?_, _, ⟨by decide +kernel, by decide +kernel, rfl⟩, by decide +kernel, by decide +kernel, by decide +kernel⟩
  simp only [Sample.lflds, List.mem_cons, List.not_mem_nil, or_false] at hf
  rcases hf with rfl | rfl | rfl | rfl
  all_goals exact ⟨⟨by decide, by intro n h; cases h <;> decide, by intro n h; cases h <;> decide⟩, findSub_eq_none_iff.mp (by decide +kernel)⟩

/-- The field with the name `a` and the text that ends a header block. -/
def Sample.wireOps : List ClientOp := [.text b!"a" b!"evil\"\r\n\r\ntext"]

def Sample.wireSent : ClientStream := ((plainRequest Sample.env Sample.req b!"b" wireOps).2).getD ⟨[], ⟨[], []⟩, none⟩

/-- C118 is false of the code: a name that contains the end of the header block. -/
theorem C118_false : ¬ WireDetermines := by
  intro h
  have := (h Sample.env Sample.env Sample.req Sample.req b!"b" b!"b" _ Sample.wireOps [Sample.inFld Sample.inBody] [⟨b!"a", none, none, b!"evil\"\r\n\r\ntext"⟩] _ Sample.wireSent
    ⟨by simp, by decide⟩ ⟨by simp, by decide⟩ Sample.inBody_eq (by decide +kernel) (.cons (.text _ _) .nil) (.cons (.text _ _) .nil)
    (by intro f hf; simp only [List.mem_singleton] at hf; subst hf; exact findSub_eq_none_iff.mp (by decide +kernel))
    (by intro f hf; simp only [List.mem_singleton] at hf; subst hf; exact findSub_eq_none_iff.mp (by decide +kernel)) (by decide +kernel)).2
  revert this
  decide

end Multipart

import Verif.Props.Lazy
import Verif.Props.Disposition
/-!
# C112: names and the rest of a request
-/
namespace Multipart

variable {D : Deps} {b : Bytes} {os : List ClientOp} {fs : List OutField} {cts : List (Option Mime)} {evs : List Ev}

/-- Whatever the names of the fields are (as long as the delimiter does not occur in them), a request sent with success is read to its end as one entry for each field, for which `P` holds. -/
def WhateverNames (D : Deps) (P : OutField → Option Mime → FieldHeaders × Bytes → Prop) : Prop := ∀ (env : FileEnv) (req : ClientReq) (b : Bytes) (os : List ClientOp) (fs : List OutField)
  (cts : List (Option Mime)) (s : ClientStream) (evs : List Ev) (got : List (FieldHeaders × Bytes)) (fin : Ending), SafeBoundary b → plainRequest env req b os = (.ok (), some s) →
  All2 (StandsFor env) os fs → All2 (AnyNames D b) fs cts → NoStall evs → NoErr evs → CleanSplit (dashes ++ b) evs → Ev.bytes evs = s.sink.got → Reads D (withBody evs b) got fin →
  fin = .closed ∧ All2 (fun a e => P e.1 e.2 a) got (fs.zip cts)

/-- The full claim C112: names change nothing but the names that are read. -/
def NamesChangeNames (D : Deps) : Prop :=
  WhateverNames D fun f ct a => (a.1.filename = none ↔ f.filename = none) ∧ a.1.contentType = ct ∧ a.2 = f.data

/-! ## Names on one line -/

theorem OutField.first (f : OutField) : FirstHeader f.hdrs b!"Content-Disposition" ⟨b!"Content-Disposition", f.disposition⟩ := ⟨[], _, rfl, sameName_refl _, by simp⟩

theorem OutField.parse_any {f : OutField} {ct : Option Mime} (hm : f.ctype.map D.parseMime = ct.map some) :
    ∃ fh, FieldHeaders.parse D f.hdrs = .ok fh ∧ fh.contentType = ct ∧ Says f.disposition fh.name fh.filename := by
  have hct := OutField.parse_ctype hm
  have hgood : GoodDisposition f.disposition := by
    refine ⟨[], [], b!" name=\"" ++ f.name ++ b!"\"" ++ (match f.filename with | some n => b!"; filename=\"" ++ n ++ b!"\"" | none => []), ?_, ⟨[], rfl, by simp⟩, ⟨[], rfl, by simp⟩, fun h => ?_⟩
    · unfold OutField.disposition; cases f.filename <;> simp
    · refine h 1 ⟨0x22 :: f.name ++ b!"\"" ++ (match f.filename with | some n => b!"; filename=\"" ++ n ++ b!"\"" | none => []), ?_⟩
      cases f.filename <;> simp
  obtain ⟨c, hc⟩ := (ContentDisp.parseRequired_spec f.first).1 hgood
  refine ⟨⟨c.fieldName, c.filename, ct⟩, ?_, rfl, (says_iff f.first).mpr hc⟩
  unfold FieldHeaders.parse
  rw [hc]
  simp only [hct]

theorem all2_any (hb : SafeBoundary b) (hs : All2 (OneLine D b) fs cts) : ∃ es : List (FieldHeaders × Bytes), All2 (fun f e => Framed D b f e.1 ∧ e.2 = f.data) fs es ∧
    All2 (fun (a : FieldHeaders × Bytes) (e : OutField × Option Mime) => a.1.contentType = e.2 ∧ a.2 = e.1.data ∧ Says e.1.disposition a.1.name a.1.filename) es (fs.zip cts) := by
  induction hs with
  | nil => exact ⟨[], .nil, .nil⟩
  | @cons f ct fs cts h _ ih =>
    obtain ⟨es, h1, h2⟩ := ih
    obtain ⟨fh, p1, p2, p3⟩ := f.parse_any h.mime
    exact ⟨(fh, f.data) :: es, .cons ⟨h.framed hb p1, rfl⟩ h1, .cons ⟨p2, rfl, p3⟩ h2⟩

theorem all2_comp {α β γ : Type} {R : α → β → Prop} {S : β → γ → Prop} {T : α → γ → Prop} (h : ∀ x y z, R x y → S y z → T x z) {xs : List α} {ys : List β} {zs : List γ}
    (h1 : All2 R xs ys) (h2 : All2 S ys zs) : All2 T xs zs := by
  induction h1 generalizing zs with
  | nil => cases h2; exact .nil
  | cons r _ ih => cases h2 with | cons s h2 => exact .cons (h _ _ _ r s) (ih h2)

/-- C112, as far as it holds for names of text on one line (with `;` and quotes): one entry is read for each field, in order, with the content type and the contents of the field (up to the CRLF
of C01); name and filename are what stands in the line that the client wrote. -/
theorem C112_one_line_partial {env : FileEnv} {req : ClientReq} {s : ClientStream} (hD : D.Sane) (hT : D.Tokenizes) (hb : SafeBoundary b) (h : plainRequest env req b os = (.ok (), some s))
    (hos : All2 (StandsFor env) os fs) (hs : All2 (OneLine D b) fs cts) (hn : NoStall evs) (hne : NoErr evs) (he : Ev.bytes evs = s.sink.got) {got : List (FieldHeaders × Bytes)} {fin : Ending}
    (hr : Reads D (withBody evs b) got fin) :
    fin = .closed ∧ All2 (fun (a : FieldHeaders × Bytes) (e : OutField × Option Mime) => a.1.contentType = e.2 ∧ DataOk (dashes ++ b) evs e.1.data a.2 ∧
      Says e.1.disposition a.1.name a.1.filename) got (fs.zip cts) := by
  obtain ⟨es, h1, h2⟩ := all2_any hb hs
  obtain ⟨h3, h4⟩ := C10_entries_are_parts hD hn hne (sent_framed hT hb h hos h1 he) hr
  refine ⟨h3, all2_comp ?_ h4 h2⟩
  rintro ⟨_, x⟩ ⟨fh, y⟩ ⟨f, ct⟩ ⟨rfl, g1⟩ ⟨g2, rfl, g3⟩
  exact ⟨g2, g1, g3⟩

/-- The same for the lazy client. -/
theorem C112_lazy_one_line_partial {env : LazyEnv} {p : Prepared} {ns : List Nat} (hD : D.Sane) (hT : D.Tokenizes) (hb : SafeBoundary b) (h : PreparedFrom env b os p)
    (hre : NoReadErr env.toFileEnv os) (ho : os ≠ []) (hos : All2 (StandsFor env.toFileEnv) os fs) (hs : All2 (OneLine D b) (lazyOrder fs) cts) (hu : ReadsOut p ns (Ev.bytes evs))
    (hn : NoStall evs) (hne : NoErr evs) {got : List (FieldHeaders × Bytes)} {fin : Ending} (hr : Reads D (withBody evs b) got fin) :
    fin = .closed ∧ All2 (fun (a : FieldHeaders × Bytes) (e : OutField × Option Mime) => a.1.contentType = e.2 ∧ DataOk (dashes ++ b) evs e.1.data a.2 ∧
      Says e.1.disposition a.1.name a.1.filename) got ((lazyOrder fs).zip cts) := by
  obtain ⟨es, h1, h2⟩ := all2_any hb hs
  obtain ⟨h3, h4⟩ := C10_entries_are_parts hD hn hne (prepared_framed hT hb h hre ho hos h1 hu rfl) hr
  refine ⟨h3, all2_comp ?_ h4 h2⟩
  rintro ⟨_, x⟩ ⟨fh, y⟩ ⟨f, ct⟩ ⟨rfl, g1⟩ ⟨g2, rfl, g3⟩
  exact ⟨g2, g1, g3⟩

theorem says_unique {v n n' : Bytes} {f f' : Option Bytes} (h : Says v n f) (h' : Says v n' f') : n = n' ∧ f = f' := by
  have hf : FirstHeader [⟨b!"Content-Disposition", v⟩] b!"Content-Disposition" ⟨b!"Content-Disposition", v⟩ := ⟨[], [], rfl, sameName_refl _, by simp⟩
  have h1 := (says_iff hf).mp h
  rw [(says_iff hf).mp h'] at h1
  simp only [Except.ok.injEq, ContentDisp.mk.injEq] at h1
  exact ⟨h1.1.symm, h1.2.symm⟩

theorem unquoted_quoted {n v : Bytes} (h : Unquoted n v) : Unquoted (0x22 :: n ++ [0x22]) v := by
  obtain ⟨k, l, rfl, h1, h2⟩ := h
  refine ⟨k + 1, l + 1, ?_, h1, h2⟩
  rw [List.replicate_succ, List.replicate_succ']
  simp

theorem unquoted_exists (n : Bytes) : ∃ v, Unquoted n v := ⟨trimQuotes n, unquoted_iff.mpr rfl⟩

/-- What the line says if the names have no `;`: the names, up to quotes at their ends, and a filename iff there is one. -/
theorem says_plain {f : OutField} (hn : (0x3B : Byte) ∉ f.name) (hf : ∀ n, f.filename = some n → (0x3B : Byte) ∉ n) {n : Bytes} {fn : Option Bytes} (h : Says f.disposition n fn) :
    Unquoted f.name n ∧ (match f.filename with
      | none => fn = none
      | some x => ∃ y, fn = some y ∧ Unquoted x y) := by
  obtain ⟨n', hn'⟩ := unquoted_exists f.name
  have hq : ∀ x : Bytes, (0x3B : Byte) ∉ x → (0x3B : Byte) ∉ 0x22 :: x ++ [0x22] := by intro x hx; simp [hx]
  have hname : ∀ T : Bytes, FirstAt b!"name=" (b!"; " ++ b!"name=" ++ (0x22 :: f.name ++ [0x22]) ++ T) (b!"; ").length := by
    intro T
    have : FirstAt b!"name=" b!"; name=" 2 := by decide
    simpa using this.append (by simp) (0x22 :: (f.name ++ 0x22 :: T))
  cases hfn : f.filename with
  | none =>
    have : Says f.disposition n' none :=
      ⟨[], [], b!" name=\"" ++ f.name ++ b!"\"", 0x22 :: f.name ++ [0x22], [], by simp [OutField.disposition, hfn], ⟨[], rfl, by simp⟩, ⟨[], rfl, by simp⟩,
        ⟨b!"; ", by simp, by simpa using hname [], hq _ hn, .inl rfl⟩, unquoted_quoted hn', by intro q h; simp [OccursAt] at h⟩
    obtain ⟨rfl, rfl⟩ := says_unique h this
    exact ⟨hn', rfl⟩
  | some x =>
    obtain ⟨x', hx'⟩ := unquoted_exists x
    have hB : FirstAt b!"filename=" (b!"; " ++ b!"filename=" ++ (0x22 :: x ++ [0x22]) ++ []) (b!"; ").length := by
      have : FirstAt b!"filename=" b!"; filename=" 2 := by decide
      simpa [List.append_assoc] using this.append (by simp) (0x22 :: (x ++ [0x22]))
    have : Says f.disposition n' (some x') :=
      ⟨[], [], b!" name=\"" ++ f.name ++ b!"\"" ++ (b!"; filename=\"" ++ x ++ b!"\""), 0x22 :: f.name ++ [0x22], b!"; filename=\"" ++ x ++ b!"\"", by simp [OutField.disposition, hfn],
        ⟨[], rfl, by simp⟩, ⟨[], rfl, by simp⟩, ⟨b!"; ", by simp, by simpa using hname (b!"; filename=\"" ++ x ++ b!"\""), hq _ hn, .inr (by simp)⟩, unquoted_quoted hn',
        0x22 :: x ++ [0x22], [], ⟨b!"; ", by simp, by simpa using hB, hq _ (hf x hfn), .inl rfl⟩, unquoted_quoted hx'⟩
    obtain ⟨rfl, rfl⟩ := says_unique h this
    exact ⟨hn', x', rfl, hx'⟩

/-- C112, as far as it holds for names of text on one line without `;`: the names that are read are those that were given, up to quotes at their ends, and there is a filename iff one was given. -/
theorem C112_no_semicolon_partial {env : FileEnv} {req : ClientReq} {s : ClientStream} (hD : D.Sane) (hT : D.Tokenizes) (hb : SafeBoundary b) (h : plainRequest env req b os = (.ok (), some s))
    (hos : All2 (StandsFor env) os fs) (hs : All2 (OneLine D b) fs cts) (hsemi : ∀ f ∈ fs, (0x3B : Byte) ∉ f.name ∧ ∀ n, f.filename = some n → (0x3B : Byte) ∉ n) (hn : NoStall evs) (hne : NoErr evs)
    (he : Ev.bytes evs = s.sink.got) {got : List (FieldHeaders × Bytes)} {fin : Ending} (hr : Reads D (withBody evs b) got fin) :
    fin = .closed ∧ All2 (fun (a : FieldHeaders × Bytes) (e : OutField × Option Mime) => a.1.contentType = e.2 ∧ DataOk (dashes ++ b) evs e.1.data a.2 ∧ Unquoted e.1.name a.1.name ∧
      (match e.1.filename with
        | none => a.1.filename = none
        | some x => ∃ y, a.1.filename = some y ∧ Unquoted x y)) got (fs.zip cts) := by
  obtain ⟨h1, h2⟩ := C112_one_line_partial hD hT hb h hos hs hn hne he hr
  refine ⟨h1, ?_⟩
  have hall : ∀ {as : List (FieldHeaders × Bytes)} {fs : List OutField} {cts : List (Option Mime)}, (∀ f ∈ fs, (0x3B : Byte) ∉ f.name ∧ ∀ n, f.filename = some n → (0x3B : Byte) ∉ n) →
      All2 (fun (a : FieldHeaders × Bytes) (e : OutField × Option Mime) => a.1.contentType = e.2 ∧ DataOk (dashes ++ b) evs e.1.data a.2 ∧ Says e.1.disposition a.1.name a.1.filename) as (fs.zip cts) →
      All2 (fun (a : FieldHeaders × Bytes) (e : OutField × Option Mime) => a.1.contentType = e.2 ∧ DataOk (dashes ++ b) evs e.1.data a.2 ∧ Unquoted e.1.name a.1.name ∧
        (match e.1.filename with
          | none => a.1.filename = none
          | some x => ∃ y, a.1.filename = some y ∧ Unquoted x y)) as (fs.zip cts) := by
    intro as fs
    induction fs generalizing as with
    | nil => intro cts _ h; cases h; exact .nil
    | cons f fs ih =>
      intro cts hsm h
      cases cts with
      | nil => cases h; exact .nil
      | cons ct cts =>
        cases h with
        | cons g h =>
          have hf := hsm f (List.mem_cons_self ..)
          exact .cons ⟨g.1, g.2.1, says_plain hf.1 hf.2 g.2.2⟩ (ih (fun x hx => hsm x (List.mem_cons_of_mem _ hx)) h)
  exact hall hsemi h2

/-! ## Any names -/

theorem drop_first {d X Z : Bytes} (h : FirstAt d (X ++ Z) X.length) {j : Nat} (hj : j ≤ X.length) : (X ++ Z).drop j = X.drop j ++ Z ∧ FirstAt d (X.drop j ++ Z) (X.drop j).length := by
  have e : (X ++ Z).drop j = X.drop j ++ Z := List.drop_append_of_le_length hj
  refine ⟨e, ?_, fun q hq ho => ?_⟩
  · have := h.1; unfold OccursAt at this ⊢; simpa using this
  · refine h.2 (j + q) (by simp at hq; omega) ?_
    rw [← e] at ho; unfold OccursAt at ho ⊢; simpa using ho

/-- However the body is read, the entries are the first fields, and what is read for a field is part of what was written for it. -/
theorem reads_at_most (hD : D.Sane) (hb : SafeBoundary b) (tail : Bytes) {s : BR} {got : List (FieldHeaders × Bytes)} {fin : Ending} (hr : Reads D s got fin) :
    ∀ (fs : List OutField) (pre : Bytes), s.Inv → s.delim = dashes ++ b → s.st ≠ .atEnd → s.unread = pre ++ encodeWith b tail fs → FirstAt (dashes ++ b) (pre ++ encodeWith b tail fs) pre.length →
      (∀ f ∈ fs, Absent (dashes ++ b) (f.headers ++ f.data)) →
      ∃ fs₁ fs₂, fs = fs₁ ++ fs₂ ∧ All2 (fun (a : FieldHeaders × Bytes) f => a.2 <:+: f.headers ++ f.data ++ crlf) got fs₁ ∧ (fin = .closed → fs₂ = []) := by
  have hd : dashes ++ b ≠ [] := by simp [dashes]
  have hnil : Absent (dashes ++ b) [] := fun q h => hd (by simpa [OccursAt] using h)
  have hpart : ∀ (pre : Bytes) (f : OutField) (fs : List OutField), FirstAt (dashes ++ b) (pre ++ encodeWith b tail (f :: fs)) pre.length →
      NextIs (dashes ++ b) (pre ++ encodeWith b tail (f :: fs)) (.part (f.headers ++ f.data ++ crlf ++ encodeWith b tail fs)) := by
    intro pre f fs h
    refine .part h ?_
    have : pre ++ encodeWith b tail (f :: fs) = (pre ++ (dashes ++ b)) ++ (crlf ++ (f.headers ++ f.data ++ crlf ++ encodeWith b tail fs)) := by simp [encodeWith]
    rw [this, List.drop_left']
    simp
  have hclose : ∀ pre : Bytes, FirstAt (dashes ++ b) (pre ++ encodeWith b tail []) pre.length → NextIs (dashes ++ b) (pre ++ encodeWith b tail []) (.close tail) := by
    intro pre h
    refine .close h ?_
    have : pre ++ encodeWith b tail [] = (pre ++ (dashes ++ b)) ++ (dashes ++ tail) := by simp [encodeWith]
    rw [this, List.drop_left']
    simp
  induction hr with
  | @close s t h =>
    intro fs pre hi hdl hst hu hf _
    refine ⟨[], fs, rfl, .nil, fun _ => ?_⟩
    have hsp := BR.readEntry_spec hD hi
    rw [h] at hsp
    simp only at hsp
    cases hsp with
    | done h => exact absurd h hst
    | close _ a =>
      rw [hdl, hu] at a
      cases fs with
      | nil => rfl
      | cons f fs => have := (hpart pre f fs hf).unique hd a; simp at this
  | fail _ => intro fs _ _ _ _ _ _ _; exact ⟨[], fs, rfl, .nil, fun h => by simp at h⟩
  | @entry s t fh os es fin h _ _ ih =>
    intro fs pre hi hdl hst hu hf ha
    have hsp := BR.readEntry_spec hD hi
    rw [h] at hsp
    simp only at hsp
    cases hsp with
    | @entry _ rest P n hs fh _ a b1 c d e f' g ht hti htd _ _ hte =>
      rw [hdl] at a c htd
      rw [hu] at a
      cases fs with
      | nil => have := (hclose pre hf).unique hd a; simp at this
      | cons f fs =>
        have := (hpart pre f fs hf).unique hd a
        simp only [Verdict.part.injEq] at this
        subst this
        have h0 : FirstAt (dashes ++ b) (encodeWith b tail fs) 0 := ⟨encodeWith_prefix b tail _, fun q hq => by omega⟩
        have hX : FirstAt (dashes ++ b) (f.headers ++ f.data ++ crlf ++ encodeWith b tail fs) (f.headers ++ f.data ++ crlf).length := by
          have := FirstAt.sep hd (hb.notMem (by decide : (0x0D : Byte) ∈ b!"\r\n\"; :=")) (ha f (List.mem_cons_self ..)) (FirstAt.sep hd (hb.notMem (by decide : (0x0A : Byte) ∈ b!"\r\n\"; :=")) hnil h0)
          have e1 : f.headers ++ f.data ++ crlf ++ encodeWith b tail fs = f.headers ++ f.data ++ 0x0D :: ([] ++ 0x0A :: encodeWith b tail fs) := by simp [crlf]
          rw [e1]
          simpa [crlf, Nat.add_assoc] using this
        generalize hXe : f.headers ++ f.data ++ crlf = X at *
        have hn : n ≤ X.length := by
          refine Nat.le_trans e (Nat.le_of_not_lt fun hlt => c _ hlt hX.1)
        obtain ⟨e1, hf1⟩ := drop_first hX hn
        rw [e1] at ht
        obtain ⟨r1, r2, r3, -, r5⟩ := BR.run_skipped os hti
        rw [htd, ht] at r2
        have hk : (t.run os).1.length ≤ (X.drop n).length := Nat.le_of_not_lt fun hlt => r2 _ hlt hf1.1
        obtain ⟨e2, hf2⟩ := drop_first hf1 hk
        rw [ht, e2] at r1
        obtain ⟨fs₁, fs₂, q1, q2, q3⟩ := ih fs _ (BR.run_inv os hti) (by rw [r3, htd]) (fun hh => hte (r5.mp hh)) r1 hf2 (fun x hx => ha x (List.mem_cons_of_mem _ hx))
        refine ⟨f :: fs₁, fs₂, by rw [q1]; rfl, .cons ?_ q2, q3⟩
        have hrun := BR.run_unread os hti
        rw [ht] at hrun
        have htk : (t.run os).1 = (X.drop n).take (t.run os).1.length := by
          have := congrArg (List.take (t.run os).1.length) hrun
          rwa [List.take_left', List.take_append_of_le_length hk] at this
          rfl
        show (t.run os).1 <:+: f.headers ++ f.data ++ crlf
        rw [hXe, htk]
        exact (List.take_prefix _ _).isInfix.trans (List.drop_suffix _ _).isInfix

/-- C112: whatever bytes the names consist of (as long as the delimiter does not occur), and however the body is delivered and read (with errors, too), there are no more entries than fields, and not fewer
if the end is reached; what is read for a field is part of what was written for this field. -/
theorem C112_no_more_parts {env : FileEnv} {req : ClientReq} {s : ClientStream} (hD : D.Sane) (hb : SafeBoundary b) (h : plainRequest env req b os = (.ok (), some s))
    (hos : All2 (StandsFor env) os fs) (ha : ∀ f ∈ fs, Absent (dashes ++ b) (f.headers ++ f.data)) (he : Ev.bytes evs = s.sink.got) {got : List (FieldHeaders × Bytes)} {fin : Ending}
    (hr : Reads D (withBody evs b) got fin) :
    ∃ fs₁ fs₂, fs = fs₁ ++ fs₂ ∧ All2 (fun (a : FieldHeaders × Bytes) f => a.2 <:+: f.headers ++ f.data ++ crlf) got fs₁ ∧ (fin = .closed → fs₂ = []) := by
  refine reads_at_most hD hb crlf hr fs [] (BR.fromReader_inv evs b) rfl (by intro h; simp [withBody, BR.fromReader] at h) ?_ ?_ ha
  · rw [List.nil_append, ← encode_with, ← sent_encode h hos, ← he]
    simp [withBody, BR.fromReader, BR.unread]
  · exact ⟨encodeWith_prefix b crlf _, fun q hq => by simp at hq⟩

/-- The same for the lazy client. -/
theorem C112_lazy_no_more_parts {env : LazyEnv} {p : Prepared} {ns : List Nat} (hD : D.Sane) (hb : SafeBoundary b) (h : PreparedFrom env b os p)
    (hre : NoReadErr env.toFileEnv os) (ho : os ≠ []) (hos : All2 (StandsFor env.toFileEnv) os fs) (ha : ∀ f ∈ fs, Absent (dashes ++ b) (f.headers ++ f.data)) (hu : ReadsOut p ns (Ev.bytes evs))
    {got : List (FieldHeaders × Bytes)} {fin : Ending} (hr : Reads D (withBody evs b) got fin) :
    ∃ fs₁ fs₂, lazyOrder fs = fs₁ ++ fs₂ ∧ All2 (fun (a : FieldHeaders × Bytes) f => a.2 <:+: f.headers ++ f.data ++ crlf) got fs₁ ∧ (fin = .closed → fs₂ = []) := by
  have hne0 : lazyOrder fs ≠ [] := fun hh => ho ((all2_nil_iff hos).mpr (lazyOrder_eq_nil.mp hh))
  have hd : dashes ++ b ≠ [] := by simp [dashes]
  have hnil : Absent (dashes ++ b) [] := fun q h => hd (by simpa [OccursAt] using h)
  have h0 : FirstAt (dashes ++ b) (encodeWith b [] (lazyOrder fs)) 0 := ⟨encodeWith_prefix b [] _, fun q hq => by omega⟩
  refine reads_at_most hD hb [] hr (lazyOrder fs) crlf (BR.fromReader_inv evs b) rfl (by intro h; simp [withBody, BR.fromReader] at h) ?_ ?_ ?_
  · rw [← encodeLazy_with b _ hne0, ← readsOut_eq h hre hos hu]
    simp [withBody, BR.fromReader, BR.unread]
  · have := FirstAt.sep hd (hb.notMem (by decide : (0x0D : Byte) ∈ b!"\r\n\"; :=")) hnil (FirstAt.sep hd (hb.notMem (by decide : (0x0A : Byte) ∈ b!"\r\n\"; :=")) hnil h0)
    simpa [crlf] using this
  · intro f hf
    refine ha f ?_
    simp only [lazyOrder, List.mem_append, List.mem_filter, List.mem_reverse] at hf
    rcases hf with hf | hf <;> exact hf.1

/-! ## What does not hold -/

theorem cleanSplit_one {d : Bytes} (hd : d ≠ []) (u : Bytes) : CleanSplit d [.data u] := by
  refine .of_none ?_
  rintro k ⟨x, y, hl, h⟩ ho
  have hlen := ho.length_le
  have hk : Ev.bytes x = u ∨ Ev.bytes x = [] := by
    match x, hl with
    | [], _ => exact .inr rfl
    | [_], hl => cases hl; left; simp [Ev.bytes]
    | _ :: _ :: _, hl => simp at hl
  have := List.length_pos_iff.mpr hd
  rcases hk with hk | hk <;> rw [hk] at h <;> simp [crlf, Ev.bytes] at hlen h
  omega

namespace Sample

/-- A name that ends its quotes and adds a filename. -/
def inName : Bytes := b!"x\"; filename=\"y.exe"

/-- A name that ends the headers. -/
def inBody : Bytes := b!"a\"\r\n\r\nevil"

/-- A name that adds a header. -/
def inType : Bytes := b!"a\"\r\nContent-Type: image/png\r\nX: \""

def inOps (n : Bytes) : List ClientOp := [.text n b!"text"]

def inSent (n : Bytes) : ClientStream := ((plainRequest env req b!"b" (inOps n)).2).getD ⟨[], ⟨[], []⟩, none⟩

def inFld (n : Bytes) : OutField := ⟨n, none, none, b!"text"⟩

def inEvs (n : Bytes) : List Ev := [.data (inSent n).sink.got]

theorem inName_eq : plainRequest env req b!"b" (inOps inName) = (.ok (), some (inSent inName)) := by decide +kernel
theorem inBody_eq : plainRequest env req b!"b" (inOps inBody) = (.ok (), some (inSent inBody)) := by decide +kernel
theorem inType_eq : plainRequest env req b!"b" (inOps inType) = (.ok (), some (inSent inType)) := by decide +kernel

theorem inEvs_clean {n : Bytes} : CleanSplit (dashes ++ b!"b") (inEvs n) := cleanSplit_one (by decide) _

theorem inType_read : ((withBody (inEvs inType) b!"b").readEntry refDeps).1 = .ok (some ⟨b!"a", none, some ⟨b!"image/png", b!"image"⟩⟩) := by decide +kernel

end Sample

/-- Such names are `AnyNames`. -/
theorem any_names {n : Bytes} (h : findSub (dashes ++ b!"b") ((Sample.inFld n).headers ++ (Sample.inFld n).data) = none) (hl : n.length ≤ 50) : AnyNames D b!"b" (Sample.inFld n) none :=
  ⟨by simp [Sample.inFld], rfl, by simp [Sample.inFld, OutField.headers, OutField.disposition, entryBuf, crlf, dashes]; omega, findSub_eq_none_iff.mp h⟩

/-- C112 is false of the code: a name of text on one line becomes a name and a filename. -/
theorem C112_false_filename (hD : D.Sane) (hT : D.Tokenizes) : ¬ WhateverNames D fun f _ a => (a.1.filename = none ↔ f.filename = none) := by
  intro h
  obtain ⟨got, fin, hr⟩ := C10_reads_total (evs := Sample.inEvs Sample.inName) (b := b!"b") hD ⟨[], rfl⟩
  obtain ⟨-, h2⟩ := h Sample.env Sample.req b!"b" _ [Sample.inFld Sample.inName] [none] _ _ got fin ⟨by simp, by decide⟩ Sample.inName_eq (.cons (.text _ _) .nil) (.cons (any_names (by decide +kernel) (by decide)) .nil)
    (by decide +kernel) (by intro e; simp [Sample.inEvs]) Sample.inEvs_clean (by simp [Sample.inEvs, Ev.bytes]) hr
  obtain ⟨-, h3⟩ := C112_one_line_partial (cts := [none]) hD hT ⟨by simp, by decide⟩ Sample.inName_eq (.cons (.text _ _) .nil)
    (.cons ⟨⟨by decide, (utf8Valid_iff _).mp (by decide +kernel)⟩, by simp, by simp, rfl, by decide +kernel, findSub_eq_none_iff.mp (by decide +kernel), by simp, by simp, findSub_eq_none_iff.mp (by decide +kernel)⟩ .nil)
    (by decide +kernel) (by intro e; simp [Sample.inEvs]) (evs := Sample.inEvs Sample.inName) (by simp [Sample.inEvs, Ev.bytes]) hr
  cases h3 with
  | @cons a _ _ _ hs hnil =>
    cases hnil
    cases h2 with
    | cons hf _ =>
      have hsays : Says (Sample.inFld Sample.inName).disposition b!"x" (some b!"y.exe") :=
        ⟨[], [], b!" name=\"x\"; filename=\"y.exe\"", b!"\"x\"", b!"; filename=\"y.exe\"", by decide, ⟨[], rfl, by simp⟩, ⟨[], rfl, by simp⟩,
          ⟨b!"; ", by decide, by decide +kernel, by decide, .inr (by decide)⟩, ⟨1, 1, rfl, by decide, by decide⟩, b!"\"y.exe\"", [], ⟨b!"; ", by decide, by decide +kernel, by decide, .inl rfl⟩, ⟨1, 1, rfl, by decide, by decide⟩⟩
      have := (says_unique hs.2.2 hsays).2
      rw [this] at hf
      simp [Sample.inFld] at hf

/-- C112 is false of the code: a name with line ends becomes a name and contents. -/
theorem C112_false_contents (hD : D.Sane) (hT : D.Tokenizes) : ¬ WhateverNames D fun f _ a => a.2 = f.data := by
  intro h
  obtain ⟨got, fin, hr⟩ := C10_reads_total (evs := Sample.inEvs Sample.inBody) (b := b!"b") hD ⟨[], rfl⟩
  obtain ⟨-, h2⟩ := h Sample.env Sample.req b!"b" _ [Sample.inFld Sample.inBody] [none] _ _ got fin ⟨by simp, by decide⟩ Sample.inBody_eq (.cons (.text _ _) .nil) (.cons (any_names (by decide +kernel) (by decide)) .nil)
    (by decide +kernel) (by intro e; simp [Sample.inEvs]) Sample.inEvs_clean (by simp [Sample.inEvs, Ev.bytes]) hr
  have hP := encoded_parts (D := D) (b := b!"b") (fs := [⟨b!"a", none, none, b!"evil\"\r\n\r\ntext"⟩]) (cts := [none]) hT ⟨by simp, by decide⟩
    (.cons ⟨Sample.nameText (by decide) (by decide) (by decide) (by decide) (by decide +kernel), by simp, by simp, rfl, by decide +kernel, findSub_eq_none_iff.mp (by decide +kernel), by simp, by simp, findSub_eq_none_iff.mp (by decide +kernel)⟩ .nil)
  have he : Ev.bytes (Sample.inEvs Sample.inBody) = encode b!"b" [⟨b!"a", none, none, b!"evil\"\r\n\r\ntext"⟩] := by decide +kernel
  rw [← he] at hP
  obtain ⟨-, h3⟩ := C10_entries_are_parts hD (by decide +kernel) (by intro e; simp [Sample.inEvs]) hP hr
  cases h3 with
  | @cons a _ _ _ hs hnil =>
    cases hnil
    cases h2 with
    | cons hf _ =>
      obtain ⟨-, hs | ⟨-, hs⟩⟩ := hs
      · rw [hf] at hs; simp [OutField.asRead, Sample.inFld] at hs
      · exact hs Sample.inEvs_clean

/-- C112 is false of the code: a name with line ends gives a text field a content type. -/
theorem C112_false_type : ¬ WhateverNames refDeps fun _ ct a => a.1.contentType = ct := by
  intro h
  obtain ⟨got, fin, hr⟩ := C10_reads_total (evs := Sample.inEvs Sample.inType) (b := b!"b") refDeps_sane ⟨[], rfl⟩
  obtain ⟨-, h2⟩ := h Sample.env Sample.req b!"b" _ [Sample.inFld Sample.inType] [none] _ _ got fin ⟨by simp, by decide⟩ Sample.inType_eq (.cons (.text _ _) .nil) (.cons (any_names (by decide +kernel) (by decide)) .nil)
    (by decide +kernel) (by intro e; simp [Sample.inEvs]) Sample.inEvs_clean (by simp [Sample.inEvs, Ev.bytes]) hr
  have hs := Sample.inType_read
  cases hr with
  | close h => cases h2
  | fail h => cases h2
  | entry h =>
    simp only [BR.session] at h
    rw [h] at hs
    simp at hs
    cases h2 with
    | cons h2 _ => rw [hs] at h2; simp at h2

/-- C112 is false of the code. -/
theorem C112_false (hD : D.Sane) (hT : D.Tokenizes) : ¬ NamesChangeNames D := by
  intro h
  refine C112_false_filename hD hT fun env req b os fs cts s evs got fin h1 h2 h3 h4 h5 h6 h7 h8 h9 => ?_
  obtain ⟨g1, g2⟩ := h env req b os fs cts s evs got fin h1 h2 h3 h4 h5 h6 h7 h8 h9
  exact ⟨g1, all2_of_nth g2 fun _ _ h => h.1⟩

/-! ## Examples -/

/-- C112_false_filename, C112_false_contents and C112_false. -/
example : ¬ (WhateverNames refDeps fun f _ a => (a.1.filename = none ↔ f.filename = none)) ∧ ¬ (WhateverNames refDeps fun f _ a => a.2 = f.data) ∧ ¬ NamesChangeNames refDeps :=
  ⟨C112_false_filename refDeps_sane refDeps_tokenizes, C112_false_contents refDeps_sane refDeps_tokenizes, C112_false refDeps_sane refDeps_tokenizes⟩

theorem Sample.inName_line : OneLine refDeps b!"b" (Sample.inFld Sample.inName) none :=
  ⟨⟨by decide, (utf8Valid_iff _).mp (by decide +kernel)⟩, by simp [Sample.inFld], by simp [Sample.inFld], rfl, by decide +kernel, findSub_eq_none_iff.mp (by decide +kernel), by simp [Sample.inFld], by simp [Sample.inFld],
    findSub_eq_none_iff.mp (by decide +kernel)⟩

/-- The hypotheses of C112_one_line_partial are met by a name that passes for a name and a filename. -/
example : refDeps.Sane ∧ refDeps.Tokenizes ∧ SafeBoundary b!"b" ∧ plainRequest Sample.env Sample.req b!"b" (Sample.inOps Sample.inName) = (.ok (), some (Sample.inSent Sample.inName)) ∧
    All2 (StandsFor Sample.env) (Sample.inOps Sample.inName) [Sample.inFld Sample.inName] ∧ All2 (OneLine refDeps b!"b") [Sample.inFld Sample.inName] [none] ∧ NoStall (Sample.inEvs Sample.inName) ∧
    NoErr (Sample.inEvs Sample.inName) ∧ Ev.bytes (Sample.inEvs Sample.inName) = (Sample.inSent Sample.inName).sink.got :=
  ⟨refDeps_sane, refDeps_tokenizes, ⟨by simp, by decide⟩, Sample.inName_eq, .cons (.text _ _) .nil, .cons Sample.inName_line .nil, by decide +kernel, by intro e; simp [Sample.inEvs], by simp [Sample.inEvs, Ev.bytes]⟩

/-- Those of C112_lazy_one_line_partial are met by the fields of C34. -/
example : All2 (OneLine refDeps b!"b") (lazyOrder Sample.lflds) Sample.lctypes := all2_of_nth Sample.lsendable fun _ _ h => h.oneLine

/-- Those of C112_no_semicolon_partial are met by a name with quotes. -/
example : OneLine refDeps b!"b" (Sample.inFld b!"\"a\" b\"") none ∧ (0x3B : Byte) ∉ (Sample.inFld b!"\"a\" b\"").name ∧ Unquoted b!"\"a\" b\"" b!"a\" b" :=
  ⟨⟨⟨by decide, (utf8Valid_iff _).mp (by decide +kernel)⟩, by simp [Sample.inFld], by simp [Sample.inFld], rfl, by decide +kernel, findSub_eq_none_iff.mp (by decide +kernel), by simp [Sample.inFld], by simp [Sample.inFld],
    findSub_eq_none_iff.mp (by decide +kernel)⟩, by decide, 1, 1, rfl, by decide, by decide⟩

/-- Those of C112_no_more_parts are met by a name that ends the headers. -/
example : plainRequest Sample.env Sample.req b!"b" (Sample.inOps Sample.inBody) = (.ok (), some (Sample.inSent Sample.inBody)) ∧ All2 (StandsFor Sample.env) (Sample.inOps Sample.inBody) [Sample.inFld Sample.inBody] ∧
    ∀ f ∈ [Sample.inFld Sample.inBody], Absent (dashes ++ b!"b") (f.headers ++ f.data) :=
  ⟨Sample.inBody_eq, .cons (.text _ _) .nil, by intro f hf; simp only [List.mem_singleton] at hf; subst hf; exact findSub_eq_none_iff.mp (by decide +kernel)⟩

/-- Those of C112_lazy_no_more_parts, by the same name. -/
example : PreparedFrom Sample.lenv b!"b" (Sample.inOps Sample.inBody) (Sample.lprep (Sample.inOps Sample.inBody)) ∧ NoReadErr Sample.lenv.toFileEnv (Sample.inOps Sample.inBody) ∧ Sample.inOps Sample.inBody ≠ [] ∧
    All2 (StandsFor Sample.lenv.toFileEnv) (Sample.inOps Sample.inBody) [Sample.inFld Sample.inBody] ∧ ∃ u, ReadsOut (Sample.lprep (Sample.inOps Sample.inBody)) [50, 300, 1] u :=
  ⟨Sample.lprep_ok (by decide +kernel), by intro o ho evs hr; simp [Sample.inOps] at ho; subst ho; exact hr.elim, by simp [Sample.inOps], .cons (.text _ _) .nil, _, by decide, by decide +kernel, rfl⟩

end Multipart

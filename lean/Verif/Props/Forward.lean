import Verif.Spec.Forward
import Verif.Props.RoundTrip
import Verif.Props.Lazy
import Verif.Props.Disposition
import Verif.Props.HeaderOrder
import Verif.Lemmas.Cut
import Verif.Props.Split
/-!
# C123: sending on what was read
-/
namespace Multipart

variable {D : Deps} {evs evs' : List Ev} {b b' : Bytes} {s t : BR} {es got got' : List (FieldHeaders × Bytes)} {fin fin' : Ending} {fh : FieldHeaders}

theorem encode_bytes (c : Char) : (String.utf8EncodeChar c).length = 1 ∨ ∀ x ∈ String.utf8EncodeChar c, 128 ≤ x.toNat := by
  have hv := char_range c
  unfold String.utf8EncodeChar
  generalize c.val.toNat = v at hv
  simp only
  by_cases h1 : v ≤ 0x7f
  · rw [if_pos h1]; left; rfl
  rw [if_neg h1]
  right
  have e : ∀ n, 128 ≤ n → n < 256 → 128 ≤ (UInt8.ofNat n).toNat := fun n h h' => by rw [ofNat_toNat h']; exact h
  by_cases h2 : v ≤ 0x7ff
  · rw [if_pos h2]
    intro x hx
    simp only [List.mem_cons, List.not_mem_nil, or_false] at hx
    rcases hx with rfl | rfl <;> exact e _ (by omega) (by omega)
  rw [if_neg h2]
  by_cases h3 : v ≤ 0xffff
  · rw [if_pos h3]
    intro x hx
    simp only [List.mem_cons, List.not_mem_nil, or_false] at hx
    rcases hx with rfl | rfl | rfl <;> exact e _ (by omega) (by omega)
  rw [if_neg h3]
  intro x hx
  simp only [List.mem_cons, List.not_mem_nil, or_false] at hx
  rcases hx with rfl | rfl | rfl | rfl <;> exact e _ (by omega) (by omega)

/-- Text can be cut in front of and behind an ASCII character. -/
theorem IsUtf8.cut {a z : Bytes} {c : Byte} (h : IsUtf8 (a ++ c :: z)) (hc : c.toNat < 128) : IsUtf8 a ∧ IsUtf8 z := by
  obtain ⟨cs, h⟩ := h
  induction cs generalizing a with
  | nil => simp [encodeChars] at h
  | cons x cs ih =>
    have e : encodeChars (x :: cs) = String.utf8EncodeChar x ++ encodeChars cs := by simp [encodeChars]
    rw [e] at h
    by_cases hl : (String.utf8EncodeChar x).length ≤ a.length
    · have h1 : a.take (String.utf8EncodeChar x).length = String.utf8EncodeChar x := by
        have := congrArg (List.take (String.utf8EncodeChar x).length) h
        rwa [List.take_append_of_le_length hl, List.take_left] at this
      have h2 : a.drop (String.utf8EncodeChar x).length ++ c :: z = encodeChars cs := by
        have := congrArg (List.drop (String.utf8EncodeChar x).length) h
        rwa [List.drop_append_of_le_length hl, List.drop_left] at this
      obtain ⟨k1, k2⟩ := ih h2
      refine ⟨?_, k2⟩
      rw [← List.take_append_drop (String.utf8EncodeChar x).length a, h1]
      exact .append ⟨[x], by simp [encodeChars]⟩ k1
    · have hm : c ∈ String.utf8EncodeChar x := by
        have := congrArg (fun y => y[a.length]?) h
        simp only [List.getElem?_append_right (Nat.le_refl _), Nat.sub_self, List.getElem?_cons_zero] at this
        rw [List.getElem?_append_left (by omega)] at this
        exact List.mem_of_getElem? this.symm
      rcases encode_bytes x with h1 | h1
      · have ha : a = [] := List.length_eq_zero_iff.mp (by omega)
        subst ha
        obtain ⟨y, hy⟩ : ∃ y, String.utf8EncodeChar x = [y] := List.length_eq_one_iff.mp h1
        rw [hy] at h
        simp only [List.nil_append, List.singleton_append, List.cons.injEq] at h
        exact ⟨.nil, ⟨cs, h.2⟩⟩
      · have := h1 c hm; omega

theorem IsUtf8.middle {pre y post : Bytes} {c : Byte} (h : IsUtf8 (pre ++ [c] ++ y ++ post)) (hc : c.toNat < 128) (hp : post = [] ∨ ∃ d z, post = d :: z ∧ d.toNat < 128) : IsUtf8 y := by
  have h1 : IsUtf8 (y ++ post) := (IsUtf8.cut (a := pre) (z := y ++ post) (c := c) (by simpa using h) hc).2
  rcases hp with rfl | ⟨d, z, rfl, hd⟩
  · simpa using h1
  · exact (h1.cut hd).1

/-- The text of a parameter is as good as the text it stands in. -/
theorem ParamText.nameText {key hay raw rest v y w : Bytes} (hp : ParamText (key ++ [0x3D]) hay raw rest) (hy : Unquoted raw y) (hv : v = w ++ hay)
    (hu : IsUtf8 v) (hc : ∀ c ∈ v, c = 0x09 ∨ (0x20 ≤ c.toNat ∧ c.toNat ≠ 0x7F)) : NameText y := by
  obtain ⟨A, hA, -, hs, hr⟩ := hp
  obtain ⟨m, n, e, h1, h2⟩ := hy
  have hpost : List.replicate n (0x22 : Byte) ++ rest = [] ∨ ∃ d z, List.replicate n (0x22 : Byte) ++ rest = d :: z ∧ d.toNat < 128 := by
    cases n with
    | zero =>
      rcases hr with rfl | hr
      · exact .inl rfl
      · cases rest with
        | nil => exact .inl rfl
        | cons x xs => simp only [List.head?_cons, Option.some.injEq] at hr; subst hr; exact .inr ⟨_, _, rfl, by decide⟩
    | succ n => exact .inr ⟨_, _, by rw [List.replicate_succ, List.cons_append], by decide⟩
  refine ⟨⟨fun hm => hs (by rw [e]; simp [hm]), h1, h2⟩, fun c hm => hc c (by rw [hv, hA, e]; simp [hm]), ?_⟩
  cases m with
  | zero =>
    refine IsUtf8.middle (pre := w ++ A ++ key) (c := 0x3D) (post := List.replicate n 0x22 ++ rest) ?_ (by decide) hpost
    rw [hv, hA, e] at hu
    simpa using hu
  | succ m =>
    refine IsUtf8.middle (pre := w ++ A ++ key ++ [0x3D] ++ List.replicate m 0x22) (c := 0x22) (post := List.replicate n 0x22 ++ rest) ?_ (by decide) hpost
    rw [hv, hA, e, List.replicate_succ'] at hu
    simpa using hu

theorem Says.nameText {v name : Bytes} {filename : Option Bytes} (h : Says v name filename) (hu : IsUtf8 v) (hc : ∀ c ∈ v, c = 0x09 ∨ (0x20 ≤ c.toNat ∧ c.toNat ≠ 0x7F)) :
    NameText name ∧ ∀ f, filename = some f → NameText f := by
  obtain ⟨w1, w2, A, raw, rest, hv, -, -, h1, h2, h3⟩ := h
  refine ⟨ParamText.nameText (key := b!"name") h1 h2 hv hu hc, ?_⟩
  rintro f rfl
  obtain ⟨raw', rest', k1, k2⟩ := h3
  obtain ⟨A', hA, -⟩ := h1
  exact ParamText.nameText (key := b!"filename") (w := w1 ++ b!"form-data" ++ w2 ++ (A' ++ b!"name=" ++ raw)) k1 k2 (by rw [hv, hA]; simp) hu hc

theorem parse_clean (hC : D.Clean) {P : Bytes} {n : Nat} {hs : List Header} (hP : D.parseHeaders P = .complete n hs) (hu : ∀ h ∈ hs, utf8Valid h.val = true) (h : FieldHeaders.parse D hs = .ok fh) :
    CleanHeaders D fh := by
  obtain ⟨⟨cd, h1, h2⟩, h3⟩ := (C18_exact hs).mp h
  have hcd : cd ∈ hs := h1.mem.1
  obtain ⟨k1, k2⟩ := h2.nameText ((utf8Valid_iff _).mp (hu _ hcd)) (hC _ _ _ hP _ hcd).1
  refine ⟨k1, k2, fun m hm => ?_⟩
  rw [hm] at h3
  obtain ⟨ct, g1, g2⟩ := h3
  have hct : ct ∈ hs := g1.mem.1
  exact (hC _ _ _ hP _ hct).2 ((utf8Valid_iff _).mp (hu _ hct)) _ g2

theorem readEntry_clean (hD : D.Sane) (hC : D.Clean) (hi : s.Inv) (h : s.readEntry D = (.ok (some fh), t)) : CleanHeaders D fh := by
  have hsp := BR.readEntry_spec hD hi
  rw [h] at hsp
  simp only at hsp
  cases hsp with
  | entry _ _ _ _ a _ c d => exact parse_clean hC a c d

theorem reads_clean (hD : D.Sane) (hC : D.Clean) (h : Reads D s got fin) (hi : s.Inv) : ∀ a ∈ got, CleanHeaders D a.1 := by
  induction h with
  | close => simp
  | fail => simp
  | @entry s t fh os got fin hc _ _ ih =>
    have hti : t.Inv := by have := BR.readEntry_inv hD hi; rw [hc] at this; exact this
    intro a ha
    rcases List.mem_cons.mp ha with rfl | ha
    · exact readEntry_clean hD hC hi hc
    · exact ih (BR.run_inv os hti) a ha

theorem dropWhile_blank (bs : Bytes) : (bs.dropWhile isBlank).head? ≠ some 0x20 ∧ (bs.dropWhile isBlank).head? ≠ some 0x09 := by
  induction bs with
  | nil => simp
  | cons x xs ih =>
    by_cases h : isBlank x = true
    · rw [List.dropWhile_cons_of_pos h]; exact ih
    · rw [List.dropWhile_cons_of_neg h]
      simp only [isBlank, Bool.or_eq_true, decide_eq_true_eq, not_or] at h
      simpa using h

theorem trimBlank_text {v : Bytes} (h : v.all isValueByte = true) :
    (∀ c ∈ trimBlank v, c = 0x09 ∨ (0x20 ≤ c.toNat ∧ c.toNat ≠ 0x7F)) ∧ ((trimBlank v).head? ≠ some 0x20 ∧ (trimBlank v).head? ≠ some 0x09) ∧
      ((trimBlank v).getLast? ≠ some 0x20 ∧ (trimBlank v).getLast? ≠ some 0x09) := by
  have hall : ∀ k : Fin 256, isValueByte (UInt8.ofNat k.val) = true → (UInt8.ofNat k.val = 0x09 ∨ (0x20 ≤ k.val ∧ k.val ≠ 0x7F)) := by decide +kernel
  refine ⟨fun c hc => ?_, ?_, ?_⟩
  · have h1 : c ∈ v := by
      unfold trimBlank at hc
      exact (List.dropWhile_suffix _).subset (List.mem_reverse.mp ((List.dropWhile_suffix _).subset (List.mem_reverse.mp hc)))
    have := hall ⟨c.toNat, c.toNat_lt⟩
    simp only [UInt8.ofNat_toNat] at this
    exact this (List.all_eq_true.mp h _ h1)
  · have h1 := dropWhile_blank v
    have key : ∀ w : Bytes, w.head? ≠ some 0x20 → w.head? ≠ some 0x09 → ((w.reverse.dropWhile isBlank).reverse).head? ≠ some 0x20 ∧ ((w.reverse.dropWhile isBlank).reverse).head? ≠ some 0x09 := by
      intro w h1 h2
      obtain ⟨y, hy⟩ := List.dropWhile_suffix (l := w.reverse) isBlank
      have hw : w = (w.reverse.dropWhile isBlank).reverse ++ y.reverse := by
        rw [← List.reverse_append, hy, List.reverse_reverse]
      generalize (w.reverse.dropWhile isBlank).reverse = z at hw ⊢
      cases z with
      | nil => simp
      | cons x xs => rw [hw] at h1 h2; simpa using And.intro h1 h2
    exact key _ h1.1 h1.2
  · unfold trimBlank
    rw [List.getLast?_reverse]
    exact dropWhile_blank _

theorem refParseAux_vals {P : Header → Prop} (hP : ∀ line h, parseHeaderLine line = some h → P h) : ∀ (n pos : Nat) (acc : List Header) (bs : Bytes) (k : Nat) (hs : List Header),
    (∀ h ∈ acc, P h) → refParseAux n pos acc bs = .complete k hs → ∀ h ∈ hs, P h := by
  intro n
  induction n with
  | zero => intro pos acc bs k hs _ h; simp [refParseAux] at h
  | succ n ih =>
    intro pos acc bs k hs ha h
    unfold refParseAux at h
    split at h
    · simp at h
    · simp only [HParse.complete.injEq] at h; rw [← h.2]; exact ha
    · split at h
      · simp at h
      · rename_i x hx
        split at h
        · refine ih _ _ _ _ _ ?_ h
          intro y hy
          rcases List.mem_append.mp hy with hy | hy
          · exact ha y hy
          · cases List.mem_singleton.mp hy; exact hP _ _ hx
        · simp at h

/-- The reference tokenizer meets the assumption. -/
theorem refDeps_clean : refDeps.Clean := by
  intro bs n hs h
  refine refParseAux_vals (P := fun h => (∀ c ∈ h.val, c = 0x09 ∨ (0x20 ≤ c.toNat ∧ c.toNat ≠ 0x7F)) ∧
    (IsUtf8 h.val → ∀ m, refDeps.parseMime h.val = some m → HeaderText m.src ∧ refDeps.parseMime m.src = some m)) ?_ _ _ _ _ _ _ (by simp) h
  intro line h hl
  unfold parseHeaderLine at hl
  split at hl
  · simp at hl
  · split at hl
    · rename_i i hi hc
      simp only [Bool.and_eq_true] at hc
      simp only [Option.some.injEq] at hl
      subst hl
      obtain ⟨k1, k2, k3⟩ := trimBlank_text hc.2
      refine ⟨k1, fun hu m hm => ?_⟩
      have hm' : m.src = trimBlank (line.drop (i + 1)) := by
        have hm2 : refParseMime (trimBlank (line.drop (i + 1))) = some m := hm
        unfold refParseMime at hm2
        split at hm2
        · simp at hm2
        · split at hm2
          · simp at hm2
          · simp only [Option.some.injEq] at hm2; rw [← hm2]
      rw [hm']
      exact ⟨⟨k1, k2, k3, hu⟩, hm⟩
    · simp at hl

/-- What the names and types that are read cannot contain. -/
theorem C123_names (hD : D.Sane) (hC : D.Clean) (hr : Reachable D evs b s) (h : s.readEntry D = (.ok (some fh), t)) : CleanHeaders D fh :=
  readEntry_clean hD hC (hr.spec hD).1 h

theorem Forwards.sendable {env : FileEnv} {a e : FieldHeaders × Bytes} {o : ClientOp} (hO : D.parseMime octetStream.src = some octetStream) (h : Forwards a o e) (hc : CleanHeaders D a.1) (hr : RoomFor b e) :
    ∃ f ct, StandsFor env o f ∧ Sendable D b f ct ∧ f.asRead ct = e := by
  have hbuf : 1024 ≤ entryBuf (dashes ++ b) := Nat.le_max_left _ _
  have hoct : HeaderText octetStream.src := ⟨by decide, by decide, by decide, (utf8Valid_iff _).mp (by decide +kernel)⟩
  cases h with
  | @text n dat hu =>
    refine ⟨⟨n, none, none, dat⟩, none, .text _ _, ⟨hc.name, by simp, by simp, rfl, ?_, hr.name, by simp, by simp, hr.data⟩, rfl⟩
    have := hr.size
    simp [OutField.headers, OutField.disposition, dashes, crlf] at this hbuf ⊢
    omega
  | @typed n dat f m evs hd =>
    refine ⟨⟨n, f, some m.src, Ev.upToEnd evs⟩, some m, .stream _ _ _ _, ⟨hc.name, hc.filename, ?_, ?_, ?_, hr.name, hr.filename, ?_, hd.symm ▸ hr.data⟩, by rw [hd]; rfl⟩
    · intro t ht; cases Option.some.inj ht; exact (hc.ctype m rfl).1
    · show some _ = some _; rw [(hc.ctype m rfl).2]
    · have := hr.size
      cases f <;> simp [OutField.headers, OutField.disposition, dashes, crlf] at this hbuf ⊢ <;> omega
    · intro t ht; cases Option.some.inj ht; exact hr.ctype m rfl
  | @untyped n dat f evs hd =>
    refine ⟨⟨n, f, some octetStream.src, Ev.upToEnd evs⟩, some octetStream, .octets _ _ _, ⟨hc.name, hc.filename, ?_, ?_, ?_, hr.name, hr.filename, ?_, hd.symm ▸ hr.data⟩, by rw [hd]; rfl⟩
    · intro t ht; cases Option.some.inj ht; exact hoct
    · show some _ = some _; rw [hO]
    · have := hr.size
      cases f <;> simp [OutField.headers, OutField.disposition, dashes, crlf, octetStream] at this hbuf ⊢ <;> omega
    · intro t ht; cases Option.some.inj ht; exact hr.ctype _ rfl

theorem ForwardsAll.sendable {env : FileEnv} {as es : List (FieldHeaders × Bytes)} {os : List ClientOp} (hO : D.parseMime octetStream.src = some octetStream) (h : ForwardsAll as os es) :
    (∀ a ∈ as, CleanHeaders D a.1) → (∀ e ∈ es, RoomFor b e) → ∃ fs cts, All2 (StandsFor env) os fs ∧ All2 (Sendable D b) fs cts ∧ List.zipWith OutField.asRead fs cts = es := by
  induction h with
  | nil => intro _ _; exact ⟨[], [], .nil, .nil, rfl⟩
  | cons h1 _ ih =>
    intro ha he
    obtain ⟨f, ct, k1, k2, k3⟩ := h1.sendable (env := env) hO (ha _ List.mem_cons_self) (he _ List.mem_cons_self)
    obtain ⟨fs, cts, g1, g2, g3⟩ := ih (fun a h => ha a (List.mem_cons_of_mem _ h)) fun e h => he e (List.mem_cons_of_mem _ h)
    exact ⟨f :: fs, ct :: cts, .cons k1 g1, .cons k2 g2, by rw [List.zipWith_cons_cons, k3, g3]⟩

/-- C123: what was read from any body, by any calls, can be sent on: if these entries are sent by the client with a boundary that does not occur in them, and are read again, in any split, they have the same
names, filenames, content types and data, in the same order; but fields without a type get the type `application/octet-stream` if they have a filename or are not text. -/
theorem C123_forward {env : FileEnv} {req : ClientReq} {os : List ClientOp} {c : ClientStream} (hD : D.Sane) (hT : D.Tokenizes) (hC : D.Clean) (hO : D.parseMime octetStream.src = some octetStream)
    (hr : Reads D (withBody evs b) got fin) (hf : ForwardsAll got os es) (hb : SafeBoundary b') (hroom : ∀ e ∈ es, RoomFor b' e)
    (hs : plainRequest env req b' os = (.ok (), some c)) (he : Ev.bytes evs' = c.sink.got) (hn : NoStall evs') (hne : NoErr evs') (hr' : Reads D (withBody evs' b') got' fin') :
    fin' = .closed ∧ All2 (fun a e => a.1 = e.1 ∧ DataOk (dashes ++ b') evs' e.2 a.2) got' es := by
  obtain ⟨fs, cts, h1, h2, rfl⟩ := hf.sendable (env := env) (b := b') hO (reads_clean hD hC hr (BR.fromReader_inv _ _)) hroom
  exact C24_round_trip_partial hD hT hb hs h1 h2 hn hne he hr'

/-- C123 for a proxy: if the body of a request is complete and no read, on either side, ends between the CR and the LF in front of a delimiter, then exactly the fields of the request arrive behind the proxy. -/
theorem C123_proxy {es' : List (FieldHeaders × Bytes)} {env : FileEnv} {req : ClientReq} {os : List ClientOp} {c : ClientStream} (hD : D.Sane) (hT : D.Tokenizes) (hC : D.Clean) (hO : D.parseMime octetStream.src = some octetStream)
    (hP : Parts D (dashes ++ b) (Ev.bytes evs) es .closed) (hn : NoStall evs) (hne : NoErr evs) (hcl : CleanSplit (dashes ++ b) evs)
    (hf : ForwardsAll es os es') (hb : SafeBoundary b') (hroom : ∀ e ∈ es', RoomFor b' e)
    (hs : plainRequest env req b' os = (.ok (), some c)) (he : Ev.bytes evs' = c.sink.got) (hn' : NoStall evs') (hne' : NoErr evs') (hcl' : CleanSplit (dashes ++ b') evs') :
    (∃ got, Reads D (withBody evs b) got .closed ∧ got = es) ∧ (∃ got', Reads D (withBody evs' b') got' .closed ∧ got' = es') := by
  have key : ∀ {evs : List Ev} {b : Bytes} {es got : List (FieldHeaders × Bytes)}, CleanSplit (dashes ++ b) evs → All2 (fun a e => a.1 = e.1 ∧ DataOk (dashes ++ b) evs e.2 a.2) got es → got = es := by
    intro evs b es got hc h
    induction h with
    | nil => rfl
    | @cons a e as es hr _ ih =>
      obtain ⟨ha, hd | ⟨-, hd⟩⟩ := hr
      · rw [ih]; congr 1; exact Prod.ext ha hd
      · exact absurd hc hd
  obtain ⟨got, fin, hr⟩ := C10_reads_total (evs := evs) (b := b) hD ⟨[], rfl⟩
  obtain ⟨rfl, h2⟩ := C10_entries_are_parts hD hn hne hP hr
  obtain rfl := key hcl h2
  obtain ⟨got', fin', hr'⟩ := C10_reads_total (evs := evs') (b := b') hD ⟨[], rfl⟩
  obtain ⟨rfl, h3⟩ := C123_forward hD hT hC hO hr hf hb hroom hs he hn' hne' hr'
  exact ⟨⟨_, hr, rfl⟩, _, hr', key hcl' h3⟩

theorem sendable_filter {D : Deps} {b : Bytes} {fs : List OutField} {cts : List (Option Mime)} (h : All2 (Sendable D b) fs cts) (p : Bool) : ∃ cts', All2 (Sendable D b) (fs.filter fun f => f.ctype.isSome = p) cts' ∧
    List.zipWith OutField.asRead (fs.filter fun f => f.ctype.isSome = p) cts' = (List.zipWith OutField.asRead fs cts).filter fun e => e.1.contentType.isSome = p := by
  induction h with
  | nil => exact ⟨[], .nil, rfl⟩
  | @cons f ct fs cts hs _ ih =>
    obtain ⟨cts', h1, h2⟩ := ih
    have hm : f.ctype.isSome = ct.isSome := by
      have := hs.mime
      cases hf : f.ctype <;> cases ct <;> simp [hf] at this ⊢
    by_cases hp : ct.isSome = p
    · refine ⟨ct :: cts', ?_, ?_⟩
      · rw [List.filter_cons_of_pos (by simp [hm, hp])]; exact .cons hs h1
      · rw [List.filter_cons_of_pos (by simp [hm, hp]), List.zipWith_cons_cons, h2, List.zipWith_cons_cons, List.filter_cons_of_pos (by simp [OutField.asRead, hp])]
    · refine ⟨cts', ?_, ?_⟩
      · rw [List.filter_cons_of_neg (by simp [hm, hp])]; exact h1
      · rw [List.filter_cons_of_neg (by simp [hm, hp]), h2, List.zipWith_cons_cons, List.filter_cons_of_neg (by simp [OutField.asRead, hp])]

theorem all2_snoc {α β : Type} {R : α → β → Prop} {as as' : List α} {bs bs' : List β} (h : All2 R as bs) (h' : All2 R as' bs') : All2 R (as ++ as') (bs ++ bs') := by
  induction h with
  | nil => exact h'
  | cons h1 _ ih => exact .cons h1 ih

theorem all2_reverse {α β : Type} {R : α → β → Prop} {as : List α} {bs : List β} (h : All2 R as bs) : All2 R as.reverse bs.reverse := by
  induction h with
  | nil => exact .nil
  | cons h1 _ ih => rw [List.reverse_cons, List.reverse_cons]; exact all2_snoc ih (.cons h1 .nil)

theorem sendable_lazy {D : Deps} {b : Bytes} {fs : List OutField} {cts : List (Option Mime)} (h : All2 (Sendable D b) fs cts) :
    ∃ cts', All2 (Sendable D b) (lazyOrder fs) cts' ∧ List.zipWith OutField.asRead (lazyOrder fs) cts' = typedLast (List.zipWith OutField.asRead fs cts) := by
  obtain ⟨c1, h1, h2⟩ := sendable_filter h false
  obtain ⟨c2, h3, h4⟩ := sendable_filter h true
  have e1 : fs.filter (·.ctype.isNone) = fs.filter fun f => f.ctype.isSome = false := List.filter_congr fun f _ => by cases f.ctype <;> rfl
  have e2 : fs.filter (·.ctype.isSome) = fs.filter fun f => f.ctype.isSome = true := List.filter_congr fun f _ => by cases f.ctype <;> rfl
  have e3 : ∀ es : List (FieldHeaders × Bytes), typedLast es = (es.filter fun e => e.1.contentType.isSome = false) ++ (es.filter fun e => e.1.contentType.isSome = true).reverse := fun es => by
    unfold typedLast
    congr 1
    · exact List.filter_congr fun f _ => by cases f.1.contentType <;> rfl
    · congr 1; exact List.filter_congr fun f _ => by cases f.1.contentType <;> rfl
  refine ⟨c1 ++ c2.reverse, ?_, ?_⟩
  · unfold lazyOrder
    rw [e1, e2]
    exact all2_snoc h1 (all2_reverse h3)
  · unfold lazyOrder
    rw [e1, e2, e3, ← h2, ← h4, List.zipWith_append (all2_length h1), ← List.reverse_zipWith (all2_length h3)]

/-- C123 with the lazy client: the same, for at least one entry, in the order of that client (C34). -/
theorem C123_lazy {env : LazyEnv} {os : List ClientOp} {p : Prepared} {ns : List Nat} (hD : D.Sane) (hT : D.Tokenizes) (hC : D.Clean) (hO : D.parseMime octetStream.src = some octetStream)
    (hr : Reads D (withBody evs b) got fin) (hf : ForwardsAll got os es) (h0 : es ≠ []) (hb : SafeBoundary b') (hroom : ∀ e ∈ es, RoomFor b' e)
    (hp : PreparedFrom env b' os p) (hre : NoReadErr env.toFileEnv os) (hu : ReadsOut p ns (Ev.bytes evs')) (hn : NoStall evs') (hne : NoErr evs') (hr' : Reads D (withBody evs' b') got' fin') :
    fin' = .closed ∧ All2 (fun a e => a.1 = e.1 ∧ DataOk (dashes ++ b') evs' e.2 a.2) got' (typedLast es) := by
  obtain ⟨fs, cts, h1, h2, rfl⟩ := hf.sendable (env := env.toFileEnv) (b := b') hO (reads_clean hD hC hr (BR.fromReader_inv _ _)) hroom
  obtain ⟨cts', h3, h4⟩ := sendable_lazy h2
  rw [← h4]
  refine C34_round_trip_partial hD hT hb hp hre ?_ h1 h3 hu hn hne rfl hr'
  rintro rfl
  cases h1
  cases h2
  exact h0 rfl

namespace Sample

/-- A body of another client: a bare name with a quote in it and a filename, and a text field. -/
def fwdHdr : Bytes := b!"Content-Disposition: form-data; name=a\"b; filename=\"x y\"\r\n\r\n"
def evsFwd : List Ev := [.data (b!"--b\r\n" ++ fwdHdr ++ b!"hi\r\n--b\r\n" ++ hdr ++ b!"yo\r\n--b--")]
def fhFwd : FieldHeaders := ⟨b!"a\"b", some b!"x y", none⟩

theorem fwd_parts : Parts refDeps (dashes ++ bnd) (Ev.bytes evsFwd) [(fhFwd, b!"hi"), (Sample.fh, b!"yo")] .closed :=
  .part (rest := fwdHdr ++ b!"hi\r\n--b\r\n" ++ hdr ++ b!"yo\r\n--b--") (X := b!"hi\r\n--b\r\n" ++ hdr ++ b!"yo\r\n--b--") (.part (p := 0) (findSub_some (by decide +kernel)) (by decide +kernel))
    ⟨⟨fwdHdr, _, ⟨rfl, by decide, refDeps_incremental _ _ [⟨b!"Content-Disposition", b!"form-data; name=a\"b; filename=\"x y\""⟩] (by decide +kernel), by simp only [← utf8Valid_iff]; decide +kernel, by decide +kernel⟩, by decide +kernel, by decide, fun h => absurd h (by decide)⟩, .crlf (by decide) ⟨b!"--b\r\n" ++ hdr ++ b!"yo\r\n--b--", rfl⟩⟩
    (.part (rest := hdr ++ b!"yo\r\n--b--") (X := b!"yo\r\n--b--") (.part (p := 4) (findSub_some (by decide +kernel)) (by decide +kernel))
      ⟨⟨hdr, _, headerBlock (by decide +kernel), by decide +kernel, by decide, fun h => absurd h (by decide)⟩, .crlf (by decide) ⟨b!"--b--", rfl⟩⟩
      (.close (rest := []) (.close (p := 4) (findSub_some (by decide +kernel)) (by decide +kernel))))

def fwdOps : List ClientOp := [.stream b!"a\"b" [.data b!"h", .data b!"i"] (some b!"x y") none, .text b!"a" b!"yo"]
def fwdSent : ClientStream := ((plainRequest env req b!"q" fwdOps).2).getD ⟨[], ⟨[], []⟩, none⟩
theorem fwdSent_eq : plainRequest env req b!"q" fwdOps = (.ok (), some fwdSent) := by decide +kernel

theorem fwd_all : ForwardsAll [(fhFwd, b!"hi"), (Sample.fh, b!"yo")] fwdOps [(⟨b!"a\"b", some b!"x y", some octetStream⟩, b!"hi"), (Sample.fh, b!"yo")] :=
  .cons (.untyped (by decide)) (.cons (.text ((utf8Valid_iff b!"yo").mp (by decide +kernel))) .nil)

def fwdEvs : List Ev := [.data (fwdSent.sink.got.take 30), .data (fwdSent.sink.got.drop 30)]

theorem fwd_room : ∀ e ∈ [((⟨b!"a\"b", some b!"x y", some octetStream⟩ : FieldHeaders), b!"hi"), (Sample.fh, b!"yo")], RoomFor b!"q" e := by
  have no : ∀ {u : Bytes}, findSub (dashes ++ b!"q") u = none → Absent (dashes ++ b!"q") u := findSub_eq_none_iff.mp
  intro e he
  simp only [List.mem_cons, List.not_mem_nil, or_false] at he
  rcases he with rfl | rfl
  · exact ⟨by decide, no (by decide +kernel), fun f h => by cases h; exact no (by decide +kernel), fun m h => by cases h; exact no (by decide +kernel), no (by decide +kernel)⟩
  · exact ⟨by decide, no (by decide +kernel), fun f h => (by cases h), fun m h => (by cases h), no (by decide +kernel)⟩

def fwdPrep : Prepared := match ((LazyMp.build fwdOps).prepare lenv b!"q").1 with | .ok p => p | .error _ => lprep lops
theorem fwdPrep_ok : PreparedFrom lenv b!"q" fwdOps fwdPrep := by
  have h : (match ((LazyMp.build fwdOps).prepare lenv b!"q").1 with | .ok _ => true | .error _ => false) = true := by decide +kernel
  unfold PreparedFrom fwdPrep
  cases h' : ((LazyMp.build fwdOps).prepare lenv b!"q").1 with
  | ok p => rfl
  | error e => simp [h'] at h
def fwdLazy : Bytes := okBytes (fwdPrep.reads [7, 50, 300, 300]).1

end Sample

/-- C123_lazy. -/
example : ∃ got', Reads refDeps (withBody [.data Sample.fwdLazy] b!"q") got' .closed ∧ All2 (fun a e => a.1 = e.1 ∧ DataOk (dashes ++ b!"q") [.data Sample.fwdLazy] e.2 a.2) got'
    [(Sample.fh, b!"yo"), (⟨b!"a\"b", some b!"x y", some octetStream⟩, b!"hi")] := by
  obtain ⟨⟨got, h1, h2⟩, -⟩ := C123_proxy (evs := Sample.evsFwd) (evs' := Sample.fwdEvs) refDeps_sane refDeps_tokenizes refDeps_clean (by decide +kernel) Sample.fwd_parts (by decide +kernel)
    (by intro e; simp [Sample.evsFwd]) (.of_small (by decide +kernel)) Sample.fwd_all ⟨by simp, by decide⟩ Sample.fwd_room Sample.fwdSent_eq (by decide +kernel) (by decide +kernel) (by intro e; simp [Sample.fwdEvs])
    (.of_small (by decide +kernel))
  subst h2
  obtain ⟨got', fin', hr'⟩ := C10_reads_total (evs := [.data Sample.fwdLazy]) (b := b!"q") refDeps_sane ⟨[], rfl⟩
  obtain ⟨rfl, h⟩ := C123_lazy (ns := [7, 50, 300, 300]) refDeps_sane refDeps_tokenizes refDeps_clean (by decide +kernel) h1 Sample.fwd_all (by simp) ⟨by simp, by decide⟩ Sample.fwd_room Sample.fwdPrep_ok
    (by intro o ho evs hr; simp [Sample.fwdOps] at ho; rcases ho with rfl | rfl; · cases hr; intro e; simp
        · exact hr.elim) ⟨by decide, by decide +kernel, by rw [Ev.bytes, Ev.bytes, List.append_nil]; rfl⟩ (by decide +kernel) (by intro e; simp) hr'
  exact ⟨got', hr', h⟩

/-- C123_names, C123_forward and C123_proxy. -/
example : (∃ fh t, (withBody Sample.evsFwd Sample.bnd).readEntry refDeps = (.ok (some fh), t) ∧ CleanHeaders refDeps fh) ∧
    (∃ got, Reads refDeps (withBody Sample.evsFwd Sample.bnd) got .closed ∧ got = [(Sample.fhFwd, b!"hi"), (Sample.fh, b!"yo")]) ∧
    (∃ got', Reads refDeps (withBody Sample.fwdEvs b!"q") got' .closed ∧ got' = [(⟨b!"a\"b", some b!"x y", some octetStream⟩, b!"hi"), (Sample.fh, b!"yo")]) := by
  have h := C123_proxy (evs := Sample.evsFwd) (evs' := Sample.fwdEvs) refDeps_sane refDeps_tokenizes refDeps_clean (by decide +kernel) Sample.fwd_parts (by decide +kernel) (by intro e; simp [Sample.evsFwd])
    (.of_small (by decide +kernel)) Sample.fwd_all ⟨by simp, by decide⟩ Sample.fwd_room Sample.fwdSent_eq (by decide +kernel) (by decide +kernel) (by intro e; simp [Sample.fwdEvs]) (.of_small (by decide +kernel))
  obtain ⟨⟨got, h1, h2⟩, got', h3, h4⟩ := h
  subst h2
  have h5 := C123_forward (got' := got') refDeps_sane refDeps_tokenizes refDeps_clean (by decide +kernel) h1 Sample.fwd_all ⟨by simp, by decide⟩ Sample.fwd_room Sample.fwdSent_eq (evs' := Sample.fwdEvs)
    (by decide +kernel) (by decide +kernel) (by intro e; simp [Sample.fwdEvs]) h3
  refine ⟨?_, ⟨_, h1, rfl⟩, got', h3, h4⟩
  generalize hg : [(Sample.fhFwd, b!"hi"), (Sample.fh, b!"yo")] = g at h1
  cases h1 with
  | close => cases hg
  | entry hc _ _ => exact ⟨_, _, hc, C123_names (evs := Sample.evsFwd) refDeps_sane refDeps_clean ⟨[], rfl⟩ hc⟩

end Multipart

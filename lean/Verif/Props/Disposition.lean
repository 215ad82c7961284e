import Verif.Props.Headers
/-!
# What the headers of a field say, exactly

Modelled: /repo/src/server/field.rs:135-212, 347-381.
-/
namespace Multipart

variable {D : Deps} {fh : FieldHeaders}

theorem dropWhile_replicate (c : Byte) : ∀ (m : Nat) (xs : Bytes), xs.head? ≠ some c → (List.replicate m c ++ xs).dropWhile (· = c) = xs
  | 0, [], _ => rfl
  | 0, x :: xs, h => by
    have : x ≠ c := fun e => h (by rw [e]; rfl)
    simp [this]
  | m + 1, xs, h => by
    rw [List.replicate_succ, List.cons_append, List.dropWhile_cons_of_pos (by simp)]
    exact dropWhile_replicate c m xs h

theorem takeWhile_is_replicate (c : Byte) : ∀ (xs : Bytes), ∃ m, xs = List.replicate m c ++ xs.dropWhile (· = c)
  | [] => ⟨0, rfl⟩
  | x :: xs => by
    by_cases h : x = c
    · obtain ⟨m, hm⟩ := takeWhile_is_replicate c xs
      refine ⟨m + 1, ?_⟩
      rw [List.dropWhile_cons_of_pos (by simpa using h), List.replicate_succ, List.cons_append, ← hm, h]
    · exact ⟨0, by rw [List.dropWhile_cons_of_neg (by simpa using h)]; rfl⟩

theorem dropWhile_head (c : Byte) : ∀ (xs : Bytes), (xs.dropWhile (· = c)).head? ≠ some c
  | [] => by simp
  | x :: xs => by
    by_cases h : x = c
    · rw [List.dropWhile_cons_of_pos (by simpa using h)]; exact dropWhile_head c xs
    · rw [List.dropWhile_cons_of_neg (by simpa using h)]; simpa using h

theorem unquoted_iff {raw v : Bytes} : Unquoted raw v ↔ trimQuotes raw = v := by
  unfold Unquoted trimQuotes
  constructor
  · rintro ⟨m, n, e, h1, h2⟩
    by_cases hv : v = []
    · subst hv
      have e' : raw = List.replicate (m + n) 0x22 ++ [] := by rw [e, List.append_nil, List.append_nil, List.replicate_append_replicate]
      rw [e', dropWhile_replicate _ _ _ (by simp)]
      rfl
    · rw [e, List.append_assoc, dropWhile_replicate _ _ _ (by
        cases v with
        | nil => exact absurd rfl hv
        | cons x xs => simpa using h1)]
      rw [List.reverse_append, List.reverse_replicate, dropWhile_replicate _ _ _ (by rw [List.head?_reverse]; exact h2), List.reverse_reverse]
  · intro e
    obtain ⟨m, hm⟩ := takeWhile_is_replicate 0x22 raw
    obtain ⟨n, hn⟩ := takeWhile_is_replicate 0x22 (raw.dropWhile (· = 0x22)).reverse
    have hn' := congrArg List.reverse hn
    rw [List.reverse_reverse, List.reverse_append, List.reverse_replicate, e] at hn'
    refine ⟨m, n, by rw [List.append_assoc, ← hn']; exact hm, ?_, ?_⟩
    · intro hh
      have := dropWhile_head 0x22 raw
      rw [hn', List.head?_append, hh] at this
      exact this rfl
    · rw [← e, List.getLast?_reverse]; exact dropWhile_head _ _

theorem paramText_iff {key hay raw rest : Bytes} (hk : key ≠ []) : ParamText key hay raw rest ↔ getStrAfter key 0x3B hay = some (raw, rest) := by
  constructor
  · rintro ⟨A, e, h1, h2, h3⟩
    rw [e] at h1 ⊢
    exact getStrAfter_eq h1 h2 h3
  · intro h
    unfold getStrAfter at h
    cases hi : findSub key hay with
    | none => rw [hi] at h; simp at h
    | some i =>
      rw [hi] at h
      have hf := findSub_eq_some_iff.mp hi
      obtain ⟨X, hX⟩ := hf.1
      have hi' : i < hay.length := by
        have := congrArg List.length hX
        have hk' := List.length_pos_iff.mpr hk
        simp only [List.length_append, List.length_drop] at this
        omega
      have hlen : (hay.take i).length = i := by rw [List.length_take]; omega
      have hd : hay.drop (i + key.length) = X := by rw [← List.drop_drop, ← hX, List.drop_left]
      have hay' : hay = hay.take i ++ key ++ X := by rw [List.append_assoc, hX, List.take_append_drop]
      have hXl : hay.length = i + key.length + X.length := by rw [hay']; simp [hlen]; omega
      simp only [hd] at h
      cases hj : findByte 0x3B X with
      | none =>
        rw [hj] at h
        simp only [Option.some.injEq, Prod.mk.injEq, List.drop_length] at h
        have e : X.take (hay.length - (i + key.length)) = X := List.take_of_length_le (by omega)
        rw [e] at h
        obtain ⟨rfl, rfl⟩ := h
        exact ⟨hay.take i, by rw [List.append_nil]; exact hay', by rw [hlen]; exact hf, findByte_absent.mp hj, .inl rfl⟩
      | some j =>
        rw [hj] at h
        simp only [Option.some.injEq, Prod.mk.injEq] at h
        have e1 : j + (i + key.length) - (i + key.length) = j := by omega
        have e2 : hay.drop (j + (i + key.length)) = X.drop j := by rw [← hd, List.drop_drop, Nat.add_comm]
        rw [e1, e2] at h
        obtain ⟨rfl, rfl⟩ := h
        obtain ⟨g1, g2⟩ := findByte_cut hj
        exact ⟨hay.take i, by rw [List.append_assoc _ (X.take j), List.take_append_drop]; exact hay', by rw [hlen]; exact hf, g1, .inr (by rw [g2]; rfl)⟩

theorem says_iff {hs : List Header} {cd : Header} {n : Bytes} {f : Option Bytes} (hf : FirstHeader hs b!"Content-Disposition" cd) :
    Says cd.val n f ↔ ContentDisp.parseRequired hs = .ok { fieldName := n, filename := f } := by
  have hfil : ∀ T : Bytes, (match f with
      | none => Absent b!"filename=" T
      | some f => ∃ raw' rest', ParamText b!"filename=" T raw' rest' ∧ Unquoted raw' f) ↔
      (getStrAfter b!"filename=" 0x3B T).map (fun p => trimQuotes p.1) = f := by
    intro T
    cases f with
    | none => simp only [Option.map_eq_none_iff]; exact getStrAfter_none.symm
    | some f =>
      simp only [Option.map_eq_some_iff, Prod.exists]
      constructor
      · rintro ⟨r, t, h1, h2⟩; exact ⟨r, t, (paramText_iff (by decide)).mp h1, unquoted_iff.mp h2⟩
      · rintro ⟨r, t, h1, h2⟩; exact ⟨r, t, (paramText_iff (by decide)).mpr h1, unquoted_iff.mpr h2⟩
  unfold ContentDisp.parseRequired
  rw [(findHeader_some_iff _ _ _).mpr hf]
  simp only
  unfold splitOnce Says
  constructor
  · rintro ⟨w1, w2, A, raw, rest, e, g1, g2, g3, g4, g5⟩
    have hno : (0x3B : Byte) ∉ w1 ++ b!"form-data" ++ w2 := by
      simp only [List.mem_append, not_or]
      exact ⟨⟨g1.noSemi, by decide⟩, g2.noSemi⟩
    rw [e, findByte_append hno]
    simp only [Option.map_some, List.take_left' rfl, List.drop_left' rfl]
    rw [if_neg (by rw [trimWs_formData_iff.mpr ⟨w1, w2, g1, g2, rfl⟩]; simp), (paramText_iff (by decide)).mp g3]
    simp only [unquoted_iff.mp g4, (hfil rest).mp g5]
  · intro h
    cases hs1 : findByte 0x3B cd.val with
    | none => rw [hs1] at h; simp at h
    | some i =>
      obtain ⟨h1, h2⟩ := findByte_cut hs1
      have hv : cd.val = cd.val.take i ++ 0x3B :: cd.val.drop (i + 1) := by rw [← h2, List.take_append_drop]
      rw [hs1] at h
      simp only [Option.map_some] at h
      by_cases ht : trimWs (cd.val.take i) = b!"form-data"
      · rw [if_neg (by simp [ht])] at h
        cases hn : getStrAfter b!"name=" 0x3B (cd.val.drop i) with
        | none => rw [hn] at h; simp at h
        | some p =>
          obtain ⟨raw, rest⟩ := p
          rw [hn] at h
          simp only [Except.ok.injEq, ContentDisp.mk.injEq] at h
          obtain ⟨w1, w2, g1, g2, e⟩ := trimWs_formData_iff.mp ht
          exact ⟨w1, w2, _, raw, rest, by rw [← e]; exact hv, g1, g2, (paramText_iff (by decide)).mpr (by rw [← h2]; exact hn), unquoted_iff.mpr h.1, (hfil rest).mpr h.2⟩
      · rw [if_pos ht] at h; simp at h

/-- C18, exactly: for every list of headers, which name, filename and content type are reported. The name is what stands between the first `name=` and the next `;`,
whatever those are part of, without the double quotes at its ends; the filename is the same for the first `filename=` behind that. -/
theorem C18_exact (hs : List Header) :
    FieldHeaders.parse D hs = .ok fh ↔
      (∃ cd, FirstHeader hs b!"Content-Disposition" cd ∧ Says cd.val fh.name fh.filename) ∧
      (match fh.contentType with
        | none => ∀ x ∈ hs, ¬ SameName x.name b!"Content-Type"
        | some m => ∃ ct, FirstHeader hs b!"Content-Type" ct ∧ D.parseMime ct.val = some m) := by
  have hct : ∀ m, parseContentType D hs = .ok m ↔ (match m with
        | none => ∀ x ∈ hs, ¬ SameName x.name b!"Content-Type"
        | some m => ∃ ct, FirstHeader hs b!"Content-Type" ct ∧ D.parseMime ct.val = some m) := by
    intro m
    unfold parseContentType
    cases hx : findHeader hs b!"Content-Type" with
    | none =>
      have := (findHeader_none_iff _ _).mp hx
      cases m with
      | none => simpa using this
      | some m =>
        simp only [Except.ok.injEq, reduceCtorEq, false_iff]
        rintro ⟨ct, h1, _⟩
        rw [(findHeader_some_iff _ _ _).mpr h1] at hx; simp at hx
    | some x =>
      have hfx := (findHeader_some_iff _ _ _).mp hx
      simp only
      have huniq : ∀ ct, FirstHeader hs b!"Content-Type" ct → ct = x := by
        intro ct h
        rw [(findHeader_some_iff _ _ _).mpr h] at hx; simpa using hx
      cases m with
      | none =>
        have : ¬ ∀ x ∈ hs, ¬ SameName x.name b!"Content-Type" := fun h => by
          rw [(findHeader_none_iff _ _).mpr h] at hx; simp at hx
        simp only [this, iff_false]
        cases D.parseMime x.val <;> simp
      | some m =>
        constructor
        · intro h
          refine ⟨x, hfx, ?_⟩
          cases hp : D.parseMime x.val with
          | none => rw [hp] at h; simp at h
          | some m' => rw [hp] at h; simp at h; rw [h]
        · rintro ⟨ct, h1, h2⟩
          rw [huniq ct h1] at h2
          rw [h2]
  rw [← hct]
  constructor
  · intro h
    unfold FieldHeaders.parse at h
    cases hp : ContentDisp.parseRequired hs with
    | error e => rw [hp] at h; simp at h
    | ok c =>
      rw [hp] at h
      simp only at h
      cases hq : parseContentType D hs with
      | error e => rw [hq] at h; simp at h
      | ok m =>
        rw [hq] at h
        simp only [Except.ok.injEq] at h
        subst h
        refine ⟨?_, rfl⟩
        cases hcd : findHeader hs b!"Content-Disposition" with
        | none => rw [ContentDisp.parseRequired, hcd] at hp; simp at hp
        | some cd =>
          have hfirst := (findHeader_some_iff _ _ _).mp hcd
          exact ⟨cd, hfirst, (says_iff hfirst).mpr hp⟩
  · rintro ⟨⟨cd, h1, h2⟩, h3⟩
    unfold FieldHeaders.parse
    rw [(says_iff h1).mp h2]
    simp only [h3]

example : Says b!" form-data; name=\"a;b\"" b!"a" none ∧ Says b!"form-data; filename=\"f\"; name=n" b!"f" none ∧
    Says b!"form-data; name=\"\"n\"; filename=\"f" b!"n" (some b!"f") := by
  have h : ∀ (v n : Bytes) (f : Option Bytes), ContentDisp.parseRequired [{ name := b!"Content-Disposition", val := v }] = .ok { fieldName := n, filename := f } → Says v n f :=
    fun v n f h => (says_iff (cd := { name := b!"Content-Disposition", val := v }) ((findHeader_some_iff _ _ _).mp rfl)).mpr h
  exact ⟨h _ _ _ (by decide +kernel), h _ _ _ (by decide +kernel), h _ _ _ (by decide +kernel)⟩

/-- C18, when it holds: a quoted name as every client writes it is reported as it is iff it has no `;` in it and no double quote at either end. -/
theorem C18_when (n : Bytes) :
    ∃ fh, FieldHeaders.parse D [{ name := b!"Content-Disposition", val := b!"form-data; name=\"" ++ n ++ b!"\"" }] = .ok fh ∧ (fh.name = n ↔ Plain n) := by
  have hf : FirstHeader [{ name := b!"Content-Disposition", val := b!"form-data; name=\"" ++ n ++ b!"\"" }] b!"Content-Disposition"
      { name := b!"Content-Disposition", val := b!"form-data; name=\"" ++ n ++ b!"\"" } := (findHeader_some_iff _ _ _).mp rfl
  have hct : ∀ ct, FirstHeader [{ name := b!"Content-Disposition", val := b!"form-data; name=\"" ++ n ++ b!"\"" }] b!"Content-Type" ct →
      ∃ m, D.parseMime ct.val = some m := by
    intro ct h
    have h' := (findHeader_some_iff _ _ _).mpr h
    have : findHeader [{ name := b!"Content-Disposition", val := b!"form-data; name=\"" ++ n ++ b!"\"" }] b!"Content-Type" = none := rfl
    rw [this] at h'; simp at h'
  have hgood : GoodDisposition (b!"form-data; name=\"" ++ n ++ b!"\"") := by
    refine ⟨[], [], b!" name=\"" ++ n ++ b!"\"", by simp, ⟨[], rfl, by simp⟩, ⟨[], rfl, by simp⟩, fun h => ?_⟩
    exact h 1 ⟨0x22 :: n ++ [0x22], by simp⟩
  obtain ⟨fh, hfh⟩ := ((C83_header_errors D _).2.2.2.1.mpr ⟨⟨_, hf, hgood⟩, hct⟩)
  refine ⟨fh, hfh, fun e => ?_, fun hn => ?_⟩
  · obtain ⟨⟨cd, h1, w1, w2, A, raw, rest, e1, _, _, ⟨_, _, _, h4, _⟩, ⟨k, l, e2, h5, h6⟩, _⟩, _⟩ := (C18_exact _).mp hfh
    rw [e] at e2 h5 h6
    exact ⟨fun hm => h4 (by rw [e2]; simp [hm]), h5, h6⟩
  · have hA : FirstAt b!"name=" ((0x3B :: b!" ") ++ b!"name=" ++ (0x22 :: n ++ [0x22]) ++ []) (0x3B :: b!" ").length := by
      refine ⟨⟨0x22 :: n ++ [0x22], by simp⟩, fun q hq => ?_⟩
      have : q = 0 ∨ q = 1 := by simp at hq; omega
      rcases this with rfl | rfl <;> simp [OccursAt]
    obtain ⟨fh', h1, h2, _⟩ := C18_params_partial (D := D) (w1 := []) (w2 := []) (A := b!" ") (n := n) (T := []) hf (by simp) ⟨[], rfl, by simp⟩ ⟨[], rfl, by simp⟩
      .quoted hn (.inl rfl) hA hct
    rw [hfh] at h1
    simp only [Except.ok.injEq] at h1
    rw [h1]; exact h2

example : Plain b!"a \"quoted\" name" ∧ ¬ Plain b!"a;b" :=
  ⟨⟨by decide, by decide, by decide⟩, fun h => h.semi (by decide)⟩

end Multipart

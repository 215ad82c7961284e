import Verif.Spec.Owned
import Verif.Props.Requests
/-!
# C81, C82: reading fields to their end, and the owned entry API
-/
namespace Multipart
variable {D : Deps} {evs : List Ev} {b : Bytes} {s s0 t : BR} {sz : Nat → Nat}

/-! ## C81 -/

/-- One `read`: an error uses up a read of the stream; no bytes mean the end of the field. -/
theorem BR.read_cases (hi : s.Inv) (n : Nat) :
    (∃ e, s.read (n + 1) = (.err e, (s.read (n + 1)).2) ∧ Ev.err e ∈ s.evs ∧ Took s [] (s.read (n + 1)).2 ∧
      (s.read (n + 1)).2.unread.length + (s.read (n + 1)).2.evs.length < s.unread.length + s.evs.length) ∨
    (s.read (n + 1) = (.ok [], (s.read (n + 1)).2) ∧ TookAll s [] (s.read (n + 1)).2) ∨
    (∃ x xs, s.read (n + 1) = (.ok (x :: xs), (s.read (n + 1)).2) ∧ Took s (x :: xs) (s.read (n + 1)).2 ∧
      (s.read (n + 1)).2.unread.length + (s.read (n + 1)).2.evs.length < s.unread.length + s.evs.length) := by
  have hrun : ∀ r u, s.read (n + 1) = (r, u) → Took s (match r with | .ok b => b | _ => []) u := by
    intro r u h
    have := (Took.refl s).read (n + 1)
    rw [List.nil_append] at this
    simp only [BR.op, h] at this
    exact this
  have hprog := BR.read_progress (n := n + 1) hi (by omega)
  simp only [BR.op] at hprog
  have hai := s.afterRead_inv hi
  rcases BR.read_eq hi (n + 1) with ⟨e, h1, h2⟩ | ⟨h1, h2⟩
  · refine .inl ⟨e, by rw [h2], (fill_spec s.min s.evs s.buf).errmem _ h1, ?_, ?_⟩
    · have := hrun _ _ h2
      rw [h2]
      exact this
    · apply hprog
      intro h
      unfold BR.AtEof at h
      rcases BR.readToBoundary_eq hi with ⟨e', _, k⟩ | ⟨k, _⟩
      · rw [k] at h; simp at h
      · rw [h1] at k; simp at k
  · by_cases h0 : s.afterRead.idx = 0
    · refine .inr (.inl ?_)
      have hc : s.afterRead.consume (n + 1) = s.afterRead := by
        unfold BR.consume
        rw [h0]
        simp only [Nat.min_zero, List.drop_zero, Nat.sub_zero]
        rw [← h0]
      rw [h2, hc, h0]
      refine ⟨by simp, ?_⟩
      rcases BR.readToBoundary_eq hi with ⟨e', k, _⟩ | ⟨_, k⟩
      · rw [h1] at k; simp at k
      · refine TookAll.of (.refl s) ?_ (by rw [k])
        unfold BR.AtEof
        rw [k, h0]
        simp
    · refine .inr (.inr ?_)
      have hne : s.afterRead.buf.take (Nat.min (n + 1) s.afterRead.idx) ≠ [] := by
        intro h
        have := congrArg List.length h
        rw [List.length_take, Nat.min_eq_left (Nat.le_trans (Nat.min_le_right _ _) hai.idx_le)] at this
        have : 0 < Nat.min (n + 1) s.afterRead.idx := Nat.lt_min.mpr ⟨by omega, by omega⟩
        simp at *
        omega
      have hnot : ¬ s.AtEof := by
        intro h
        unfold BR.AtEof at h
        rcases BR.readToBoundary_eq hi with ⟨e', k, _⟩ | ⟨_, k⟩
        · rw [h1] at k; simp at k
        · rw [k] at h
          simp only [Res.ok.injEq] at h
          have := congrArg List.length h
          rw [List.length_take, Nat.min_eq_left hai.idx_le] at this
          simp at this
          omega
      have hp := hprog hnot
      generalize s.afterRead.buf.take (Nat.min (n + 1) s.afterRead.idx) = y at hne h2
      cases y with
      | nil => exact absurd rfl hne
      | cons x xs =>
        have := hrun _ _ h2
        rw [h2] at hp ⊢
        exact ⟨x, xs, rfl, this, hp⟩

/-- The three outcomes of `read_to_end`. -/
theorem BR.readToEndLoop_spec (sz : Nat → Nat) : ∀ (n i : Nat) (acc : Bytes) {s s0 : BR}, s0.Inv → Took s0 acc s → s.unread.length + s.evs.length < n →
    ∃ r x t, BR.readToEndLoop sz n i acc s = (r, x, t) ∧
      ((r = .ok () ∧ TookAll s0 x t) ∨ (∃ e, r = .err e ∧ Took s0 x t ∧ Ev.err e ∈ s0.evs ∧ e ≠ .interrupted)) := by
  intro n
  induction n with
  | zero => intro i acc s s0 _ _ h; omega
  | succ n ih =>
    intro i acc s s0 hi ht hn
    have hsi := ht.inv hi
    unfold BR.readToEndLoop
    rcases BR.read_cases hsi (sz i) with ⟨e, h1, h2, h3, h4⟩ | ⟨h1, h2⟩ | ⟨x, xs, h1, h2, h3⟩
    · rw [h1]
      have h3 := ht.trans h3
      rw [List.append_nil] at h3
      cases e with
      | interrupted => exact ih (i + 1) acc hi h3 (by omega)
      | _ => exact ⟨_, _, _, rfl, .inr ⟨_, rfl, h3, (ht.evs hi).subset h2, by simp⟩⟩
    · rw [h1]
      have h2 := TookAll.after ht h2
      rw [List.append_nil] at h2
      exact ⟨_, _, _, rfl, .inl ⟨rfl, h2⟩⟩
    · rw [h1]
      exact ih (i + 1) _ hi (ht.trans h2) (by omega)

theorem BR.readToEnd_spec (sz : Nat → Nat) (hi : s.Inv) : ∃ r x t, s.readToEnd sz = (r, x, t) ∧
    ((r = .ok () ∧ TookAll s x t) ∨ (∃ e, r = .err e ∧ Took s x t ∧ Ev.err e ∈ s.evs ∧ e ≠ .interrupted)) :=
  BR.readToEndLoop_spec sz _ 0 [] hi (.refl s) (by rw [BR.pending_eq]; omega)

theorem C81_field_data {fh : FieldHeaders} {dat x : Bytes} (hD : D.Sane) (hn : NoStall evs) (hr : Reachable D evs b s0)
    (hen : s0.readEntry D = (.ok (some fh), s)) (hd : FieldData (dashes ++ b) s.unread dat) (ht : Took s x t) (heof : t.AtEof) :
    SavedOk (dashes ++ b) evs dat x := ht.savedOk hD hn hr hen hd heof

/-- C81: `read_to_end` on the data of a field, whatever buffers it uses, returns: `Ok` with exactly the data (up to the CRLF of C01), interruptions being
retried; or an error of the stream other than an interruption, and then what it has read so far is not lost: it and what is still unread are what
was unread before. -/
theorem C81_read_to_end {fh : FieldHeaders} {dat : Bytes} (hD : D.Sane) (hn : NoStall evs) (hr : Reachable D evs b s0)
    (hen : s0.readEntry D = (.ok (some fh), s)) (hd : FieldData (dashes ++ b) s.unread dat) (sz : Nat → Nat) :
    ∃ r x t, s.readToEnd sz = (r, x, t) ∧ s.unread = x ++ t.unread ∧ Reachable D evs b t ∧
      ((r = .ok () ∧ SavedOk (dashes ++ b) evs dat x ∧ t.AtEof) ∨ (∃ e, r = .err e ∧ Ev.err e ∈ evs ∧ e ≠ .interrupted)) := by
  have hrs := hr.entry hen
  obtain ⟨hi, -, -, hev⟩ := hrs.spec hD
  obtain ⟨r, x, t, h1, h2⟩ := BR.readToEnd_spec sz hi
  refine ⟨r, x, t, h1, ?_⟩
  rcases h2 with ⟨rfl, h2⟩ | ⟨e, rfl, h2, h3, h4⟩
  · obtain ⟨h3, h4⟩ := h2.eof hi (hn.suffix hev)
    exact ⟨h2.1.unread hi, h2.1.reachable hrs, .inl ⟨rfl, C81_field_data hD hn hr hen hd h3 h4, h4⟩⟩
  · exact ⟨h2.unread hi, h2.reachable hrs, .inr ⟨e, rfl, hev.subset h3, h4⟩⟩

/-- C81: `read_to_string` returns the same bytes if they are UTF-8, and `InvalidData` if they are not. -/
theorem C81_read_to_string (hD : D.Sane) (hr : Reachable D evs b s) (sz : Nat → Nat) :
    (∀ x t, s.readToString sz = (.ok x, t) ↔ s.readToEnd sz = (.ok (), x, t) ∧ IsUtf8 x) ∧
    (∀ x t, s.readToEnd sz = (.ok (), x, t) → ¬ IsUtf8 x → s.readToString sz = (.err .invalidData, t)) ∧
    (∀ e x t, s.readToEnd sz = (.err e, x, t) → s.readToString sz = (.err e, t)) := by
  have := (hr.spec hD).1
  unfold BR.readToString
  rcases s.readToEnd sz with ⟨r, y, u⟩
  refine ⟨fun x t => ?_, fun x t h hu => ?_, fun e x t h => ?_⟩
  · cases r with
    | ok o =>
      simp only
      by_cases hu : utf8Valid y
      · rw [if_pos hu]
        constructor
        · rintro h; simp only [Prod.mk.injEq, Res.ok.injEq] at h; obtain ⟨rfl, rfl⟩ := h; exact ⟨rfl, (utf8Valid_iff _).mp hu⟩
        · rintro ⟨h, -⟩; simp only [Prod.mk.injEq] at h; rw [h.2.1, h.2.2]
      · rw [if_neg hu]
        constructor
        · rintro h; simp at h
        · rintro ⟨h, h'⟩; simp only [Prod.mk.injEq] at h; rw [h.2.1] at hu; exact absurd ((utf8Valid_iff _).mpr h') hu
    | err e => simp
    | panic => simp
    | hang => simp
  · simp only [Prod.mk.injEq] at h
    obtain ⟨rfl, rfl, rfl⟩ := h
    simp only
    rw [if_neg (fun h' => hu ((utf8Valid_iff _).mp h'))]
  · simp only [Prod.mk.injEq] at h
    obtain ⟨rfl, rfl, rfl⟩ := h
    rfl

/-- C81 for streams whose reads fail by interruptions only: always `Ok`. -/
theorem C81_succeeds (hD : D.Sane) (hr : Reachable D evs b s) (he : OnlyInterrupted evs) (sz : Nat → Nat) : (s.readToEnd sz).1 = .ok () := by
  obtain ⟨hi, -, -, hev⟩ := hr.spec hD
  obtain ⟨r, x, t, h1, h2⟩ := BR.readToEnd_spec sz hi
  rw [h1]
  rcases h2 with ⟨rfl, -⟩ | ⟨e, rfl, -, h3, h4⟩
  · rfl
  · exact absurd (he _ (hev.subset h3)) h4

/-- The hypotheses of C81_field_data, C81_read_to_end and C81_read_to_string are met. -/
example : (Sample.s1.readToEnd (fun i => i + 1)).1 = .ok () ∧ (Sample.s1.readToEnd (fun i => i + 1)).2.1 = b!"hello" ∧
    (Sample.s1.readToString (fun _ => 31)).1 = .ok b!"hello" ∧ Reachable refDeps Sample.evs Sample.bnd Sample.s1 ∧
    FieldData (dashes ++ Sample.bnd) Sample.s1.unread b!"hello" :=
  ⟨by decide +kernel, by decide +kernel, by decide +kernel, Reachable.entry ⟨[], rfl⟩ Sample.entry1, .crlf (by decide +kernel) ⟨b!"--b--\r\nepi", by decide +kernel⟩⟩

/-! ## C82 -/

/-- C82: `into_entry` and `next_entry` (after any calls on the field) find what `read_entry` finds; the reader they hand over or back is one that can be used
further, and behind the end there stays the end. They never panic. -/
theorem C82_next_entry (hD : D.Sane) (hr : Reachable D evs b s) (fh : FieldHeaders) (os : List FieldOp) :
    (∃ fh' t, (s.run os).2.readEntry D = (.ok (some fh'), t) ∧ EntryHandle.nextEntry D ⟨fh, some (s.run os).2⟩ = .entry ⟨fh', some t⟩ ∧ Reachable D evs b t) ∨
    (∃ t, (s.run os).2.readEntry D = (.ok none, t) ∧ EntryHandle.nextEntry D ⟨fh, some (s.run os).2⟩ = .fin t ∧ Reachable D evs b t ∧
      ∃ u, t.intoEntry D = .fin u) ∨
    (∃ e t, (s.run os).2.readEntry D = (.err e, t) ∧ EntryHandle.nextEntry D ⟨fh, some (s.run os).2⟩ = .error t e ∧ Reachable D evs b t) := by
  have hr' := hr.run os
  have hnp := BR.readEntry_noPanic hD (hr'.spec hD).1
  have hfin := fun t h => C08_end_final (t := t) hD hr' h []
  simp only [EntryHandle.nextEntry, BR.intoEntry]
  generalize hu : (s.run os).2 = u at *
  rcases hre : u.readEntry D with ⟨r, t⟩
  rw [hre] at hnp
  have ht := hr'.entry hre
  cases r with
  | ok o =>
    cases o with
    | none =>
      refine .inr (.inl ⟨t, rfl, rfl, ht, ?_⟩)
      have h := (hfin t hre).1
      simp only [BR.session] at h
      rcases h2 : t.readEntry D with ⟨r, v⟩
      rw [h2] at h
      simp only at h
      subst h
      exact ⟨v, rfl⟩
    | some fh' => exact .inl ⟨fh', t, rfl, rfl, ht⟩
  | err e => exact .inr (.inr ⟨e, t, rfl, rfl, ht⟩)
  | panic => exact absurd rfl hnp.1
  | hang => exact absurd rfl hnp.2

/-- C82: the conversions of the result lose the reader, nothing else; `unwrap` panics exactly without an entry, `unwrap_opt` exactly for an error. -/
theorem C82_conversions (hD : D.Sane) (hr : Reachable D evs b s) :
    ((s.intoEntry D).intoResult = match (s.readEntry D).1 with
      | .ok (some fh) => .ok (some ⟨fh, some (s.readEntry D).2⟩) | .ok none => .ok none | .err e => .err e | .panic => .panic | .hang => .hang) ∧
    (∀ h, (s.intoEntry D).unwrap = .ok h ↔ (s.intoEntry D).intoResult = .ok (some h)) ∧
    ((s.intoEntry D).unwrap = .panic ↔ ∀ h, (s.intoEntry D).intoResult ≠ .ok (some h)) ∧
    (∀ o, (s.intoEntry D).unwrapOpt = .ok o ↔ (s.intoEntry D).intoResult = .ok o) ∧
    ((s.intoEntry D).unwrapOpt = .panic ↔ ∃ e, (s.intoEntry D).intoResult = .err e) := by
  have hnp := BR.readEntry_noPanic hD (hr.spec hD).1
  simp only [BR.intoEntry]
  rcases hre : s.readEntry D with ⟨r, t⟩
  rw [hre] at hnp
  cases r with
  | ok o => cases o <;> simp [Owned.intoResult, Owned.unwrap, Owned.unwrapOpt]
  | err e => simp [Owned.intoResult, Owned.unwrap, Owned.unwrapOpt]
  | panic => exact absurd rfl hnp.1
  | hang => exact absurd rfl hnp.2

theorem OwnedReads.reads {sz : BR → Nat → Nat} (hD : D.Sane) (hn : NoStall evs) (hne : NoErr evs) {o : Owned} {got : List (FieldHeaders × Bytes)} {fin : Ending} (h : OwnedReads D sz o got fin) :
    ∀ {s : BR}, Reachable D evs b s → s.intoEntry D = o → Reads D s got fin := by
  induction h with
  | @fin m =>
    intro s hr ho
    unfold BR.intoEntry at ho
    rcases hre : s.readEntry D with ⟨r, t⟩
    rw [hre] at ho
    rcases r with (_ | _) | _ | _ | _ <;> simp at ho
    exact .close hre
  | @error m e =>
    intro s hr ho
    unfold BR.intoEntry at ho
    rcases hre : s.readEntry D with ⟨r, t⟩
    rw [hre] at ho
    rcases r with (_ | _) | _ | _ | _ <;> simp at ho
    rw [ho.2] at hre
    exact .fail hre
  | @entry fh m t dat es fin h1 _ ih =>
    intro s hr ho
    unfold BR.intoEntry at ho
    rcases hre : s.readEntry D with ⟨r, u⟩
    rw [hre] at ho
    rcases r with (_ | _) | _ | _ | _ <;> simp at ho
    obtain ⟨rfl, rfl⟩ := ho
    have hru := hr.entry hre
    obtain ⟨hi, -, -, hev⟩ := hru.spec hD
    obtain ⟨r, x, t', k1, k2⟩ := BR.readToEnd_spec (sz u) hi
    rw [h1] at k1
    simp only [Prod.mk.injEq] at k1
    obtain ⟨rfl, rfl, rfl⟩ := k1
    rcases k2 with ⟨-, k2⟩ | ⟨e, k2, -⟩
    · obtain ⟨k0, k4⟩ := k2.eof hi (hn.suffix hev)
      obtain ⟨os, k3⟩ := k0.run hi
      have := Reads.entry (os := os) hre (by rw [k3]; exact k4) (by rw [k3]; exact ih (k2.1.reachable hru) rfl)
      rw [k3] at this
      exact this
    · simp at k2
  | @broken fh m t dat e h1 =>
    intro s hr ho
    exfalso
    unfold BR.intoEntry at ho
    rcases hre : s.readEntry D with ⟨r, u⟩
    rw [hre] at ho
    rcases r with (_ | _) | _ | _ | _ <;> simp at ho
    obtain ⟨rfl, rfl⟩ := ho
    obtain ⟨hi, -, -, hev⟩ := (hr.entry hre).spec hD
    obtain ⟨r, x, t', k1, k2⟩ := BR.readToEnd_spec (sz u) hi
    rw [h1] at k1
    simp only [Prod.mk.injEq] at k1
    obtain ⟨rfl, rfl, rfl⟩ := k1
    rcases k2 with ⟨k2, -⟩ | ⟨e, -, -, k3, -⟩
    · simp at k2
    · exact hne _ (hev.subset k3)

/-- C82: reading a body by the owned API, each field by `read_to_end`, gives exactly the parts of the body and their ending. -/
theorem C82_sees_parts {sz : BR → Nat → Nat} (hD : D.Sane) (hn : NoStall evs) (hne : NoErr evs) {es got : List (FieldHeaders × Bytes)} {fin fin' : Ending}
    (hP : Parts D (dashes ++ b) (Ev.bytes evs) es fin) (hR : OwnedReads D sz ((withBody evs b).intoEntry D) got fin') :
    fin' = fin ∧ All2 (fun a e => a.1 = e.1 ∧ DataOk (dashes ++ b) evs e.2 a.2) got es :=
  C10_entries_are_parts hD hn hne hP (hR.reads hD hn hne ⟨[], rfl⟩ rfl)

theorem ownedReads_total (hD : D.Sane) (sz : BR → Nat → Nat) : ∀ (n : Nat) {s : BR}, s.Inv → s.unread.length ≤ n → ∃ got fin, OwnedReads D sz (s.intoEntry D) got fin := by
  intro n
  induction n with
  | zero =>
    intro s hi hn
    have hnp := BR.readEntry_noPanic hD hi
    unfold BR.intoEntry
    rcases hre : s.readEntry D with ⟨r, t⟩
    rw [hre] at hnp
    rcases r with (_ | fh) | e | _ | _
    · exact ⟨_, _, .fin⟩
    · have := BR.readEntry_shrinks hD hi hre; omega
    · exact ⟨_, _, .error⟩
    · exact absurd rfl hnp.1
    · exact absurd rfl hnp.2
  | succ n ih =>
    intro s hi hn
    have hnp := BR.readEntry_noPanic hD hi
    have hti := BR.readEntry_inv hD hi
    unfold BR.intoEntry
    rcases hre : s.readEntry D with ⟨r, t⟩
    rw [hre] at hnp hti
    rcases r with (_ | fh) | e | _ | _
    · exact ⟨_, _, .fin⟩
    · have h1 := BR.readEntry_shrinks hD hi hre
      obtain ⟨r, x, u, k1, k2⟩ := BR.readToEnd_spec (sz t) hti
      rcases k2 with ⟨rfl, k2⟩ | ⟨e, rfl, -⟩
      · have h2 := congrArg List.length (k2.1.unread hti)
        rw [List.length_append] at h2
        simp only at hti h2
        obtain ⟨got, fin, h⟩ := ih (s := u) (k2.1.inv hti) (by omega)
        exact ⟨_, _, .entry k1 h⟩
      · exact ⟨_, _, .broken k1⟩
    · exact ⟨_, _, .error⟩
    · exact absurd rfl hnp.1
    · exact absurd rfl hnp.2

/-- There is always such a reading, whatever buffers `read_to_end` uses. -/
theorem C82_total (hD : D.Sane) (hr : Reachable D evs b s) (sz : BR → Nat → Nat) : ∃ got fin, OwnedReads D sz (s.intoEntry D) got fin :=
  ownedReads_total hD sz _ (hr.spec hD).1 (Nat.le_refl _)

/-- The hypotheses of C82_sees_parts are met. -/
example : let evs := [Ev.data (b!"--b\r\n" ++ Sample.hdr ++ b!"hel"), .data b!"lo\r\n--b--\r\n"]
    NoStall evs ∧ NoErr evs ∧ Parts refDeps (dashes ++ Sample.bnd) (Ev.bytes evs) [(Sample.fh, b!"hello")] .closed ∧
    ∃ got fin, OwnedReads refDeps (fun _ i => i) ((withBody evs Sample.bnd).intoEntry refDeps) got fin := by
  refine ⟨by decide +kernel, by intro e; simp, Sample.parts, C82_total (evs := _) (b := _) refDeps_sane ⟨[], rfl⟩ _⟩

/-- The hypotheses of C82_next_entry and C82_conversions (a reachable state) are met; a handle that is unwrapped, and one that panics. -/
example : ((withBody Sample.evs Sample.bnd).intoEntry refDeps).unwrap = .ok ⟨Sample.fh, some Sample.s1⟩ ∧ (Sample.s1.intoEntry refDeps).unwrap = .panic ∧
    (Sample.s1.intoEntry refDeps).unwrapOpt = .ok none := by
  refine ⟨?_, by decide +kernel, by decide +kernel⟩
  simp only [BR.intoEntry, Sample.entry1]
  rfl

end Multipart

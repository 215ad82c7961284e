import Verif.Lemmas.Leak
/-!
# What is done before the last reads of a stream are made does not depend on them
-/
namespace Multipart
variable {D : Deps} {s t : BR} {B B' : List Ev} {n m : Nat}

/-- The reader, with further reads of the stream. -/
def BR.cont (s : BR) (B : List Ev) : BR := { s with evs := s.evs ++ B }

/-- The same result, with the same state but for the reads that follow. -/
def Agree {α : Type} (B B' : List Ev) (x y : α × BR) : Prop := x.1 = y.1 ∧ ∃ u : BR, x.2 = u.cont B ∧ y.2 = u.cont B'

/-- None of `B` has been read. -/
def BR.Before (B : List Ev) (s : BR) : Prop := ∃ es, s.evs = es ++ B

theorem Agree.mk {α : Type} {r : α} {u : BR} : Agree B B' (r, u.cont B) (r, u.cont B') := ⟨rfl, u, rfl, rfl⟩

theorem BR.Before.of_suffix (h : t.Before B) (hs : t.evs <:+ s.evs) : s.Before B := by
  obtain ⟨es, h⟩ := h
  obtain ⟨l, hs⟩ := hs
  exact ⟨l ++ es, by rw [← hs, h, List.append_assoc]⟩

theorem fill_cont (hB : B ≠ []) (min : Nat) : ∀ (es : List Ev) (buf : Bytes), (∃ l, (fill min buf (es ++ B)).2.2 = l ++ B) →
    ∃ l, fill min buf (es ++ B) = ((fill min buf (es ++ B)).1, (fill min buf (es ++ B)).2.1, l ++ B) ∧
      fill min buf (es ++ B') = ((fill min buf (es ++ B)).1, (fill min buf (es ++ B)).2.1, l ++ B') := by
  intro es
  induction es with
  | nil =>
    intro buf ⟨l, hl⟩
    have hle := congrArg List.length hl
    simp only [List.nil_append, List.length_append] at hle
    by_cases h : min ≤ buf.length
    · have hf : ∀ C : List Ev, fill min buf C = (none, buf, C) := by
        intro C
        cases C with
        | nil => rfl
        | cons e r =>
          cases e with
          | data bs => cases bs <;> simp [fill, h]
          | err e => simp [fill, h]
      exact ⟨[], by simp [hf]⟩
    · exfalso
      cases B with
      | nil => exact hB rfl
      | cons e r =>
        cases e with
        | data bs =>
          cases bs with
          | nil => simp [fill, h] at hle; omega
          | cons x xs =>
            simp only [fill, if_neg h] at hle
            have := (fill_spec min r (buf ++ x :: xs)).suf.length_le
            simp only [List.length_cons] at hle
            omega
        | err e => simp [fill, h] at hle; omega
  | cons e es ih =>
    intro buf hl
    by_cases h : min ≤ buf.length
    · have hf : ∀ C : List Ev, fill min buf C = (none, buf, C) := by
        intro C
        cases C with
        | nil => rfl
        | cons e r =>
          cases e with
          | data bs => cases bs <;> simp [fill, h]
          | err e => simp [fill, h]
      exact ⟨e :: es, by simp [hf]⟩
    · cases e with
      | data bs =>
        cases bs with
        | nil => exact ⟨es, by simp [fill, h]⟩
        | cons x xs =>
          simp only [List.cons_append, fill, if_neg h] at hl ⊢
          exact ih _ hl
      | err e => exact ⟨es, by simp [fill, h]⟩

theorem BR.cont_search (s : BR) (B : List Ev) : (s.cont B).search = s.search.cont B := by
  unfold BR.search
  rw [show (s.cont B).buf = s.buf from rfl, show (s.cont B).idx = s.idx from rfl, show (s.cont B).delim = s.delim from rfl]
  split
  · split <;> rfl
  · rfl

theorem BR.cont_backUp (s : BR) (B : List Ev) : (s.cont B).backUp = s.backUp.cont B := by
  unfold BR.backUp
  rw [show (s.cont B).buf = s.buf from rfl, show (s.cont B).idx = s.idx from rfl]
  split
  · split <;> rfl
  · rfl

theorem BR.cont_yielded (s : BR) (B : List Ev) : (s.cont B).yielded = (s.yielded.1, s.yielded.2.cont B) := by
  unfold BR.yielded
  rw [show (s.cont B).buf = s.buf from rfl, show (s.cont B).idx = s.idx from rfl]
  split <;> rfl

theorem BR.cont_consume (s : BR) (B : List Ev) (n : Nat) : (s.cont B).consume n = (s.consume n).cont B := rfl
theorem BR.cont_setMin (s : BR) (B : List Ev) (n : Nat) : (s.cont B).setMin n = (s.setMin n).cont B := rfl

/-- `read_to_boundary` makes the reads of a refill. -/
theorem BR.readToBoundary_evs (s : BR) : s.readToBoundary.2.evs = (fill s.min s.buf s.evs).2.2 := by
  unfold BR.readToBoundary
  generalize fill s.min s.buf s.evs = f
  obtain ⟨f1, buf, evs⟩ := f
  cases f1 with
  | some e => rfl
  | none =>
    have hy : ∀ s : BR, s.yielded.2 = s := by intro s; unfold BR.yielded; split <;> rfl
    have hs := BR.search_frame { s with buf := buf, evs := evs }
    simp only
    split
    · rw [hy]
    · split
      · exact hs.2.1
      · rw [hy, (BR.backUp_spec _).2.1]; exact hs.2.1

theorem BR.readToBoundary_cont (hB : B ≠ []) (hu : (s.cont B).readToBoundary.2.Before B) : Agree B B' (s.cont B).readToBoundary (s.cont B').readToBoundary := by
  unfold BR.Before at hu
  rw [BR.readToBoundary_evs] at hu
  obtain ⟨l, h1, h2⟩ := fill_cont (B' := B') hB s.min s.evs s.buf hu
  unfold BR.readToBoundary
  rw [show (s.cont B).min = s.min from rfl, show (s.cont B).buf = s.buf from rfl, show (s.cont B).evs = s.evs ++ B from rfl,
    show (s.cont B').min = s.min from rfl, show (s.cont B').buf = s.buf from rfl, show (s.cont B').evs = s.evs ++ B' from rfl, h2]
  generalize fill s.min s.buf (s.evs ++ B) = f at h1
  obtain ⟨f1, buf, evs⟩ := f
  simp only [Prod.mk.injEq] at h1
  obtain ⟨-, -, rfl⟩ := h1
  cases f1 with
  | some e => exact .mk (u := { s with buf := buf, evs := l })
  | none =>
    suffices h : ∀ v : BR, Agree B B' (if (v.cont B).st = .boundaryRead ∨ (v.cont B).st = .atEnd then (v.cont B).yielded else if 2 ≤ (v.cont B).search.idx ∧ (v.cont B).search.buf.length < (v.cont B).search.idx then (.panic, (v.cont B).search) else (v.cont B).search.backUp.yielded)
        (if (v.cont B').st = .boundaryRead ∨ (v.cont B').st = .atEnd then (v.cont B').yielded else if 2 ≤ (v.cont B').search.idx ∧ (v.cont B').search.buf.length < (v.cont B').search.idx then (.panic, (v.cont B').search) else (v.cont B').search.backUp.yielded) from h { s with buf := buf, evs := l }
    intro v
    rw [show (v.cont B).st = v.st from rfl, show (v.cont B').st = v.st from rfl]
    split
    · rw [v.cont_yielded, v.cont_yielded]; exact .mk
    · rw [v.cont_search, v.cont_search]
      rw [show (v.search.cont B).idx = v.search.idx from rfl, show (v.search.cont B').idx = v.search.idx from rfl,
        show (v.search.cont B).buf = v.search.buf from rfl, show (v.search.cont B').buf = v.search.buf from rfl]
      split
      · exact .mk
      · rw [v.search.cont_backUp, v.search.cont_backUp, BR.cont_yielded, BR.cont_yielded]; exact .mk

theorem BR.searchLoop_evs : ∀ (n : Nat) (s : BR), (BR.searchLoop n s).2.evs <:+ s.evs := by
  intro n
  induction n with
  | zero => intro s; exact List.suffix_rfl
  | succ n ih =>
    intro s
    have hr : s.readToBoundary.2.evs <:+ s.evs := by rw [BR.readToBoundary_evs]; exact (fill_spec s.min s.evs s.buf).suf
    unfold BR.searchLoop
    split
    · generalize s.readToBoundary = r at hr ⊢
      obtain ⟨r, t⟩ := r
      cases r with
      | ok x =>
        simp only at hr ⊢
        split
        · exact hr
        · exact (ih _).trans hr
      | _ => exact hr
    · exact List.suffix_rfl

theorem BR.searchLoop_fuel : ∀ (n m : Nat) (s : BR), (BR.searchLoop n s).1 ≠ .hang → n ≤ m → BR.searchLoop m s = BR.searchLoop n s := by
  intro n
  induction n with
  | zero => intro m s h; exact absurd rfl h
  | succ n ih =>
    intro m s h hm
    obtain ⟨m, rfl⟩ : ∃ k, m = k + 1 := ⟨m - 1, by omega⟩
    unfold BR.searchLoop at h ⊢
    split
    · next hst =>
      rw [if_pos hst] at h
      generalize s.readToBoundary = r at h ⊢
      obtain ⟨r, t⟩ := r
      cases r with
      | ok x =>
        simp only at h ⊢
        split
        · rfl
        · next hz => rw [if_neg hz] at h; exact ih m _ h (by omega)
      | _ => rfl
    · rfl

theorem BR.searchLoop_cont (hB : B ≠ []) : ∀ (n : Nat) (s : BR), (BR.searchLoop n (s.cont B)).2.Before B → Agree B B' (BR.searchLoop n (s.cont B)) (BR.searchLoop n (s.cont B')) := by
  intro n
  induction n with
  | zero => intro s _; exact .mk
  | succ n ih =>
    intro s hu
    unfold BR.searchLoop at hu ⊢
    rw [show (s.cont B).st = s.st from rfl] at hu ⊢
    rw [show (s.cont B').st = s.st from rfl]
    split
    · next hst =>
      rw [if_pos hst] at hu
      have hb : (s.cont B).readToBoundary.2.Before B := by
        generalize (s.cont B).readToBoundary = r at hu ⊢
        obtain ⟨r, t⟩ := r
        cases r with
        | ok x =>
          simp only at hu ⊢
          split at hu
          · exact hu
          · exact hu.of_suffix (BR.searchLoop_evs _ _)
        | _ => exact hu
      have ha := BR.readToBoundary_cont (B' := B') hB hb
      generalize (s.cont B).readToBoundary = r at hu ha ⊢
      generalize (s.cont B').readToBoundary = r' at ha ⊢
      obtain ⟨r, t⟩ := r
      obtain ⟨r', t'⟩ := r'
      obtain ⟨h1, u, h2, h3⟩ := ha
      simp only at h1 h2 h3
      subst h1 h2 h3
      cases r with
      | ok x =>
        simp only at hu ⊢
        rw [show (u.cont B).st = u.st from rfl] at hu ⊢
        rw [show (u.cont B').st = u.st from rfl]
        split
        · exact .mk
        · next hz =>
          rw [if_neg hz] at hu
          exact ih (u.consume x.length) hu
      | _ => exact .mk
    · exact .mk

theorem BR.verifyBoundary_cont (hB : B ≠ []) (hu : (s.cont B).verifyBoundary.2.Before B) : Agree B B' (s.cont B).verifyBoundary (s.cont B').verifyBoundary := by
  unfold BR.Before at hu
  rw [(BR.verifyBoundary_frame _).2.1] at hu
  obtain ⟨l, h1, h2⟩ := fill_cont (B' := B') hB s.min s.evs s.buf hu
  unfold BR.verifyBoundary
  rw [show (s.cont B).min = s.min from rfl, show (s.cont B).buf = s.buf from rfl, show (s.cont B).evs = s.evs ++ B from rfl,
    show (s.cont B').min = s.min from rfl, show (s.cont B').buf = s.buf from rfl, show (s.cont B').evs = s.evs ++ B' from rfl, h2]
  generalize fill s.min s.buf (s.evs ++ B) = f at h1
  obtain ⟨f1, buf, evs⟩ := f
  simp only [Prod.mk.injEq] at h1
  obtain ⟨-, -, rfl⟩ := h1
  cases f1 with
  | some e => exact .mk (u := { s with buf := buf, evs := l })
  | none =>
    simp only
    rw [show (s.cont B).idx = s.idx from rfl, show (s.cont B).delim = s.delim from rfl, show (s.cont B').idx = s.idx from rfl, show (s.cont B').delim = s.delim from rfl]
    split
    · exact .mk (u := { s with buf := buf, evs := l })
    · generalize (if crlf.isPrefixOf (buf.drop s.idx) = true then 2 else 0) = pre
      split
      · exact .mk (u := { s with buf := buf, evs := l })
      · split
        · exact .mk (u := { s with buf := buf, evs := l })
        · split
          · exact .mk (u := { s with buf := _, evs := l, idx := 0, st := .searching })
          · split
            · exact .mk (u := { s with buf := _, evs := l, idx := 0, st := .atEnd })
            · exact .mk (u := { s with buf := buf, evs := l, st := .searching })

/-- With the fuel that is enough. -/
theorem BR.searchLoop_enough (hi : s.Inv) (h : s.pending + 2 ≤ n) : BR.searchLoop n s = BR.searchLoop (s.pending + 2) s := by
  refine BR.searchLoop_fuel _ _ _ ?_ h
  have := BR.searchLoop_spec (s.pending + 2) s hi (Nat.le_refl _)
  generalize BR.searchLoop (s.pending + 2) s = r at this ⊢
  obtain ⟨r, t⟩ := r
  cases this <;> simp

theorem BR.consumeBoundary_cont (hB : B ≠ []) (hi : (s.cont B).Inv) (hi' : (s.cont B').Inv) (hu : (s.cont B).consumeBoundary.2.Before B) :
    Agree B B' (s.cont B).consumeBoundary (s.cont B').consumeBoundary := by
  have hloop := BR.searchLoop_cont (B' := B') hB (Nat.max ((s.cont B).pending + 2) ((s.cont B').pending + 2)) s
  rw [BR.searchLoop_enough hi (Nat.le_max_left _ _), BR.searchLoop_enough hi' (Nat.le_max_right _ _)] at hloop
  unfold BR.consumeBoundary at hu ⊢
  rw [show (s.cont B).st = s.st from rfl] at hu ⊢
  rw [show (s.cont B').st = s.st from rfl]
  split
  · exact .mk
  · next hst =>
    rw [if_neg hst] at hu
    have hb : (BR.searchLoop ((s.cont B).pending + 2) (s.cont B)).2.Before B := by
      generalize BR.searchLoop ((s.cont B).pending + 2) (s.cont B) = r at hu ⊢
      obtain ⟨r, t⟩ := r
      cases r with
      | ok x => exact hu.of_suffix (by simp only; rw [t.verifyBoundary_frame.2.1]; exact (fill_spec t.min t.evs t.buf).suf)
      | _ => exact hu
    have ha := hloop hb
    generalize BR.searchLoop ((s.cont B).pending + 2) (s.cont B) = r at hu ha ⊢
    generalize BR.searchLoop ((s.cont B').pending + 2) (s.cont B') = r' at ha ⊢
    obtain ⟨r, t⟩ := r
    obtain ⟨r', t'⟩ := r'
    obtain ⟨h1, u, h2, h3⟩ := ha
    simp only at h1 h2 h3
    subst h1 h2 h3
    cases r with
    | ok x => exact BR.verifyBoundary_cont hB hu
    | _ => exact .mk

theorem withHeadersLoop_evs : ∀ (n last : Nat) (s : BR), (withHeadersLoop D n last s).2.evs <:+ s.evs := by
  intro n
  induction n with
  | zero => intro _ s; exact List.suffix_rfl
  | succ n ih =>
    intro last s
    have hr : s.readToBoundary.2.evs <:+ s.evs := by rw [BR.readToBoundary_evs]; exact (fill_spec s.min s.evs s.buf).suf
    unfold withHeadersLoop
    generalize s.readToBoundary = r at hr ⊢
    obtain ⟨r, t⟩ := r
    cases r with
    | ok x =>
      simp only at hr ⊢
      split
      · exact hr
      · split
        · exact hr
        · exact (ih _ _).trans hr
        · split <;> exact hr
    | _ => exact hr

theorem withHeadersLoop_fuel : ∀ (n m last : Nat) (s : BR), (withHeadersLoop D n last s).1 ≠ .hang → n ≤ m → withHeadersLoop D m last s = withHeadersLoop D n last s := by
  intro n
  induction n with
  | zero => intro m last s h; exact absurd rfl h
  | succ n ih =>
    intro m last s h hm
    obtain ⟨m, rfl⟩ : ∃ k, m = k + 1 := ⟨m - 1, by omega⟩
    unfold withHeadersLoop at h ⊢
    generalize s.readToBoundary = r at h ⊢
    obtain ⟨r, t⟩ := r
    cases r with
    | ok x =>
      simp only at h ⊢
      split
      · rfl
      · next hl =>
        rw [if_neg hl] at h
        split
        · rfl
        · next hp => rw [hp] at h; exact ih m _ _ h (by omega)
        · rfl
    | _ => rfl

theorem withHeadersLoop_enough (hD : D.Sane) (hi : s.Inv) (h : s.evs.length + 2 ≤ n) : withHeadersLoop D n 0 s = withHeadersLoop D (s.evs.length + 2) 0 s := by
  refine withHeadersLoop_fuel _ _ _ _ ?_ h
  have := withHeadersLoop_spec hD (s.evs.length + 2) 0 s hi (.inl (Nat.le_refl _))
  generalize withHeadersLoop D (s.evs.length + 2) 0 s = r at this ⊢
  obtain ⟨r, t⟩ := r
  cases this <;> simp

theorem withHeadersLoop_cont (hB : B ≠ []) : ∀ (n last : Nat) (s : BR), (withHeadersLoop D n last (s.cont B)).2.Before B →
    Agree B B' (withHeadersLoop D n last (s.cont B)) (withHeadersLoop D n last (s.cont B')) := by
  intro n
  induction n with
  | zero => intro _ s _; exact .mk
  | succ n ih =>
    intro last s hu
    unfold withHeadersLoop at hu ⊢
    have hb : (s.cont B).readToBoundary.2.Before B := by
      generalize (s.cont B).readToBoundary = r at hu ⊢
      obtain ⟨r, t⟩ := r
      cases r with
      | ok x =>
        simp only at hu ⊢
        split at hu
        · exact hu
        · split at hu
          · exact hu
          · exact hu.of_suffix (withHeadersLoop_evs _ _ _)
          · split at hu <;> exact hu
      | _ => exact hu
    have ha := BR.readToBoundary_cont (B' := B') hB hb
    generalize (s.cont B).readToBoundary = r at hu ha ⊢
    generalize (s.cont B').readToBoundary = r' at ha ⊢
    obtain ⟨r, t⟩ := r
    obtain ⟨r', t'⟩ := r'
    obtain ⟨h1, u, h2, h3⟩ := ha
    simp only at h1 h2 h3
    subst h1 h2 h3
    cases r with
    | ok x =>
      simp only at hu ⊢
      split
      · exact .mk
      · next hl =>
        rw [if_neg hl] at hu
        split
        · exact .mk
        · next hp => rw [hp] at hu; exact ih _ u hu
        · split <;> exact .mk
    | _ => exact .mk

theorem BR.readHeaders_evs (s : BR) : (s.readHeaders D).2.evs = (withHeadersLoop D (s.evs.length + 2) 0 s).2.evs := by
  unfold BR.readHeaders FieldHeaders.readFrom withHeaders
  generalize withHeadersLoop D (s.evs.length + 2) 0 s = r
  obtain ⟨r, t⟩ := r
  cases r with
  | ok x =>
    simp only
    cases FieldHeaders.parse D x.2 <;> rfl
  | _ => rfl

theorem BR.readHeaders_cont (hD : D.Sane) (hB : B ≠ []) (hi : (s.cont B).Inv) (hi' : (s.cont B').Inv) (hu : ((s.cont B).readHeaders D).2.Before B) :
    Agree B B' ((s.cont B).readHeaders D) ((s.cont B').readHeaders D) := by
  have hloop := withHeadersLoop_cont (D := D) (B' := B') hB (Nat.max ((s.cont B).evs.length + 2) ((s.cont B').evs.length + 2)) 0 s
  rw [withHeadersLoop_enough hD hi (Nat.le_max_left _ _), withHeadersLoop_enough hD hi' (Nat.le_max_right _ _)] at hloop
  unfold BR.Before at hu
  rw [BR.readHeaders_evs] at hu
  have ha := hloop hu
  unfold BR.readHeaders FieldHeaders.readFrom withHeaders
  generalize withHeadersLoop D ((s.cont B).evs.length + 2) 0 (s.cont B) = r at ha ⊢
  generalize withHeadersLoop D ((s.cont B').evs.length + 2) 0 (s.cont B') = r' at ha ⊢
  obtain ⟨r, t⟩ := r
  obtain ⟨r', t'⟩ := r'
  obtain ⟨h1, u, h2, h3⟩ := ha
  simp only at h1 h2 h3
  subst h1 h2 h3
  cases r with
  | ok x =>
    simp only
    cases FieldHeaders.parse D x.2 <;> exact .mk (u := u.consume x.1)
  | _ => exact .mk

theorem BR.readEntry_cont (hD : D.Sane) (hB : B ≠ []) (hi : (s.cont B).Inv) (hi' : (s.cont B').Inv) (hu : ((s.cont B).readEntry D).2.Before B) :
    Agree B B' ((s.cont B).readEntry D) ((s.cont B').readEntry D) := by
  have hsi := BR.setMin_inv hi minBufSize
  have hsi' := BR.setMin_inv hi' minBufSize
  have hci := BR.consumeBoundary_inv hsi
  have hci' := BR.consumeBoundary_inv hsi'
  rw [BR.cont_setMin] at hsi hsi' hci hci'
  unfold BR.readEntry at hu ⊢
  rw [BR.cont_setMin] at hu ⊢
  rw [BR.cont_setMin]
  have hb : ((s.setMin minBufSize).cont B).consumeBoundary.2.Before B := by
    generalize ((s.setMin minBufSize).cont B).consumeBoundary = r at hu ⊢
    obtain ⟨r, t⟩ := r
    cases r with
    | ok x =>
      cases x with
      | false => exact hu
      | true =>
        refine hu.of_suffix ?_
        simp only
        have : (t.readHeaders D).2.evs <:+ t.evs := by rw [BR.readHeaders_evs]; exact withHeadersLoop_evs _ _ _
        generalize t.readHeaders D = w at this ⊢
        obtain ⟨w, v⟩ := w
        cases w <;> exact this
    | _ => exact hu
  have ha := BR.consumeBoundary_cont hB hsi hsi' hb
  generalize ((s.setMin minBufSize).cont B).consumeBoundary = r at hu ha hci ⊢
  generalize ((s.setMin minBufSize).cont B').consumeBoundary = r' at ha hci' ⊢
  obtain ⟨r, t⟩ := r
  obtain ⟨r', t'⟩ := r'
  obtain ⟨h1, u, h2, h3⟩ := ha
  simp only at h1 h2 h3
  subst h1 h2 h3
  cases r with
  | ok x =>
    cases x with
    | false => exact .mk
    | true =>
      simp only at hu hci hci' ⊢
      have hb : ((u.cont B).readHeaders D).2.Before B := by
        generalize (u.cont B).readHeaders D = w at hu ⊢
        obtain ⟨w, v⟩ := w
        cases w <;> exact hu
      have ha := BR.readHeaders_cont hD hB hci hci' hb
      generalize (u.cont B).readHeaders D = r at ha ⊢
      generalize (u.cont B').readHeaders D = r' at ha ⊢
      obtain ⟨r, t⟩ := r
      obtain ⟨r', t'⟩ := r'
      obtain ⟨h1, u, h2, h3⟩ := ha
      simp only at h1 h2 h3
      subst h1 h2 h3
      cases r <;> exact .mk
  | _ => exact .mk

end Multipart

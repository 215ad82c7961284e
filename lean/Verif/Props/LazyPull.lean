import Verif.Spec.LazyPull
import Verif.Props.Lazy
/-!
# C157: a lazy request reads its streams only when it is read itself
-/
namespace Multipart
variable {env : LazyEnv} {b : Bytes} {os : List ClientOp} {p : Prepared}

theorem Drew.append {s r : List Ev} {d : Bytes} (h : Drew s d r) : ∀ {t : List Ev} {d' : Bytes}, Drew r d' t → Drew s (d ++ d') t := by
  induction h with
  | none => intro t d' h2; exact h2
  | part _ ih => intro t d' h2; rw [List.append_assoc]; exact .part (ih h2)
  | next _ ih => intro t d' h2; rw [List.append_assoc]; exact .next (ih h2)
  | err _ ih => intro t d' h2; exact .err (ih h2)

theorem Pulled.trans {ss ss1 ss2 : List (List Ev)} {n m : Nat} (h : Pulled ss n ss1) (h2 : Pulled ss1 m ss2) : Pulled ss (n + m) ss2 := by
  induction h2 with
  | start => exact h
  | draw _ hd ih => rw [← Nat.add_assoc]; exact .draw ih hd
  | close _ ih => exact .close ih

/-- What `Pulled` means for the single streams: the ones whose turn has not come are as they were. -/
theorem Pulled.untouched {ss left : List (List Ev)} {n : Nat} (h : Pulled ss n left) :
    left <+: ss ∨ ∃ todo s r d, todo ++ [s] <+: ss ∧ left = todo ++ [r] ∧ Drew s d r ∧ d.length ≤ n := by
  induction h with
  | start => exact .inl (List.prefix_refl _)
  | @draw n todo s r d _ hd ih =>
    rcases ih with h1 | ⟨todo', s', r', d', h1, h2, h3, h4⟩
    · exact .inr ⟨todo, s, r, d, h1, rfl, hd, by omega⟩
    · obtain ⟨rfl, h5⟩ := List.append_inj' h2 rfl
      cases h5
      exact .inr ⟨todo, s', r, d' ++ d, h1, rfl, h3.append hd, by rw [List.length_append]; omega⟩
  | close _ ih =>
    rcases ih with h1 | ⟨todo', s', r', d', h1, h2, h3, h4⟩
    · exact .inl ((List.prefix_append _ _).trans h1)
    · obtain ⟨rfl, -⟩ := List.append_inj' h2 rfl
      exact .inl ((List.prefix_append _ _).trans h1)

theorem readEv_drew (n : Nat) (s : List Ev) : ∃ d, Drew s d (readEv n s).2 ∧ d.length ≤ n ∧ ∀ u, (readEv n s).1 = .ok u → u = d := by
  unfold readEv
  split
  · exact ⟨[], .none, by simp, by simp⟩
  · exact ⟨[], .err .none, by simp, by simp⟩
  · rename_i bs r
    split
    · rename_i hl
      exact ⟨bs, by simpa using Drew.next (x := bs) .none, hl, by simp⟩
    · refine ⟨bs.take n, ?_, by simp; omega, by simp⟩
      have := Drew.part (s := r) (x := bs.take n) (y := bs.drop n) .none
      simpa using this

theorem PField.read_drew (f : PField) (n : Nat) : ∃ d, Drew f.stream d (f.read n).2.stream ∧ d.length ≤ n ∧ (∀ u, (f.read n).1 = .ok u → d.length ≤ u.length) ∧ (f.read n).2.header.data = f.header.data := by
  unfold PField.read
  split
  · exact ⟨[], .none, by simp, by simp, rfl⟩
  · obtain ⟨d, h1, h2, h3⟩ := readEv_drew n f.stream
    exact ⟨d, h1, h2, fun u hu => by rw [h3 u hu]; exact Nat.le_refl _, rfl⟩

theorem Prepared.readLoop_pulled : ∀ (fuel n : Nat) (got : Bytes) (p : Prepared),
    ∃ k, Pulled (p.streams.map (·.stream)) k ((p.readLoop fuel n got).2.streams.map (·.stream)) ∧ k ≤ n - got.length ∧ (∀ u, (p.readLoop fuel n got).1 = .ok u → got.length + k ≤ u.length) ∧
      (p.readLoop fuel n got).2.memory ≤ p.memory := by
  intro fuel
  induction fuel with
  | zero => intro n got p; exact ⟨0, .start, by simp, by simp [Prepared.readLoop], Nat.le_refl _⟩
  | succ fuel ih =>
    intro n got p
    unfold Prepared.readLoop
    split
    · rename_i hc
      split
      · obtain ⟨k, h1, h2, h3, h4⟩ := ih n (got ++ (p.text.read (n - got.length)).1) { p with text := (p.text.read (n - got.length)).2 }
        rw [List.length_append] at h2
        refine ⟨k, h1, by omega, fun u hu => ?_, h4⟩
        have := h3 u hu
        rw [List.length_append] at this
        omega
      · cases hl : p.streams.getLast? with
        | none =>
          simp only
          obtain ⟨k, h1, h2, h3, h4⟩ := ih n (got ++ (p.endBoundary.read (n - got.length)).1) { p with endBoundary := (p.endBoundary.read (n - got.length)).2 }
          rw [List.length_append] at h2
          refine ⟨k, h1, by omega, fun u hu => ?_, h4⟩
          have := h3 u hu
          rw [List.length_append] at this
          omega
        | some f =>
          simp only
          have hs : p.streams = p.streams.dropLast ++ [f] := by
            obtain ⟨ys, hy⟩ := List.getLast?_eq_some_iff.mp hl
            rw [hy]; simp
          have hm : p.streams.map (·.stream) = p.streams.dropLast.map (·.stream) ++ [f.stream] := by rw [hs]; simp
          have hmem : p.memory = p.text.data.length + ((p.streams.dropLast.map fun f => f.header.data.length).sum + f.header.data.length) + p.endBoundary.data.length := by
            unfold Prepared.memory
            rw [hs]; simp
          obtain ⟨d, d1, d2, d3, d4⟩ := f.read_drew (n - got.length)
          have hp0 : Pulled (p.streams.map (·.stream)) 0 (p.streams.dropLast.map (·.stream) ++ [f.stream]) := by rw [← hm]; exact .start
          have hp1 : Pulled (p.streams.map (·.stream)) d.length (p.streams.dropLast.map (·.stream) ++ [(f.read (n - got.length)).2.stream]) := by
            simpa using Pulled.draw hp0 d1
          split
          · rename_i f' hr
            rw [hr] at d1 d3 hp1
            have hd0 : d.length = 0 := by have := d3 [] rfl; simpa using this
            obtain ⟨k, h1, h2, h3, h4⟩ := ih n got { p with streams := p.streams.dropLast }
            refine ⟨k, ?_, h2, h3, ?_⟩
            · have := (Pulled.close hp1).trans h1
              rw [hd0] at this
              simpa using this
            · refine Nat.le_trans h4 ?_
              rw [hmem]; simp only [Prepared.memory]; omega
          · rename_i bs f' _ hr
            rw [hr] at d3 d4 hp1
            have hb := d3 bs rfl
            obtain ⟨k, h1, h2, h3, h4⟩ := ih n (got ++ bs) { p with streams := p.streams.dropLast ++ [f'] }
            rw [List.length_append] at h2
            refine ⟨d.length + k, ?_, ?_, fun u hu => ?_, ?_⟩
            · rw [List.map_append] at h1
              exact hp1.trans h1
            · omega
            · have := h3 u hu
              rw [List.length_append] at this
              omega
            · refine Nat.le_trans h4 ?_
              rw [hmem]; simp only [Prepared.memory]; simp at d4 ⊢; rw [d4]; omega
          · rename_i r f' hne hnb hr
            rw [hr] at d4 hp1
            refine ⟨d.length, by simpa using hp1, d2, fun u hu => ?_, ?_⟩
            · simp only at hu
              subst hu
              exact (hnb u rfl).elim
            · rw [hmem]; simp only [Prepared.memory]; simp at d4 ⊢; rw [d4]; omega
    · exact ⟨0, .start, by simp, by simp, Nat.le_refl _⟩

theorem Prepared.read_pulled (p : Prepared) (n : Nat) :
    ∃ k, Pulled (p.streams.map (·.stream)) k ((p.read n).2.streams.map (·.stream)) ∧ k ≤ n ∧ (∀ u, (p.read n).1 = .ok u → k ≤ u.length) ∧ (p.read n).2.memory ≤ p.memory := by
  unfold Prepared.read
  split
  · exact ⟨0, .start, by simp, by simp, Nat.le_refl _⟩
  · obtain ⟨k, h1, h2, h3, h4⟩ := p.readLoop_pulled (n + p.streams.length + 1) n []
    exact ⟨k, h1, by simpa using h2, fun u hu => by simpa using h3 u hu, h4⟩

theorem Prepared.reads_pulled (ns : List Nat) : ∀ (p : Prepared),
    ∃ k, Pulled (p.streams.map (·.stream)) k ((p.reads ns).2.streams.map (·.stream)) ∧ k ≤ ns.sum ∧ ((∀ r ∈ (p.reads ns).1, ∃ u, r = .ok u) → k ≤ (okBytes (p.reads ns).1).length) ∧ (p.reads ns).2.memory ≤ p.memory := by
  induction ns with
  | nil => intro p; exact ⟨0, .start, by simp, by simp, Nat.le_refl _⟩
  | cons n ns ih =>
    intro p
    obtain ⟨k, h1, h2, h3, h4⟩ := p.read_pulled n
    obtain ⟨k', h1', h2', h3', h4'⟩ := ih (p.read n).2
    refine ⟨k + k', h1.trans h1', by rw [List.sum_cons]; omega, fun hok => ?_, Nat.le_trans h4' h4⟩
    obtain ⟨u, hu⟩ := hok (p.read n).1 (by simp [Prepared.reads])
    have q1 := h3 u hu
    have q2 := h3' fun r hr => hok r (by simp [Prepared.reads, hr])
    simp only [Prepared.reads, hu, okBytes, List.length_append]
    omega

/-- `prepLoop` opens files and reads nothing; what it keeps in memory does not come from streams and files. -/
theorem prepLoop_pull (env : LazyEnv) (b : Bytes) : ∀ (os : List ClientOp) (s s' : PrepState), prepLoop env (b!"\r\n--" ++ b) s (os.map ClientOp.toField) = .ok s' →
    s'.streams.map (·.stream) = s.streams.map (·.stream) ++ streamsOf env.toFileEnv os ∧
    s'.text.length + (s'.streams.map fun f => f.header.data.length).sum ≤ s.text.length + (s.streams.map fun f => f.header.data.length).sum + (os.map fun o => opSize env.toFileEnv o + b.length + 80).sum := by
  intro os
  induction os with
  | nil => intro s s' h; simp [prepLoop] at h; subst h; simp [streamsOf]
  | cons o os ih =>
    intro s s' h
    cases o with
    | text n v =>
      simp only [List.map_cons, ClientOp.toField, prepLoop] at h
      obtain ⟨h1, h2⟩ := ih _ _ h
      refine ⟨h1, Nat.le_trans h2 ?_⟩
      simp [opSize]
      omega
    | file n q =>
      simp only [List.map_cons, ClientOp.toField, prepLoop, PField.fromPath] at h
      cases ho : env.open_ q with
      | error e => simp [ho] at h
      | ok f =>
        cases hz : env.size q with
        | error e => simp [ho, hz] at h
        | ok len =>
          simp only [ho, hz] at h
          obtain ⟨h1, h2⟩ := ih _ _ h
          refine ⟨by rw [h1]; simp [streamsOf, ho, PField.fromStream], Nat.le_trans h2 ?_⟩
          simp [opSize, PField.fromStream, Cursor.new]
          cases (mimeFilename env.toFileEnv q).2 <;> simp <;> omega
    | stream n d f ct =>
      simp only [List.map_cons, ClientOp.toField, prepLoop] at h
      obtain ⟨h1, h2⟩ := ih _ _ h
      refine ⟨by rw [h1]; simp [streamsOf, PField.fromStream], Nat.le_trans h2 ?_⟩
      simp [opSize, PField.fromStream, Cursor.new]
      cases f <;> simp <;> omega

theorem prepare_pull (h : PreparedFrom env b os p) : p.streams.map (·.stream) = streamsOf env.toFileEnv os ∧ p.memory ≤ (os.map fun o => opSize env.toFileEnv o + b.length + 80).sum + b.length + 6 := by
  unfold PreparedFrom LazyMp.prepare Prepared.fromFields at h
  rw [build_eq] at h
  cases hl : prepLoop env (b!"\r\n--" ++ b) ⟨[], [], 0, true⟩ (os.map ClientOp.toField) with
  | error e => simp only [hl] at h; cases h
  | ok s' =>
    simp only [hl, Except.ok.injEq] at h
    obtain ⟨h1, h2⟩ := prepLoop_pull env b os _ _ hl
    subst h
    refine ⟨by simpa using h1, ?_⟩
    simp only [Prepared.memory, Cursor.new]
    simp only [List.length_nil, List.map_nil, List.sum_nil, Nat.zero_add] at h2
    split <;> simp <;> omega

/-- C157: preparing a lazy request opens its files and reads nothing of its streams and files; and however the request is then read, no more bytes have been read from them in all than the buffers of the reads had room for, and
(if no read failed) no more than were handed out. They are read one after the other: the last one first, and each is closed before the next one is read. -/
theorem C157_no_read_ahead (h : PreparedFrom env b os p) (ns : List Nat) :
    p.streams.map (·.stream) = streamsOf env.toFileEnv os ∧
    ∃ k, Pulled (streamsOf env.toFileEnv os) k ((p.reads ns).2.streams.map (·.stream)) ∧ k ≤ ns.sum ∧ ((∀ r ∈ (p.reads ns).1, ∃ u, r = .ok u) → k ≤ (okBytes (p.reads ns).1).length) := by
  obtain ⟨h1, -⟩ := prepare_pull h
  obtain ⟨k, q1, q2, q3, -⟩ := p.reads_pulled ns
  rw [h1] at q1
  exact ⟨h1, k, q1, q2, q3⟩

/-- Two texts, a stream and a file, read up to the second byte of the file: the stream has not been touched. -/
example : PreparedFrom Sample.lenv b!"b" Sample.lops (Sample.lprep Sample.lops) ∧ streamsOf Sample.lenv.toFileEnv Sample.lops = [[.data b!"xy", .data b!"z"], [.data b!"file", .data b!"data"]] ∧
    ((Sample.lprep Sample.lops).reads [130, 74]).2.streams.map (·.stream) = [[.data b!"xy", .data b!"z"], [.data b!"le", .data b!"data"]] :=
  ⟨Sample.lprep_ok (by decide +kernel), by decide +kernel, by decide +kernel⟩

/-- C157: streams whose turn has not come have not been touched, and at most one has been read in part. -/
theorem C157_one_at_a_time (h : PreparedFrom env b os p) (ns : List Nat) :
    (p.reads ns).2.streams.map (·.stream) <+: streamsOf env.toFileEnv os ∨
    ∃ todo s r d, todo ++ [s] <+: streamsOf env.toFileEnv os ∧ (p.reads ns).2.streams.map (·.stream) = todo ++ [r] ∧ Drew s d r ∧ d.length ≤ ns.sum := by
  obtain ⟨-, k, h1, h2, -⟩ := C157_no_read_ahead h ns
  rcases h1.untouched with h3 | ⟨todo, s, r, d, h3, h4, h5, h6⟩
  · exact .inl h3
  · exact .inr ⟨todo, s, r, d, h3, h4, h5, by omega⟩

example : PreparedFrom Sample.lenv b!"b" Sample.lops (Sample.lprep Sample.lops) := Sample.lprep_ok (by decide +kernel)

/-- C157: what a lazy request keeps in memory, at any time, is bounded by its names, texts, filenames and types, and does not depend on the lengths of streams and files. -/
theorem C157_memory (h : PreparedFrom env b os p) (ns : List Nat) :
    (p.reads ns).2.memory ≤ (os.map fun o => opSize env.toFileEnv o + b.length + 80).sum + b.length + 6 := by
  obtain ⟨-, -, -, -, h1⟩ := p.reads_pulled ns
  exact Nat.le_trans h1 (prepare_pull h).2

example : PreparedFrom Sample.lenv b!"b" Sample.lops (Sample.lprep Sample.lops) ∧ ((Sample.lprep Sample.lops).reads [130, 74]).2.memory = 300 := ⟨Sample.lprep_ok (by decide +kernel), by decide +kernel⟩

end Multipart

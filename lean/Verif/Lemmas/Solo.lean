import Verif.Spec.Solo
import Verif.Lemmas.Worlds
import Verif.Model.Threads
/-!
# What a function of the world looks at
-/
namespace Multipart

variable {α β σ : Type}

/-! ## Functions of a sink -/

/-- The function uses up the first entries of the script, whatever follows them. -/
def SinkLocal (f : Sink → α × Sink) : Prop :=
  ∀ k, (f k).2.script ⊆ k.script ∧ ∃ c : List WEv, (∀ x ∈ c, x ∈ k.script ∨ ∃ n, x = .accept (n + 1)) ∧ ∀ rest, f { k with script := c ++ rest } = ((f k).1, { (f k).2 with script := rest })

theorem SinkLocal.pure (a : α) : SinkLocal fun k => (a, k) := fun _ => ⟨fun _ h => h, [], by simp, fun _ => rfl⟩

theorem SinkLocal.bind {f : Sink → α × Sink} {g : α → Sink → β × Sink} (hf : SinkLocal f) (hg : ∀ a, SinkLocal (g a)) : SinkLocal fun k => g (f k).1 (f k).2 := by
  intro k
  obtain ⟨h1, c, h2, h3⟩ := hf k
  obtain ⟨g1, d, g2, g3⟩ := hg (f k).1 (f k).2
  refine ⟨fun x hx => h1 (g1 hx), c ++ d, fun x hx => ?_, fun rest => ?_⟩
  · rcases List.mem_append.mp hx with hx | hx
    · exact h2 x hx
    · exact (g2 x hx).imp (fun h => h1 h) id
  · simp only
    rw [List.append_assoc, h3]
    exact g3 rest

theorem tryWriteAllAux_nil (total : Nat) (got : Bytes) (sc : List WEv) : tryWriteAllAux [] total got sc = (.full total, { script := sc, got := got }) := by
  cases sc with
  | nil => simp [tryWriteAllAux]
  | cons x sc => simp [tryWriteAllAux.eq_def]

theorem tryWriteAllAux_accept {buf : Bytes} (hb : buf ≠ []) (total : Nat) (got : Bytes) (n : Nat) (sc : List WEv) : tryWriteAllAux buf total got (.accept n :: sc) =
    if Nat.min n buf.length = 0 then (if total = 0 then .error .writeZero else .part total (.io .writeZero), { script := sc, got := got })
    else tryWriteAllAux (buf.drop (Nat.min n buf.length)) (total + Nat.min n buf.length) (got ++ buf.take (Nat.min n buf.length)) sc := by
  rw [tryWriteAllAux.eq_def]
  simp only
  rw [if_neg hb]

theorem tryWriteAllAux_err {buf : Bytes} (hb : buf ≠ []) (total : Nat) (got : Bytes) (e : IoErr) (sc : List WEv) : tryWriteAllAux buf total got (.err e :: sc) =
    if e = .interrupted then tryWriteAllAux buf total got sc else (if total = 0 then .error e else .part total (.io e), { script := sc, got := got }) := by
  rw [tryWriteAllAux.eq_def]
  simp only
  rw [if_neg hb]
  cases e <;> rfl

theorem tryWriteAll_local (buf : Bytes) : SinkLocal (tryWriteAll buf) := by
  intro k
  obtain ⟨script, got⟩ := k
  unfold tryWriteAll
  simp only
  generalize 0 = total
  induction script generalizing buf total got with
  | nil =>
    refine ⟨fun _ h => h, ?_⟩
    by_cases hb : buf = []
    · subst hb
      refine ⟨[], by simp, fun rest => ?_⟩
      rw [List.nil_append, tryWriteAllAux_nil, tryWriteAllAux_nil]
    · have hpos : 0 < buf.length := List.length_pos_iff.mpr hb
      refine ⟨[.accept buf.length], fun x hx => .inr ⟨buf.length - 1, ?_⟩, fun rest => ?_⟩
      · rw [List.mem_singleton.mp hx]
        congr 1
        omega
      · simp only [List.cons_append, List.nil_append]
        rw [tryWriteAllAux_accept hb, show Nat.min buf.length buf.length = buf.length from Nat.min_self _, if_neg (by omega), List.take_length, List.drop_length, tryWriteAllAux_nil]
        rfl
  | cons ev script ih =>
    by_cases hb : buf = []
    · subst hb
      refine ⟨?_, [], by simp, fun rest => ?_⟩
      · rw [tryWriteAllAux_nil]
        exact fun _ h => h
      · rw [List.nil_append, tryWriteAllAux_nil, tryWriteAllAux_nil]
    · have hstep : ∀ (buf' : Bytes) (total' : Nat) (got' : Bytes), (∀ sc, tryWriteAllAux buf total got (ev :: sc) = tryWriteAllAux buf' total' got' sc) →
          (tryWriteAllAux buf total got (ev :: script)).2.script ⊆ ev :: script ∧ ∃ c : List WEv, (∀ x ∈ c, x ∈ ev :: script ∨ ∃ n, x = .accept (n + 1)) ∧
            ∀ rest, tryWriteAllAux buf total got (c ++ rest) = ((tryWriteAllAux buf total got (ev :: script)).1, { (tryWriteAllAux buf total got (ev :: script)).2 with script := rest }) := by
        intro buf' total' got' he
        obtain ⟨h1, c, h2, h3⟩ := ih buf' got' total'
        rw [he]
        refine ⟨fun x hx => List.mem_cons_of_mem _ (h1 hx), ev :: c, fun x hx => ?_, fun rest => ?_⟩
        · rcases List.mem_cons.mp hx with rfl | hx
          · exact .inl (by simp)
          · exact (h2 x hx).imp (List.mem_cons_of_mem _) id
        · rw [List.cons_append, he]
          exact h3 rest
      have hstop : ∀ (r : SaveRes Nat Nat), (∀ sc, tryWriteAllAux buf total got (ev :: sc) = (r, { script := sc, got := got })) →
          (tryWriteAllAux buf total got (ev :: script)).2.script ⊆ ev :: script ∧ ∃ c : List WEv, (∀ x ∈ c, x ∈ ev :: script ∨ ∃ n, x = .accept (n + 1)) ∧
            ∀ rest, tryWriteAllAux buf total got (c ++ rest) = ((tryWriteAllAux buf total got (ev :: script)).1, { (tryWriteAllAux buf total got (ev :: script)).2 with script := rest }) := by
        intro r he
        rw [he]
        refine ⟨List.subset_cons_self _ _, [ev], fun x hx => .inl (by rw [List.mem_singleton.mp hx]; simp), fun rest => ?_⟩
        rw [List.singleton_append, he]
      cases ev with
      | err e =>
        by_cases hi : e = .interrupted
        · subst hi
          exact hstep buf total got fun sc => by rw [tryWriteAllAux_err hb, if_pos rfl]
        · refine hstop (if total = 0 then .error e else .part total (.io e)) fun sc => ?_
          rw [tryWriteAllAux_err hb, if_neg hi]
      | accept n =>
        by_cases hn : Nat.min n buf.length = 0
        · exact hstop _ fun sc => by rw [tryWriteAllAux_accept hb, if_pos hn]
        · exact hstep _ _ _ fun sc => by rw [tryWriteAllAux_accept hb, if_neg hn]

/-- `tryReadBuf` with a closure that writes to a sink, which is a part of its state. -/
theorem tryReadBuf_local {f : σ → Bytes → SaveRes Nat Nat × σ} (get : σ → Sink) (put : σ → List WEv → σ)
    (hf : ∀ st buf, (get (f st buf).2).script ⊆ (get st).script ∧ ∃ c : List WEv, (∀ x ∈ c, x ∈ (get st).script ∨ ∃ n, x = .accept (n + 1)) ∧ ∀ rest, f (put st (c ++ rest)) buf = ((f st buf).1, put (f st buf).2 rest)) :
    ∀ (n total : Nat) (st : σ) (s : BR), (get (tryReadBuf f n total st s).2.1).script ⊆ (get st).script ∧ ∃ c : List WEv, (∀ x ∈ c, x ∈ (get st).script ∨ ∃ n, x = .accept (n + 1)) ∧
      ∀ rest, tryReadBuf f n total (put st (c ++ rest)) s = ((tryReadBuf f n total st s).1, put (tryReadBuf f n total st s).2.1 rest, (tryReadBuf f n total st s).2.2) := by
  intro n
  induction n with
  | zero => exact fun total st s => ⟨fun _ h => h, [], by simp, fun _ => rfl⟩
  | succ n ih =>
    intro total st s
    unfold tryReadBuf
    rcases s.readToBoundary with ⟨r, s1⟩
    cases r with
    | err e =>
      by_cases hi : e = .interrupted
      · subst hi
        exact ih total st s1
      · simp only
        exact ⟨fun _ h => h, [], by simp, fun _ => rfl⟩
    | panic => exact ⟨fun _ h => h, [], by simp, fun _ => rfl⟩
    | hang => exact ⟨fun _ h => h, [], by simp, fun _ => rfl⟩
    | ok buf =>
      simp only
      split
      · exact ⟨fun _ h => h, [], by simp, fun _ => rfl⟩
      · obtain ⟨h1, c, h2, h3⟩ := hf st buf
        generalize f st buf = x at h1 h3 ⊢
        obtain ⟨r, st1⟩ := x
        cases r with
        | full m =>
          obtain ⟨g1, d, g2, g3⟩ := ih (total + m) st1 (s1.consume m)
          refine ⟨fun x hx => h1 (g1 hx), c ++ d, fun x hx => ?_, fun rest => ?_⟩
          · rcases List.mem_append.mp hx with hx | hx
            · exact h2 x hx
            · exact (g2 x hx).imp (fun h => h1 h) id
          · rw [List.append_assoc, h3]
            exact g3 rest
        | _ => exact ⟨h1, c, h2, fun rest => by rw [h3]⟩

theorem writeTo_local (cfg : Settings) (fuel : Nat) (s : BR) : SinkLocal fun k => (((writeTo cfg fuel k s).1, (writeTo cfg fuel k s).2.2), (writeTo cfg fuel k s).2.1) := by
  intro k
  unfold writeTo
  split
  · unfold tryCopyLimited
    simp only
    obtain ⟨h1, c, h2, h3⟩ := tryReadBuf_local (f := limited (fun w buf => tryWriteAll buf w) cfg.sizeLimit) (fun st => st.2) (fun st sc => (st.1, { st.2 with script := sc })) (by
      intro st buf
      unfold limited
      simp only
      split
      · exact ⟨fun _ h => h, [], by simp, fun _ => rfl⟩
      · obtain ⟨h1, c, h2, h3⟩ := tryWriteAll_local buf st.2
        exact ⟨h1, c, h2, fun rest => by rw [h3]⟩) fuel 0 (0, k) s
    exact ⟨h1, c, h2, fun rest => by rw [h3]⟩
  · obtain ⟨h1, c, h2, h3⟩ := tryReadBuf_local (f := fun w buf => tryWriteAll buf w) (fun st => st) (fun st sc => { st with script := sc }) (fun st buf => tryWriteAll_local buf st) fuel 0 k s
    exact ⟨h1, c, h2, fun rest => by simp only [h3]⟩

/-! ## Functions of the world -/

/-- Entries for the scripts of a world. -/
structure Script where
  mkdirs : List (Option IoErr)
  opens : List (Option IoErr)
  writes : List WEv
  names : List Bytes

def Script.none : Script := ⟨[], [], [], []⟩

def Script.app (a b : Script) : Script := ⟨a.mkdirs ++ b.mkdirs, a.opens ++ b.opens, a.writes ++ b.writes, a.names ++ b.names⟩

def World.script (w : World) : Script := ⟨w.mkdirs, w.opens, w.writes, w.names⟩

def World.withScript (w : World) (c : Script) : World := { w with mkdirs := c.mkdirs, opens := c.opens, writes := c.writes, names := c.names }

theorem Script.app_assoc (a b c : Script) : (a.app b).app c = a.app (b.app c) := by
  simp [Script.app, List.append_assoc]

theorem Script.none_app (a : Script) : Script.none.app a = a := rfl

theorem Script.app_none (a : Script) : a.app .none = a := by simp [Script.app, Script.none]

theorem World.MeetsOnly.refl (w : World) : w.MeetsOnly w := ⟨fun _ h => .inl h, fun _ h => .inl h, fun _ h => .inl h, fun _ h => .inl h⟩

theorem World.MeetsOnly.trans {w w1 w2 : World} (h : w2.MeetsOnly w1) (h' : w1.MeetsOnly w) : w2.MeetsOnly w :=
  ⟨fun x hx => (h.mkdirs x hx).elim (h'.mkdirs x) .inr, fun x hx => (h.opens x hx).elim (h'.opens x) .inr, fun x hx => (h.writes x hx).elim (h'.writes x) .inr,
    fun x hx => (h.names x hx).elim (h'.names x) .inr⟩

/-- The world has this script, and in the region the files of the other world. -/
structure Seen (R : Path → Prop) (u : Script) (w0 w : World) : Prop where
  files : ∀ q, R q → w0.files q = w.files q
  script : w0.script = u

/-- The function looks at and changes only files of the region, and uses up the first entries of the scripts, whatever follows them. -/
def Local (R : Path → Prop) (f : World → α × World) : Prop :=
  ∀ w, (∀ q, ¬ R q → (f w).2.files q = w.files q) ∧ (f w).2.MeetsOnly w ∧
    ∃ c : Script, (w.withScript c).MeetsOnly w ∧ ∀ rest w0, Seen R (c.app rest) w0 w → (f w0).1 = (f w).1 ∧ Seen R rest (f w0).2 (f w).2

variable {R : Path → Prop}

theorem Local.congr {f g : World → α × World} (hf : Local R f) (h : ∀ w, g w = f w) : Local R g := by
  have : g = f := funext h
  rw [this]
  exact hf

theorem Local.pure (a : α) : Local R fun w => (a, w) :=
  fun w => ⟨fun _ _ => rfl, .refl w, .none, ⟨by simp [World.withScript, Script.none], by simp [World.withScript, Script.none], by simp [World.withScript, Script.none], by simp [World.withScript, Script.none]⟩, fun _ _ h => ⟨rfl, h⟩⟩

theorem World.MeetsOnly.app {w : World} {c d : Script} (h : (w.withScript c).MeetsOnly w) (h' : (w.withScript d).MeetsOnly w) : (w.withScript (c.app d)).MeetsOnly w :=
  ⟨fun x hx => (List.mem_append.mp hx).elim (h.mkdirs x) (h'.mkdirs x), fun x hx => (List.mem_append.mp hx).elim (h.opens x) (h'.opens x), fun x hx => (List.mem_append.mp hx).elim (h.writes x) (h'.writes x),
    fun x hx => (List.mem_append.mp hx).elim (h.names x) (h'.names x)⟩

theorem World.MeetsOnly.script {w w1 : World} {c : Script} (h : (w1.withScript c).MeetsOnly w) : (w.withScript c).MeetsOnly w := ⟨h.mkdirs, h.opens, h.writes, h.names⟩

theorem Local.bind {f : World → α × World} {g : α → World → β × World} (hf : Local R f) (hg : ∀ a, Local R (g a)) : Local R fun w => g (f w).1 (f w).2 := by
  intro w
  obtain ⟨h1, h2, c, h3, h4⟩ := hf w
  obtain ⟨g1, g2, d, g3, g4⟩ := hg (f w).1 (f w).2
  refine ⟨fun q hq => (g1 q hq).trans (h1 q hq), g2.trans h2, c.app d, h3.app (g3.trans h2).script, fun rest w0 hs => ?_⟩
  rw [Script.app_assoc] at hs
  obtain ⟨a1, a2⟩ := h4 _ w0 hs
  obtain ⟨b1, b2⟩ := g4 rest _ a2
  show (g (f w0).1 (f w0).2).1 = _ ∧ Seen R rest (g (f w0).1 (f w0).2).2 _
  rw [a1]
  exact ⟨b1, b2⟩

theorem randName_local : Local R World.randName := by
  intro w
  refine ⟨fun _ _ => rfl, ⟨fun _ h => .inl h, fun _ h => .inl h, fun _ h => .inl h, fun x hx => .inl (List.mem_of_mem_tail hx)⟩, ⟨[], [], [], [w.names.headD []]⟩,
    ⟨by simp [World.withScript], by simp [World.withScript], by simp [World.withScript], fun x hx => ?_⟩, fun rest w0 hs => ?_⟩
  · rw [List.mem_singleton.mp hx]
    cases w.names with
    | nil => exact .inr rfl
    | cons a l => exact .inl (by simp)
  · have hn : w0.names = w.names.headD [] :: rest.names := congrArg Script.names hs.script
    have h1 : w0.mkdirs = rest.mkdirs := congrArg Script.mkdirs hs.script
    have h2 : w0.opens = rest.opens := congrArg Script.opens hs.script
    have h3 : w0.writes = rest.writes := congrArg Script.writes hs.script
    refine ⟨?_, hs.files, ?_⟩
    · simp only [World.randName, hn]; rfl
    · simp only [World.randName, World.script, hn, h1, h2, h3, List.tail_cons]

theorem createDirAll_local (p : Path) : Local R fun w => w.createDirAll p := by
  by_cases hp : p = []
  · exact (Local.pure none).congr fun w => by rw [World.createDirAll, if_pos hp]
  · refine Local.congr (f := fun w => (w.mkdirs.headD none, { w with dirs := w.dirs ++ [p.dropLast], mkdirs := w.mkdirs.tail })) (fun w => ?_) fun w => by rw [World.createDirAll, if_neg hp]
    refine ⟨fun _ _ => rfl, ⟨fun x hx => .inl (List.mem_of_mem_tail hx), fun _ h => .inl h, fun _ h => .inl h, fun _ h => .inl h⟩, ⟨[w.mkdirs.headD none], [], [], []⟩,
      ⟨fun x hx => ?_, by simp [World.withScript], by simp [World.withScript], by simp [World.withScript]⟩, fun rest w0 hs => ?_⟩
    · rw [List.mem_singleton.mp hx]
      cases w.mkdirs with
      | nil => exact .inr rfl
      | cons a l => exact .inl (by simp)
    · have hn : w0.mkdirs = w.mkdirs.headD none :: rest.mkdirs := congrArg Script.mkdirs hs.script
      have h1 : w0.names = rest.names := congrArg Script.names hs.script
      have h2 : w0.opens = rest.opens := congrArg Script.opens hs.script
      have h3 : w0.writes = rest.writes := congrArg Script.writes hs.script
      refine ⟨by simp only [hn]; rfl, hs.files, ?_⟩
      simp only [World.script, hn, h1, h2, h3, List.tail_cons]

/-- What `openFile` does, by the first entry of its script. -/
theorem openFile_eq (o : OpenOpts) (p : Path) (w : World) : w.openFile o p = if !o.write && !o.append || o.append && o.truncate && !o.createNew then (.error (.other 22), w) else
    (match w.opens.headD none with
      | some e => .error e
      | none => match w.files p with
        | some old => if o.createNew then .error .alreadyExists else .ok (if o.truncate then [] else old)
        | none => if o.createNew ∨ o.create then .ok [] else .error .notFound, { w with opens := w.opens.tail }) := by
  obtain ⟨files, dirs, mkdirs, opens, writes, names⟩ := w
  unfold World.openFile
  split
  · rfl
  · rcases opens with _ | ⟨_ | e, r⟩
    · simp only [List.headD_nil]
      cases files p with
      | none => simp only; split <;> rfl
      | some old => simp only; split <;> rfl
    · simp only [List.headD_cons]
      cases files p with
      | none => simp only; split <;> rfl
      | some old => simp only; split <;> rfl
    · rfl

theorem openFile_local (o : OpenOpts) {p : Path} (hp : R p) : Local R fun w => w.openFile o p := by
  by_cases ho : (!o.write && !o.append || o.append && o.truncate && !o.createNew) = true
  · exact (Local.pure _).congr fun w => by rw [openFile_eq, if_pos ho]
  · refine Local.congr (fun w => ?_) fun w => by rw [openFile_eq, if_neg ho]
    refine ⟨fun _ _ => rfl, ⟨fun _ h => .inl h, fun x hx => .inl (List.mem_of_mem_tail hx), fun _ h => .inl h, fun _ h => .inl h⟩, ⟨[], [w.opens.headD none], [], []⟩,
      ⟨by simp [World.withScript], fun x hx => ?_, by simp [World.withScript], by simp [World.withScript]⟩, fun rest w0 hs => ?_⟩
    · rw [List.mem_singleton.mp hx]
      cases w.opens with
      | nil => exact .inr rfl
      | cons a l => exact .inl (by simp)
    · have hn : w0.opens = w.opens.headD none :: rest.opens := congrArg Script.opens hs.script
      have h1 : w0.names = rest.names := congrArg Script.names hs.script
      have h2 : w0.mkdirs = rest.mkdirs := congrArg Script.mkdirs hs.script
      have h3 : w0.writes = rest.writes := congrArg Script.writes hs.script
      refine ⟨by rw [hs.files p hp, hn]; rfl, hs.files, ?_⟩
      simp only [World.script, hn, h1, h2, h3, List.tail_cons]

theorem setFile_local {p : Path} (hp : R p) (a : α) (x : Bytes) : Local R fun w => (a, w.setFile p x) := by
  intro w
  refine ⟨fun q hq => ?_, ⟨fun _ h => .inl h, fun _ h => .inl h, fun _ h => .inl h, fun _ h => .inl h⟩, .none, ⟨by simp [World.withScript, Script.none], by simp [World.withScript, Script.none], by simp [World.withScript, Script.none], by simp [World.withScript, Script.none]⟩,
    fun rest w0 hs => ⟨rfl, fun q hq => ?_, hs.script⟩⟩
  · have : q ≠ p := fun h => hq (h ▸ hp)
    simp only [World.setFile, if_neg this]
  · simp only [World.setFile]
    rw [hs.files q hq]

theorem addDir_local (a : α) (d : Path) : Local R fun w => (a, { w with dirs := w.dirs ++ [d] }) :=
  fun w => ⟨fun _ _ => rfl, ⟨fun _ h => .inl h, fun _ h => .inl h, fun _ h => .inl h, fun _ h => .inl h⟩, .none, ⟨by simp [World.withScript, Script.none], by simp [World.withScript, Script.none], by simp [World.withScript, Script.none], by simp [World.withScript, Script.none]⟩,
    fun _ _ h => ⟨rfl, h.files, h.script⟩⟩

/-- What is done with a sink for the file. -/
theorem sink_local {f : Sink → α × Sink} (hf : SinkLocal f) : Local R fun w => (((f { script := w.writes, got := [] }).1, (f { script := w.writes, got := [] }).2.got), { w with writes := (f { script := w.writes, got := [] }).2.script }) := by
  intro w
  obtain ⟨h1, c, h2, h3⟩ := hf { script := w.writes, got := [] }
  refine ⟨fun _ _ => rfl, ⟨fun _ h => .inl h, fun _ h => .inl h, fun x hx => .inl (h1 hx), fun _ h => .inl h⟩, ⟨[], [], c, []⟩, ⟨by simp [World.withScript], by simp [World.withScript], h2, by simp [World.withScript]⟩, fun rest w0 hs => ?_⟩
  have hn : w0.writes = c ++ rest.writes := congrArg Script.writes hs.script
  have e1 : w0.names = rest.names := congrArg Script.names hs.script
  have e2 : w0.mkdirs = rest.mkdirs := congrArg Script.mkdirs hs.script
  have e3 : w0.opens = rest.opens := congrArg Script.opens hs.script
  have h3 := h3 rest.writes
  simp only at h3
  refine ⟨by simp only [hn, h3], hs.files, ?_⟩
  simp only [World.script, hn, h3, e1, e2, e3]

theorem writeFile_local (cfg : Settings) (fuel : Nat) {p : Path} (hp : R p) (old bytes : Bytes) (s : BR) :
    Local R fun w => (((writeFile cfg fuel p old bytes w s).1, (writeFile cfg fuel p old bytes w s).2.2), (writeFile cfg fuel p old bytes w s).2.1) := by
  let f : Sink → (SaveRes SavedData SavedData × BR) × Sink := fun k => match tryWriteAll bytes k with
    | (.full size, k) => (((writeTo cfg fuel k s).1.map (fun written => (SavedData.file p size).addSize written), (writeTo cfg fuel k s).2.2), (writeTo cfg fuel k s).2.1)
    | (r, k) => ((r.map (fun size => SavedData.file p size), s), k)
  have hf : SinkLocal f := by
    let g : SaveRes Nat Nat → Sink → (SaveRes SavedData SavedData × BR) × Sink := fun r k => match r with
      | .full size => (((writeTo cfg fuel k s).1.map (fun written => (SavedData.file p size).addSize written), (writeTo cfg fuel k s).2.2), (writeTo cfg fuel k s).2.1)
      | r => ((r.map (fun size => SavedData.file p size), s), k)
    have hg : ∀ r, SinkLocal (g r) := by
      intro r
      cases r with
      | full size =>
        exact (writeTo_local cfg fuel s).bind (g := fun x k => ((x.1.map (fun written => (SavedData.file p size).addSize written), x.2), k)) fun x => .pure _
      | _ => exact .pure _
    have := (tryWriteAll_local bytes).bind hg
    have he : f = fun k => g (tryWriteAll bytes k).1 (tryWriteAll bytes k).2 := by
      funext k
      show (match tryWriteAll bytes k with | _ => _) = _
      rcases tryWriteAll bytes k with ⟨r, k'⟩
      cases r <;> rfl
    rw [he]
    exact this
  refine ((sink_local (R := R) hf).bind (g := fun x w => (x.1, w.setFile p (overlay cfg.openOpts old x.2))) fun x => setFile_local hp _ _).congr fun w => ?_
  unfold writeFile
  simp only [f]
  rcases tryWriteAll bytes { script := w.writes, got := [] } with ⟨r, k⟩
  cases r <;> rfl

end Multipart

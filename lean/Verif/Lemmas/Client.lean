import Verif.Spec.Client
import Verif.Lemmas.Utf8
/-! # Lemmas about the client -/
namespace Multipart

theorem optFilename_some {dir : Path} {fname : Bytes} (h : IsFileName fname) : optFilename (dir ++ [fname]) = some fname := by
  simp [optFilename, Path.fileName, h.2, (utf8Valid_iff _).mpr h.1]

theorem optFilename_none {dir : Path} {fname : Bytes} (h : ¬ IsFileName fname) : optFilename (dir ++ [fname]) = none := by
  by_cases hd : fname = b!".."
  · simp [optFilename, Path.fileName, hd]
  · have : utf8Valid fname = false := by
      cases hu : utf8Valid fname with
      | true => exact absurd ⟨(utf8Valid_iff _).mp hu, hd⟩ h
      | false => rfl
    simp [optFilename, Path.fileName, hd, this]

/-- What a writing step that is to write `text` may do; `fine` holds if it succeeds, `cause e` tells why else it may fail with `e`. -/
def Wrote (fine : Prop) (cause : IoErr → Prop) (text : Bytes) (k : Sink) (r : Res Unit) (k' : Sink) : Prop :=
  ∃ used, WritesFine used ∧
    ((r = .ok () ∧ k'.got = k.got ++ text ∧ k.script = used ++ k'.script ∧ fine) ∨
     (∃ e p, r = .err e ∧ p <+: text ∧ k'.got = k.got ++ p ∧ ((∃ ev, k.script = used ++ ev :: k'.script ∧ ev.FailsWith e) ∨ (k.script = used ++ k'.script ∧ cause e))))

theorem WritesFine.append {a b : List WEv} (ha : WritesFine a) (hb : WritesFine b) : WritesFine (a ++ b) := fun ev h => (List.mem_append.mp h).elim (ha ev) (hb ev)

theorem WritesFine.nil : WritesFine [] := fun _ h => by simp at h

theorem writeAllAux_spec {c : IoErr → Prop} : ∀ (script : List WEv) (buf got : Bytes),
    Wrote True c buf ⟨script, got⟩ (writeAllAux buf got script).1 (writeAllAux buf got script).2 := by
  intro script
  induction script with
  | nil => intro buf got; exact ⟨[], .nil, .inl ⟨rfl, rfl, rfl, trivial⟩⟩
  | cons ev script ih =>
    intro buf got
    unfold writeAllAux
    split
    · next h => subst h; exact ⟨[], .nil, .inl ⟨rfl, by simp, rfl, trivial⟩⟩
    · cases ev with
      | err e =>
        have fail : ∀ e, e ≠ .interrupted → Wrote True c buf ⟨.err e :: script, got⟩ (.err e) ⟨script, got⟩ := fun e he =>
          ⟨[], .nil, .inr ⟨e, [], rfl, List.nil_prefix, by simp, .inl ⟨_, rfl, .inl ⟨rfl, he⟩⟩⟩⟩
        cases e with
        | interrupted =>
          obtain ⟨used, hu, h⟩ := ih buf got
          have hu' : WritesFine (.err .interrupted :: used) := by
            intro ev hev
            rcases List.mem_cons.mp hev with rfl | hev
            · rintro e (⟨h1, h2⟩ | ⟨h1, _⟩)
              · cases h1; exact h2 rfl
              · cases h1
            · exact hu ev hev
          refine ⟨_, hu', ?_⟩
          rcases h with ⟨h1, h2, h3, h4⟩ | ⟨e, p, h1, h2, h3, ⟨ev, h4, h5⟩ | ⟨h4, h5⟩⟩
          · exact .inl ⟨h1, h2, by rw [List.cons_append, ← h3], h4⟩
          · exact .inr ⟨e, p, h1, h2, h3, .inl ⟨ev, by rw [List.cons_append, ← h4], h5⟩⟩
          · exact .inr ⟨e, p, h1, h2, h3, .inr ⟨by rw [List.cons_append, ← h4], h5⟩⟩
        | _ => exact fail _ (by simp)
      | accept n =>
        simp only
        split
        · next hne h0 =>
          refine ⟨[], .nil, .inr ⟨_, [], rfl, List.nil_prefix, by simp, .inl ⟨_, rfl, .inr ⟨?_, rfl⟩⟩⟩⟩
          have h0 : min n buf.length = 0 := h0
          have : n = 0 := by
            have : buf.length ≠ 0 := fun h => hne (List.length_eq_zero_iff.mp h)
            omega
          simp [this]
        · next hne h0 =>
          have hn : n ≠ 0 := by rintro rfl; exact h0 (Nat.zero_min _)
          generalize Nat.min n buf.length = m
          obtain ⟨used, hu, h⟩ := ih (buf.drop m) (got ++ buf.take m)
          have hu' : WritesFine (.accept n :: used) := by
            intro ev hev
            rcases List.mem_cons.mp hev with rfl | hev
            · rintro e (⟨h1, h2⟩ | ⟨h1, _⟩)
              · cases h1
              · cases h1; exact hn rfl
            · exact hu ev hev
          refine ⟨_, hu', ?_⟩
          have hpre : ∀ p, p <+: buf.drop m → buf.take m ++ p <+: buf := by
            intro p hp
            conv => rhs; rw [← List.take_append_drop m buf]
            exact List.prefix_append_right_inj _ |>.mpr hp
          rcases h with ⟨h1, h2, h3, h4⟩ | ⟨e, p, h1, h2, h3, ⟨ev, h4, h5⟩ | ⟨h4, h5⟩⟩
          · exact .inl ⟨h1, by rw [h2]; simp, by rw [List.cons_append, ← h3], h4⟩
          · exact .inr ⟨e, _, h1, hpre p h2, by rw [h3]; simp, .inl ⟨ev, by rw [List.cons_append, ← h4], h5⟩⟩
          · exact .inr ⟨e, _, h1, hpre p h2, by rw [h3]; simp, .inr ⟨by rw [List.cons_append, ← h4], h5⟩⟩

theorem Sink.writeAll_spec {c : IoErr → Prop} (buf : Bytes) (k : Sink) : Wrote True c buf k (k.writeAll buf).1 (k.writeAll buf).2 := writeAllAux_spec k.script buf k.got

theorem Wrote.append {f g : Prop} {c : IoErr → Prop} {a b : Bytes} {k k1 k2 : Sink} {r : Res Unit} (h1 : Wrote f c a k (.ok ()) k1) (h2 : Wrote g c b k1 r k2) :
    Wrote (f ∧ g) c (a ++ b) k r k2 := by
  obtain ⟨u1, hu1, ⟨-, a2, a3, a4⟩ | ⟨_, _, h, _⟩⟩ := h1
  case inr => simp at h
  obtain ⟨u2, hu2, h2⟩ := h2
  refine ⟨u1 ++ u2, hu1.append hu2, ?_⟩
  rcases h2 with ⟨h1, h2, h3, h4⟩ | ⟨e, p, h1, h2, h3, ⟨ev, h4, h5⟩ | ⟨h4, h5⟩⟩
  · exact .inl ⟨h1, by rw [h2, a2]; simp, by rw [a3, h3, List.append_assoc], a4, h4⟩
  · exact .inr ⟨e, _, h1, List.prefix_append_right_inj _ |>.mpr h2, by rw [h3, a2]; simp, .inl ⟨ev, by rw [a3, h4, List.append_assoc], h5⟩⟩
  · exact .inr ⟨e, _, h1, List.prefix_append_right_inj _ |>.mpr h2, by rw [h3, a2]; simp, .inr ⟨by rw [a3, h4, List.append_assoc], h5⟩⟩

theorem Wrote.stop {f g : Prop} {c : IoErr → Prop} {a : Bytes} (b : Bytes) {k k1 : Sink} {r : Res Unit} (h : Wrote f c a k r k1) (hr : r ≠ .ok ()) : Wrote g c (a ++ b) k r k1 := by
  obtain ⟨u, hu, ⟨h1, -⟩ | ⟨e, p, h1, h2, h3, h4⟩⟩ := h
  · exact absurd h1 hr
  · exact ⟨u, hu, .inr ⟨e, p, h1, h2.trans (List.prefix_append _ _), h3, h4⟩⟩

theorem Wrote.imp {f g : Prop} {c c' : IoErr → Prop} {a : Bytes} {k k1 : Sink} {r : Res Unit} (h : Wrote f c a k r k1) (hf : f → g) (hc : ∀ e, c e → c' e) : Wrote g c' a k r k1 := by
  obtain ⟨u, hu, ⟨h1, h2, h3, h4⟩ | ⟨e, p, h1, h2, h3, h4⟩⟩ := h
  · exact ⟨u, hu, .inl ⟨h1, h2, h3, hf h4⟩⟩
  · exact ⟨u, hu, .inr ⟨e, p, h1, h2, h3, h4.imp_right fun h => ⟨h.1, hc _ h.2⟩⟩⟩

theorem Wrote.nil {f : Prop} {c : IoErr → Prop} {k : Sink} (hf : f) : Wrote f c [] k (.ok ()) k := ⟨[], .nil, .inl ⟨rfl, by simp, rfl, hf⟩⟩

theorem Sink.writeFmt_spec {c : IoErr → Prop} : ∀ (ps : List Bytes) (k : Sink), Wrote True c ps.flatten k (k.writeFmt ps).1 (k.writeFmt ps).2 := by
  intro ps
  induction ps with
  | nil => intro k; exact .nil trivial
  | cons p ps ih =>
    intro k
    unfold Sink.writeFmt
    have h := Sink.writeAll_spec (c := c) p k
    generalize k.writeAll p = x at h ⊢
    obtain ⟨r, k'⟩ := x
    cases r with
    | ok u => exact (Wrote.append h (ih k')).imp (fun h => h.1) (fun _ h => h)
    | _ => exact Wrote.stop _ h (by simp)

theorem copyTo_spec : ∀ (evs : List Ev) (k : Sink), Wrote (ReadsFine evs) (fun e => ReadFails e evs) (Ev.upToEnd evs) k (copyTo evs k).1 (copyTo evs k).2 := by
  intro evs
  induction evs with
  | nil => intro k; exact .nil .nil
  | cons ev evs ih =>
    intro k
    match ev with
    | .data [] => exact .nil .eof
    | .data (x :: xs) =>
      simp only [copyTo, Ev.upToEnd]
      have h := Sink.writeAll_spec (c := fun e => ReadFails e (.data (x :: xs) :: evs)) (x :: xs) k
      generalize k.writeAll (x :: xs) = y at h ⊢
      obtain ⟨r, k'⟩ := y
      cases r with
      | ok u => exact (Wrote.append h ((ih k').imp (f := ReadsFine evs) id fun e h => ReadFails.data h)).imp (fun h => .data h.2) (fun _ h => h)
      | _ => exact Wrote.stop _ h (by simp)
    | .err e =>
      cases e with
      | interrupted => exact (ih k).imp .interrupted fun _ => .interrupted
      | _ => exact ⟨[], .nil, .inr ⟨_, [], rfl, List.nil_prefix, by simp [copyTo], .inr ⟨rfl, .here (by simp)⟩⟩⟩

theorem ReadsFine.noFail {evs : List Ev} (h : ReadsFine evs) {e : IoErr} : ¬ ReadFails e evs := by
  intro hf
  induction hf with
  | here he => cases h; exact he rfl
  | data _ ih => cases h with | data h => exact ih h
  | interrupted _ ih => cases h with | interrupted h => exact ih h

/-! ## The writer -/

/-- The same for the whole writer. -/
structure WroteM (fine : Prop) (cause : IoErr → Prop) (text : Bytes) (w : MWriter) (r : Res Unit) (w' : MWriter) : Prop where
  wrote : Wrote fine cause text w.inner r w'.inner
  boundary : w'.boundary = w.boundary

theorem WroteM.inner {g : Prop} {c : IoErr → Prop} {text : Bytes} {w : MWriter} {f : Sink → Res Unit × Sink} (h : Wrote g c text w.inner (f w.inner).1 (f w.inner).2) :
    WroteM g c text w (w.onInner f).1 (w.onInner f).2 := ⟨h, rfl⟩

theorem WroteM.nil {c : IoErr → Prop} {w w' : MWriter} (h1 : w'.inner = w.inner := by rfl) (h2 : w'.boundary = w.boundary := by rfl) : WroteM True c [] w (.ok ()) w' :=
  ⟨by rw [h1]; exact .nil trivial, h2⟩

theorem WroteM.andThen {f1 f2 : Prop} {c : IoErr → Prop} {a b : Bytes} {w : MWriter} {x : Res Unit × MWriter} {f : MWriter → Res Unit × MWriter}
    (h1 : WroteM f1 c a w x.1 x.2) (h2 : x.1 = .ok () → WroteM f2 c b x.2 (f x.2).1 (f x.2).2) : WroteM (f1 ∧ f2) c (a ++ b) w (andThen x f).1 (andThen x f).2 := by
  obtain ⟨r, w1⟩ := x
  cases r with
  | ok u => exact ⟨h1.wrote.append (h2 rfl).wrote, (h2 rfl).boundary.trans h1.boundary⟩
  | _ => exact ⟨h1.wrote.stop _ (by simp), h1.boundary⟩

theorem WroteM.imp {f g : Prop} {c : IoErr → Prop} {a : Bytes} {w w' : MWriter} {r : Res Unit} (h : WroteM f c a w r w') (hf : f → g) : WroteM g c a w r w' :=
  ⟨h.wrote.imp hf fun _ => id, h.boundary⟩

/-- For steps that cannot fail but by the destination. -/
theorem WroteM.andThen' {f2 : Prop} {c : IoErr → Prop} {a b : Bytes} {w : MWriter} {x : Res Unit × MWriter} {f : MWriter → Res Unit × MWriter}
    (h1 : WroteM True c a w x.1 x.2) (h2 : x.1 = .ok () → WroteM f2 c b x.2 (f x.2).1 (f x.2).2) : WroteM f2 c (a ++ b) w (Multipart.andThen x f).1 (Multipart.andThen x f).2 :=
  ⟨(h1.andThen h2).wrote.imp (·.2) fun _ => id, (h1.andThen h2).boundary⟩

theorem andThen_ok {x : Res Unit × MWriter} {f : MWriter → Res Unit × MWriter} (h : (andThen x f).1 = .ok ()) : x.1 = .ok () ∧ andThen x f = f x.2 := by
  obtain ⟨r, w⟩ := x
  cases r <;> simp_all [andThen]

/-- What stands between the data before and the next delimiter. -/
def lead (dw : Bool) : Bytes := if dw then crlf else []

theorem MWriter.writeBoundary_spec {c : IoErr → Prop} (w : MWriter) :
    WroteM True c (lead w.dataWritten ++ (dashes ++ w.boundary ++ crlf)) w w.writeBoundary.1 w.writeBoundary.2 ∧ w.writeBoundary.2.dataWritten = w.dataWritten := by
  constructor
  · unfold MWriter.writeBoundary
    apply WroteM.andThen'
    · unfold lead; split
      · exact .inner (Sink.writeAll_spec _ _)
      · exact .nil
    · intro _
      have : (if w.dataWritten = true then w.onInner (·.writeAll crlf) else (Res.ok (), w)).2.boundary = w.boundary := by split <;> rfl
      rw [← this]
      have h := WroteM.inner (c := c) (f := fun k => k.writeFmt [dashes, (if w.dataWritten = true then w.onInner (·.writeAll crlf) else (Res.ok (), w)).2.boundary, crlf])
        (w := (if w.dataWritten = true then w.onInner (·.writeAll crlf) else (Res.ok (), w)).2) (Sink.writeFmt_spec _ _)
      simpa using h
  · unfold MWriter.writeBoundary
    generalize hx : (if w.dataWritten = true then w.onInner (·.writeAll crlf) else (Res.ok (), w)) = x
    have : x.2.dataWritten = w.dataWritten := by rw [← hx]; split <;> rfl
    obtain ⟨r, w1⟩ := x
    cases r <;> exact this

theorem MWriter.writeFieldHeaders_spec {c : IoErr → Prop} (w : MWriter) (name : Bytes) (filename : Option Bytes) (ct : Option Mime) (dat : Bytes) :
    WroteM True c (lead w.dataWritten ++ (dashes ++ w.boundary ++ crlf) ++ (OutField.mk name filename (ct.map (·.src)) dat).headers) w
      (w.writeFieldHeaders name filename ct).1 (w.writeFieldHeaders name filename ct).2 ∧
    ((w.writeFieldHeaders name filename ct).1 = .ok () → (w.writeFieldHeaders name filename ct).2.dataWritten = true) := by
  have hh : (OutField.mk name filename (ct.map (·.src)) dat).headers =
      [] ++ (b!"Content-Disposition: form-data; name=\"" ++ name ++ b!"\"" ++
        ((match filename with | some f => b!"; filename=\"" ++ f ++ b!"\"" | none => []) ++
        ((match ct with | some m => b!"\r\nContent-Type: " ++ m.src | none => []) ++ b!"\r\n\r\n"))) := by
    cases filename <;> cases ct <;> simp [OutField.headers, OutField.disposition, crlf]
  rw [hh]
  obtain ⟨h1, h2⟩ := MWriter.writeBoundary_spec (c := c) w
  constructor
  · unfold MWriter.writeFieldHeaders
    refine h1.andThen' fun _ => WroteM.andThen' .nil fun _ => WroteM.andThen' ?_ fun _ => WroteM.andThen' ?_ fun _ => WroteM.andThen' ?_ fun _ => .inner (Sink.writeAll_spec _ _)
    · have := WroteM.inner (c := c) (f := fun k => k.writeFmt [b!"Content-Disposition: form-data; name=\"", name, b!"\""]) (w := { w.writeBoundary.2 with dataWritten := true }) (Sink.writeFmt_spec _ _)
      simpa using this
    · cases filename with
      | none => exact .nil
      | some f =>
        refine WroteM.inner ?_
        have := Sink.writeFmt_spec (c := c) [b!"; filename=\"", f, b!"\""]
        simp only [List.flatten_cons, List.flatten_nil, List.append_nil, ← List.append_assoc] at this
        exact this _
    · cases ct with
      | none => exact .nil
      | some m =>
        refine WroteM.inner ?_
        have := Sink.writeFmt_spec (c := c) [b!"\r\nContent-Type: ", m.src]
        simp only [List.flatten_cons, List.flatten_nil, List.append_nil, ← List.append_assoc] at this
        exact this _
  · intro h
    unfold MWriter.writeFieldHeaders at h ⊢
    obtain ⟨a1, a2⟩ := andThen_ok h
    rw [a2] at h ⊢
    obtain ⟨b1, b2⟩ := andThen_ok h
    rw [b2] at h ⊢
    obtain ⟨c1, c2⟩ := andThen_ok h
    rw [c2] at h ⊢
    obtain ⟨d1, d2⟩ := andThen_ok h
    rw [d2] at h ⊢
    obtain ⟨e1, e2⟩ := andThen_ok h
    rw [e2]
    cases filename <;> cases ct <;> rfl

theorem MWriter.writeStream_spec {c : IoErr → Prop} (w : MWriter) (name : Bytes) (evs : List Ev) (filename : Option Bytes) (ct : Option Mime) (hc : ∀ e, ReadFails e evs → c e) :
    WroteM (ReadsFine evs) c (lead w.dataWritten ++ (dashes ++ w.boundary ++ crlf) ++ (OutField.mk name filename (some (ct.getD octetStream).src) (Ev.upToEnd evs)).headers ++ Ev.upToEnd evs) w
      (w.writeStream evs name filename ct).1 (w.writeStream evs name filename ct).2 ∧
    ((w.writeStream evs name filename ct).1 = .ok () → (w.writeStream evs name filename ct).2.dataWritten = true) := by
  obtain ⟨h1, h2⟩ := MWriter.writeFieldHeaders_spec (c := c) w name filename (some (ct.getD octetStream)) (Ev.upToEnd evs)
  constructor
  · exact h1.andThen' fun _ => .inner ((copyTo_spec evs _).imp id hc)
  · intro h
    unfold MWriter.writeStream at h ⊢
    obtain ⟨a1, a2⟩ := andThen_ok h
    rw [a2]
    exact h2 a1

/-- One call writes the encoding of its field. -/
theorem MWriter.op_spec {env : FileEnv} (w : MWriter) {o : ClientOp} {f : OutField} (hf : StandsFor env o f) :
    WroteM (∀ evs, o.reads env evs → ReadsFine evs) (OpFails env o) (lead w.dataWritten ++ (dashes ++ w.boundary ++ crlf) ++ f.headers ++ f.data) w (w.op env o).1 (w.op env o).2 ∧
    ((w.op env o).1 = .ok () → (w.op env o).2.dataWritten = true) := by
  cases hf with
  | text name val =>
    obtain ⟨h1, h2⟩ := MWriter.writeFieldHeaders_spec (c := OpFails env (.text name val)) w name none none val
    constructor
    · exact (h1.andThen' fun _ => .inner (Sink.writeAll_spec _ _)).imp fun _ evs h => h.elim
    · intro h
      simp only [MWriter.op, MWriter.writeText] at h ⊢
      obtain ⟨a1, a2⟩ := andThen_ok h
      rw [a2]
      exact h2 a1
  | stream name evs filename ct => 
    have := MWriter.writeStream_spec (c := OpFails env (.stream name evs filename (some ct))) w name evs filename (some ct) fun e h => .inl ⟨evs, rfl, h⟩
    exact ⟨this.1.imp fun h _ he => he ▸ h, this.2⟩
  | octets name evs filename => 
    have := MWriter.writeStream_spec (c := OpFails env (.stream name evs filename none)) w name evs filename none fun e h => .inl ⟨evs, rfl, h⟩
    exact ⟨this.1.imp fun h _ he => he ▸ h, this.2⟩
  | file name dir fname evs ho hu =>
    have := MWriter.writeStream_spec (c := OpFails env (.file name (dir ++ [fname]))) w name evs (some fname) (some (env.guess (dir ++ [fname]))) fun e h => .inl ⟨evs, ho, h⟩
    have he : w.op env (.file name (dir ++ [fname])) = w.writeStream evs name (some fname) (some (env.guess (dir ++ [fname]))) := by
      simp [MWriter.op, MWriter.writeFile, ho, mimeFilename, optFilename_some hu]
    rw [he]; exact ⟨this.1.imp fun h _ he => by cases ho.symm.trans he; exact h, this.2⟩
  | fileUnnamed name path evs ho hu =>
    have := MWriter.writeStream_spec (c := OpFails env (.file name path)) w name evs none (some (env.guess path)) fun e h => .inl ⟨evs, ho, h⟩
    have he : w.op env (.file name path) = w.writeStream evs name none (some (env.guess path)) := by
      have : optFilename path = none := by
        rcases List.eq_nil_or_concat path with rfl | ⟨dir, fname, rfl⟩
        · rfl
        · have := hu dir fname (by simp)
          rw [List.concat_eq_append]; exact optFilename_none this
      simp [MWriter.op, MWriter.writeFile, ho, mimeFilename, this]
    rw [he]; exact ⟨this.1.imp fun h _ he => by cases ho.symm.trans he; exact h, this.2⟩

/-- A call that stands for no field: a file that cannot be opened. -/
theorem standsFor_or (env : FileEnv) (o : ClientOp) : (∃ f, StandsFor env o f) ∨ ∃ n p e, o = .file n p ∧ env.open_ p = .error e := by
  cases o with
  | text n v => exact .inl ⟨_, .text n v⟩
  | stream n evs fn ct =>
    cases ct with
    | none => exact .inl ⟨_, .octets n evs fn⟩
    | some ct => exact .inl ⟨_, .stream n evs fn ct⟩
  | file n p =>
    cases ho : env.open_ p with
    | error e => exact .inr ⟨n, p, e, rfl, ho⟩
    | ok evs =>
      rcases List.eq_nil_or_concat p with rfl | ⟨dir, fname, rfl⟩
      · exact .inl ⟨_, .fileUnnamed n [] evs ho (by simp)⟩
      · rw [List.concat_eq_append] at ho ⊢
        by_cases hu : IsFileName fname
        · exact .inl ⟨_, .file n dir fname evs ho hu⟩
        · refine .inl ⟨_, .fileUnnamed n _ evs ho ?_⟩
          intro d f h
          have := List.append_inj_right' h rfl
          simp at this
          rw [← this]; exact hu

theorem StandsFor.unique {env : FileEnv} {o : ClientOp} {f g : OutField} (hf : StandsFor env o f) (hg : StandsFor env o g) : f = g := by
  cases hf with
  | text => cases hg; rfl
  | stream => cases hg; rfl
  | octets => cases hg; rfl
  | file name dir fname evs ho hu =>
    generalize hp : dir ++ [fname] = p at *
    cases hg with
    | file _ dir' fname' evs' ho' hu' =>
      have h1 := List.append_inj_right' hp rfl
      simp at h1
      subst h1
      rw [ho] at ho'; cases ho'; rfl
    | fileUnnamed _ _ evs' ho' hu' => exact absurd hu (hu' _ _ hp.symm)
  | fileUnnamed name path evs ho hu =>
    cases hg with
    | file _ dir' fname' evs' ho' hu' => exact absurd hu' (hu _ _ rfl)
    | fileUnnamed _ _ evs' ho' hu' => rw [ho] at ho'; cases ho'; rfl

/-- The fields without the closing line: what stands in the body after these calls, if `dw` tells whether something was written before. -/
def encodeOpen (b : Bytes) : Bool → List OutField → Bytes
  | _, [] => []
  | dw, f :: fs => lead dw ++ (dashes ++ b ++ crlf) ++ f.headers ++ f.data ++ encodeOpen b true fs

theorem encodeOpen_closed (b : Bytes) : ∀ (fs : List OutField) (dw : Bool), encodeOpen b dw fs ++ (lead (dw || !fs.isEmpty) ++ (dashes ++ b ++ b!"--\r\n")) = lead dw ++ encode b fs := by
  intro fs
  induction fs with
  | nil => intro dw; simp [encodeOpen, encode, crlf, dashes]
  | cons f fs ih =>
    intro dw
    have := ih true
    simp only [Bool.true_or] at this
    simp only [encodeOpen, encode, List.append_assoc, List.isEmpty_cons, Bool.not_false, Bool.or_true] at this ⊢
    rw [this]
    simp [lead]

theorem MWriter.chain_spec {env : FileEnv} : ∀ {os : List ClientOp} {fs : List OutField} (w : MWriter), All2 (StandsFor env) os fs →
    WroteM (∀ o ∈ os, ∀ evs, o.reads env evs → ReadsFine evs) (fun e => ∃ o ∈ os, OpFails env o e) (encodeOpen w.boundary w.dataWritten fs) w (w.chain env os).1 (w.chain env os).2 ∧
    ((w.chain env os).1 = .ok () → (w.chain env os).2.dataWritten = (w.dataWritten || !fs.isEmpty)) := by
  intro os
  induction os with
  | nil =>
    intro fs w h
    cases h
    exact ⟨(WroteM.nil).imp fun _ => by simp, fun _ => by simp [MWriter.chain]⟩
  | cons o os ih =>
    intro fs w h
    cases h with
    | @cons _ f _ fs hf h =>
      obtain ⟨h1, h2⟩ := MWriter.op_spec w hf
      unfold MWriter.chain
      have hm : ∀ e, (∃ o ∈ os, OpFails env o e) → ∃ x ∈ o :: os, OpFails env x e := fun e ⟨o', ho, h⟩ => ⟨o', List.mem_cons_of_mem _ ho, h⟩
      constructor
      · refine WroteM.imp (WroteM.andThen (f2 := ∀ o ∈ os, ∀ evs, o.reads env evs → ReadsFine evs) ⟨h1.wrote.imp id fun e he => ⟨o, by simp, he⟩, h1.boundary⟩ ?_) (fun h => List.forall_mem_cons.mpr h)
        intro hok
        have := (ih (w.op env o).2 h).1
        rw [h2 hok, h1.boundary] at this
        exact ⟨this.wrote.imp id hm, this.boundary.trans rfl⟩
      · intro hok
        obtain ⟨a1, a2⟩ := andThen_ok hok
        rw [a2] at hok ⊢
        rw [(ih (w.op env o).2 h).2 hok, h2 a1]
        simp

theorem MWriter.finish_spec {c : IoErr → Prop} (w : MWriter) :
    WroteM True c (lead w.dataWritten ++ (dashes ++ w.boundary ++ b!"--\r\n")) w w.finish.1 w.finish.2 := by
  unfold MWriter.finish
  apply WroteM.andThen'
  · unfold lead; split
    · exact .inner (Sink.writeAll_spec _ _)
    · exact .nil
  · intro _
    have : (if w.dataWritten = true then w.onInner (·.writeAll crlf) else (Res.ok (), w)).2.boundary = w.boundary := by split <;> rfl
    have h := Sink.writeFmt_spec (c := c) [dashes, w.boundary, b!"--\r\n"]
    simp only [List.flatten_cons, List.flatten_nil, List.append_nil, ← List.append_assoc] at h
    rw [this]
    exact .inner (h _)

/-- Chained calls and `finish` together. -/
theorem MWriter.body_spec {env : FileEnv} {os : List ClientOp} {fs : List OutField} (k : Sink) (b : Bytes) (h : All2 (StandsFor env) os fs) :
    WroteM (∀ o ∈ os, ∀ evs, o.reads env evs → ReadsFine evs) (fun e => ∃ o ∈ os, OpFails env o e) (encode b fs) (MWriter.new k b)
      (andThen ((MWriter.new k b).chain env os) MWriter.finish).1 (andThen ((MWriter.new k b).chain env os) MWriter.finish).2 := by
  have he := encodeOpen_closed b fs false
  simp only [lead, Bool.false_or] at he
  have hl : (if false = true then crlf else []) ++ encode b fs = encode b fs := by simp
  rw [hl] at he
  rw [← he]
  obtain ⟨h1, h2⟩ := MWriter.chain_spec (MWriter.new k b) h
  refine (h1.andThen (f2 := True) fun hok => ?_).imp And.left
  have := MWriter.finish_spec (c := fun e => ∃ o ∈ os, OpFails env o e) ((MWriter.new k b).chain env os).2
  rw [h2 hok, h1.boundary] at this
  exact this

/-- Calls that stand for fields, up to one that does not. -/
theorem all2_or (env : FileEnv) (os : List ClientOp) : (∃ fs, All2 (StandsFor env) os fs) ∨
    ∃ pre n p e post fs, os = pre ++ .file n p :: post ∧ env.open_ p = .error e ∧ All2 (StandsFor env) pre fs := by
  induction os with
  | nil => exact .inl ⟨[], .nil⟩
  | cons o os ih =>
    rcases standsFor_or env o with ⟨f, hf⟩ | ⟨n, p, e, rfl, he⟩
    · rcases ih with ⟨fs, h⟩ | ⟨pre, n, p, e, post, fs, rfl, h1, h2⟩
      · exact .inl ⟨f :: fs, .cons hf h⟩
      · exact .inr ⟨o :: pre, n, p, e, post, f :: fs, rfl, h1, .cons hf h2⟩
    · exact .inr ⟨[], n, p, e, os, [], rfl, he, .nil⟩

theorem MWriter.chain_append {env : FileEnv} (os os' : List ClientOp) (w : MWriter) : w.chain env (os ++ os') = andThen (w.chain env os) fun w => w.chain env os' := by
  induction os generalizing w with
  | nil => rfl
  | cons o os ih =>
    simp only [List.cons_append, MWriter.chain]
    generalize w.op env o = x
    obtain ⟨r, w'⟩ := x
    cases r with
    | ok u => exact ih w'
    | _ => rfl

end Multipart

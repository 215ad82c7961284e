import Verif.Lemmas.Client
import Verif.Props.Sample
/-!
# C23, C25-C29: what the client writes

`plainRequest env req b os` is a whole request made with `Multipart::from_request`, the calls `os`, chained by `?`, and `send`; `sizedRequest` the same with
`from_request_sized`. `env` are the files and `b` is the boundary.
-/
namespace Multipart

namespace Sample

def env : FileEnv := ⟨fun p => if p = [b!"d", b!"f.txt"] then .ok [.data b!"file", .err .interrupted, .data b!"data"] else .error (.other 2), fun _ => ⟨b!"text/plain", b!"text"⟩⟩

/-- A request whose stream makes short and interrupted writes. -/
def req : ClientReq := { accepts := fun _ _ => true, applied := [], openErr := none, script := [.accept 3, .err .interrupted, .accept 1, .accept 100], finishErr := none }

/-- One whose stream fails at the third write. -/
def badReq : ClientReq := { req with script := [.accept 3, .err .interrupted, .err (.other 7)] }

/-- One that refuses the headers. -/
def noReq : ClientReq := { req with accepts := fun _ _ => false }

def ops : List ClientOp := [.text b!"a" b!"hello", .file b!"f" [b!"d", b!"f.txt"], .stream b!"s" [.data b!"xyz"] none none]

def sent : ClientStream := ((plainRequest env req b!"b" ops).2).getD ⟨[], ⟨[], []⟩, none⟩

theorem sent_eq : plainRequest env req b!"b" ops = (.ok (), some sent) := by decide +kernel

def badSent : ClientStream := ((plainRequest env badReq b!"b" ops).2).getD ⟨[], ⟨[], []⟩, none⟩

theorem badSent_eq : plainRequest env badReq b!"b" ops = (.err (.other 7), some badSent) := by decide +kernel

theorem ops_fields : All2 (StandsFor env) ops [⟨b!"a", none, none, b!"hello"⟩, ⟨b!"f", some b!"f.txt", some b!"text/plain", b!"filedata"⟩, ⟨b!"s", none, some b!"application/octet-stream", b!"xyz"⟩] :=
  .cons (.text _ _) (.cons (.file (env := env) b!"f" [b!"d"] b!"f.txt" [.data b!"file", .err .interrupted, .data b!"data"] rfl ⟨(utf8Valid_iff _).mp (by decide +kernel), by decide⟩) (.cons (.octets _ [.data b!"xyz"] _) .nil))

end Sample

variable {env : FileEnv} {req : ClientReq} {b : Bytes} {os : List ClientOp} {fs : List OutField} {s : ClientStream} {e : IoErr}

theorem sendPlain_eq (s : ClientStream) (w : MWriter) : sendPlain s w = (if w.finish.1 = .ok () then { s with sink := w.finish.2.inner }.finish else w.finish.1, { s with sink := w.finish.2.inner }) := by
  unfold sendPlain
  split
  · next h => rw [h]; rfl
  · next r w' hn h =>
    rw [h]
    have : r ≠ .ok () := by rintro rfl; exact hn rfl
    simp [this]

/-- Chained calls and `send` on the stream of the request. -/
theorem plainRequest_eq (ho : req.openErr = none) : plainRequest env req b os =
    let x := andThen ((MWriter.new ⟨req.script, []⟩ b).chain env os) MWriter.finish
    let s : ClientStream := ⟨req.applied ++ [(b, none)], x.2.inner, req.finishErr⟩
    (if x.1 = .ok () then s.finish else x.1, some s) := by
  simp only [plainRequest, openStream, ClientReq.applyHeaders, ClientReq.openStream, ho, sendPlain_eq]
  generalize (MWriter.new ⟨req.script, []⟩ b).chain env os = x
  obtain ⟨r, w⟩ := x
  cases r <;> rfl

theorem MWriter.body_open {env : FileEnv} {pre post : List ClientOp} {fs : List OutField} {n : Bytes} {p : Path} {e : IoErr} (k : Sink) (b : Bytes)
    (h : All2 (StandsFor env) pre fs) (he : env.open_ p = .error e) :
    WroteM False (fun e => ∃ o ∈ pre ++ .file n p :: post, OpFails env o e) (encode b fs) (MWriter.new k b)
      (andThen ((MWriter.new k b).chain env (pre ++ .file n p :: post)) MWriter.finish).1
      (andThen ((MWriter.new k b).chain env (pre ++ .file n p :: post)) MWriter.finish).2 := by
  have he' := encodeOpen_closed b fs false
  simp only [lead, Bool.false_or] at he'
  have hl : (if false = true then crlf else []) ++ encode b fs = encode b fs := by simp
  rw [hl] at he'
  rw [← he']
  obtain ⟨h1, -⟩ := MWriter.chain_spec (MWriter.new k b) h
  rw [MWriter.chain_append]
  generalize (MWriter.new k b).chain env pre = x at h1 ⊢
  obtain ⟨r, w⟩ := x
  have hm : ∀ e, (∃ o ∈ pre, OpFails env o e) → ∃ o ∈ pre ++ .file n p :: post, OpFails env o e := fun e ⟨o, ho, h⟩ => ⟨o, List.mem_append_left _ ho, h⟩
  cases r with
  | ok u =>
    simp only [andThen, MWriter.chain, MWriter.op, MWriter.writeFile, he]
    refine ⟨?_, h1.boundary⟩
    obtain ⟨u, hu, ⟨-, h2, h3, -⟩ | ⟨_, _, h, _⟩⟩ := h1.wrote
    · exact ⟨u, hu, .inr ⟨e, _, rfl, List.prefix_append _ _, h2, .inr ⟨h3, _, List.mem_append_right _ (List.mem_cons_self ..), .inr ⟨n, p, rfl, he⟩⟩⟩⟩
    · simp at h
  | _ => exact ⟨(h1.wrote.imp id hm).stop _ (by simp), h1.boundary⟩

/-- **C23.** If all calls and `send` succeed, the stream has got the multipart encoding of the fields the calls stand for, in call order,
closed by `--boundary--` CRLF. With no calls that is the closing line alone. -/
theorem C23_body (h : plainRequest env req b os = (.ok (), some s)) :
    ∃ fs, All2 (StandsFor env) os fs ∧ s.sink.got = encode b fs ∧ ∀ o ∈ os, ∀ evs, o.reads env evs → ReadsFine evs := by
  cases ho : req.openErr with
  | some e => simp [plainRequest, openStream, ClientReq.applyHeaders, ClientReq.openStream, ho] at h
  | none =>
    rw [plainRequest_eq ho] at h
    rcases all2_or env os with ⟨fs, hfs⟩ | ⟨pre, n, p, e, post, fs, rfl, he, hfs⟩
    · have hw := (MWriter.body_spec ⟨req.script, []⟩ b hfs).wrote
      generalize andThen ((MWriter.new ⟨req.script, []⟩ b).chain env os) MWriter.finish = x at h hw
      obtain ⟨r, w⟩ := x
      simp only [Prod.mk.injEq, Option.some.injEq] at h
      obtain ⟨h1, rfl⟩ := h
      obtain ⟨u, hu, ⟨-, h2, -, h3⟩ | ⟨e, _, h2, _⟩⟩ := hw
      · exact ⟨fs, hfs, by simpa [MWriter.new] using h2, h3⟩
      · cases h2; simp at h1
    · have hw := (MWriter.body_open (n := n) (post := post) ⟨req.script, []⟩ b hfs he).wrote
      generalize andThen ((MWriter.new ⟨req.script, []⟩ b).chain env _) MWriter.finish = x at h hw
      obtain ⟨r, w⟩ := x
      simp only [Prod.mk.injEq, Option.some.injEq] at h
      obtain ⟨u, hu, ⟨-, -, -, h3⟩ | ⟨e, _, h2, _⟩⟩ := hw
      · exact h3.elim
      · cases h2; simp at h

example : ∃ s, plainRequest Sample.env Sample.req b!"b" Sample.ops = (.ok (), some s) := ⟨_, Sample.sent_eq⟩

theorem C23_no_fields (h : plainRequest env req b [] = (.ok (), some s)) : s.sink.got = b!"--" ++ b ++ b!"--\r\n" := by
  obtain ⟨fs, h1, h2, -⟩ := C23_body h
  cases h1
  simp [h2, encode, dashes, crlf]

example : (plainRequest Sample.env Sample.req b!"b" []).1 = .ok () := by decide +kernel

/-- Which field a call stands for is determined. -/
theorem C23_unique {o : ClientOp} {f g : OutField} (hf : StandsFor env o f) (hg : StandsFor env o g) : f = g := hf.unique hg

example : StandsFor Sample.env (.text b!"a" b!"x") ⟨b!"a", none, none, b!"x"⟩ := .text _ _

/-- **C25.** Short writes and interruptions do not change the body: whatever the schedule, if the destination never fails, the streams can be read,
and `finish` of the stream succeeds, then all calls succeed and the body is the same. -/
theorem C25_short_writes (ho : req.openErr = none) (hk : WritesFine req.script) (hf : req.finishErr = none) (hos : All2 (StandsFor env) os fs)
    (hr : ∀ o ∈ os, ∀ evs, o.reads env evs → ReadsFine evs) : ∃ s, plainRequest env req b os = (.ok (), some s) ∧ s.sink.got = encode b fs := by
  rw [plainRequest_eq ho]
  have hw := (MWriter.body_spec ⟨req.script, []⟩ b hos).wrote
  generalize andThen ((MWriter.new ⟨req.script, []⟩ b).chain env os) MWriter.finish = x at hw ⊢
  obtain ⟨r, w⟩ := x
  obtain ⟨u, hu, ⟨h1, h2, -⟩ | ⟨e, _, h2, -, -, ⟨ev, h3, h4⟩ | ⟨-, o, h3, h4⟩⟩⟩ := hw
  · cases h1
    refine ⟨⟨req.applied ++ [(b, none)], w.inner, req.finishErr⟩, ?_, by simpa [MWriter.new] using h2⟩
    simp only [if_true, ClientStream.finish, hf]
  · exact absurd h4 (hk ev (by simp only [MWriter.new] at h3; rw [h3]; simp) e)
  · rcases h4 with ⟨evs, h4, h5⟩ | ⟨n, p, rfl, h5⟩
    · exact absurd h5 (hr o h3 evs h4).noFail
    · exfalso
      clear hr hf hk
      induction hos with
      | nil => simp at h3
      | cons hf _ ih =>
        rcases List.mem_cons.mp h3 with rfl | h3
        · cases hf <;> simp_all
        · exact ih h3

example : Sample.req.openErr = none ∧ WritesFine Sample.req.script ∧ Sample.req.finishErr = none ∧ (∃ fs, All2 (StandsFor Sample.env) Sample.ops fs) ∧
    ∀ o ∈ Sample.ops, ∀ evs, o.reads Sample.env evs → ReadsFine evs := by
  refine ⟨rfl, ?_, rfl, ⟨_, Sample.ops_fields⟩, (C23_body Sample.sent_eq).elim fun _ h => h.2.2⟩
  intro ev hev e
  simp [Sample.req] at hev
  rcases hev with rfl | rfl | rfl | rfl <;> rintro (⟨h, h'⟩ | ⟨h, -⟩) <;> cases h
  exact h' rfl

/-- When the request fails, what was sent is a prefix of the complete body (of the calls up to the first file that cannot be opened), and the error is that
of the first failing write, or if no write failed, that of a stream or file of a call, or that of the stream's `finish` after the whole body was sent. -/
theorem C25_failure (h : plainRequest env req b os = (.err e, some s)) :
    ∃ pre post fs used, os = pre ++ post ∧ All2 (StandsFor env) pre fs ∧ s.sink.got <+: encode b fs ∧
      (post ≠ [] → ∃ n p err rest, post = .file n p :: rest ∧ env.open_ p = .error err) ∧ WritesFine used ∧
      ((∃ ev, req.script = used ++ ev :: s.sink.script ∧ ev.FailsWith e) ∨
       (req.script = used ++ s.sink.script ∧ ((∃ o ∈ os, OpFails env o e) ∨ (req.finishErr = some e ∧ s.sink.got = encode b fs ∧ post = [])))) := by
  cases ho : req.openErr with
  | some e => simp [plainRequest, openStream, ClientReq.applyHeaders, ClientReq.openStream, ho] at h
  | none =>
    rw [plainRequest_eq ho] at h
    rcases all2_or env os with ⟨fs, hfs⟩ | ⟨pre, n, p, e', post, fs, rfl, he, hfs⟩
    · have hw := (MWriter.body_spec ⟨req.script, []⟩ b hfs).wrote
      generalize andThen ((MWriter.new ⟨req.script, []⟩ b).chain env os) MWriter.finish = x at h hw
      obtain ⟨r, w⟩ := x
      simp only [Prod.mk.injEq, Option.some.injEq] at h
      obtain ⟨h1, rfl⟩ := h
      obtain ⟨u, hu, ⟨h2, h3, h4, -⟩ | ⟨e, p, h2, h3, h4, h5⟩⟩ := hw
      · cases h2
        refine ⟨os, [], fs, u, by simp, hfs, by simp_all [MWriter.new], by simp, hu, .inr ⟨h4, .inr ⟨?_, by simpa [MWriter.new] using h3, rfl⟩⟩⟩
        simp only [if_true, ClientStream.finish] at h1
        cases hf : req.finishErr <;> simp_all
      · cases h2
        simp at h1
        subst h1
        refine ⟨os, [], fs, u, by simp, hfs, by simp only [MWriter.new, List.nil_append] at h4; exact h4 ▸ h3, by simp, hu, h5.imp id fun h => ⟨h.1, .inl h.2⟩⟩
    · have hw := (MWriter.body_open (n := n) (post := post) ⟨req.script, []⟩ b hfs he).wrote
      generalize andThen ((MWriter.new ⟨req.script, []⟩ b).chain env _) MWriter.finish = x at h hw
      obtain ⟨r, w⟩ := x
      simp only [Prod.mk.injEq, Option.some.injEq] at h
      obtain ⟨h1, rfl⟩ := h
      obtain ⟨u, hu, ⟨-, -, -, h3⟩ | ⟨e, q, h2, h3, h4, h5⟩⟩ := hw
      · exact h3.elim
      · cases h2
        simp at h1
        subst h1
        exact ⟨pre, _, fs, u, rfl, hfs, by simp only [MWriter.new, List.nil_append] at h4; exact h4 ▸ h3, fun _ => ⟨n, p, e', post, rfl, he⟩, hu, h5.imp id fun h => ⟨h.1, .inl h.2⟩⟩

example : ∃ e s, plainRequest Sample.env Sample.badReq b!"b" Sample.ops = (.err e, some s) ∧ s.sink.got = b!"--" := ⟨_, _, Sample.badSent_eq, by decide +kernel⟩

example : ∃ e s, plainRequest Sample.env Sample.req b!"b" [.text b!"a" b!"x", .file b!"f" [b!"nowhere"]] = (.err e, some s) := ⟨.other 2, _, Sample.pair_eq (by decide +kernel) (by rw [plainRequest_eq rfl])⟩

/-- No failed write is passed over in silence: after success all writes made were short or interrupted at worst. -/
theorem C25_success (h : plainRequest env req b os = (.ok (), some s)) : ∃ used, req.script = used ++ s.sink.script ∧ WritesFine used ∧ req.finishErr = none := by
  cases ho : req.openErr with
  | some e => simp [plainRequest, openStream, ClientReq.applyHeaders, ClientReq.openStream, ho] at h
  | none =>
    obtain ⟨fs, hfs, -, -⟩ := C23_body h
    rw [plainRequest_eq ho] at h
    have hw := (MWriter.body_spec ⟨req.script, []⟩ b hfs).wrote
    generalize andThen ((MWriter.new ⟨req.script, []⟩ b).chain env os) MWriter.finish = x at h hw
    obtain ⟨r, w⟩ := x
    simp only [Prod.mk.injEq, Option.some.injEq] at h
    obtain ⟨h1, rfl⟩ := h
    obtain ⟨u, hu, ⟨h2, h3, h4, -⟩ | ⟨e, p, h2, -⟩⟩ := hw
    · cases h2
      simp only [if_true, ClientStream.finish] at h1
      exact ⟨u, h4, hu, by cases hf : req.finishErr <;> simp_all⟩
    · cases h2; simp at h1

example : ∃ s, plainRequest Sample.env Sample.req b!"b" Sample.ops = (.ok (), some s) := ⟨_, Sample.sent_eq⟩

/-- A request whose stream cannot be opened sends nothing; otherwise a request ends with success or an error, without a panic. -/
theorem C25_outcome : (∃ e, req.openErr = some e ∧ plainRequest env req b os = (.err e, none)) ∨
    (∃ s, plainRequest env req b os = (.ok (), some s)) ∨ ∃ e s, plainRequest env req b os = (.err e, some s) := by
  cases ho : req.openErr with
  | some e => exact .inl ⟨e, rfl, by simp [plainRequest, openStream, ClientReq.applyHeaders, ClientReq.openStream, ho]⟩
  | none =>
    right
    rw [plainRequest_eq ho]
    have hr : ∀ x : Res Unit × MWriter, (∃ f c t w, WroteM f c t w x.1 x.2) → x.1 = .ok () ∨ ∃ e, x.1 = .err e := by
      rintro x ⟨f, c, t, w, ⟨u, hu, ⟨h, -⟩ | ⟨e, p, h, -⟩⟩, -⟩
      · exact .inl h
      · exact .inr ⟨e, h⟩
    have hw := hr (andThen ((MWriter.new ⟨req.script, []⟩ b).chain env os) MWriter.finish) (by
      rcases all2_or env os with ⟨fs, hfs⟩ | ⟨pre, n, p, e', post, fs, rfl, he, hfs⟩
      · exact ⟨_, _, _, _, MWriter.body_spec ⟨req.script, []⟩ b hfs⟩
      · exact ⟨_, _, _, _, MWriter.body_open ⟨req.script, []⟩ b hfs he⟩)
    generalize andThen ((MWriter.new ⟨req.script, []⟩ b).chain env os) MWriter.finish = x at hw
    obtain ⟨r, w⟩ := x
    rcases hw with hw | ⟨e, hw⟩ <;> simp only at hw
    · rw [hw]
      cases hf : req.finishErr with
      | none => exact .inl ⟨_, by simp only [if_true, ClientStream.finish]; rfl⟩
      | some e => exact .inr ⟨e, _, by simp only [if_true, ClientStream.finish]; rfl⟩
    · rw [hw]; exact .inr ⟨e, _, by simp; rfl⟩

theorem all2_length {α β : Type} {R : α → β → Prop} {xs : List α} {ys : List β} (h : All2 R xs ys) : xs.length = ys.length := by
  induction h with
  | nil => rfl
  | cons _ _ ih => simp [ih]

theorem all2_get {α β : Type} {R : α → β → Prop} {xs : List α} {ys : List β} (h : All2 R xs ys) {i : Nat} {x : α} (hx : xs[i]? = some x) : ∃ y, ys[i]? = some y ∧ R x y := by
  induction h generalizing i with
  | nil => simp at hx
  | cons hr _ ih =>
    cases i with
    | zero => simp at hx; subst hx; exact ⟨_, rfl, hr⟩
    | succ i => simpa using ih (by simpa using hx)

/-- **C26.** In the body that is sent, the field of the `i`-th call carries a `Content-Type` header with the given type or `application/octet-stream` if that call was `write_stream`, and
none if it was `write_text`. (`encode` writes the header exactly if `ctype` is given.) -/
theorem C26_content_type (h : plainRequest env req b os = (.ok (), some s)) :
    ∃ fs, s.sink.got = encode b fs ∧ fs.length = os.length ∧
      (∀ (i : Nat) n evs fn ct, os[i]? = some (.stream n evs fn (some ct)) → ∃ f, fs[i]? = some f ∧ f.ctype = some ct.src) ∧
      (∀ (i : Nat) n evs fn, os[i]? = some (.stream n evs fn none) → ∃ f, fs[i]? = some f ∧ f.ctype = some b!"application/octet-stream") ∧
      (∀ (i : Nat) n v, os[i]? = some (.text n v) → ∃ f, fs[i]? = some f ∧ f.ctype = none) := by
  obtain ⟨fs, h1, h2, -⟩ := C23_body h
  refine ⟨fs, h2, (all2_length h1).symm, ?_, ?_, ?_⟩
  · intro i n evs fn ct hi
    obtain ⟨f, hf, h⟩ := all2_get h1 hi
    cases h; exact ⟨_, hf, rfl⟩
  · intro i n evs fn hi
    obtain ⟨f, hf, h⟩ := all2_get h1 hi
    cases h; exact ⟨_, hf, rfl⟩
  · intro i n v hi
    obtain ⟨f, hf, h⟩ := all2_get h1 hi
    cases h; exact ⟨_, hf, rfl⟩

example : ∃ s, plainRequest Sample.env Sample.req b!"b" Sample.ops = (.ok (), some s) ∧ Sample.ops[2]? = some (.stream b!"s" [.data b!"xyz"] none none) := ⟨_, Sample.sent_eq, rfl⟩

/-! ## C27: sized requests -/

theorem SizedReq.finish_spec (r : SizedReq) (f : Res Unit × List (Bytes × Option Nat) × Option ClientStream) (h : r.finish = f) :
    f.2.1 = r.inner.applied ++ [(r.boundary, some r.buffer.length)] ∧
    ((r.inner.accepts r.boundary (some r.buffer.length) = false ∧ f.1 = .err (.other 0) ∧ f.2.2 = none) ∨
     (r.inner.accepts r.boundary (some r.buffer.length) = true ∧ ∃ e, r.inner.openErr = some e ∧ f.1 = .err e ∧ f.2.2 = none) ∨
     (r.inner.accepts r.boundary (some r.buffer.length) = true ∧ r.inner.openErr = none ∧ ∃ s used, f.2.2 = some s ∧ s.applied = f.2.1 ∧ s.sink.got <+: r.buffer ∧ WritesFine used ∧
        ((f.1 = .ok () ∧ s.sink.got = r.buffer ∧ r.inner.script = used ++ s.sink.script ∧ r.inner.finishErr = none) ∨
         (∃ e, f.1 = .err e ∧ ((∃ ev, r.inner.script = used ++ ev :: s.sink.script ∧ ev.FailsWith e) ∨
            (r.inner.script = used ++ s.sink.script ∧ s.sink.got = r.buffer ∧ r.inner.finishErr = some e)))))) := by
  subst h
  unfold SizedReq.finish ClientReq.applyHeaders ClientReq.openStream
  cases ha : r.inner.accepts r.boundary (some r.buffer.length) with
  | false => exact ⟨rfl, .inl ⟨rfl, rfl, rfl⟩⟩
  | true =>
    simp only
    cases ho : r.inner.openErr with
    | some e => exact ⟨rfl, .inr (.inl ⟨trivial, e, rfl, rfl, rfl⟩)⟩
    | none =>
      simp only
      have hw := copyTo_spec [.data r.buffer] ⟨r.inner.script, []⟩
      have hd : Ev.upToEnd [.data r.buffer] = r.buffer := by cases r.buffer <;> simp [Ev.upToEnd]
      have hr : ∀ e, ¬ ReadFails e [.data r.buffer] := fun e => (ReadsFine.data .nil).noFail
      rw [hd] at hw
      generalize copyTo [.data r.buffer] ⟨r.inner.script, []⟩ = x at hw
      obtain ⟨q, k⟩ := x
      obtain ⟨u, hu, ⟨h1, h2, h3, -⟩ | ⟨e, p, h1, h2, h3, ⟨ev, h4, h5⟩ | ⟨-, h5⟩⟩⟩ := hw
      · cases h1
        simp only [List.nil_append] at h2
        refine ⟨rfl, .inr (.inr ⟨trivial, trivial, _, u, rfl, rfl, by rw [h2]; exact List.prefix_refl _, hu, ?_⟩)⟩
        simp only [ClientStream.finish]
        cases hf : r.inner.finishErr with
        | none => exact .inl ⟨rfl, h2, h3, rfl⟩
        | some e => exact .inr ⟨e, rfl, .inr ⟨h3, h2, rfl⟩⟩
      · cases h1
        simp only [List.nil_append] at h3
        exact ⟨rfl, .inr (.inr ⟨trivial, trivial, _, u, rfl, rfl, by rw [h3]; exact h2, hu, .inr ⟨e, rfl, .inl ⟨ev, h4, h5⟩⟩⟩)⟩
      · exact absurd h5 (hr e)

theorem sizedRequest_eq : sizedRequest env req b os =
    let x := andThen ((MWriter.new ⟨[], []⟩ b).chain env os) MWriter.finish
    if x.1 = .ok () then SizedReq.finish ⟨req, x.2.inner.got, b⟩ else (x.1, req.applied, none) := by
  simp only [sizedRequest, SizedReq.fromRequest, SizedReq.applyHeaders, SizedReq.openStream]
  generalize (MWriter.new ⟨[], []⟩ b).chain env os = x
  obtain ⟨r, w⟩ := x
  cases r with
  | ok u =>
    show _ = if w.finish.1 = .ok () then SizedReq.finish ⟨req, w.finish.2.inner.got, b⟩ else (w.finish.1, req.applied, none)
    simp only
    split
    · next h => rw [h]; rfl
    · next r w' hn h =>
      rw [h]
      have : r ≠ .ok () := by rintro rfl; exact hn rfl
      simp [this]
  | _ => rfl

/-- The ways a sized request can end. Third component of the result: the stream of the wrapped request, `none` if it was never opened. -/
theorem C27_outcome {r : Res Unit} {applied : List (Bytes × Option Nat)} {x : Option ClientStream} (h : sizedRequest env req b os = (r, applied, x)) :
    (x = none ∧ applied = req.applied ∧ ∃ e, r = .err e ∧ ∃ o ∈ os, OpFails env o e) ∨
    (∃ fs, All2 (StandsFor env) os fs ∧ applied = req.applied ++ [(b, some (encode b fs).length)] ∧ (∀ o ∈ os, ∀ evs, o.reads env evs → ReadsFine evs) ∧
      ((req.accepts b (some (encode b fs).length) = false ∧ r = .err (.other 0) ∧ x = none) ∨
       (req.accepts b (some (encode b fs).length) = true ∧ ∃ e, req.openErr = some e ∧ r = .err e ∧ x = none) ∨
       (req.accepts b (some (encode b fs).length) = true ∧ req.openErr = none ∧ ∃ s used, x = some s ∧ s.applied = applied ∧ s.sink.got <+: encode b fs ∧ WritesFine used ∧
          ((r = .ok () ∧ s.sink.got = encode b fs ∧ req.script = used ++ s.sink.script ∧ req.finishErr = none) ∨
           (∃ e, r = .err e ∧ ((∃ ev, req.script = used ++ ev :: s.sink.script ∧ ev.FailsWith e) ∨
              (req.script = used ++ s.sink.script ∧ s.sink.got = encode b fs ∧ req.finishErr = some e))))))) := by
  rw [sizedRequest_eq] at h
  rcases all2_or env os with ⟨fs, hfs⟩ | ⟨pre, n, p, e', post, fs, rfl, he, hfs⟩
  · have hw := (MWriter.body_spec ⟨[], []⟩ b hfs).wrote
    generalize andThen ((MWriter.new ⟨[], []⟩ b).chain env os) MWriter.finish = y at h hw
    obtain ⟨q, w⟩ := y
    obtain ⟨u, hu, ⟨h1, h2, -, h3⟩ | ⟨e, p, h1, -, -, ⟨ev, h4, -⟩ | ⟨-, h5⟩⟩⟩ := hw
    · cases h1
      simp only [MWriter.new, List.nil_append] at h2
      simp only [if_true, h2] at h
      obtain ⟨g1, g2⟩ := SizedReq.finish_spec _ _ h
      exact .inr ⟨fs, hfs, g1, h3, g2⟩
    · simp [MWriter.new] at h4
    · cases h1
      simp at h
      obtain ⟨rfl, rfl, rfl⟩ := h
      exact .inl ⟨rfl, rfl, e, rfl, h5⟩
  · have hw := (MWriter.body_open (n := n) (post := post) ⟨[], []⟩ b hfs he).wrote
    generalize andThen ((MWriter.new ⟨[], []⟩ b).chain env _) MWriter.finish = y at h hw
    obtain ⟨q, w⟩ := y
    obtain ⟨u, hu, ⟨-, -, -, h3⟩ | ⟨e, p, h1, -, -, ⟨ev, h4, -⟩ | ⟨-, h5⟩⟩⟩ := hw
    · exact h3.elim
    · simp [MWriter.new] at h4
    · cases h1
      simp at h
      obtain ⟨rfl, rfl, rfl⟩ := h
      exact .inl ⟨rfl, rfl, e, rfl, h5⟩

/-- **C27.** A sized request that succeeds has applied, exactly once, headers with the length of the bytes that its stream then got, which are the encoding of the fields. -/
theorem C27_length {applied : List (Bytes × Option Nat)} {x : Option ClientStream} (h : sizedRequest env req b os = (.ok (), applied, x)) :
    ∃ s fs, x = some s ∧ All2 (StandsFor env) os fs ∧ s.sink.got = encode b fs ∧ applied = req.applied ++ [(b, some s.sink.got.length)] := by
  rcases C27_outcome h with ⟨-, -, e, h, -⟩ | ⟨fs, h1, h2, -, ⟨-, h, -⟩ | ⟨-, e, -, h, -⟩ | ⟨-, -, s, u, h3, -, -, -, ⟨-, h5, -⟩ | ⟨e, h, -⟩⟩⟩
  · simp at h
  · simp at h
  · simp at h
  · exact ⟨s, fs, h3, h1, h5, h5 ▸ h2⟩
  · simp at h

/-- The hypothesis of C27_outcome and of the theorem above is met. -/
example : ∃ applied x, sizedRequest Sample.env Sample.req b!"b" Sample.ops = (.ok (), applied, x) :=
  ⟨[(b!"b", some Sample.sent.sink.got.length)], some ⟨[(b!"b", some Sample.sent.sink.got.length)], ⟨[], Sample.sent.sink.got⟩, none⟩, by decide +kernel⟩

/-- The bytes are those of the unsized request. -/
theorem C27_same_body {req' : ClientReq} {applied : List (Bytes × Option Nat)} {s s' : ClientStream} (h : sizedRequest env req b os = (.ok (), applied, some s))
    (h' : plainRequest env req' b os = (.ok (), some s')) : s.sink.got = s'.sink.got := by
  obtain ⟨t, fs, ht, h1, h2, -⟩ := C27_length h
  cases ht
  obtain ⟨fs', h1', h2', -⟩ := C23_body h'
  have : fs = fs' := by
    clear h h' h2 h2'
    induction h1 generalizing fs' with
    | nil => cases h1'; rfl
    | cons hf _ ih =>
      cases h1' with
      | cons hf' h1' => rw [hf.unique hf', ih _ h1']
  rw [h2, h2', this]

example : ∃ applied s s', sizedRequest Sample.env Sample.req b!"b" Sample.ops = (.ok (), applied, some s) ∧ plainRequest Sample.env Sample.req b!"b" Sample.ops = (.ok (), some s') :=
  ⟨[(b!"b", some Sample.sent.sink.got.length)], ⟨[(b!"b", some Sample.sent.sink.got.length)], ⟨[], Sample.sent.sink.got⟩, none⟩, _, by decide +kernel, Sample.sent_eq⟩

/-- If the wrapped request refuses the headers, an error is returned and its stream is never opened: nothing is written. -/
theorem C27_refused {r : Res Unit} {applied : List (Bytes × Option Nat)} {x : Option ClientStream} (h : sizedRequest env req b os = (r, applied, x)) (hr : ∀ n, req.accepts b (some n) = false) :
    (∃ e, r = .err e) ∧ x = none := by
  rcases C27_outcome h with ⟨h1, -, e, h, -⟩ | ⟨fs, h1, h2, -, ⟨-, h, h3⟩ | ⟨h, -⟩ | ⟨h, -⟩⟩
  · exact ⟨⟨e, h⟩, h1⟩
  · exact ⟨⟨_, h⟩, h3⟩
  · rw [hr] at h; simp at h
  · rw [hr] at h; simp at h

example : (∀ n, Sample.noReq.accepts b!"b" (some n) = false) ∧ (sizedRequest Sample.env Sample.noReq b!"b" Sample.ops).2.1.length = 1 := ⟨fun _ => rfl, by decide +kernel⟩

/-- And it succeeds if nothing fails. -/
theorem C27_succeeds (hos : All2 (StandsFor env) os fs) (hr : ∀ o ∈ os, ∀ evs, o.reads env evs → ReadsFine evs) (ha : req.accepts b (some (encode b fs).length) = true)
    (ho : req.openErr = none) (hk : WritesFine req.script) (hf : req.finishErr = none) : ∃ applied s, sizedRequest env req b os = (.ok (), applied, some s) := by
  rcases hz : sizedRequest env req b os with ⟨r, applied, x⟩
  rcases C27_outcome hz with ⟨-, -, e, -, o, h3, h4⟩ | ⟨fs', h1, h2, -, h⟩
  · exfalso
    rcases h4 with ⟨evs, h4, h5⟩ | ⟨n, p, rfl, h5⟩
    · exact absurd h5 (hr o h3 evs h4).noFail
    · clear hz hr ha hf hk
      induction hos with
      | nil => simp at h3
      | cons hf _ ih =>
        rcases List.mem_cons.mp h3 with rfl | h3
        · cases hf <;> simp_all
        · exact ih h3
  · have : fs' = fs := by
      clear hz h2 h ha hr
      induction h1 generalizing fs with
      | nil => cases hos; rfl
      | cons hf _ ih =>
        cases hos with
        | cons hf' hos => rw [hf.unique hf', ih hos]
    subst this
    rcases h with ⟨h, -⟩ | ⟨-, e, h, -⟩ | ⟨-, -, s, u, h3, -, -, -, ⟨h4, h5, -⟩ | ⟨e, -, ⟨ev, h5, h6⟩ | ⟨-, -, h⟩⟩⟩
    · rw [ha] at h; simp at h
    · rw [ho] at h; simp at h
    · exact ⟨applied, s, by rw [h3, h4]⟩
    · exact absurd h6 (hk ev (by rw [h5]; simp) e)
    · rw [hf] at h; simp at h

example : (∃ fs, All2 (StandsFor Sample.env) Sample.ops fs) ∧ Sample.req.accepts b!"b" (some 5) = true ∧ Sample.req.openErr = none ∧ Sample.req.finishErr = none ∧
    ∀ o ∈ Sample.ops, ∀ evs, o.reads Sample.env evs → ReadsFine evs := ⟨⟨_, Sample.ops_fields⟩, rfl, rfl, rfl, (C23_body Sample.sent_eq).elim fun _ h => h.2.2⟩

/-! ## C28: after an error -/

/-- The claim of C28 (client/mod.rs:40-42): after a call has failed, later calls write nothing and `send` reports that error. -/
def ErrorsStick : Prop := ∀ (env : FileEnv) (k : Sink) (b : Bytes) (os os' : List ClientOp) (e : IoErr),
  .err e ∈ ((MWriter.new k b).ops env os).1 →
    ((((MWriter.new k b).ops env os).2.ops env os').2.inner.got = ((MWriter.new k b).ops env os).2.inner.got ∧
     (((MWriter.new k b).ops env os).2.ops env os').2.finish.1 = .err e)

/-- It does not hold: a failed call leaves no trace; the next call writes, and `send` succeeds. -/
theorem C28_false : ¬ ErrorsStick := by
  intro h
  have := (h ⟨fun _ => .error .interrupted, fun _ => octetStream⟩ ⟨[.err (.other 1)], []⟩ b!"b" [.text b!"a" b!"x"] [.text b!"a" b!"x"] (.other 1) (by decide +kernel)).1
  revert this; decide +kernel

/-- What holds of chained calls (`?` after each, then `send`): the first error ends everything. It is returned, the failed write was the last one, all
writes before it succeeded; or else no write failed and a stream or file of a call did. -/
theorem C28_chained_partial {k : Sink} {w : MWriter} (h : andThen ((MWriter.new k b).chain env os) MWriter.finish = (.err e, w)) :
    ∃ used, WritesFine used ∧ ((∃ ev, k.script = used ++ ev :: w.inner.script ∧ ev.FailsWith e) ∨ (k.script = used ++ w.inner.script ∧ ∃ o ∈ os, OpFails env o e)) := by
  have hw : ∃ f t, Wrote f (fun e => ∃ o ∈ os, OpFails env o e) t k (andThen ((MWriter.new k b).chain env os) MWriter.finish).1 (andThen ((MWriter.new k b).chain env os) MWriter.finish).2.inner := by
    rcases all2_or env os with ⟨fs, hfs⟩ | ⟨pre, n, p, e', post, fs, rfl, he, hfs⟩
    · exact ⟨_, _, (MWriter.body_spec k b hfs).wrote⟩
    · exact ⟨_, _, (MWriter.body_open k b hfs he).wrote⟩
  rw [h] at hw
  obtain ⟨f, t, u, hu, ⟨h1, -⟩ | ⟨e, p, h1, -, -, h2⟩⟩ := hw
  · simp at h1
  · cases h1; exact ⟨u, hu, h2⟩

example : ∃ e w, andThen ((MWriter.new ⟨[.accept 3, .err (.other 7)], []⟩ b!"b").chain Sample.env Sample.ops) MWriter.finish = (.err e, w) := ⟨.other 7, _, Sample.pair_eq (by decide +kernel) rfl⟩

theorem MWriter.ops_boundary {w : MWriter} : ∀ {os : List ClientOp}, (w.ops env os).2.boundary = w.boundary := by
  intro os
  induction os generalizing w with
  | nil => rfl
  | cons o os ih =>
    simp only [MWriter.ops]
    rw [ih]
    rcases standsFor_or env o with ⟨f, hf⟩ | ⟨n, p, e, rfl, he⟩
    · exact (w.op_spec hf).1.boundary
    · simp [MWriter.op, MWriter.writeFile, he]

/-- C28 fails after every error: whatever calls were made before and whatever they returned, if nothing goes wrong from then on, the next calls write their fields, and `send` succeeds. -/
theorem C28_goes_on {k : Sink} {w : MWriter} {os' : List ClientOp} {fs : List OutField} (hw : ((MWriter.new k b).ops env os).2 = w) (hk : WritesFine w.inner.script)
    (hfs : All2 (StandsFor env) os' fs) (hr : ∀ o ∈ os', ∀ evs, o.reads env evs → ReadsFine evs) :
    ∃ w', andThen (w.chain env os') MWriter.finish = (.ok (), w') ∧ ∃ l, (l = [] ∨ l = crlf) ∧ w'.inner.got = w.inner.got ++ l ++ encode b fs := by
  have hb : w.boundary = b := by rw [← hw, MWriter.ops_boundary]; rfl
  obtain ⟨h1, h2⟩ := MWriter.chain_spec w hfs
  have h := h1.andThen (f2 := True) (f := MWriter.finish) fun hok => by
    have := MWriter.finish_spec (c := fun e => ∃ o ∈ os', OpFails env o e) (w.chain env os').2
    rw [h2 hok, h1.boundary] at this
    exact this
  rw [encodeOpen_closed, hb] at h
  obtain ⟨u, hu, ⟨g1, g2, -⟩ | ⟨e, p, -, -, -, ⟨ev, g3, g4⟩ | ⟨-, o, g3, g4⟩⟩⟩ := h.wrote
  · refine ⟨_, Prod.ext g1 rfl, lead w.dataWritten, by unfold lead; split <;> simp, ?_⟩
    rw [List.append_assoc]; exact g2
  · exact absurd g4 (hk ev (by rw [g3]; simp) e)
  · exfalso
    rcases g4 with ⟨evs, g5, g6⟩ | ⟨n, p, rfl, g5⟩
    · exact (hr o g3 evs g5).noFail g6
    · clear h h1 h2 hr
      induction hfs with
      | nil => simp at g3
      | cons hf _ ih =>
        rcases List.mem_cons.mp g3 with rfl | g3
        · cases hf <;> simp_all
        · exact ih g3

/-- A text field, of which nothing arrives because the first write fails; then the next one and `send`. -/
example : .err (.other 7) ∈ ((MWriter.new ⟨[.err (.other 7)], []⟩ b!"b").ops Sample.env [.text b!"a" b!"x"]).1 ∧
    ∃ w', andThen (((MWriter.new ⟨[.err (.other 7)], []⟩ b!"b").ops Sample.env [.text b!"a" b!"x"]).2.chain Sample.env [.text b!"c" b!"y"]) MWriter.finish = (.ok (), w') ∧
      ∃ l, (l = [] ∨ l = crlf) ∧ w'.inner.got = ((MWriter.new ⟨[.err (.other 7)], []⟩ b!"b").ops Sample.env [.text b!"a" b!"x"]).2.inner.got ++ l ++ encode b!"b" [⟨b!"c", none, none, b!"y"⟩] :=
  ⟨by decide +kernel, C28_goes_on rfl (by unfold WritesFine; have : ((MWriter.new ⟨[.err (.other 7)], []⟩ b!"b").ops Sample.env [.text b!"a" b!"x"]).2.inner.script = [] := by decide +kernel
                                          rw [this]; simp) (.cons (.text _ _) .nil) (by simp [ClientOp.reads])⟩

/-! ## C29: boundaries -/

theorem alnumTable_alnum : ∀ c ∈ alnumTable, isAlnum c := by
  unfold isAlnum
  decide +kernel

theorem sampleAlnum_alnum : ∀ {rs rs' : List UInt32} {c : Byte}, sampleAlnum rs = some (c, rs') → isAlnum c := by
  intro rs
  induction rs with
  | nil => intro rs' c h; simp [sampleAlnum] at h
  | cons r rs ih =>
    intro rs' c h
    unfold sampleAlnum at h
    split at h
    · next h' =>
      simp at h; rw [← h.1]; exact alnumTable_alnum _ (List.mem_of_getElem? h')
    · exact ih h

theorem randomAlphanumeric_alnum : ∀ {n : Nat} {rs rs' : List UInt32} {b : Bytes}, randomAlphanumeric n rs = some (b, rs') → b.length = n ∧ ∀ c ∈ b, isAlnum c := by
  intro n
  induction n with
  | zero => intro rs rs' b h; simp [randomAlphanumeric] at h; simp [h.1]
  | succ n ih =>
    intro rs rs' b h
    unfold randomAlphanumeric at h
    split at h
    · simp at h
    · next c rs1 hc =>
      cases hb : randomAlphanumeric n rs1 with
      | none => simp [hb] at h
      | some x =>
        simp [hb] at h
        obtain ⟨h1, h2⟩ := ih (rs' := x.2) (b := x.1) hb
        rw [← h.1]
        exact ⟨by simp [h1], fun d hd => by
          rcases List.mem_cons.mp hd with rfl | hd
          · exact sampleAlnum_alnum hc
          · exact h2 d hd⟩

/-- **C29.** A generated boundary is 16 letters or digits. -/
theorem C29_boundary {rs rs' : List UInt32} (h : genBoundary rs = some (b, rs')) : b.length = 16 ∧ ∀ c ∈ b, isAlnum c := randomAlphanumeric_alnum h

/-- The hypothesis of the theorem above and of C29_safe is met. -/
example : ∃ b rs', genBoundary (List.replicate 17 0xFFFFFFFF ++ List.replicate 20 0x12345678) = some (b, rs') := ⟨List.replicate 16 0x45, List.replicate 4 0x12345678, by decide +kernel⟩

/-- In particular it has no CR, LF, quote, semicolon, space or dash. -/
theorem C29_safe {rs rs' : List UInt32} (h : genBoundary rs = some (b, rs')) : ∀ c ∈ b!"\r\n\"; -", c ∉ b := by
  intro c hc hb
  have := (C29_boundary h).2 c hb
  revert this
  simp at hc
  rcases hc with rfl | rfl | rfl | rfl | rfl | rfl <;> (unfold isAlnum; decide)

/-- Every letter and every digit can occur at every place: all of them are results of the draw. -/
theorem C29_all_occur (c : Byte) (hc : isAlnum c) : ∃ r : UInt32, ∀ rs, sampleAlnum (r :: rs) = some (c, rs) := by
  have : c ∈ alnumTable := by
    have hall : ∀ n : Fin 256, isAlnum (UInt8.ofNat n.val) → UInt8.ofNat n.val ∈ alnumTable := by unfold isAlnum; decide +kernel
    have := hall ⟨c.toNat, c.toNat_lt⟩
    simp at this
    exact this hc
  obtain ⟨i, hi⟩ := List.getElem?_of_mem this
  have hlt : i < 62 := by
    have h62 : alnumTable.length = 62 := by decide +kernel
    have := (List.getElem?_eq_some_iff.mp hi).1
    omega
  have hi26 : ∀ i : Fin 62, ((UInt32.ofNat i.val <<< 26) >>> 26).toNat = i.val := by decide +kernel
  refine ⟨UInt32.ofNat i <<< 26, fun rs => ?_⟩
  unfold sampleAlnum
  rw [hi26 ⟨i, hlt⟩, hi]

/-- Such characters and words: -/
example : isAlnum 0x7A ∧ sampleAlnum [0x12345678, 0xFFFFFFFF] = some (0x45, [0xFFFFFFFF]) := ⟨by simp [isAlnum], by decide +kernel⟩

end Multipart

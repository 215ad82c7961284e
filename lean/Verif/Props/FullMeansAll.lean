import Verif.Props.Cut
import Verif.Props.Requests
import Verif.Props.RoundTrip
import Verif.Props.Success
import Verif.Props.Examples
import Verif.Props.Forward

/-! C158, C159: a full save means that the client has sent all it had. -/
namespace Multipart

variable {D : Deps} {b : Bytes} {evs : List Ev} {cfg : Settings} {fuel : Nat} {w w' : World} {e : Entries} {t : BR}

/-- What a plain request has written, successful or not: part of a whole body of all its calls, whose streams were all read to their ends, or not even the last delimiter. -/
theorem plain_wrote {env : FileEnv} {req : ClientReq} {os : List ClientOp} {r : Res Unit} {s : ClientStream} (h : plainRequest env req b os = (r, some s)) :
    (∃ fs, All2 (StandsFor env) os fs ∧ (∀ o ∈ os, ∀ evs, o.reads env evs → ReadsFine evs) ∧ s.sink.got <+: encode b fs) ∨
    (∃ pre fs, pre <+: os ∧ (∀ o post, os = pre ++ o :: post → ∀ f, ¬ StandsFor env o f) ∧ All2 (StandsFor env) pre fs ∧ s.sink.got <+: encodeOpen b false fs) := by
  cases ho : req.openErr with
  | some e => simp [plainRequest, openStream, ClientReq.applyHeaders, ClientReq.openStream, ho] at h
  | none =>
    rw [plainRequest_eq ho] at h
    simp only [Prod.mk.injEq, Option.some.injEq] at h
    obtain ⟨-, rfl⟩ := h
    rcases all2_or env os with ⟨fs, hfs⟩ | ⟨pre, n, p, e, post, fs, rfl, he, hfs⟩
    · have hb := (MWriter.body_spec ⟨req.script, []⟩ b hfs).wrote
      have hc := (MWriter.chain_spec (MWriter.new ⟨req.script, []⟩ b) hfs).1.wrote
      obtain ⟨u, -, ⟨h1, -, -, hfine⟩ | ⟨err, p, h1, h2, h3, -⟩⟩ := hc
      · refine .inl ⟨fs, hfs, hfine, ?_⟩
        obtain ⟨v, -, ⟨-, h2, -⟩ | ⟨err, p, -, h2, h3, -⟩⟩ := hb
        · rw [h2]; simp [MWriter.new]
        · rw [h3]; simpa [MWriter.new] using h2
      · refine .inr ⟨os, fs, List.prefix_rfl, fun o post h => by simpa using congrArg List.length h, hfs, ?_⟩
        generalize (MWriter.new ⟨req.script, []⟩ b).chain env os = x at h1 h3 ⊢
        obtain ⟨r, w⟩ := x
        simp only at h1; subst h1
        simp only [andThen] at h3 ⊢
        simp only [h3, MWriter.new, List.nil_append]; exact h2
    · refine .inr ⟨pre, fs, List.prefix_append _ _, fun o post h f hf => ?_, hfs, ?_⟩
      · obtain ⟨rfl, -⟩ := List.cons.inj (List.append_cancel_left h)
        obtain ⟨_, h1⟩ := hf.opens rfl
        rw [he] at h1; cases h1
      have hc := (MWriter.chain_spec (MWriter.new ⟨req.script, []⟩ b) hfs).1.wrote
      rw [MWriter.chain_append]
      generalize (MWriter.new ⟨req.script, []⟩ b).chain env pre = x at hc ⊢
      obtain ⟨r, w⟩ := x
      obtain ⟨u, -, ⟨h1, h2, -⟩ | ⟨err, q, h1, h2, h3, -⟩⟩ := hc
      · simp only at h1; subst h1
        simp only [andThen, MWriter.chain, MWriter.op, MWriter.writeFile, he]
        simp only at h2
        rw [h2]; simp [MWriter.new]
      · simp only at h1; subst h1
        simp only [andThen] at h3 ⊢
        rw [h3]; simpa [MWriter.new] using h2

theorem all2_can_send {R : ClientOp → OutField → Prop} {os : List ClientOp} {fs : List OutField} (h : All2 R os fs) (hs : ∀ o ∈ os, ∀ f, R o f → ∃ ct, Sendable D b f ct) : ∃ cts, All2 (Sendable D b) fs cts := by
  induction h with
  | nil => exact ⟨[], .nil⟩
  | cons hf _ ih =>
    obtain ⟨ct, h1⟩ := hs _ (by simp) _ hf
    obtain ⟨cts, h2⟩ := ih fun o h f => hs o (by simp [h]) f
    exact ⟨_, .cons h1 h2⟩

theorem encodeWith_append (b : Bytes) (x y : Bytes) : ∀ fs, encodeWith b (x ++ y) fs = encodeWith b x fs ++ y
  | [] => by simp [encodeWith]
  | f :: fs => by simp [encodeWith, encodeWith_append b x y fs]

/-- A full save of what arrives of a body: all but (some of) what follows the closing delimiter has arrived. -/
theorem full_parts (hD : D.Sane) (hI : D.Incremental) (hT : D.Tokenizes) (hb : SafeBoundary b) {fs : List OutField} {cts : List (Option Mime)} (hs : All2 (Sendable D b) fs cts) {pre tail lost : Bytes}
    (hpre : ∀ z, dashes ++ b <+: z → FirstAt (dashes ++ b) (pre ++ z) pre.length) (he : pre ++ encodeWith b tail fs = Ev.bytes evs ++ lost) (hn : NoStall evs) (hne : NoErr evs)
    (hc : cfg.Typed) (hcn : cfg.openOpts.createNew = true) (dir : SaveDir) (h : withEntries D cfg fuel (Entries.new dir) w (withBody evs b) = (.full e, w', t)) :
    lost.length ≤ tail.length ∧ Parts D (dashes ++ b) (Ev.bytes evs) (List.zipWith OutField.asRead fs cts) .closed := by
  by_cases hl : tail.length < lost.length
  · obtain ⟨v, h1, h2⟩ := encodeWith_partsTo hT hb tail hs pre (hpre _ (encodeWith_prefix b tail fs))
    exact absurd h (C86_never_full hD hI hn hne ⟨⟨_, _, _, lost, h1, h2, he, hl⟩⟩ hc hcn dir)
  · have hl : lost.length ≤ tail.length := by omega
    refine ⟨hl, ?_⟩
    have ht : tail = tail.take (tail.length - lost.length) ++ tail.drop (tail.length - lost.length) := (List.take_append_drop _ _).symm
    rw [ht, encodeWith_append, ← List.append_assoc] at he
    have := (List.append_inj' he (by simp; omega)).1
    rw [← this]
    obtain ⟨v, h1, h2⟩ := encodeWith_partsTo hT hb (tail.take (tail.length - lost.length)) hs pre (hpre _ (encodeWith_prefix b _ fs))
    exact h1.closed h2

/-- What a full save has kept, when every part has arrived as it was sent. -/
theorem full_kept (hD : D.Sane) {es : List (FieldHeaders × Bytes)} (hP : Parts D (dashes ++ b) (Ev.bytes evs) es .closed) (hn : NoStall evs) (hne : NoErr evs) (hcl : CleanSplit (dashes ++ b) evs)
    (hc : cfg.Typed) (hcn : cfg.openOpts.createNew = true) (dir : SaveDir) (h : withEntries D cfg fuel (Entries.new dir) w (withBody evs b) = (.full e, w', t)) :
    ∃ saved, GroupedByName e.fields saved ∧ e.fieldsCount = es.length ∧ All2 (fun (f : SavedField) x => f.headers = x.1 ∧ f.data.readable w' = .ok x.2) saved es := by
  obtain ⟨-, fs, h1, h3, h2⟩ := C53_full_has_every_field hD hn hne hc hcn hP dir h
  refine ⟨fs, h1, h3, ?_⟩
  clear h h1 hP h3
  induction h2 with
  | nil => exact .nil
  | cons ha _ ih =>
    refine .cons (R := fun (f : SavedField) (x : FieldHeaders × Bytes) => f.headers = x.1 ∧ f.data.readable w' = .ok x.2) ⟨ha.1, ?_⟩ ih
    obtain ⟨c, a2, a3 | ⟨-, a3, -⟩⟩ := ha.2
    · rw [← a3]; exact a2
    · exact absurd hcl a3

theorem first_nil {d : Bytes} : ∀ z, d <+: z → FirstAt d ([] ++ z) ([] : Bytes).length := fun z hz => ⟨hz, fun q hq => by simp at hq⟩

/-- C158, for `sized` and plain requests alike: what they write is part of a whole body, or not even its last delimiter. -/
theorem full_means_all {env : FileEnv} {os : List ClientOp} {got : Bytes} (hD : D.Sane) (hI : D.Incremental) (hT : D.Tokenizes) (hb : SafeBoundary b)
    (hs : ∀ o ∈ os, ∀ f, StandsFor env o f → ∃ ct, Sendable D b f ct)
    (hg : (∃ fs, All2 (StandsFor env) os fs ∧ (∀ o ∈ os, ∀ evs, o.reads env evs → ReadsFine evs) ∧ got <+: encode b fs) ∨
      (∃ pre fs, pre <+: os ∧ (∀ o post, os = pre ++ o :: post → ∀ f, ¬ StandsFor env o f) ∧ All2 (StandsFor env) pre fs ∧ got <+: encodeOpen b false fs))
    (ha : Ev.bytes evs <+: got) (hn : NoStall evs) (hne : NoErr evs) (hcl : CleanSplit (dashes ++ b) evs) (hc : cfg.Typed) (hcn : cfg.openOpts.createNew = true) (dir : SaveDir)
    (h : withEntries D cfg fuel (Entries.new dir) w (withBody evs b) = (.full e, w', t)) :
    ∃ fs cts saved, All2 (StandsFor env) os fs ∧ All2 (Sendable D b) fs cts ∧ (∀ o ∈ os, ∀ evs, o.reads env evs → ReadsFine evs) ∧ (encode b fs).length ≤ (Ev.bytes evs).length + 2 ∧
      GroupedByName e.fields saved ∧ e.fieldsCount = os.length ∧
      All2 (fun (f : SavedField) x => f.headers = x.1 ∧ f.data.readable w' = .ok x.2) saved (List.zipWith OutField.asRead fs cts) := by
  rcases hg with ⟨fs, hf, hfine, hp⟩ | ⟨pre, fs, hsub, -, hf, hp⟩
  · obtain ⟨cts, hs⟩ := all2_can_send hf hs
    obtain ⟨lost, hl⟩ := ha.trans hp
    obtain ⟨h1, h2⟩ := full_parts (pre := []) (tail := crlf) (lost := lost) hD hI hT hb hs first_nil (by rw [← encode_with, hl]; rfl) hn hne hc hcn dir h
    obtain ⟨saved, h3, h4, h5⟩ := full_kept hD h2 hn hne hcl hc hcn dir h
    refine ⟨fs, cts, saved, hf, hs, hfine, ?_, h3, ?_, h5⟩
    · rw [← hl, List.length_append]; simp only [crlf, List.length_cons, List.length_nil] at h1; omega
    · rw [h4, List.length_zipWith, ← hs.length, Nat.min_self, hf.length]
  · obtain ⟨cts, hs⟩ := all2_can_send hf fun o ho => hs o (hsub.subset ho)
    obtain ⟨lost, hl⟩ := ha.trans hp
    have he := encodeOpen_closed b fs false
    have hlead : lead false ++ encode b fs = encode b fs := by simp [lead]
    rw [hlead, ← hl, List.append_assoc] at he
    obtain ⟨h1, -⟩ := full_parts (pre := []) (tail := crlf) hD hI hT hb hs first_nil (by rw [← encode_with, List.nil_append]; exact he.symm) hn hne hc hcn dir h
    simp only [List.length_append, crlf, List.length_cons, List.length_nil, dashes] at h1
    have : (b!"--\r\n").length = 4 := by decide
    omega

/-- C158: whatever became of a plain request, on the side of the client or on the way (a file that cannot be opened, a stream or a write that fails, a connection that ends): if the server reports a
full save of what has arrived, all files could be opened, all streams were read to their ends, and the saved fields are those of all calls with their whole contents. -/
theorem C158_full_means_all {env : FileEnv} {req : ClientReq} {os : List ClientOp} {r : Res Unit} {s : ClientStream} (hD : D.Sane) (hI : D.Incremental) (hT : D.Tokenizes) (hb : SafeBoundary b)
    (hs : ∀ o ∈ os, ∀ f, StandsFor env o f → ∃ ct, Sendable D b f ct) (hr : plainRequest env req b os = (r, some s))
    (ha : Ev.bytes evs <+: s.sink.got) (hn : NoStall evs) (hne : NoErr evs) (hcl : CleanSplit (dashes ++ b) evs) (hc : cfg.Typed) (hcn : cfg.openOpts.createNew = true) (dir : SaveDir)
    (h : withEntries D cfg fuel (Entries.new dir) w (withBody evs b) = (.full e, w', t)) :
    ∃ fs cts saved, All2 (StandsFor env) os fs ∧ All2 (Sendable D b) fs cts ∧ (∀ o ∈ os, ∀ evs, o.reads env evs → ReadsFine evs) ∧ (encode b fs).length ≤ (Ev.bytes evs).length + 2 ∧
      GroupedByName e.fields saved ∧ e.fieldsCount = os.length ∧
      All2 (fun (f : SavedField) x => f.headers = x.1 ∧ f.data.readable w' = .ok x.2) saved (List.zipWith OutField.asRead fs cts) :=
  full_means_all hD hI hT hb hs (plain_wrote hr) ha hn hne hcl hc hcn dir h

theorem Sample.ops_sendable : ∀ o ∈ Sample.ops, ∀ f, StandsFor Sample.env o f → ∃ ct, Sendable refDeps b!"b" f ct := by
  have key : ∀ {os : List ClientOp} {fs : List OutField} {cts : List (Option Mime)}, All2 (StandsFor Sample.env) os fs → All2 (Sendable refDeps b!"b") fs cts →
      ∀ o ∈ os, ∀ f, StandsFor Sample.env o f → ∃ ct, Sendable refDeps b!"b" f ct := by
    intro os fs cts h
    induction h generalizing cts with
    | nil => intro _ o ho; simp at ho
    | cons hf _ ih =>
      intro hs o ho f hof
      cases hs with
      | cons h1 h2 =>
        rcases List.mem_cons.mp ho with rfl | ho
        · rw [hof.unique hf]; exact ⟨_, h1⟩
        · exact ih h2 o ho f hof
  exact key Sample.ops_fields Sample.sendable

theorem Sample.sent_full : ∃ fuel e w' t, withEntries refDeps .default fuel (Entries.new (.perm [b!"d"])) (Sample.bigDisk 3) (withBody Sample.sentEvs b!"b") = (.full e, w', t) := by
  have hP := sent_parts refDeps_tokenizes ⟨by simp, by decide⟩ Sample.sent_eq Sample.ops_fields Sample.sendable (show Ev.bytes Sample.sentEvs = Sample.sent.sink.got by decide +kernel)
  obtain ⟨n, h⟩ := C77_request_succeeds (cfg := .default) (w := Sample.bigDisk 3) refDeps_sane (by decide +kernel) (by intro e; simp [Sample.sentEvs]) Settings.default_typed rfl (fun h => by simp [Settings.default] at h)
    (.inl (by decide)) hP (.perm [b!"d"]) (by decide +kernel) (fun p hp => .inl (by revert p; decide +kernel)) (Sample.bigDisk_ready _ 3)
  obtain ⟨e, w', t, _, h, -⟩ := h n (Nat.le_refl _)
  exact ⟨n, e, w', t, h⟩

/-- The hypotheses of C158_full_means_all are met. -/
example : (∀ o ∈ Sample.ops, ∀ f, StandsFor Sample.env o f → ∃ ct, Sendable refDeps b!"b" f ct) ∧ plainRequest Sample.env Sample.req b!"b" Sample.ops = (.ok (), some Sample.sent) ∧
    Ev.bytes Sample.sentEvs <+: Sample.sent.sink.got ∧ CleanSplit (dashes ++ b!"b") Sample.sentEvs ∧
    ∃ fuel e w' t, withEntries refDeps .default fuel (Entries.new (.perm [b!"d"])) (Sample.bigDisk 3) (withBody Sample.sentEvs b!"b") = (.full e, w', t) :=
  ⟨Sample.ops_sendable, Sample.sent_eq, by decide +kernel, Sample.sentEvs_clean, Sample.sent_full⟩

/-- C158 for sized requests. -/
theorem C158_sized {env : FileEnv} {req : ClientReq} {os : List ClientOp} {r : Res Unit} {applied : List (Bytes × Option Nat)} {s : ClientStream} (hD : D.Sane) (hI : D.Incremental) (hT : D.Tokenizes)
    (hb : SafeBoundary b) (hs : ∀ o ∈ os, ∀ f, StandsFor env o f → ∃ ct, Sendable D b f ct) (hr : sizedRequest env req b os = (r, applied, some s))
    (ha : Ev.bytes evs <+: s.sink.got) (hn : NoStall evs) (hne : NoErr evs) (hcl : CleanSplit (dashes ++ b) evs) (hc : cfg.Typed) (hcn : cfg.openOpts.createNew = true) (dir : SaveDir)
    (h : withEntries D cfg fuel (Entries.new dir) w (withBody evs b) = (.full e, w', t)) :
    ∃ fs cts saved, All2 (StandsFor env) os fs ∧ All2 (Sendable D b) fs cts ∧ (∀ o ∈ os, ∀ evs, o.reads env evs → ReadsFine evs) ∧ (encode b fs).length ≤ (Ev.bytes evs).length + 2 ∧
      GroupedByName e.fields saved ∧ e.fieldsCount = os.length ∧
      All2 (fun (f : SavedField) x => f.headers = x.1 ∧ f.data.readable w' = .ok x.2) saved (List.zipWith OutField.asRead fs cts) := by
  refine full_means_all hD hI hT hb hs (.inl ?_) ha hn hne hcl hc hcn dir h
  rcases C27_outcome hr with ⟨h1, -⟩ | ⟨fs, h1, -, hf, ⟨-, -, h2⟩ | ⟨-, _, -, -, h2⟩ | ⟨-, -, s', _, h2, -, h3, -⟩⟩
  · cases h1
  · cases h2
  · cases h2
  · cases h2; exact ⟨fs, h1, hf, h3⟩

/-- The hypotheses of C158_sized are met. -/
example : (∀ o ∈ Sample.ops, ∀ f, StandsFor Sample.env o f → ∃ ct, Sendable refDeps b!"b" f ct) ∧
    (∃ applied s, sizedRequest Sample.env Sample.req b!"b" Sample.ops = (.ok (), applied, some s) ∧ Ev.bytes Sample.sentEvs <+: s.sink.got) ∧
    ∃ fuel e w' t, withEntries refDeps .default fuel (Entries.new (.perm [b!"d"])) (Sample.bigDisk 3) (withBody Sample.sentEvs b!"b") = (.full e, w', t) :=
  ⟨Sample.ops_sendable, ⟨[(b!"b", some Sample.sent.sink.got.length)], ⟨[(b!"b", some Sample.sent.sink.got.length)], ⟨[], Sample.sent.sink.got⟩, none⟩, by decide +kernel, by decide +kernel⟩, Sample.sent_full⟩

theorem writeAllAux_strict : ∀ (evs : List WEv) (buf got : Bytes), (writeAllAux buf got evs).1 ≠ .ok () → (writeAllAux buf got evs).2.got.length < got.length + buf.length := by
  intro evs
  induction evs with
  | nil => intro buf got h; simp [writeAllAux] at h
  | cons ev evs ih =>
    intro buf got h
    unfold writeAllAux at h ⊢
    by_cases hb : buf = []
    · rw [if_pos hb] at h; simp at h
    · rw [if_neg hb] at h ⊢
      have hpos := List.length_pos_iff.mpr hb
      split at h
      · exact ih _ _ h
      · simp only; omega
      · split at h
        · rename_i hz; rw [if_pos hz]; simp only; omega
        · rename_i k hz
          rw [if_neg hz]
          have := ih _ _ h
          simp only [List.length_append, List.length_take, List.length_drop] at this
          have h2 : Nat.min k buf.length ≤ buf.length := Nat.min_le_right _ _
          omega

/-- `io::copy` without interruptions, if all has been written (even if it fails in the end): all streams were read to their ends. -/
theorem Prepared.copy_whole {n : Nat} (hn : n ≠ 0) : ∀ (fuel : Nat) (p : Prepared) (k : Sink), p.Inv → p.meas < fuel → ¬ p.HasErr .interrupted →
    (p.copy n fuel k).2.2.got = k.got ++ p.rest → p.Fine := by
  intro fuel
  induction fuel with
  | zero => intro p k _ h; omega
  | succ fuel ih =>
    intro p k hi hm hni
    obtain ⟨chunk, h⟩ := p.read_spec hi n hn
    unfold Prepared.copy
    generalize p.read n = x at h
    obtain ⟨r, p'⟩ := x
    rcases h.res with ⟨h1, h2, h3, h4⟩ | ⟨e, h1, h2, h2', h3⟩
    · simp only [List.nil_append] at h1
      subst h1
      cases chunk with
      | nil =>
        intro _
        have hend : p'.endBoundary.atEnd = true := h3.resolve_left (by simp; omega)
        obtain ⟨-, d2⟩ := h.inv.done hend
        exact h4 (by intro f hf; simp only at d2; rw [d2] at hf; simp at hf)
      | cons x xs =>
        simp only
        have hw := Sink.writeAll_spec (c := fun e => p.HasErr e) (x :: xs) k
        have hst := writeAllAux_strict k.script (x :: xs) k.got
        have hms := h.meas
        simp only [List.length_cons] at hms
        rw [h.rest]
        change (Sink.writeAll (x :: xs) k).1 ≠ .ok () → (Sink.writeAll (x :: xs) k).2.got.length < k.got.length + (x :: xs).length at hst
        generalize k.writeAll (x :: xs) = y at hw hst ⊢
        obtain ⟨r', k'⟩ := y
        obtain ⟨_, -, ⟨hr, hg, -⟩ | ⟨e, q, hr, hq, hg, -⟩⟩ := hw
        · simp only at hr hg; subst hr
          intro hk
          simp only [← List.append_assoc] at hk
          refine h4 (ih p' k' h.inv (by omega) (fun hh => hni (h.errs _ hh)) ?_)
          rw [hk, hg]
        · simp only at hr; subst hr
          intro hk
          have := hst (by simp)
          simp only at hk this
          rw [hk] at this
          simp only [List.length_append] at this
          omega
    · simp only at h1; subst h1
      have hbad : (k.got = k.got ++ p.rest) → p.Fine := by
        intro hk
        have h0 : p.rest = [] := by simpa using hk
        obtain ⟨f, hf, -⟩ := h3
        simp only [Prepared.rest, List.append_eq_nil_iff] at h0
        exfalso
        have hend := (Cursor.atEnd_iff hi.end_).mpr h0.2
        rw [(hi.done hend).2] at hf
        simp at hf
      cases e with
      | interrupted => exact absurd h3 hni
      | _ => exact hbad

/-- What a lazy request has sent, successful or not, if no read of its streams is interrupted: part of the body of all its fields; if it is the whole body, all streams were read to their ends. -/
theorem lazy_wrote {env : LazyEnv} {os : List ClientOp} {n : Nat} {req : ClientReq} {r : SendRes} {m : LazyMp} {s : ClientStream} (hn0 : n ≠ 0) (ho : os ≠ []) (hni : NoInterrupt env.toFileEnv os)
    (h : (LazyMp.build os).send env b n req = (r, m, some s)) :
    ∃ fs, All2 (StandsFor env.toFileEnv.dropErrs) (os.map ClientOp.dropErrs) fs ∧ s.sink.got <+: encodeLazy b (lazyOrder fs) ∧
      (s.sink.got = encodeLazy b (lazyOrder fs) → All2 (StandsFor env.toFileEnv) os fs ∧ ∀ o ∈ os, ∀ evs, o.reads env.toFileEnv evs → ReadsFine evs) := by
  rcases send_eq (env := env) (b := b) (n := n) (req := req) ho with ⟨err, -, he⟩ | ⟨p, hp, ⟨e, -, he⟩ | ⟨-, he⟩⟩
  · rw [he] at h; cases h
  · rw [he] at h; cases h
  · rw [he] at h
    obtain ⟨fs, hs⟩ := prepare_spec hp
    have hni' : ¬ p.HasErr .interrupted := fun hh => by
      obtain ⟨o, ho, evs, hr, hm⟩ := hs.errs _ hh
      exact hni o ho evs hr hm
    have hc := Prepared.copy_spec hn0 p.fuel p ⟨req.script, []⟩ hs.inv (Prepared.fuel_meas hs.start) hni'
    have hwh := Prepared.copy_whole hn0 p.fuel p ⟨req.script, []⟩ hs.inv (Prepared.fuel_meas hs.start) hni'
    simp only [Prod.mk.injEq, Option.some.injEq] at h
    obtain ⟨-, -, rfl⟩ := h
    refine ⟨fs, hs.fields, ?_, ?_⟩
    · rw [← hs.rest]
      obtain ⟨_, -, ⟨-, hg, -⟩ | ⟨e, q, -, hq, hg, -⟩⟩ := hc
      · rw [hg]; simp
      · rw [hg]; simpa using hq
    · intro hg
      have hall := hs.fine (hwh (by rw [hs.rest]; simpa using hg))
      obtain ⟨fs', hf⟩ := prepare_fields hp
      have : fs = fs' := all2_unique hs.fields (all2_fine hall hf)
      exact ⟨this ▸ hf, hall⟩

theorem all2_of_map {α β γ : Type} {R : α → β → Prop} {g : γ → α} {xs : List γ} {ys : List β} (h : All2 R (xs.map g) ys) : All2 (fun x y => R (g x) y) xs ys := by
  induction xs generalizing ys with
  | nil => cases h; exact .nil
  | cons x xs ih => cases h with | cons h1 h2 => exact .cons h1 (ih h2)

theorem lazyOrder_len (fs : List OutField) : (lazyOrder fs).length = fs.length := by
  unfold lazyOrder
  induction fs with
  | nil => rfl
  | cons f fs ih =>
    simp only [List.length_append, List.length_reverse, List.filter_cons] at ih ⊢
    cases f.ctype <;> simp <;> omega

/-- C159, if no read of the streams is interrupted: whatever became of a lazy request: if the server reports a full save of what has arrived, this was the whole body, all streams were read to their
ends, and the saved fields are those of all calls with their whole contents. Missing for the full claim: interrupted reads, see `C159_false`. -/
theorem C159_lazy_partial {env : LazyEnv} {os : List ClientOp} {n : Nat} {req : ClientReq} {r : SendRes} {m : LazyMp} {s : ClientStream} (hD : D.Sane) (hI : D.Incremental) (hT : D.Tokenizes)
    (hb : SafeBoundary b) (hs : ∀ o ∈ os, ∀ f, StandsFor env.toFileEnv.dropErrs o.dropErrs f → ∃ ct, Sendable D b f ct) (hn0 : n ≠ 0) (ho : os ≠ []) (hni : NoInterrupt env.toFileEnv os)
    (hr : (LazyMp.build os).send env b n req = (r, m, some s))
    (ha : Ev.bytes evs <+: s.sink.got) (hn : NoStall evs) (hne : NoErr evs) (hcl : CleanSplit (dashes ++ b) evs) (hc : cfg.Typed) (hcn : cfg.openOpts.createNew = true) (dir : SaveDir)
    (h : withEntries D cfg fuel (Entries.new dir) w (withBody evs b) = (.full e, w', t)) :
    ∃ fs cts saved, All2 (StandsFor env.toFileEnv) os fs ∧ All2 (Sendable D b) (lazyOrder fs) cts ∧ (∀ o ∈ os, ∀ evs, o.reads env.toFileEnv evs → ReadsFine evs) ∧ Ev.bytes evs = encodeLazy b (lazyOrder fs) ∧
      GroupedByName e.fields saved ∧ e.fieldsCount = os.length ∧
      All2 (fun (f : SavedField) x => f.headers = x.1 ∧ f.data.readable w' = .ok x.2) saved (List.zipWith OutField.asRead (lazyOrder fs) cts) := by
  obtain ⟨fs, hf, hp, hfine⟩ := lazy_wrote hn0 ho hni hr
  obtain ⟨cts0, hs0⟩ := all2_can_send (all2_of_map hf) hs
  obtain ⟨cts, hs1, hz⟩ := sendable_lazy hs0
  obtain ⟨lost, hl⟩ := ha.trans hp
  have hne0 : lazyOrder fs ≠ [] := fun hh => ho (List.map_eq_nil_iff.mp ((all2_nil_iff hf).mpr (lazyOrder_eq_nil.mp hh)))
  have hd : dashes ++ b ≠ [] := by simp [dashes]
  have hnil : Absent (dashes ++ b) [] := fun q h => hd (by simpa [OccursAt] using h)
  obtain ⟨h1, h2⟩ := full_parts (pre := crlf) (tail := []) (lost := lost) hD hI hT hb hs1 (fun z hz => by
    have h0 : FirstAt (dashes ++ b) z 0 := ⟨hz, fun q hq => by omega⟩
    have hfirst := FirstAt.sep hd (hb.notMem (by decide : (0x0D : Byte) ∈ b!"\r\n\"; :=")) hnil (FirstAt.sep hd (hb.notMem (by decide : (0x0A : Byte) ∈ b!"\r\n\"; :=")) hnil h0)
    simpa [crlf] using hfirst) (by rw [← encodeLazy_with b _ hne0, hl]) hn hne hc hcn dir h
  obtain ⟨saved, h3, h4, h5⟩ := full_kept hD h2 hn hne hcl hc hcn dir h
  have hlost : lost = [] := List.length_eq_zero_iff.mp (by simpa using h1)
  rw [hlost, List.append_nil] at hl
  obtain ⟨hf', hall⟩ := hfine (hp.eq_of_length_le (by rw [← hl]; exact ha.length_le))
  refine ⟨fs, cts, saved, hf', hs1, hall, hl, h3, ?_, h5⟩
  rw [h4, List.length_zipWith, ← hs1.length, Nat.min_self, lazyOrder_len, ← hf.length, List.length_map]

theorem Sample.lops_sendable : ∀ o ∈ Sample.lops, ∀ f, StandsFor Sample.lenv.toFileEnv.dropErrs o.dropErrs f → ∃ ct, Sendable refDeps b!"b" f ct := by
  have h1 : ∀ {fs : List OutField} {cts : List (Option Mime)}, All2 (Sendable refDeps b!"b") fs cts → ∀ f ∈ fs, ∃ ct, Sendable refDeps b!"b" f ct := by
    intro fs cts h
    induction h with
    | nil => intro f hf; simp at hf
    | cons a _ ih =>
      intro f hf
      rcases List.mem_cons.mp hf with rfl | hf
      · exact ⟨_, a⟩
      · exact ih f hf
  have h2 : ∀ {os : List ClientOp} {fs : List OutField}, All2 (fun o f => StandsFor Sample.lenv.toFileEnv.dropErrs o.dropErrs f) os fs → ∀ o ∈ os, ∀ f, StandsFor Sample.lenv.toFileEnv.dropErrs o.dropErrs f → f ∈ fs := by
    intro os fs h
    induction h with
    | nil => intro o ho; simp at ho
    | cons a _ ih =>
      intro o ho f hf
      rcases List.mem_cons.mp ho with rfl | ho
      · rw [hf.unique a]; simp
      · exact List.mem_cons_of_mem _ (ih o ho f hf)
  intro o ho f hf
  refine h1 Sample.lsendable f ?_
  have := h2 (all2_of_map (all2_dropErrs Sample.lops_noErr Sample.lops_fields)) o ho f hf
  simp only [lazyOrder, List.mem_append, List.mem_filter, List.mem_reverse]
  cases f.ctype <;> simp [this]

/-- The hypotheses of C159_lazy_partial are met. -/
example : (∀ o ∈ Sample.lops, ∀ f, StandsFor Sample.lenv.toFileEnv.dropErrs o.dropErrs f → ∃ ct, Sendable refDeps b!"b" f ct) ∧ Sample.lops ≠ [] ∧ NoInterrupt Sample.lenv.toFileEnv Sample.lops ∧
    (∃ s, (LazyMp.build Sample.lops).send Sample.lenv b!"b" 8192 Sample.req = (.ok, [], some s) ∧ Ev.bytes [.data Sample.lread] <+: s.sink.got) ∧
    CleanSplit (dashes ++ b!"b") [.data Sample.lread] ∧
    ∃ fuel e w' t, withEntries refDeps .default fuel (Entries.new (.perm [b!"d"])) (Sample.bigDisk 4) (withBody [.data Sample.lread] b!"b") = (.full e, w', t) := by
  refine ⟨Sample.lops_sendable, by simp [Sample.lops], fun o ho evs hr => Sample.lops_noErr o ho evs hr _,
    ⟨((LazyMp.send Sample.lenv b!"b" 8192 (LazyMp.build Sample.lops) Sample.req).2.2).getD ⟨[], ⟨[], []⟩, none⟩, by decide +kernel, by decide +kernel⟩,
    Sample.clean_one (by simp [dashes]) (by decide +kernel), ?_⟩
  have hP := prepared_parts (evs := [.data Sample.lread]) refDeps_tokenizes ⟨by simp, by decide⟩ (Sample.lprep_ok (os := Sample.lops) (by decide +kernel)) Sample.lops_noErr (by simp [Sample.lops]) Sample.lops_fields Sample.lsendable
    (ns := [7, 50, 300, 300]) (u := Sample.lread) ⟨by decide, by decide +kernel, rfl⟩ (by simp [Ev.bytes])
  obtain ⟨n, h⟩ := C77_request_succeeds (cfg := .default) (w := Sample.bigDisk 4) refDeps_sane (by decide +kernel) (by intro e; simp) Settings.default_typed rfl (fun h => by simp [Settings.default] at h)
    (.inl (by decide)) hP (.perm [b!"d"]) (by decide +kernel) (fun p hp => .inl (by revert p; decide +kernel)) (Sample.bigDisk_ready _ 4)
  obtain ⟨e, w', t, _, h, -⟩ := h n (Nat.le_refl _)
  exact ⟨n, e, w', t, h⟩

/-- The full claim C159, without a condition on the streams, as far as the number of fields is concerned. -/
def LazyFullMeansAll (D : Deps) : Prop := ∀ (env : LazyEnv) (b : Bytes) (os : List ClientOp) (n : Nat) (req : ClientReq) (r : SendRes) (m : LazyMp) (s : ClientStream) (evs : List Ev) (cfg : Settings) (fuel : Nat)
  (w w' : World) (e : Entries) (t : BR) (dir : SaveDir), SafeBoundary b → (∀ o ∈ os, ∀ f, StandsFor env.toFileEnv.dropErrs o.dropErrs f → ∃ ct, Sendable D b f ct) → n ≠ 0 → os ≠ [] →
  (LazyMp.build os).send env b n req = (r, m, some s) → Ev.bytes evs <+: s.sink.got → NoStall evs → NoErr evs → CleanSplit (dashes ++ b) evs → cfg.Typed → cfg.openOpts.createNew = true →
  withEntries D cfg fuel (Entries.new dir) w (withBody evs b) = (.full e, w', t) → e.fieldsCount = os.length

/-- C159 is false of the code: a request of one field whose stream is interrupted once (a signal arrives) is sent with success, and saved by the server with success, without any field. -/
theorem C159_false : ¬ LazyFullMeansAll refDeps := by
  intro h
  obtain ⟨s, h1, h2⟩ := C35_send_false
  have hP : Parts refDeps (dashes ++ b!"b") (Ev.bytes [.data b!"w\r\n--b--"]) [] .closed := .close (rest := []) (.close (p := 3) (findSub_some (by decide +kernel)) (by decide +kernel))
  obtain ⟨n, hw⟩ := C77_request_succeeds (cfg := .default) (w := Sample.bigDisk 0) refDeps_sane (by decide +kernel) (by intro e; simp) Settings.default_typed rfl (fun h => by simp [Settings.default] at h)
    (.inl (by decide)) hP (.perm [b!"d"]) (by decide +kernel) (fun p hp => by simp at hp) (Sample.bigDisk_ready _ 0)
  obtain ⟨e, w', t, _, hw, -, hcount, -⟩ := hw n (Nat.le_refl _)
  have := h Sample.lenv b!"b" Sample.intrOps 8192 Sample.req _ _ s [.data b!"w\r\n--b--"] .default n _ w' e t (.perm [b!"d"]) ⟨by simp, by decide⟩ ?_ (by decide) (by decide) h1 (by rw [h2]; simp [Ev.bytes])
    (by decide +kernel) (by intro e; simp) (.of_small (by decide +kernel)) Settings.default_typed rfl hw
  · rw [this] at hcount; revert hcount; decide
  · intro o ho f hf
    simp only [Sample.intrOps, List.mem_singleton] at ho
    subst ho
    have hst : StandsFor Sample.lenv.toFileEnv.dropErrs (ClientOp.dropErrs (.stream b!"s" [.data b!"xyz", .err .interrupted, .data b!"w"] none none)) ⟨b!"s", none, some b!"application/octet-stream", b!"xyzw"⟩ :=
      .octets _ [.data b!"xyz", .data b!"w"] _
    rw [hf.unique hst]
    have abs : ∀ v : Bytes, findSub (dashes ++ b!"b") v = none → Absent (dashes ++ b!"b") v := fun v h => findSub_eq_none_iff.mp h
    refine ⟨some octetStream, Sample.nameText (by decide) (by decide) (by decide) (by decide) (by decide +kernel), by simp, ?_, by decide +kernel, by decide +kernel,
      abs _ (by decide +kernel), by simp, ?_, abs _ (by decide +kernel)⟩
    · intro n h; cases h; exact ⟨by decide, by decide, by decide, (utf8Valid_iff _).mp (by decide +kernel)⟩
    · intro n h; cases h; exact abs _ (by decide +kernel)

end Multipart

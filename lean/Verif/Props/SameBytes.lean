import Verif.Props.Lazy
import Verif.Props.Requests
/-!
# C153: the lazy client sends what the plain client sends
-/
namespace Multipart
variable {env : LazyEnv} {b : Bytes} {os : List ClientOp} {fs : List OutField} {n : Nat} {req req' : ClientReq} {m : LazyMp} {s s' : ClientStream}

/-- The full claim C153: with the same calls and the same boundary, the lazy client puts the same bytes on the wire as the plain one. -/
def LazyIsPlain : Prop := ∀ (env : LazyEnv) (b : Bytes) (n : Nat) (os : List ClientOp) (req req' : ClientReq) (m : LazyMp) (s s' : ClientStream), n ≠ 0 →
  (LazyMp.build os).send env b n req = (.ok, m, some s) → plainRequest env.toFileEnv req' b os = (.ok (), some s') → s.sink.got = s'.sink.got

/-- The calls in the order in which the lazy client sends their fields: the text, then the rest backwards. -/
def textFirst (os : List ClientOp) : List ClientOp := os.filter (·.isText) ++ (os.filter (!·.isText)).reverse

theorem All2.reverse {α β : Type} {R : α → β → Prop} {as : List α} {bs : List β} (h : All2 R as bs) : All2 R as.reverse bs.reverse := by
  induction h with
  | nil => exact .nil
  | cons h _ ih =>
    rw [List.reverse_cons, List.reverse_cons]
    exact ih.append (.cons h .nil)

theorem textFirst_fields {e : FileEnv} (h : All2 (StandsFor e) os fs) : All2 (StandsFor e) (textFirst os) (lazyOrder fs) := by
  have : All2 (StandsFor e) (os.filter (·.isText)) (fs.filter (·.ctype.isNone)) ∧ All2 (StandsFor e) (os.filter (!·.isText)) (fs.filter (·.ctype.isSome)) := by
    induction h with
    | nil => exact ⟨.nil, .nil⟩
    | cons hf _ ih => cases hf with
      | text n v => simpa [ClientOp.isText] using ⟨.cons (.text n v) ih.1, ih.2⟩
      | stream n evs fn ct => simpa [ClientOp.isText] using ⟨ih.1, .cons (.stream n evs fn ct) ih.2⟩
      | octets n evs fn => simpa [ClientOp.isText] using ⟨ih.1, .cons (.octets n evs fn) ih.2⟩
      | file n dir fname evs ho hu => simpa [ClientOp.isText] using ⟨ih.1, .cons (.file n dir fname evs ho hu) ih.2⟩
      | fileUnnamed n path evs ho hu => simpa [ClientOp.isText] using ⟨ih.1, .cons (.fileUnnamed n path evs ho hu) ih.2⟩
  exact this.1.append this.2.reverse

theorem mem_textFirst {o : ClientOp} : o ∈ textFirst os ↔ o ∈ os := by
  simp only [textFirst, List.mem_append, List.mem_filter, List.mem_reverse]
  cases o.isText <;> simp

theorem encodeLazy_crlf (b : Bytes) (h : fs ≠ []) : encodeLazy b fs ++ crlf = crlf ++ encode b fs := by
  have key : ∀ fs : List OutField, fs.flatMap (lazyPart b) ++ crlf ++ dashes ++ b ++ dashes ++ crlf = crlf ++ encode b fs := by
    intro fs
    induction fs with
    | nil => simp [encode]
    | cons f fs ih =>
      rw [List.flatMap_cons, List.append_assoc (lazyPart b f), List.append_assoc (lazyPart b f), List.append_assoc (lazyPart b f), List.append_assoc (lazyPart b f), List.append_assoc (lazyPart b f), ih]
      simp [lazyPart, encode]
  rw [encodeLazy, if_neg h, key]

theorem All2.fields_unique {e : FileEnv} {gs : List OutField} (h : All2 (StandsFor e) os fs) (h' : All2 (StandsFor e) os gs) : fs = gs := by
  induction h generalizing gs with
  | nil => cases h'; rfl
  | cons a _ ih => cases h' with
    | cons a' h' => rw [a.unique a', ih h']

/-- C153, as far as it holds: what the lazy client sends is, with a CRLF behind it, what the plain client sends for the same calls, text first and the rest backwards, with a CRLF in front of it. For requests with at least
one field; streams are not interrupted (see C35). Missing: the order of the calls, and the CRLF at the beginning and the end. -/
theorem C153_same_bytes_partial (hn0 : n ≠ 0) (ho : os ≠ []) (hni : NoInterrupt env.toFileEnv os) (h : (LazyMp.build os).send env b n req = (.ok, m, some s))
    (h' : plainRequest env.toFileEnv req' b (textFirst os) = (.ok (), some s')) : s.sink.got ++ crlf = crlf ++ s'.sink.got := by
  obtain ⟨t, p, fs, ht, -, hf, hg, -⟩ := C67_sent_partial hn0 ho hni h
  cases ht
  obtain ⟨gs, hgs, hg', -⟩ := C23_body h'
  have hne : lazyOrder fs ≠ [] := by
    intro h0
    have h1 := textFirst_fields hf
    rw [h0] at h1
    cases os with
    | nil => exact ho rfl
    | cons o os =>
      have : o ∈ textFirst (o :: os) := mem_textFirst.mpr (by simp)
      generalize textFirst (o :: os) = l at h1 this
      cases h1
      simp at this
  rw [hg, hg', hgs.fields_unique (textFirst_fields hf), encodeLazy_crlf b hne]

/-- Text, a stream and a file. -/
example : ∃ s s', (LazyMp.build Sample.lops).send Sample.lenv b!"b" 8192 Sample.req = (.ok, [], some s) ∧ plainRequest Sample.lenv.toFileEnv Sample.req b!"b" (textFirst Sample.lops) = (.ok (), some s') ∧
    NoInterrupt Sample.lenv.toFileEnv Sample.lops ∧ Sample.lops ≠ [] :=
  ⟨((LazyMp.send Sample.lenv b!"b" 8192 (LazyMp.build Sample.lops) Sample.req).2.2).getD ⟨[], ⟨[], []⟩, none⟩, ((plainRequest Sample.lenv.toFileEnv Sample.req b!"b" (textFirst Sample.lops)).2).getD ⟨[], ⟨[], []⟩, none⟩,
    by decide +kernel, by decide +kernel, fun o ho evs hr => Sample.lops_noErr o ho evs hr _, by simp [Sample.lops]⟩

/-- If the lazy client succeeds, then so does the plain one with these calls, to every destination that works. -/
theorem C153_plain_succeeds (hn0 : n ≠ 0) (ho : os ≠ []) (hni : NoInterrupt env.toFileEnv os) (h : (LazyMp.build os).send env b n req = (.ok, m, some s))
    (hoe : req'.openErr = none) (hw : WritesFine req'.script) (hfe : req'.finishErr = none) :
    ∃ s', plainRequest env.toFileEnv req' b (textFirst os) = (.ok (), some s') ∧ s.sink.got ++ crlf = crlf ++ s'.sink.got := by
  obtain ⟨t, p, fs, ht, -, hf, hg, -, hr, -⟩ := C67_sent_partial hn0 ho hni h
  obtain ⟨s', h1, -⟩ := C25_short_writes (b := b) hoe hw hfe (textFirst_fields hf) (fun o ho => hr o (mem_textFirst.mp ho))
  exact ⟨s', h1, C153_same_bytes_partial hn0 ho hni h h1⟩

/-- The same request. -/
example : ∃ s, (LazyMp.build Sample.lops).send Sample.lenv b!"b" 8192 Sample.req = (.ok, [], some s) ∧ NoInterrupt Sample.lenv.toFileEnv Sample.lops ∧ Sample.req.openErr = none ∧ WritesFine Sample.req.script ∧
    Sample.req.finishErr = none :=
  ⟨((LazyMp.send Sample.lenv b!"b" 8192 (LazyMp.build Sample.lops) Sample.req).2.2).getD ⟨[], ⟨[], []⟩, none⟩,
    by decide +kernel, fun o ho evs hr => Sample.lops_noErr o ho evs hr _, rfl, by simp [Sample.req, WritesFine, WEv.FailsWith], rfl⟩

/-- If the plain client succeeds with these calls, then so does the lazy one, to every destination that works, if the sizes of the files can be found out and no stream fails (not even with an interruption). -/
theorem C153_lazy_succeeds (hn0 : n ≠ 0) (ho : os ≠ []) (hn : NoReadErr env.toFileEnv os) (h : plainRequest env.toFileEnv req' b (textFirst os) = (.ok (), some s'))
    (hz : ∀ name path, .file name path ∈ os → ∃ k, env.size path = .ok k) (hoe : req.openErr = none) (hw : WritesFine req.script) (hfe : req.finishErr = none) :
    ∃ m s, (LazyMp.build os).send env b n req = (.ok, m, some s) ∧ s.sink.got ++ crlf = crlf ++ s'.sink.got := by
  obtain ⟨gs, hgs, -⟩ := C23_body h
  have hfiles : ∀ o ∈ os, ∀ nm e, ¬ FileFails env o nm e := by
    rintro o hos nm e ⟨path, rfl, h1 | ⟨evs, -, h1⟩⟩
    · obtain ⟨g, hg⟩ : ∃ g, StandsFor env.toFileEnv (.file nm path) g := by
        have := mem_textFirst.mpr hos
        clear h
        generalize textFirst os = l at hgs this
        induction hgs with
        | nil => simp at this
        | cons a _ ih =>
          rcases List.mem_cons.mp this with rfl | h
          · exact ⟨_, a⟩
          · exact ih h
      cases hg with
      | file _ dir fname evs h2 => rw [h1] at h2; cases h2
      | fileUnnamed _ _ evs h2 => rw [h1] at h2; cases h2
    · obtain ⟨k, hk⟩ := hz nm path hos
      rw [h1] at hk
      cases hk
  have hok := C67_succeeds (b := b) hn0 ho hn hfiles hoe hw hfe
  rcases hs : (LazyMp.build os).send env b n req with ⟨r, m, x⟩
  rw [hs] at hok
  have : r = .ok := hok
  subst this
  have hni : NoInterrupt env.toFileEnv os := fun o ho evs hr => hn o ho evs hr _
  obtain ⟨t, -, -, rfl, -⟩ := C67_sent_partial hn0 ho hni hs
  exact ⟨m, t, rfl, C153_same_bytes_partial hn0 ho hni hs h⟩

/-- The same request. -/
example : ∃ s', plainRequest Sample.lenv.toFileEnv Sample.req b!"b" (textFirst Sample.lops) = (.ok (), some s') ∧ NoReadErr Sample.lenv.toFileEnv Sample.lops ∧
    (∀ name path, .file name path ∈ Sample.lops → ∃ k, Sample.lenv.size path = .ok k) ∧ WritesFine Sample.req.script :=
  ⟨((plainRequest Sample.lenv.toFileEnv Sample.req b!"b" (textFirst Sample.lops)).2).getD ⟨[], ⟨[], []⟩, none⟩, by decide +kernel, Sample.lops_noErr,
    by intro name path h; simp [Sample.lops] at h; obtain ⟨-, rfl⟩ := h; exact ⟨_, rfl⟩, by simp [Sample.req, WritesFine, WEv.FailsWith]⟩

/-- C153 is false of the code as stated, already for one field of text: the lazy body has its CRLF in front, not behind. -/
theorem C153_false : ¬ LazyIsPlain := by
  intro h
  have := h Sample.lenv b!"b" 8192 [.text b!"a" b!"x"] Sample.req Sample.req []
    (((LazyMp.send Sample.lenv b!"b" 8192 (LazyMp.build [.text b!"a" b!"x"]) Sample.req).2.2).getD ⟨[], ⟨[], []⟩, none⟩)
    (((plainRequest Sample.lenv.toFileEnv Sample.req b!"b" [.text b!"a" b!"x"]).2).getD ⟨[], ⟨[], []⟩, none⟩) (by decide) (by decide +kernel) (by decide +kernel)
  revert this
  decide +kernel

end Multipart

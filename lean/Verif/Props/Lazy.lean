import Verif.Lemmas.Lazy
import Verif.Lemmas.RoundTrip
import Verif.Props.RoundTrip
/-!
# C30-C36, C67, C68: lazy requests

`PreparedFrom env b os p`: `prepare()` of a request to which fields were added by the calls `os` gave `p`; `b` is the generated boundary.
-/
namespace Multipart

namespace Sample

def lenv : LazyEnv where
  open_ := fun p => if p = [b!"d", b!"f.txt"] ∨ p = [b!"bad"] then .ok [.data b!"file", .data b!"data"] else .error .notFound
  guess := fun _ => ⟨b!"text/plain", b!"text"⟩
  size := fun p => if p = [b!"bad"] then .error (.other 3) else .ok 8

def lops : List ClientOp := [.text b!"a" b!"hello", .stream b!"s" [.data b!"xy", .data b!"z"] none none, .file b!"f" [b!"d", b!"f.txt"], .text b!"t" b!""]

/-- No streams and no texts. -/
def lfiles : List ClientOp := [.file b!"f" [b!"d", b!"f.txt"], .file b!"g" [b!"d", b!"f.txt"]]

def lprep (os : List ClientOp) : Prepared := match ((LazyMp.build os).prepare lenv b!"b").1 with
  | .ok p => p
  | .error _ => ⟨.new [], [], .new [], none⟩

theorem lprep_ok {os : List ClientOp} (h : (match ((LazyMp.build os).prepare lenv b!"b").1 with | .ok _ => true | .error _ => false) = true) : PreparedFrom lenv b!"b" os (lprep os) := by
  unfold PreparedFrom lprep
  cases h' : ((LazyMp.build os).prepare lenv b!"b").1 with
  | ok p => rfl
  | error e => simp [h'] at h

def lflds : List OutField := [⟨b!"a", none, none, b!"hello"⟩, ⟨b!"s", none, some b!"application/octet-stream", b!"xyz"⟩, ⟨b!"f", some b!"f.txt", some b!"text/plain", b!"filedata"⟩, ⟨b!"t", none, none, b!""⟩]

theorem lops_fields : All2 (StandsFor lenv.toFileEnv) lops lflds :=
  .cons (.text _ _) (.cons (.octets _ [.data b!"xy", .data b!"z"] _) (.cons (.file (env := lenv.toFileEnv) b!"f" [b!"d"] b!"f.txt" [.data b!"file", .data b!"data"] rfl ⟨(utf8Valid_iff _).mp (by decide +kernel), by decide⟩) (.cons (.text _ _) .nil)))

theorem lops_noErr : NoReadErr lenv.toFileEnv lops := by
  intro o ho evs hr e he
  simp [lops] at ho
  rcases ho with rfl | rfl | rfl | rfl
  · exact hr
  · cases hr; simp at he
  · have : lenv.open_ [b!"d", b!"f.txt"] = .ok [.data b!"file", .data b!"data"] := rfl
    cases this.symm.trans hr; simp at he
  · exact hr

theorem lfiles_noErr : NoReadErr lenv.toFileEnv lfiles := by
  intro o ho evs hr e he
  have : lenv.open_ [b!"d", b!"f.txt"] = .ok [.data b!"file", .data b!"data"] := rfl
  simp [lfiles] at ho
  rcases ho with rfl | rfl <;> · cases this.symm.trans hr; simp at he

theorem lfiles_sizes : TrueSizes lenv lfiles := by
  intro n p evs hm ho
  have : lenv.open_ [b!"d", b!"f.txt"] = .ok [.data b!"file", .data b!"data"] := rfl
  simp [lfiles] at hm
  rcases hm with ⟨_, rfl⟩ | ⟨_, rfl⟩ <;> · cases this.symm.trans ho; decide

theorem lfiles_fields : All2 (StandsFor lenv.toFileEnv) lfiles [⟨b!"f", some b!"f.txt", some b!"text/plain", b!"filedata"⟩, ⟨b!"g", some b!"f.txt", some b!"text/plain", b!"filedata"⟩] :=
  .cons (.file (env := lenv.toFileEnv) b!"f" [b!"d"] b!"f.txt" [.data b!"file", .data b!"data"] rfl ⟨(utf8Valid_iff _).mp (by decide +kernel), by decide⟩) (.cons (.file (env := lenv.toFileEnv) b!"g" [b!"d"] b!"f.txt" [.data b!"file", .data b!"data"] rfl ⟨(utf8Valid_iff _).mp (by decide +kernel), by decide⟩) .nil)

end Sample

variable {env : LazyEnv} {b : Bytes} {os : List ClientOp} {fs : List OutField} {p : Prepared}

/-! ## Auxiliary -/

theorem standsFor_dropErrs {env : FileEnv} {o : ClientOp} {f : OutField} (hn : ∀ evs, o.reads env evs → NoErr evs) (h : StandsFor env o f) : StandsFor env.dropErrs o.dropErrs f := by
  cases h with
  | text n v => exact .text n v
  | stream n evs fn ct => 
    simp only [ClientOp.dropErrs, dropErrs_noErr (hn evs rfl)]; exact .stream n evs fn ct
  | octets n evs fn => 
    simp only [ClientOp.dropErrs, dropErrs_noErr (hn evs rfl)]; exact .octets n evs fn
  | file n dir fname evs ho hu => 
    exact .file (env := env.dropErrs) n dir fname evs (by simp [FileEnv.dropErrs, ho, Except.map, dropErrs_noErr (hn evs ho)]) hu
  | fileUnnamed n path evs ho hu =>
    exact .fileUnnamed (env := env.dropErrs) n path evs (by simp [FileEnv.dropErrs, ho, Except.map, dropErrs_noErr (hn evs ho)]) hu

theorem all2_dropErrs {env : FileEnv} {os : List ClientOp} {fs : List OutField} (hn : NoReadErr env os) (h : All2 (StandsFor env) os fs) :
    All2 (StandsFor env.dropErrs) (os.map ClientOp.dropErrs) fs := by
  induction h with
  | nil => exact .nil
  | cons hf _ ih => exact .cons (standsFor_dropErrs (hn _ (by simp)) hf) (ih fun o ho => hn o (by simp [ho]))

theorem all2_unique {env : FileEnv} {os : List ClientOp} {fs gs : List OutField} (h : All2 (StandsFor env) os fs) (h' : All2 (StandsFor env) os gs) : fs = gs := by
  induction h generalizing gs with
  | nil => cases h'; rfl
  | cons hf _ ih => cases h' with
    | cons hf' h' => rw [hf.unique hf', ih h']

theorem prepare_opens (h : PreparedFrom env b os p) : ∀ o ∈ os, ∀ n e, ¬ FileFails env o n e := by
  unfold PreparedFrom LazyMp.prepare Prepared.fromFields at h
  rw [build_eq] at h
  rcases prepLoop_spec env b os ⟨[], [], 0, true⟩ with ⟨fs, s', h1, h2, h3, h4⟩ | ⟨pre, o, post, n, e, h1, h2, h3, h4⟩
  · exact h4
  · simp only [h4] at h; cases h

theorem prepare_fields (h : PreparedFrom env b os p) : ∃ fs, All2 (StandsFor env.toFileEnv) os fs := by
  rcases all2_or env.toFileEnv os with hf | ⟨pre, n, q, e, post, fs, rfl, h1, h2⟩
  · exact hf
  · exact absurd ⟨q, rfl, .inl h1⟩ (prepare_opens h (.file n q) (by simp) n e)

theorem prepare_spec' (h : PreparedFrom env b os p) (hn : NoReadErr env.toFileEnv os) (hf : All2 (StandsFor env.toFileEnv) os fs) : PrepSpec env b os fs p := by
  obtain ⟨fs', hs⟩ := prepare_spec h
  rw [all2_unique (all2_dropErrs hn hf) hs.fields]
  exact hs

theorem PrepSpec.noErrs (hs : PrepSpec env b os fs p) (hn : NoReadErr env.toFileEnv os) : ∀ e, ¬ p.HasErr e := by
  intro e he
  obtain ⟨o, ho, evs, hr, hm⟩ := hs.errs e he
  exact hn o ho evs hr e hm

theorem okBytes_map (xs : List Bytes) : okBytes (xs.map .ok) = xs.flatten := by
  induction xs with
  | nil => rfl
  | cons x xs ih => simp [okBytes, ih]

theorem cuts_flatten (u : Bytes) : ∀ ns, (cuts u ns).flatten <+: u := by
  intro ns
  induction ns generalizing u with
  | nil => exact List.nil_prefix
  | cons n ns ih =>
    simp only [cuts, List.flatten_cons]
    conv => rhs; rw [← List.take_append_drop n u]
    exact List.prefix_append_right_inj _ |>.mpr (ih _)

theorem cuts_done {u : Bytes} : ∀ {ns : List Nat}, (∀ n ∈ ns, n ≠ 0) → (cuts u ns).getLast? = some [] → (cuts u ns).flatten = u := by
  intro ns
  induction ns generalizing u with
  | nil => simp [cuts]
  | cons n ns ih =>
    intro h0 hl
    simp only [cuts, List.flatten_cons] at hl ⊢
    cases ns with
    | nil =>
      simp [cuts] at hl
      have := h0 n (by simp)
      simp [hl.resolve_left this, cuts]
    | cons m ns =>
      rw [ih (u := u.drop n) (fun k hk => h0 k (by simp [hk])) (by simpa [cuts] using hl), List.take_append_drop]

/-! ## C30 -/

/-- C30: whatever the sizes of the buffers, the reads return, one after the other, the pieces of these sizes of one and the same body, which is made up of the text fields in
order, the other fields backwards and the closing delimiter. Neither the sizes nor the chunks in which streams deliver their data matter. -/
theorem C30_read_sizes (h : PreparedFrom env b os p) (hn : NoReadErr env.toFileEnv os) (hf : All2 (StandsFor env.toFileEnv) os fs) (ns : List Nat) :
    (p.reads ns).1 = (cuts (encodeLazy b (lazyOrder fs)) ns).map .ok := by
  have hs := prepare_spec' h hn hf
  rw [Prepared.reads_ok ns hs.inv (hs.noErrs hn), hs.rest]

/-- C30_read_sizes and C32_all_fields. -/
example : PreparedFrom Sample.lenv b!"b" Sample.lops (Sample.lprep Sample.lops) ∧ NoReadErr Sample.lenv.toFileEnv Sample.lops ∧ All2 (StandsFor Sample.lenv.toFileEnv) Sample.lops Sample.lflds :=
  ⟨Sample.lprep_ok (by decide +kernel), Sample.lops_noErr, Sample.lops_fields⟩

theorem readsOut_eq (h : PreparedFrom env b os p) (hn : NoReadErr env.toFileEnv os) (hf : All2 (StandsFor env.toFileEnv) os fs) {ns : List Nat} {u : Bytes} (hr : ReadsOut p ns u) :
    u = encodeLazy b (lazyOrder fs) := by
  obtain ⟨h1, h2, h3⟩ := hr
  rw [C30_read_sizes h hn hf ns] at h2 h3
  rw [← h3, okBytes_map, cuts_done h1]
  rw [List.getLast?_map] at h2
  cases hl : (cuts (encodeLazy b (lazyOrder fs)) ns).getLast? with
  | none => rw [hl] at h2; simp at h2
  | some x => rw [hl] at h2; simp at h2; rw [h2]

/-! ## C32 -/

/-- C32: what is read to the end is a body with every added field exactly once: the text fields `ts` in order of addition, and then the file and stream fields `ss` in reverse order.
And with buffers of any size, some number of reads reaches the end. -/
theorem C32_all_fields (h : PreparedFrom env b os p) (hn : NoReadErr env.toFileEnv os) :
    ∃ ts ss, All2 (StandsFor env.toFileEnv) (os.filter (·.isText)) ts ∧ All2 (StandsFor env.toFileEnv) (os.filter (!·.isText)) ss ∧
      (∀ ns u, ReadsOut p ns u → u = encodeLazy b (ts ++ ss.reverse)) ∧ ∀ n, n ≠ 0 → ∃ m u, ReadsOut p (List.replicate m n) u := by
  obtain ⟨fs, hf⟩ := prepare_fields h
  have hfilter : ∀ {os : List ClientOp} {fs : List OutField}, All2 (StandsFor env.toFileEnv) os fs →
      All2 (StandsFor env.toFileEnv) (os.filter (·.isText)) (fs.filter (·.ctype.isNone)) ∧ All2 (StandsFor env.toFileEnv) (os.filter (!·.isText)) (fs.filter (·.ctype.isSome)) := by
    intro os fs h
    induction h with
    | nil => exact ⟨.nil, .nil⟩
    | cons hf _ ih => cases hf with
      | text n v => simpa [ClientOp.isText] using ⟨.cons (.text n v) ih.1, ih.2⟩
      | stream n evs fn ct => simpa [ClientOp.isText] using ⟨ih.1, .cons (.stream n evs fn ct) ih.2⟩
      | octets n evs fn => simpa [ClientOp.isText] using ⟨ih.1, .cons (.octets n evs fn) ih.2⟩
      | file n dir fname evs ho hu => simpa [ClientOp.isText] using ⟨ih.1, .cons (.file n dir fname evs ho hu) ih.2⟩
      | fileUnnamed n path evs ho hu => simpa [ClientOp.isText] using ⟨ih.1, .cons (.fileUnnamed n path evs ho hu) ih.2⟩
  refine ⟨_, _, (hfilter hf).1, (hfilter hf).2, fun ns u hr => readsOut_eq h hn hf hr, fun n hn0 => ?_⟩
  have key : ∀ (m : Nat) (u : Bytes), u.length ≤ m → (cuts u (List.replicate (m + 1) n)).getLast? = some [] := by
    intro m
    induction m with
    | zero => intro u hu; have : u = [] := by simpa using hu
              simp [this, cuts]
    | succ m ih =>
      intro u hu
      rw [List.replicate_succ]
      simp only [cuts]
      have := ih (u.drop n) (by simp; omega)
      rw [List.replicate_succ] at this ⊢
      simp only [cuts] at this ⊢
      rw [List.getLast?_cons_cons]; exact this
  refine ⟨(encodeLazy b (lazyOrder fs)).length + 1, _, ?_, ?_, rfl⟩
  · intro k hk; rw [List.eq_of_mem_replicate hk]; exact hn0
  · rw [C30_read_sizes h hn hf, List.getLast?_map, key _ _ (Nat.le_refl _)]; rfl

/-- The reordering neither drops nor repeats a field. -/
theorem C32_permutation (fs : List OutField) : (lazyOrder fs).Perm fs := by
  have h1 : fs.filter (·.ctype.isSome) = fs.filter (fun f => !f.ctype.isNone) := by
    congr 1; funext f; cases f.ctype <;> rfl
  unfold lazyOrder
  rw [h1]
  exact ((List.reverse_perm _).append_left _).trans (List.filter_append_perm _ fs)

example : (lazyOrder Sample.lflds).map (·.name) = [b!"a", b!"t", b!"f", b!"s"] := by decide

/-! ## C31 -/

/-- The full claim C31: if a content length is reported (and the sizes of files are right), what is read has this length. -/
def ContentLenExact : Prop := ∀ (env : LazyEnv) (b : Bytes) (os : List ClientOp) (p : Prepared) (len : Nat) (ns : List Nat) (u : Bytes),
  PreparedFrom env b os p → NoReadErr env.toFileEnv os → TrueSizes env os → p.contentLen = some len → ReadsOut p ns u → u.length = len

/-- C31 is false of the code: the text fields are not counted. Here one text field of 5 bytes: 7 is reported, 63 bytes are read. -/
theorem C31_false : ¬ ContentLenExact := by
  intro h
  have hp : PreparedFrom Sample.lenv b!"b" [.text b!"a" b!"hello"] (Sample.lprep [.text b!"a" b!"hello"]) := Sample.lprep_ok (by decide +kernel)
  have := h Sample.lenv b!"b" [.text b!"a" b!"hello"] _ 7 [100, 100] (okBytes ((Sample.lprep [.text b!"a" b!"hello"]).reads [100, 100]).1) hp
    (by intro o ho evs hr; simp at ho; subst ho; exact hr.elim) (by intro n q evs hm; simp at hm) (by decide +kernel) ⟨by decide, by decide +kernel, rfl⟩
  revert this
  decide +kernel

/-- C31, what the code does: a content length is reported unless there are streams, and it is the length of the body without the text fields. -/
theorem C31_without_texts_partial (h : PreparedFrom env b os p) (hn : NoReadErr env.toFileEnv os) (hz : TrueSizes env os) (hf : All2 (StandsFor env.toFileEnv) os fs) :
    (p.contentLen = none ↔ ∃ o ∈ os, o.isStream = true) ∧
    ∀ len, p.contentLen = some len → ∀ ns u, ReadsOut p ns u → u.length = len + ((fs.filter (·.ctype.isNone)).flatMap (lazyPart b)).length := by
  have hs := prepare_spec' h hn hf
  constructor
  · rw [← List.any_eq_true]
    constructor
    · intro hnone
      cases hc : os.any (·.isStream) with
      | true => rfl
      | false => exact absurd hnone (hs.someLen hc)
    · exact hs.noLen
  · intro len hl ns u hr
    rw [readsOut_eq h hn hf hr]
    cases hc : os.any (·.isStream) with
    | true => rw [hs.noLen hc] at hl; simp at hl
    | false =>
      rw [hs.len hn hz hc] at hl
      simp only [Option.some.injEq] at hl
      have hb := hs.bound
      have hnil := all2_nil_iff hf
      subst hl
      by_cases ho : os = []
      · have := hnil.mp ho
        subst this
        rw [hb, if_pos ho]; simp [lazyOrder, encodeLazy]
      · rw [hb, if_neg ho]
        unfold encodeLazy
        rw [if_neg (fun hh => ho (hnil.mpr (lazyOrder_eq_nil.mp hh)))]
        simp only [lazyOrder, List.flatMap_append, List.length_append]
        have : ((fs.filter (·.ctype.isSome)).reverse.flatMap (lazyPart b)).length = ((fs.filter (·.ctype.isSome)).flatMap (lazyPart b)).length := by
          simp only [List.length_flatMap, List.map_reverse, List.sum_reverse]
        rw [this]
        have : crlf.length = 2 ∧ dashes.length = 2 := ⟨rfl, rfl⟩
        simp
        omega

/-- C31 for requests without text fields: the content length is exact. -/
theorem C31_exact_partial (h : PreparedFrom env b os p) (hn : NoReadErr env.toFileEnv os) (hz : TrueSizes env os) (ht : ∀ o ∈ os, o.isText = false) {len : Nat} (hl : p.contentLen = some len)
    {ns : List Nat} {u : Bytes} (hr : ReadsOut p ns u) : u.length = len := by
  obtain ⟨fs, hf⟩ := prepare_fields h
  rw [(C31_without_texts_partial h hn hz hf).2 len hl ns u hr]
  have : fs.filter (·.ctype.isNone) = [] := by
    clear hn hz hl hr h
    induction hf with
    | nil => rfl
    | @cons o f os fs hf _ ih =>
      rw [List.filter_cons_of_neg, ih fun o ho => ht o (by simp [ho])]
      have := ht o (by simp)
      cases hf <;> simp [ClientOp.isText] at this ⊢
  simp [this]

/-- C31_exact_partial and C31_without_texts_partial. -/
example : PreparedFrom Sample.lenv b!"b" Sample.lfiles (Sample.lprep Sample.lfiles) ∧ NoReadErr Sample.lenv.toFileEnv Sample.lfiles ∧ TrueSizes Sample.lenv Sample.lfiles ∧
    (∀ o ∈ Sample.lfiles, o.isText = false) ∧ (Sample.lprep Sample.lfiles).contentLen = some (okBytes ((Sample.lprep Sample.lfiles).reads [1000]).1).length ∧
    ReadsOut (Sample.lprep Sample.lfiles) [50, 300, 1] (okBytes ((Sample.lprep Sample.lfiles).reads [50, 300, 1]).1) :=
  ⟨Sample.lprep_ok (by decide +kernel), Sample.lfiles_noErr, Sample.lfiles_sizes, by decide, by decide +kernel, by decide, by decide +kernel, rfl⟩

example : ∃ fs, All2 (StandsFor Sample.lenv.toFileEnv) Sample.lfiles fs := ⟨_, Sample.lfiles_fields⟩

/-! ## C33 -/

/-- The full claim C33: at any time during reading, `boundary()` returns the boundary. -/
def BoundaryKnown : Prop := ∀ (env : LazyEnv) (b : Bytes) (os : List ClientOp) (p : Prepared) (ns : List Nat), PreparedFrom env b os p → (p.reads ns).2.boundary = .ok b

/-- C33 is false of the code: `boundary()` panics if there are no fields. -/
theorem C33_false : ¬ BoundaryKnown := by
  intro h
  have := h Sample.lenv b!"b" [] (Sample.lprep []) [] (Sample.lprep_ok (by decide +kernel))
  revert this
  decide +kernel

/-- C33 for requests with at least one field, whether reads fail or not. By C30, `b` is the boundary in the body. -/
theorem C33_boundary_partial (h : PreparedFrom env b os p) (ho : os ≠ []) (ns : List Nat) : (p.reads ns).2.boundary = .ok b := by
  obtain ⟨fs, hs⟩ := prepare_spec h
  unfold Prepared.boundary
  rw [Prepared.reads_bound ns hs.inv, hs.bound, if_neg ho]
  have hl : (b!"\r\n--" ++ b ++ b!"--").length = b.length + 6 := by simp
  rw [if_neg (by rw [hl]; omega), List.take_left' (by rw [hl]; simp)]
  rfl

example : PreparedFrom Sample.lenv b!"b" Sample.lops (Sample.lprep Sample.lops) ∧ Sample.lops ≠ [] := ⟨Sample.lprep_ok (by decide +kernel), by simp [Sample.lops]⟩

/-- `send()` panics if there are no fields. The documentation says that a request can be used again; but it has no fields after `send()` or `prepare()`, whatever these returned. -/
theorem C33_send_again_panics (m : LazyMp) (n : Nat) (req : ClientReq) : (m.send env b n req).2.1 = [] ∧ (m.prepare env b).2 = [] ∧
    ∀ env' b' n' req', (LazyMp.send env' b' n' (m.send env b n req).2.1 req').1 = .panic := by
  have h1 : (m.send env b n req).2.1 = [] := by
    unfold LazyMp.send LazyMp.prepare
    generalize Prepared.fromFields env b m = x
    cases x with
    | error e => rfl
    | ok p =>
      simp only
      cases p.boundary with
      | ok bound =>
        simp only
        cases (req.applyHeaders bound p.contentLen).2.openStream with
        | error e => rfl
        | ok s =>
          simp only
          generalize p.copy n p.fuel s.sink = y
          obtain ⟨r, p', k⟩ := y
          cases r <;> rfl
      | _ => rfl
  refine ⟨h1, rfl, ?_⟩
  intro env' b' n' req'
  rw [h1]
  rfl

/-! ## C36 -/

/-- C36: `prepare()` fails if and only if a file that was added cannot be opened or measured; the error is that of the first such file, and carries the name of its field. -/
theorem C36_named (env : LazyEnv) (b : Bytes) (os : List ClientOp) (err : LazyErr) : ((LazyMp.build os).prepare env b).1 = .error err ↔
    ∃ pre o post name e, os = pre ++ o :: post ∧ FileFails env o name e ∧ (∀ o' ∈ pre, ∀ n e', ¬ FileFails env o' n e') ∧ err.field = some name ∧ err.error = e := by
  have funq : ∀ o n e n' e', FileFails env o n e → FileFails env o n' e' → n = n' ∧ e = e' := by
    rintro o n e n' e' ⟨q, rfl, h⟩ ⟨q', h2, h'⟩
    cases h2
    refine ⟨rfl, ?_⟩
    rcases h with h | ⟨evs, ho, h⟩ <;> rcases h' with h' | ⟨evs', ho', h'⟩
    · rw [h] at h'; cases h'; rfl
    · rw [h] at ho'; cases ho'
    · rw [ho] at h'; cases h'
    · rw [h] at h'; cases h'; rfl
  unfold LazyMp.prepare Prepared.fromFields
  rw [build_eq]
  rcases prepLoop_spec env b os ⟨[], [], 0, true⟩ with ⟨fs, s', h1, h2, h3, h4⟩ | ⟨pre, o, post, n, e, h1, h2, h3, h4⟩
  · simp only [h1]
    constructor
    · intro h; cases h
    · rintro ⟨pre, o, post, name, e, rfl, hf, -⟩
      exact absurd hf (h4 o (by simp) name e)
  · simp only [h4]
    constructor
    · intro h
      cases h
      exact ⟨pre, o, post, n, e, h1, h2, h3, rfl, rfl⟩
    · rintro ⟨pre', o', post', n', e', h1', h2', h3', h5, h6⟩
      have : pre.length = pre'.length ∧ o = o' := by
        rw [h1] at h1'
        rcases Nat.lt_trichotomy pre.length pre'.length with hl | hl | hl
        · have : (pre' ++ o' :: post')[pre.length]? = some o := by rw [← h1']; simp
          rw [List.getElem?_append_left hl] at this
          exact absurd h2 (h3' o (List.mem_of_getElem? this) n e)
        · exact ⟨hl, by
            have h := (List.append_inj h1' hl).2
            cases h; rfl⟩
        · have : (pre ++ o :: post)[pre'.length]? = some o' := by rw [h1']; simp
          rw [List.getElem?_append_left hl] at this
          exact absurd h2' (h3 o' (List.mem_of_getElem? this) n' e')
      obtain ⟨-, rfl⟩ := this
      obtain ⟨rfl, rfl⟩ := funq _ _ _ _ _ h2 h2'
      obtain ⟨f, er⟩ := err
      simp only at h5 h6
      rw [h5, h6]

example : ((LazyMp.build [.text b!"a" b!"x", .file b!"f" [b!"d", b!"f.txt"], .file b!"m" [b!"bad"], .file b!"n" [b!"none"]]).prepare Sample.lenv b!"b").1 = .error ⟨some b!"m", .other 3⟩ ∧
    FileFails Sample.lenv (.file b!"m" [b!"bad"]) b!"m" (.other 3) ∧ FileFails Sample.lenv (.file b!"n" [b!"none"]) b!"n" .notFound :=
  ⟨rfl, ⟨_, rfl, .inr ⟨_, rfl, rfl⟩⟩, ⟨_, rfl, .inl rfl⟩⟩

/-! ## C35 -/

/-- The full claim C35: when reads fail and are repeated, what the successful reads report is still the body (or a prefix of it). The body is that of the same request with streams that
do not fail. -/
def NothingLost : Prop := ∀ (env : LazyEnv) (b : Bytes) (os : List ClientOp) (p : Prepared) (fs : List OutField) (ns : List Nat), PreparedFrom env b os p →
  All2 (StandsFor env.toFileEnv.dropErrs) (os.map ClientOp.dropErrs) fs → okBytes (p.reads ns).1 <+: encodeLazy b (lazyOrder fs)

namespace Sample

/-- A stream whose second read is interrupted. -/
def intrOps : List ClientOp := [.stream b!"s" [.data b!"xyz", .err .interrupted, .data b!"w"] none none]

def intrFlds : List OutField := [⟨b!"s", none, some b!"application/octet-stream", b!"xyzw"⟩]

theorem intr_fields : All2 (StandsFor lenv.toFileEnv) intrOps intrFlds := .cons (.octets _ [.data b!"xyz", .err .interrupted, .data b!"w"] _) .nil

end Sample

/-- C35 is false of the code: a `read` that has copied the header of a field and some of its data when the stream fails returns the error, and forgets what it copied. -/
theorem C35_false : ¬ NothingLost := by
  intro h
  have := h Sample.lenv b!"b" Sample.intrOps (Sample.lprep Sample.intrOps) Sample.intrFlds [200, 200] (Sample.lprep_ok (by decide +kernel)) (.cons (.octets _ [.data b!"xyz", .data b!"w"] _) .nil)
  revert this
  decide +kernel

/-- The same with `send()`: `io::copy` repeats the interrupted read, a damaged body is sent, and `send()` returns `Ok`. -/
theorem C35_send_false : ∃ s, (LazyMp.send Sample.lenv b!"b" 8192 (LazyMp.build Sample.intrOps) Sample.req) = (.ok, [], some s) ∧ s.sink.got = b!"w\r\n--b--" :=
  ⟨((LazyMp.send Sample.lenv b!"b" 8192 (LazyMp.build Sample.intrOps) Sample.req).2.2).getD ⟨[], ⟨[], []⟩, none⟩, by decide +kernel, by decide +kernel⟩

/-- C35, how much is lost: all reads, successful or not, pass over consecutive pieces of the body; a successful read reports its piece, the piece of a failed read is shorter than its
buffer. If the last read reported the end, this was the whole body. -/
theorem C35_pieces_partial (h : PreparedFrom env b os p) (hf : All2 (StandsFor env.toFileEnv.dropErrs) (os.map ClientOp.dropErrs) fs) (ns : List Nat) :
    ∃ pieces : List Bytes, pieces.flatten <+: encodeLazy b (lazyOrder fs) ∧ pieces.length = ns.length ∧ (p.reads ns).1.length = ns.length ∧
      All2 (fun x n => x.1 = .ok x.2 ∨ (∃ e, x.1 = .err e) ∧ x.2.length < n) ((p.reads ns).1.zip pieces) ns ∧
      ((∃ n, ns.getLast? = some n ∧ n ≠ 0) → (p.reads ns).1.getLast? = some (.ok []) → pieces.flatten = encodeLazy b (lazyOrder fs)) := by
  obtain ⟨fs', hs⟩ := prepare_spec h
  cases all2_unique hf hs.fields
  obtain ⟨pieces, h1, h2, h3, h4⟩ := Prepared.reads_pieces ns hs.inv
  refine ⟨pieces, by rw [← hs.rest, h1]; exact List.prefix_append _ _, h2, h4, h3, ?_⟩
  rintro ⟨n, hl, hn0⟩ hlast
  rw [← hs.rest, h1]
  have key : ∀ (ns : List Nat) {p : Prepared}, p.Inv → ns.getLast? = some n → (p.reads ns).1.getLast? = some (.ok []) → (p.reads ns).2.rest = [] := by
    intro ns
    induction ns with
    | nil => intro p _ h; simp at h
    | cons m ns ih =>
      intro p hi hl hlast
      cases ns with
      | nil =>
        simp at hl
        subst hl
        simp only [Prepared.reads, List.getLast?_singleton, Option.some.injEq] at hlast ⊢
        obtain ⟨chunk, hst⟩ := p.read_spec hi m hn0
        rcases hst.res with ⟨r1, r2, r3, -⟩ | ⟨e, r1, -⟩
        · rw [hlast] at r1
          simp only [List.nil_append, Res.ok.injEq] at r1
          subst r1
          exact (hst.inv.done (r3.resolve_left (by simp; omega))).1
        · rw [hlast] at r1; cases r1
      | cons k ns => exact ih (p.read_inv hi m).1 (by simpa using hl) (by simpa [Prepared.reads] using hlast)
  rw [key ns hs.inv hl hlast, List.append_nil]

/-- C35 for buffers of one byte: nothing is lost. Missing: larger buffers. -/
theorem C35_single_bytes_partial (h : PreparedFrom env b os p) (hf : All2 (StandsFor env.toFileEnv.dropErrs) (os.map ClientOp.dropErrs) fs) {ns : List Nat} (h1 : ∀ n ∈ ns, n = 1) :
    okBytes (p.reads ns).1 <+: encodeLazy b (lazyOrder fs) ∧ ((p.reads ns).1.getLast? = some (.ok []) → okBytes (p.reads ns).1 = encodeLazy b (lazyOrder fs)) := by
  obtain ⟨pieces, h2, h3, h4, h5, h6⟩ := C35_pieces_partial h hf ns
  have key : ∀ (rs : List (Res Bytes)) (pieces : List Bytes) (ns : List Nat), rs.length = ns.length → pieces.length = ns.length → (∀ n ∈ ns, n = 1) →
      All2 (fun x n => x.1 = .ok x.2 ∨ (∃ e, x.1 = .err e) ∧ x.2.length < n) (rs.zip pieces) ns → okBytes rs = pieces.flatten := by
    intro rs
    induction rs with
    | nil => intro pieces ns h1 h2 _ _; simp at h1; rw [← h1] at h2; simp at h2; simp [h2, okBytes]
    | cons r rs ih =>
      intro pieces ns h1 h2 h3 h4
      cases ns with
      | nil => simp at h1
      | cons n ns =>
      cases pieces with
      | nil => simp at h2
      | cons x pieces =>
        simp only [List.zip_cons_cons] at h4
        cases h4 with | cons hx h4 =>
        have := ih pieces ns (by simpa using h1) (by simpa using h2) (fun n hn => h3 n (by simp [hn])) h4
        rcases hx with hx | ⟨⟨e, hx⟩, hl⟩
        · simp only at hx; subst hx; simp [okBytes, this]
        · simp only at hx hl
          rw [h3 n (by simp)] at hl
          have : x = [] := List.length_eq_zero_iff.mp (by omega)
          subst hx; simp [okBytes, *]
  have e := key _ _ _ h4 h3 h1 h5
  rw [e]
  refine ⟨h2, fun hl => h6 ?_ hl⟩
  cases hns : ns.getLast? with
  | none => rw [List.getLast?_eq_none_iff] at hns; subst hns; simp [Prepared.reads] at hl
  | some n => exact ⟨n, rfl, by rw [h1 n (List.mem_of_getLast? hns)]; simp⟩

/-- C35_pieces_partial and C35_single_bytes_partial. -/
example : PreparedFrom Sample.lenv b!"b" Sample.intrOps (Sample.lprep Sample.intrOps) ∧ (∃ fs, All2 (StandsFor Sample.lenv.toFileEnv.dropErrs) (Sample.intrOps.map ClientOp.dropErrs) fs) ∧
    ((Sample.lprep Sample.intrOps).reads (List.replicate 200 1)).1.getLast? = some (.ok []) ∧ .err .interrupted ∈ ((Sample.lprep Sample.intrOps).reads (List.replicate 200 1)).1 :=
  ⟨Sample.lprep_ok (by decide +kernel), ⟨_, .cons (.octets _ [.data b!"xyz", .data b!"w"] _) .nil⟩, by decide +kernel, by decide +kernel⟩

/-! ## C34 -/

/-- The full claim C34: what is read to the end from a prepared request is read back by the server as the same fields. `cts` are the parsed content types. -/
def LazyRoundTrip (D : Deps) : Prop := ∀ (env : LazyEnv) (b : Bytes) (os : List ClientOp) (p : Prepared) (fs : List OutField) (cts : List (Option Mime)) (ns : List Nat) (u : Bytes)
  (evs : List Ev) (got : List (FieldHeaders × Bytes)) (fin : Ending), SafeBoundary b → PreparedFrom env b os p → NoReadErr env.toFileEnv os → All2 (StandsFor env.toFileEnv) os fs →
  All2 (fun f ct => f.ctype.map D.parseMime = ct.map some ∧ Absent (dashes ++ b) (f.headers ++ f.data)) (lazyOrder fs) cts →
  ReadsOut p ns u → NoStall evs → NoErr evs → Ev.bytes evs = u → Reads D (withBody evs b) got fin → fin = .closed ∧ got = List.zipWith OutField.asRead (lazyOrder fs) cts

theorem encodeLazy_with (b : Bytes) : ∀ fs : List OutField, fs ≠ [] → encodeLazy b fs = crlf ++ encodeWith b [] fs := by
  have key : ∀ fs : List OutField, fs.flatMap (lazyPart b) ++ crlf ++ dashes ++ b ++ dashes = crlf ++ encodeWith b [] fs := by
    intro fs
    induction fs with
    | nil => simp [encodeWith]
    | cons f fs ih =>
      simp only [List.flatMap_cons, List.append_assoc] at ih ⊢
      rw [ih]
      simp [lazyPart, encodeWith]
  intro fs hne
  unfold encodeLazy
  rw [if_neg hne, key]

variable {D : Deps} {cts : List (Option Mime)} {ns : List Nat} {u : Bytes} {evs : List Ev}

/-- A prepared request that was read to its end consists of the parts for its fields. -/
theorem prepared_framed {es : List (FieldHeaders × Bytes)} (hT : D.Tokenizes) (hb : SafeBoundary b) (h : PreparedFrom env b os p) (hn : NoReadErr env.toFileEnv os) (ho : os ≠ [])
    (hf : All2 (StandsFor env.toFileEnv) os fs) (hs : All2 (fun f e => Framed D b f e.1 ∧ e.2 = f.data) (lazyOrder fs) es) (hr : ReadsOut p ns u) (he : Ev.bytes evs = u) :
    Parts D (dashes ++ b) (Ev.bytes evs) es .closed := by
  have hne0 : lazyOrder fs ≠ [] := fun hh => ho ((all2_nil_iff hf).mpr (lazyOrder_eq_nil.mp hh))
  have hu := readsOut_eq h hn hf hr
  rw [encodeLazy_with b _ hne0] at hu
  have hd : dashes ++ b ≠ [] := by simp [dashes]
  have hnil : Absent (dashes ++ b) [] := fun q h => hd (by simpa [OccursAt] using h)
  have h0 : FirstAt (dashes ++ b) (encodeWith b [] (lazyOrder fs)) 0 := ⟨encodeWith_prefix b [] _, fun q hq => by omega⟩
  have hfirst := FirstAt.sep hd (hb.notMem (by decide : (0x0D : Byte) ∈ b!"\r\n\"; :=")) hnil (FirstAt.sep hd (hb.notMem (by decide : (0x0A : Byte) ∈ b!"\r\n\"; :=")) hnil h0)
  have hP := framed_partsWith hT hb [] hs crlf (by simpa [crlf] using hfirst)
  rw [← hu, ← he] at hP
  exact hP

theorem prepared_parts (hT : D.Tokenizes) (hb : SafeBoundary b) (h : PreparedFrom env b os p) (hn : NoReadErr env.toFileEnv os) (ho : os ≠ [])
    (hf : All2 (StandsFor env.toFileEnv) os fs) (hs : All2 (Sendable D b) (lazyOrder fs) cts) (hr : ReadsOut p ns u) (he : Ev.bytes evs = u) :
    Parts D (dashes ++ b) (Ev.bytes evs) (List.zipWith OutField.asRead (lazyOrder fs) cts) .closed :=
  prepared_framed hT hb h hn ho hf (all2_framed hb hs) hr he

/-- C34, as far as it holds: with the restrictions of C24, a request with at least one field that was prepared, read to its end (with buffers of any sizes) and received by the server (in any split) is read
back as the same fields, the text fields in order and then the others backwards. As in C24, a CRLF may be appended to data if the split is unfortunate. Missing: the same as in C24; and requests without fields. -/
theorem C34_round_trip_partial (hD : D.Sane) (hT : D.Tokenizes) (hb : SafeBoundary b) (h : PreparedFrom env b os p) (hn : NoReadErr env.toFileEnv os) (ho : os ≠ [])
    (hf : All2 (StandsFor env.toFileEnv) os fs) (hs : All2 (Sendable D b) (lazyOrder fs) cts) (hr : ReadsOut p ns u) (hst : NoStall evs) (hne : NoErr evs) (he : Ev.bytes evs = u)
    {got : List (FieldHeaders × Bytes)} {fin : Ending} (hrd : Reads D (withBody evs b) got fin) :
    fin = .closed ∧ All2 (fun a e => a.1 = e.1 ∧ DataOk (dashes ++ b) evs e.2 a.2) got (List.zipWith OutField.asRead (lazyOrder fs) cts) := by
  exact C10_entries_are_parts hD hst hne (prepared_parts hT hb h hn ho hf hs hr he) hrd

/-- If no read of the server ends inside a CRLF in front of a delimiter, it is exactly the same fields. -/
theorem C34_clean_split_partial (hD : D.Sane) (hT : D.Tokenizes) (hb : SafeBoundary b) (h : PreparedFrom env b os p) (hn : NoReadErr env.toFileEnv os) (ho : os ≠ [])
    (hf : All2 (StandsFor env.toFileEnv) os fs) (hs : All2 (Sendable D b) (lazyOrder fs) cts) (hr : ReadsOut p ns u) (hst : NoStall evs) (hne : NoErr evs) (he : Ev.bytes evs = u)
    (hc : CleanSplit (dashes ++ b) evs) :
    (∃ got fin, Reads D (withBody evs b) got fin) ∧ ∀ got fin, Reads D (withBody evs b) got fin → fin = .closed ∧ got = List.zipWith OutField.asRead (lazyOrder fs) cts := by
  refine ⟨C10_reads_total hD ⟨[], rfl⟩, fun got fin hrd => ?_⟩
  obtain ⟨h1, h2⟩ := C34_round_trip_partial hD hT hb h hn ho hf hs hr hst hne he hrd
  refine ⟨h1, ?_⟩
  clear hrd he hs hf hr
  generalize List.zipWith OutField.asRead (lazyOrder fs) cts = es at h2
  induction h2 with
  | nil => rfl
  | @cons a e as es hr _ ih =>
    obtain ⟨ha, hd | ⟨-, hd⟩⟩ := hr
    · rw [ih]; congr 1; exact Prod.ext ha hd
    · exact absurd hc hd

namespace Sample

def lctypes : List (Option Mime) := [none, none, some ⟨b!"text/plain", b!"text"⟩, some octetStream]

theorem lsendable : All2 (Sendable refDeps b!"b") (lazyOrder lflds) lctypes := by
  have abs : ∀ v : Bytes, findSub (dashes ++ b!"b") v = none → Absent (dashes ++ b!"b") v := fun v h => findSub_eq_none_iff.mp h
  have e : lazyOrder lflds = [⟨b!"a", none, none, b!"hello"⟩, ⟨b!"t", none, none, b!""⟩, ⟨b!"f", some b!"f.txt", some b!"text/plain", b!"filedata"⟩,
    ⟨b!"s", none, some b!"application/octet-stream", b!"xyz"⟩] := by decide
  rw [e]
  refine .cons ?_ (.cons ?_ (.cons ?_ (.cons ?_ .nil)))
  · exact ⟨nameText (by decide) (by decide) (by decide) (by decide) (by decide +kernel), by simp, by simp, by decide +kernel, by decide +kernel,
      abs _ (by decide +kernel), by simp, by simp, abs _ (by decide +kernel)⟩
  · exact ⟨nameText (by decide) (by decide) (by decide) (by decide) (by decide +kernel), by simp, by simp, by decide +kernel, by decide +kernel,
      abs _ (by decide +kernel), by simp, by simp, abs _ (by decide +kernel)⟩
  · refine ⟨nameText (by decide) (by decide) (by decide) (by decide) (by decide +kernel), ?_, ?_, by decide +kernel, by decide +kernel,
      abs _ (by decide +kernel), ?_, ?_, abs _ (by decide +kernel)⟩
    · intro n h; cases h; exact nameText (by decide) (by decide) (by decide) (by decide) (by decide +kernel)
    · intro n h; cases h; exact ⟨by decide, by decide, by decide, (utf8Valid_iff _).mp (by decide +kernel)⟩
    · intro n h; cases h; exact abs _ (by decide +kernel)
    · intro n h; cases h; exact abs _ (by decide +kernel)
  · refine ⟨nameText (by decide) (by decide) (by decide) (by decide) (by decide +kernel), by simp, ?_, by decide +kernel, by decide +kernel,
      abs _ (by decide +kernel), by simp, ?_, abs _ (by decide +kernel)⟩
    · intro n h; cases h; exact ⟨by decide, by decide, by decide, (utf8Valid_iff _).mp (by decide +kernel)⟩
    · intro n h; cases h; exact abs _ (by decide +kernel)

def lread : Bytes := okBytes ((lprep lops).reads [7, 50, 300, 300]).1

theorem clean_one {d u : Bytes} (hd : d ≠ []) (h : ¬ OccursAt (crlf ++ d) u (u.length - 1)) : CleanSplit d [.data u] := by
  refine .of_none ?_
  rintro k ⟨x, y, h1, h2⟩ hk
  match x, h1 with
  | [], _ => simp [Ev.bytes] at h2
  | [_], h1 =>
    simp at h1; obtain ⟨rfl, _⟩ := h1
    simp [Ev.bytes] at h2 hk
    rw [h2] at h
    exact h hk
  | _ :: _ :: _, h1 => simp at h1

end Sample

/-- C34_round_trip_partial and C34_clean_split_partial. -/
example : refDeps.Sane ∧ refDeps.Tokenizes ∧ SafeBoundary b!"b" ∧ PreparedFrom Sample.lenv b!"b" Sample.lops (Sample.lprep Sample.lops) ∧ NoReadErr Sample.lenv.toFileEnv Sample.lops ∧ Sample.lops ≠ [] ∧
    All2 (StandsFor Sample.lenv.toFileEnv) Sample.lops Sample.lflds ∧ All2 (Sendable refDeps b!"b") (lazyOrder Sample.lflds) Sample.lctypes ∧
    ReadsOut (Sample.lprep Sample.lops) [7, 50, 300, 300] Sample.lread ∧ NoStall [.data Sample.lread] ∧ NoErr [.data Sample.lread] ∧ Ev.bytes [.data Sample.lread] = Sample.lread ∧
    CleanSplit (dashes ++ b!"b") [.data Sample.lread] :=
  ⟨refDeps_sane, refDeps_tokenizes, ⟨by simp, by decide⟩, Sample.lprep_ok (by decide +kernel), Sample.lops_noErr, by simp [Sample.lops], Sample.lops_fields, Sample.lsendable,
    ⟨by decide, by decide +kernel, rfl⟩, by decide +kernel, by intro e; simp, by simp [Ev.bytes], Sample.clean_one (by simp [dashes]) (by decide +kernel)⟩

/-- C34 without fields: the server gets an error instead of the end. -/
theorem C34_no_fields (hD : D.Sane) (h : PreparedFrom env b [] p) (hr : ReadsOut p ns u) (hst : NoStall evs) (hne : NoErr evs) (he : Ev.bytes evs = u)
    {got : List (FieldHeaders × Bytes)} {fin : Ending} (hrd : Reads D (withBody evs b) got fin) : got = [] ∧ fin = .failed .unexpectedEof := by
  have hu := readsOut_eq (fs := []) h (fun o ho => by simp at ho) .nil hr
  have : u = [] := hu
  subst this
  have hP : Parts D (dashes ++ b) (Ev.bytes evs) [] (.failed .unexpectedEof) := by
    rw [he]
    refine .truncated (.none fun q hq => ?_)
    simp [OccursAt, dashes] at hq
  obtain ⟨h1, h2⟩ := C10_entries_are_parts hD hst hne hP hrd
  cases h2
  exact ⟨rfl, h1⟩

example : refDeps.Sane ∧ PreparedFrom Sample.lenv b!"b" [] (Sample.lprep []) ∧ ReadsOut (Sample.lprep []) [5] [] := ⟨refDeps_sane, Sample.lprep_ok (by decide +kernel), by decide, by decide +kernel, by decide +kernel⟩

/-- C34 is false of the code: an empty request is read back with an error. (And, as in C24, names are not escaped.) -/
theorem C34_false : ¬ LazyRoundTrip refDeps := by
  intro h
  obtain ⟨got, fin, hrd⟩ := C10_reads_total (evs := []) (b := b!"b") refDeps_sane ⟨[], rfl⟩
  have hr : ReadsOut (Sample.lprep []) [5] [] := ⟨by decide, by decide +kernel, by decide +kernel⟩
  have hp : PreparedFrom Sample.lenv b!"b" [] (Sample.lprep []) := Sample.lprep_ok (by decide +kernel)
  obtain ⟨h1, -⟩ := h Sample.lenv b!"b" [] (Sample.lprep []) [] [] [5] [] [] got fin ⟨by simp, by decide⟩ hp (fun o ho => by simp at ho) .nil .nil hr (by simp [NoStall]) (by intro e; simp) rfl hrd
  obtain ⟨-, h2⟩ := C34_no_fields (D := refDeps) refDeps_sane hp hr (by simp [NoStall]) (by intro e; simp) rfl hrd
  rw [h1] at h2
  cases h2

/-! ## C67, C68: sending -/

/-- No read of a stream or file is interrupted. -/
def NoInterrupt (env : FileEnv) (os : List ClientOp) : Prop := ∀ o ∈ os, ∀ evs, o.reads env evs → Ev.err .interrupted ∉ evs

theorem allBytes_fine : ∀ {evs : List Ev}, ReadsFine evs → Ev.allBytes evs = Ev.upToEnd evs := by
  intro evs h
  induction h with
  | nil => rfl
  | eof => rfl
  | @data bs r _ ih => cases bs <;> simp [Ev.allBytes, Ev.upToEnd, ih]
  | interrupted _ ih => simp [Ev.allBytes, Ev.upToEnd, ih]

theorem standsFor_fine {env : FileEnv} {o : ClientOp} {f : OutField} (hn : ∀ evs, o.reads env evs → ReadsFine evs) (h : StandsFor env o f) : StandsFor env.dropErrs o.dropErrs f := by
  have e : ∀ evs, o.reads env evs → Ev.upToEnd evs = Ev.upToEnd (Ev.dropErrs evs) := fun evs hr => by rw [upToEnd_dropErrs, allBytes_fine (hn evs hr)]
  cases h with
  | text n v => exact .text n v
  | stream n evs fn ct => rw [e evs rfl]; exact .stream n (Ev.dropErrs evs) fn ct
  | octets n evs fn => rw [e evs rfl]; exact .octets n (Ev.dropErrs evs) fn
  | file n dir fname evs ho hu =>
    rw [e evs ho]
    exact .file (env := env.dropErrs) n dir fname (Ev.dropErrs evs) (by simp [FileEnv.dropErrs, ho, Except.map]) hu
  | fileUnnamed n path evs ho hu =>
    rw [e evs ho]
    exact .fileUnnamed (env := env.dropErrs) n path (Ev.dropErrs evs) (by simp [FileEnv.dropErrs, ho, Except.map]) hu

theorem all2_fine {env : FileEnv} {os : List ClientOp} {fs : List OutField} (hn : ∀ o ∈ os, ∀ evs, o.reads env evs → ReadsFine evs) (h : All2 (StandsFor env) os fs) :
    All2 (StandsFor env.dropErrs) (os.map ClientOp.dropErrs) fs := by
  induction h with
  | nil => exact .nil
  | cons hf _ ih => exact .cons (standsFor_fine (hn _ (by simp)) hf) (ih fun o ho => hn o (by simp [ho]))

/-- `send` of a request with fields, step by step. -/
theorem send_eq {n : Nat} {req : ClientReq} (ho : os ≠ []) : 
    (∃ err, ((LazyMp.build os).prepare env b).1 = .error err ∧ (LazyMp.build os).send env b n req = (.err err, [], none)) ∨
    ∃ p, PreparedFrom env b os p ∧
      ((∃ e, req.openErr = some e ∧ (LazyMp.build os).send env b n req = (.err ⟨none, e⟩, [], none)) ∨
       (req.openErr = none ∧ (LazyMp.build os).send env b n req =
          let r := p.copy n p.fuel ⟨req.script, []⟩
          (match r.1 with
            | .ok () => .ofRes (ClientStream.finish ⟨req.applied ++ [(b, p.contentLen)], r.2.2, req.finishErr⟩)
            | e => .ofRes e, [], some ⟨req.applied ++ [(b, p.contentLen)], r.2.2, req.finishErr⟩))) := by
  unfold LazyMp.send
  cases hp : ((LazyMp.build os).prepare env b).1 with
  | error err =>
    refine .inl ⟨err, rfl, ?_⟩
    have : (LazyMp.build os).prepare env b = (.error err, []) := Prod.ext hp rfl
    rw [this]
  | ok p =>
    have hpf : PreparedFrom env b os p := hp
    refine .inr ⟨p, hpf, ?_⟩
    have : (LazyMp.build os).prepare env b = (.ok p, []) := Prod.ext hp rfl
    rw [this]
    have hb : p.boundary = .ok b := C33_boundary_partial hpf ho []
    simp only [hb, ClientReq.openStream, ClientReq.applyHeaders]
    cases hoe : req.openErr with
    | some e => exact .inl ⟨e, rfl, rfl⟩
    | none =>
      refine .inr ⟨rfl, ?_⟩
      simp only
      generalize p.copy n p.fuel ⟨req.script, []⟩ = y
      obtain ⟨r, p', k⟩ := y
      cases r <;> rfl

/-- C67: a request with at least one field, none of whose streams is interrupted, that is sent with success: the stream has got the body; all streams were read to their ends without an error;
the headers that were applied, once, are the boundary of this body and the content length that `prepare()` reports. Missing for the full claim: streams of which reads are interrupted, see
`C67_false`. -/
theorem C67_sent_partial {n : Nat} (hn0 : n ≠ 0) {req : ClientReq} (ho : os ≠ []) (hni : NoInterrupt env.toFileEnv os) {m : LazyMp} {s : Option ClientStream} (h : (LazyMp.build os).send env b n req = (.ok, m, s)) :
    ∃ t p fs, s = some t ∧ PreparedFrom env b os p ∧ All2 (StandsFor env.toFileEnv) os fs ∧ t.sink.got = encodeLazy b (lazyOrder fs) ∧ t.applied = req.applied ++ [(b, p.contentLen)] ∧
      (∀ o ∈ os, ∀ evs, o.reads env.toFileEnv evs → ReadsFine evs) ∧ req.openErr = none ∧ req.finishErr = none ∧ ∃ used, WritesFine used ∧ req.script = used ++ t.sink.script := by
  rcases send_eq (env := env) (b := b) (n := n) (req := req) ho with ⟨err, -, he⟩ | ⟨p, hp, ⟨e, -, he⟩ | ⟨hoe, he⟩⟩
  · rw [he] at h; cases h
  · rw [he] at h; cases h
  · rw [he] at h
    obtain ⟨fs, hf⟩ := prepare_fields hp
    obtain ⟨fs', hs⟩ := prepare_spec hp
    have hc := Prepared.copy_spec hn0 p.fuel p ⟨req.script, []⟩ hs.inv (Prepared.fuel_meas hs.start) (fun hh => by
      obtain ⟨o, ho, evs, hr, hm⟩ := hs.errs _ hh
      exact hni o ho evs hr hm)
    simp only at h
    generalize p.copy n p.fuel ⟨req.script, []⟩ = y at h hc
    obtain ⟨r, p', k⟩ := y
    obtain ⟨used, hu, ⟨hr, hg, hsc, hfi⟩ | ⟨e, _, hr, -⟩⟩ := hc
    · simp only at hr hg hsc; subst hr
      simp only [List.nil_append, Prod.mk.injEq] at h hg
      obtain ⟨h1, -, h3⟩ := h
      have hall := hs.fine hfi
      have : fs' = fs := all2_unique hs.fields (all2_fine hall hf)
      subst this
      refine ⟨_, p, fs', h3.symm, hp, hf, by rw [hg, hs.rest], rfl, hall, hoe, ?_, used, hu, hsc⟩
      cases hfe : req.finishErr with
      | none => rfl
      | some e => simp [ClientStream.finish, hfe, SendRes.ofRes] at h1
    · simp only at hr; subst hr
      simp [SendRes.ofRes] at h

/-- C67_sent_partial. -/
example : Sample.lops ≠ [] ∧ NoInterrupt Sample.lenv.toFileEnv Sample.lops ∧
    ∃ s, (LazyMp.build Sample.lops).send Sample.lenv b!"b" 8192 Sample.req = (.ok, [], some s) :=
  ⟨by simp [Sample.lops], fun o ho evs hr => Sample.lops_noErr o ho evs hr _,
    ((LazyMp.send Sample.lenv b!"b" 8192 (LazyMp.build Sample.lops) Sample.req).2.2).getD ⟨[], ⟨[], []⟩, none⟩, by decide +kernel⟩

/-- The full claim C67 about success: the stream has got the body. The body is that of the same request with streams that do not fail. -/
def SendDelivers : Prop := ∀ (env : LazyEnv) (b : Bytes) (n : Nat) (os : List ClientOp) (fs : List OutField) (req : ClientReq) (m : LazyMp) (t : ClientStream), n ≠ 0 → os ≠ [] →
  All2 (StandsFor env.toFileEnv.dropErrs) (os.map ClientOp.dropErrs) fs → (LazyMp.build os).send env b n req = (.ok, m, some t) → t.sink.got = encodeLazy b (lazyOrder fs)

/-- C67 is false of the code: one interrupted read, and `send()` returns `Ok` although only the end of the body was sent. -/
theorem C67_false : ¬ SendDelivers := by
  intro h
  obtain ⟨t, h1, h2⟩ := C35_send_false
  have := h Sample.lenv b!"b" 8192 Sample.intrOps Sample.intrFlds Sample.req [] t (by decide) (by decide) (.cons (.octets _ [.data b!"xyz", .data b!"w"] _) .nil) h1
  rw [h2] at this
  revert this
  decide +kernel

/-- `io::copy` that succeeds, with interruptions: the pieces that were written, and those that were lost. -/
theorem Prepared.copy_pieces {n : Nat} (hn : n ≠ 0) : ∀ (fuel : Nat) (p : Prepared) (k : Sink), p.Inv → (p.copy n fuel k).1 = .ok () →
    ∃ ps : List (Bytes × Bytes), p.rest = ps.flatMap (fun x => x.1 ++ x.2) ∧ (p.copy n fuel k).2.2.got = k.got ++ ps.flatMap (·.1) ∧
      ∀ x ∈ ps, x.2.length < n ∧ (x.2 ≠ [] → p.HasErr .interrupted) := by
  intro fuel
  induction fuel with
  | zero => intro p k _ h; cases h
  | succ fuel ih =>
    intro p k hi hok
    obtain ⟨chunk, h⟩ := p.read_spec hi n hn
    unfold Prepared.copy at hok ⊢
    generalize p.read n = x at h hok
    obtain ⟨r, p'⟩ := x
    rcases h.res with ⟨h1, h2, h3, h4⟩ | ⟨e, h1, h2, h2', h3⟩
    · simp only [List.nil_append] at h1
      subst h1
      cases chunk with
      | nil =>
        have hend : p'.endBoundary.atEnd = true := h3.resolve_left (by simp; omega)
        exact ⟨[], by rw [h.rest, (h.inv.done hend).1]; rfl, by simp, by simp⟩
      | cons x xs =>
        simp only at hok ⊢
        have hw := Sink.writeAll_spec (c := fun e => p.HasErr e) (x :: xs) k
        generalize k.writeAll (x :: xs) = y at hw hok ⊢
        obtain ⟨r', k'⟩ := y
        cases r' with
        | ok u =>
          obtain ⟨ps, i1, i2, i3⟩ := ih p' k' h.inv hok
          obtain ⟨-, -, ⟨-, hg, -⟩ | ⟨e, _, hr, -⟩⟩ := hw
          · refine ⟨(x :: xs, []) :: ps, ?_, ?_, ?_⟩
            · rw [h.rest, i1]; simp
            · rw [i2, hg]; simp
            · rintro y (_ | ⟨_, hy⟩)
              · exact ⟨by simp; omega, by simp⟩
              · exact ⟨(i3 y hy).1, fun h' => h.errs _ ((i3 y hy).2 h')⟩
          · cases hr
        | _ => cases hok
    · simp only at h1; subst h1
      cases e with
      | interrupted =>
        obtain ⟨ps, i1, i2, i3⟩ := ih p' k h.inv hok
        refine ⟨([], chunk) :: ps, ?_, ?_, ?_⟩
        · rw [h.rest, i1]; simp
        · simp only [i2]; simp
        · rintro y (_ | ⟨_, hy⟩)
          · exact ⟨h2, fun _ => h3⟩
          · exact ⟨(i3 y hy).1, fun h' => h.errs _ ((i3 y hy).2 h')⟩
      | _ => cases hok

/-- C67, what holds with interruptions too: what the stream has got is the body without some pieces, each shorter than the buffer of `io::copy`; there are such pieces only if a read of a stream
is interrupted. -/
theorem C67_pieces_partial {n : Nat} (hn0 : n ≠ 0) {req : ClientReq} (ho : os ≠ []) {m : LazyMp} {s : Option ClientStream} (h : (LazyMp.build os).send env b n req = (.ok, m, s)) :
    ∃ t p fs, ∃ ps : List (Bytes × Bytes), s = some t ∧ PreparedFrom env b os p ∧ All2 (StandsFor env.toFileEnv.dropErrs) (os.map ClientOp.dropErrs) fs ∧
      encodeLazy b (lazyOrder fs) = ps.flatMap (fun x => x.1 ++ x.2) ∧ t.sink.got = ps.flatMap (·.1) ∧
      (∀ x ∈ ps, x.2.length < n ∧ (x.2 ≠ [] → ∃ o ∈ os, ∃ evs, o.reads env.toFileEnv evs ∧ .err .interrupted ∈ evs)) ∧ t.applied = req.applied ++ [(b, p.contentLen)] := by
  rcases send_eq (env := env) (b := b) (n := n) (req := req) ho with ⟨err, -, he⟩ | ⟨p, hp, ⟨e, -, he⟩ | ⟨hoe, he⟩⟩
  · rw [he] at h; cases h
  · rw [he] at h; cases h
  · rw [he] at h
    obtain ⟨fs, hs⟩ := prepare_spec hp
    have hc := Prepared.copy_pieces hn0 p.fuel p ⟨req.script, []⟩ hs.inv
    simp only [Prod.mk.injEq] at h
    obtain ⟨h1, -, h3⟩ := h
    generalize p.copy n p.fuel ⟨req.script, []⟩ = y at h1 h3 hc
    obtain ⟨r, p', k⟩ := y
    cases r with
    | ok u =>
      obtain ⟨ps, i1, i2, i3⟩ := hc rfl
      exact ⟨_, p, fs, ps, h3.symm, hp, hs.fields, by rw [← hs.rest, i1], by simpa using i2, fun x hx => ⟨(i3 x hx).1, fun hne => hs.errs _ ((i3 x hx).2 hne)⟩, rfl⟩
    | _ => simp [SendRes.ofRes] at h1

/-- C67_pieces_partial. -/
example : Sample.intrOps ≠ [] ∧ ∃ s, (LazyMp.build Sample.intrOps).send Sample.lenv b!"b" 8192 Sample.req = (.ok, [], some s) :=
  ⟨by decide, C35_send_false.imp fun _ h => h.1⟩

/-- C67: whatever streams, files and the destination do, `send()` of a request with at least one field returns: it neither panics nor runs forever. -/
theorem C67_returns {n : Nat} (hn0 : n ≠ 0) (req : ClientReq) (ho : os ≠ []) :
    ((LazyMp.build os).send env b n req).1 = .ok ∨ ∃ e, ((LazyMp.build os).send env b n req).1 = .err e := by
  rcases send_eq (env := env) (b := b) (n := n) (req := req) ho with ⟨err, -, he⟩ | ⟨p, hp, ⟨e, -, he⟩ | ⟨hoe, he⟩⟩
  · rw [he]; exact .inr ⟨_, rfl⟩
  · rw [he]; exact .inr ⟨_, rfl⟩
  · rw [he]
    obtain ⟨fs', hs⟩ := prepare_spec hp
    simp only
    rcases Prepared.copy_total hn0 p.fuel p ⟨req.script, []⟩ hs.inv (Prepared.fuel_meas hs.start) with hc | ⟨e, hc⟩
    · rw [hc]
      cases hfe : req.finishErr with
      | none => simp [ClientStream.finish, SendRes.ofRes]
      | some e => simp [ClientStream.finish, SendRes.ofRes]
    · rw [hc]; exact .inr ⟨_, rfl⟩

/-- C67: if all files can be opened and measured, no stream fails, the stream can be opened, writes do not fail (they may be short or interrupted) and it can be finished, then `send()` succeeds. -/
theorem C67_succeeds {n : Nat} (hn0 : n ≠ 0) {req : ClientReq} (ho : os ≠ []) (hn : NoReadErr env.toFileEnv os) (hfiles : ∀ o ∈ os, ∀ nm e, ¬ FileFails env o nm e) (hoe : req.openErr = none)
    (hw : WritesFine req.script) (hfe : req.finishErr = none) : ((LazyMp.build os).send env b n req).1 = .ok := by
  rcases send_eq (env := env) (b := b) (n := n) (req := req) ho with ⟨err, hp, he⟩ | ⟨p, hp, ⟨e, hoe', he⟩ | ⟨hoe, he⟩⟩
  · obtain ⟨pre, o, post, nm, e, rfl, hff, -⟩ := (C36_named env b os err).mp hp
    exact absurd hff (hfiles o (by simp) nm e)
  · rw [hoe] at hoe'; cases hoe'
  · rw [he]
    obtain ⟨fs', hs⟩ := prepare_spec hp
    have hc := Prepared.copy_spec hn0 p.fuel p ⟨req.script, []⟩ hs.inv (Prepared.fuel_meas hs.start) (hs.noErrs hn _)
    simp only
    generalize p.copy n p.fuel ⟨req.script, []⟩ = y at hc
    obtain ⟨r, p', k⟩ := y
    obtain ⟨used, hu, ⟨hr, hg, hsc, hfi⟩ | ⟨e, _, hr, -, -, hcause⟩⟩ := hc
    · simp only at hr; subst hr
      simp [ClientStream.finish, hfe, SendRes.ofRes]
    · rcases hcause with ⟨ev, h1, h2⟩ | ⟨-, h2⟩
      · exact absurd h2 (hw ev (by simp only at h1; rw [h1]; simp) e)
      · exact absurd h2 (hs.noErrs hn e)

/-- C67_succeeds and C67_returns. -/
example : Sample.lops ≠ [] ∧ NoReadErr Sample.lenv.toFileEnv Sample.lops ∧ (∀ o ∈ Sample.lops, ∀ nm e, ¬ FileFails Sample.lenv o nm e) ∧ Sample.req.openErr = none ∧
    WritesFine Sample.req.script ∧ Sample.req.finishErr = none := by
  refine ⟨by simp [Sample.lops], Sample.lops_noErr, prepare_opens (Sample.lprep_ok (os := Sample.lops) (by decide +kernel)), rfl, ?_, rfl⟩
  intro ev hev e
  simp [Sample.req] at hev
  rcases hev with rfl | rfl | rfl | rfl <;> rintro (⟨h1, h2⟩ | ⟨h1, h2⟩) <;> simp_all

/-- The full claim C68: an error without a field name means that opening or finishing the stream failed (as documented for `LazyError::field_name`), or writing to it. -/
def UnnamedMeansStream : Prop := ∀ (env : LazyEnv) (b : Bytes) (os : List ClientOp) (n : Nat) (req : ClientReq) (e : IoErr), n ≠ 0 → os ≠ [] →
  ((LazyMp.build os).send env b n req).1 = .err ⟨none, e⟩ → req.openErr = some e ∨ req.finishErr = some e ∨ ¬ WritesFine req.script

/-- C68 is false of the code: if a field's stream fails while it is read, the error has no field name. -/
theorem C68_false : ¬ UnnamedMeansStream := by
  intro h
  have := h Sample.lenv b!"b" [.stream b!"s" [.data b!"xyz", .err (.other 5)] none none] 8192 { Sample.req with script := [] } (.other 5) (by simp) (by simp) (by decide +kernel)
  rcases this with h | h | h
  · simp [Sample.req] at h
  · simp [Sample.req] at h
  · exact h .nil

/-- C68, the other direction: an error with a field name means that the file of this field cannot be opened or measured, and nothing was applied, opened or sent; and, without interruptions, an
error without one comes from the destination or from a stream. -/
theorem C68_named_partial {n : Nat} (hn0 : n ≠ 0) {req : ClientReq} (ho : os ≠ []) {err : LazyErr} {m : LazyMp} {s : Option ClientStream} (h : (LazyMp.build os).send env b n req = (.err err, m, s)) :
    (∀ name, err.field = some name → s = none ∧ ∃ o ∈ os, FileFails env o name err.error) ∧
    (err.field = none → NoInterrupt env.toFileEnv os → (req.openErr = some err.error ∧ s = none) ∨ (req.openErr = none ∧ req.finishErr = some err.error) ∨
      (∃ used ev rest, req.script = used ++ ev :: rest ∧ WritesFine used ∧ ev.FailsWith err.error) ∨ (∃ o ∈ os, ∃ evs, o.reads env.toFileEnv evs ∧ .err err.error ∈ evs)) := by
  rcases send_eq (env := env) (b := b) (n := n) (req := req) ho with ⟨err', hp, he⟩ | ⟨p, hp, ⟨e, hoe', he⟩ | ⟨hoe, he⟩⟩
  · rw [he] at h; cases h
    obtain ⟨pre, o, post, nm, e, rfl, hff, -, h1, h2⟩ := (C36_named env b os err).mp hp
    refine ⟨fun name hname => ⟨rfl, o, by simp, ?_⟩, fun hn => by rw [h1] at hn; cases hn⟩
    rw [h1] at hname; cases hname
    rw [h2]; exact hff
  · rw [he] at h; cases h
    exact ⟨fun name hn => by simp at hn, fun _ _ => .inl ⟨hoe', rfl⟩⟩
  · rw [he] at h
    have hfield : err.field = none := by
      simp only [Prod.mk.injEq] at h
      have h := h.1
      generalize (p.copy n p.fuel ⟨req.script, []⟩).1 = r at h
      cases r with
      | ok u => cases hfe : req.finishErr <;> simp [ClientStream.finish, hfe, SendRes.ofRes] at h; rw [← h]; rfl
      | err e => simp [SendRes.ofRes] at h; rw [← h]; rfl
      | panic => simp [SendRes.ofRes] at h
      | hang => simp [SendRes.ofRes] at h
    refine ⟨fun name hn => (by rw [hfield] at hn; cases hn), fun _ hni => .inr ?_⟩
    obtain ⟨fs', hs⟩ := prepare_spec hp
    have hc := Prepared.copy_spec hn0 p.fuel p ⟨req.script, []⟩ hs.inv (Prepared.fuel_meas hs.start) (fun hh => by
      obtain ⟨o, ho, evs, hr, hm⟩ := hs.errs _ hh
      exact hni o ho evs hr hm)
    simp only [Prod.mk.injEq] at h
    obtain ⟨h, -, -⟩ := h
    generalize p.copy n p.fuel ⟨req.script, []⟩ = y at hc h
    obtain ⟨r, p', k⟩ := y
    obtain ⟨used, hu, ⟨hr, hg, hsc, hfi⟩ | ⟨e, _, hr, -, -, hcause⟩⟩ := hc
    · simp only at hr; subst hr
      left
      cases hfe : req.finishErr with
      | none => simp [ClientStream.finish, hfe, SendRes.ofRes] at h
      | some e => simp [ClientStream.finish, hfe, SendRes.ofRes] at h; rw [← h]; exact ⟨hoe, rfl⟩
    · simp only at hr; subst hr
      simp [SendRes.ofRes] at h
      have he' : err.error = e := by rw [← h]; rfl
      right
      rw [he']
      rcases hcause with ⟨ev, h1, h2⟩ | ⟨-, h2⟩
      · exact .inl ⟨used, ev, _, h1, hu, h2⟩
      · exact .inr (hs.errs e h2)

/-- C68_named_partial and C68_message. -/
example : ((LazyMp.build [.file b!"n" [b!"none"]]).send Sample.lenv b!"b" 8192 Sample.req) = (.err ⟨some b!"n", .notFound⟩, [], none) ∧
    ((LazyMp.build Sample.lops).send Sample.lenv b!"b" 8192 Sample.badReq).1 = .err ⟨none, .other 7⟩ ∧ NoInterrupt Sample.lenv.toFileEnv Sample.lops :=
  ⟨by decide +kernel, by decide +kernel, fun o ho evs hr => Sample.lops_noErr o ho evs hr _⟩

/-- C68: the messages. If a file cannot be opened or measured, the first such one is named, with the reason; every other error of `send` is reported as one of the stream, without a name (even if
reading a field failed, see `C68_false`). -/
theorem C68_message {n : Nat} {req : ClientReq} (ho : os ≠ []) {err : LazyErr} {m : LazyMp} {s : Option ClientStream} (h : (LazyMp.build os).send env b n req = (.err err, m, s))
    (quoted : Bytes → Bytes) (shown : IoErr → Bytes) :
    (∃ pre o post name e, os = pre ++ o :: post ∧ FileFails env o name e ∧ (∀ o' ∈ pre, ∀ n e', ¬ FileFails env o' n e') ∧ s = none ∧
      err.display quoted shown = b!"Error writing field " ++ quoted name ++ b!": " ++ shown e ∧
      err.debug quoted shown = b!"LazyError (on field " ++ quoted name ++ b!"): " ++ shown e) ∨
    ((∀ o ∈ os, ∀ n e, ¬ FileFails env o n e) ∧ err.display quoted shown = b!"Error opening or flushing stream: " ++ shown err.error ∧
      err.debug quoted shown = b!"LazyError (misc): " ++ shown err.error) := by
  rcases send_eq (env := env) (b := b) (n := n) (req := req) ho with ⟨err', hp, he⟩ | ⟨p, hp, hcase⟩
  · rw [he] at h; cases h
    obtain ⟨pre, o, post, nm, e, h0, hff, hpre, h1, h2⟩ := (C36_named env b os err).mp hp
    refine .inl ⟨pre, o, post, nm, e, h0, hff, hpre, rfl, ?_, ?_⟩ <;> simp only [LazyErr.display, LazyErr.debug, h1, h2]
  · refine .inr ⟨prepare_opens hp, ?_⟩
    have hfield : err.field = none := by
      rcases hcase with ⟨e, -, he⟩ | ⟨-, he⟩
      · rw [he] at h; cases h; rfl
      · rw [he] at h
        simp only [Prod.mk.injEq] at h
        have h := h.1
        generalize (p.copy n p.fuel ⟨req.script, []⟩).1 = r at h
        cases r with
        | ok u => cases hfe : req.finishErr <;> simp [ClientStream.finish, hfe, SendRes.ofRes] at h; rw [← h]; rfl
        | err e => simp [SendRes.ofRes] at h; rw [← h]; rfl
        | panic => simp [SendRes.ofRes] at h
        | hang => simp [SendRes.ofRes] at h
    constructor <;> simp only [LazyErr.display, LazyErr.debug, hfield]

end Multipart

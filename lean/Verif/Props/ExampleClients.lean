import Verif.Props.Examples
import Verif.Props.Integrations
import Verif.Props.LocalTest
import Verif.Spec.ExampleClients
/-!
# The example clients (C101) and `form_test` (C102)
-/
namespace Multipart

variable {D : Deps} {evs : List Ev} {b : Bytes} {w : World} {T : TempEnv} {S : Surroundings} {F : DebugFmt}

theorem genBoundary_safe {rs rs' : List UInt32} (h : genBoundary rs = some (b, rs')) : SafeBoundary b ∧ b.length = 16 := by
  obtain ⟨h1, h2⟩ := C29_boundary h
  refine ⟨⟨by rintro rfl; simp at h1, fun c hc => ?_⟩, h1⟩
  have := h2 c hc
  simp only [isAlnum, UInt8.le_iff_toNat_le] at this
  exact this

theorem delim18 (hb : b.length = 16) : (dashes ++ b).length = 18 ∧ entryBuf (dashes ++ b) = 1024 := by
  have hd : (dashes ++ b).length = 18 := by simp [dashes, hb]
  exact ⟨hd, by simp only [entryBuf, hd]; rfl⟩

theorem absentDashes {s : Bytes} (h : findSub dashes s = none) : Absent (dashes ++ b) s := (findSub_eq_none_iff.mp h : Absent dashes s).longer

theorem helloText_sendable (hb : b.length = 16) : Sendable D b helloText none := by
  obtain ⟨h1, h2⟩ := delim18 hb
  refine ⟨Sample.nameText (by decide) (by decide) (by decide) (by decide) (by decide +kernel), by simp [helloText], by simp [helloText], rfl, ?_, absentDashes (by decide +kernel), by simp [helloText],
    by simp [helloText], absentDashes (by decide +kernel)⟩
  rw [h1, h2]; decide

theorem nameText_file : NameText b!"file" := Sample.nameText (by decide) (by decide) (by decide) (by decide) (by decide +kernel)

theorem nameText_binary : NameText b!"binary" := Sample.nameText (by decide) (by decide) (by decide) (by decide) (by decide +kernel)

theorem loremFile_sendable {env : FileEnv} {file : List Ev} {ct : Mime} (hb : b.length = 16) (h : LoremOk D env b file ct) :
    Sendable D b (loremFile ct.src (Ev.upToEnd file)) (some ct) := by
  obtain ⟨h1, h2⟩ := delim18 hb
  refine ⟨nameText_file, ?_, ?_, ?_, ?_, absentDashes (s := b!"file") (by decide +kernel), ?_, ?_, h.noDelim⟩
  · intro n hn; cases hn; exact Sample.nameText (by decide) (by decide) (by decide) (by decide) (by decide +kernel)
  · intro t ht; cases ht; exact h.typeText.1
  · simp only [loremFile, Option.map_some, h.parses]
  · have := h.typeText.2.2
    rw [h1, h2]
    simp only [loremFile, OutField.headers, OutField.disposition, crlf, List.length_append, List.length_cons, List.length_nil]
    omega
  · intro n hn; cases hn; exact absentDashes (by decide +kernel)
  · intro t ht; cases ht; exact h.typeText.2.1

theorem helloBytes_sendable {x : Bytes} (hx : findSub dashes x = none) (hb : b.length = 16) (ho : D.parseMime b!"application/octet-stream" = some octetStream) :
    Sendable D b (helloBytes x) (some octetStream) := by
  obtain ⟨h1, h2⟩ := delim18 hb
  have hm := testMimes_text (m := octetStream) (by simp [testMimes])
  refine ⟨nameText_binary, by simp [helloBytes], ?_, ?_, ?_, absentDashes (s := b!"binary") (by decide +kernel), by simp [helloBytes], ?_, absentDashes hx⟩
  · intro t ht; cases ht; exact hm.1
  · simp only [helloBytes, Option.map_some, ho]
  · rw [h1, h2]
    simp only [helloBytes, OutField.headers, OutField.disposition, crlf, List.length_append, List.length_cons, List.length_nil]
    decide
  · intro t ht; cases ht; exact hm.2.1.longer

theorem NoErr.readsFine : ∀ {evs : List Ev}, NoErr evs → ReadsFine evs
  | [], _ => .nil
  | .data _ :: r, h => .data (NoErr.readsFine (h.suffix (List.suffix_cons _ r)))
  | .err e :: _, h => absurd (List.mem_cons_self ..) (h e)

theorem serversShow (hD : D.Sane) (hn : NoStall evs) (hne : NoErr evs) (hb : SafeBoundary b) {es : List (FieldHeaders × Bytes)} (hP : Parts D (dashes ++ b) (Ev.bytes evs) es .closed) (hl : es.length < 256)
    (hz : ∀ p ∈ es, p.2.length + 2 ≤ 8 * 1024 * 1024) {dir : Path} (ht : T.tempdir b!"multipart-rs" = .ok dir) (hw : DiskReady w dir es.length) (hS : S.Shows F) {q : HyperClientReq} {len : Option Nat} {m : HMime}
    (hq : q.method = .post) (hm : (q.applyHeaders b len).2.contentType = some m) : ServersShow D T S F w b evs m es := by
  obtain ⟨n, h⟩ := C95_uploads hD hn hne hP hl hz ht hw hS
  obtain ⟨m1, g1, -, g3⟩ := (C69_hyper_client q len hb).1 hq
  rw [g1] at hm
  simp only [Option.some.injEq] at hm
  subst hm
  refine ⟨n, fun fuel hf => ?_⟩
  obtain ⟨g, w', fs, h1, h2, -, h4, h5, h6, -⟩ := h fuel hf
  refine ⟨g, w', fs, h1, h2, fun m' hm' => ?_⟩
  obtain ⟨k1, k2, k3⟩ := g3 m' evs hm'
  exact ⟨h6 _ k1 rfl, h5 _ k3 rfl, h4 _ k2 rfl⟩

namespace Sample

/-- The directory of the examples: a file of two pieces. -/
def loremEnv : LazyEnv where
  open_ := fun p => if p = [b!"lorem_ipsum.txt"] then .ok [.data b!"Lorem ipsum\r\n-", .data b!"-dolor"] else .error .notFound
  guess := fun _ => ⟨b!"text/plain", b!"text"⟩
  size := fun _ => .ok 20

def loremBoundary : Bytes := List.replicate 16 0x45

theorem lorem_ok : LoremOk refDeps loremEnv.toFileEnv loremBoundary [.data b!"Lorem ipsum\r\n-", .data b!"-dolor"] ⟨b!"text/plain", b!"text"⟩ where
  opens := rfl
  reads := by intro e; simp
  size := by decide
  noDelim := findSub_eq_none_iff.mp (by decide +kernel)
  type := rfl
  typeText := ⟨⟨by decide, by decide, by decide, (utf8Valid_iff _).mp (by decide +kernel)⟩, findSub_eq_none_iff.mp (by decide +kernel), by decide⟩
  parses := by decide +kernel
  octets := by decide +kernel

end Sample

/-- C101, `hyper_client`: if the file is there and the request is accepted and can be written, the client succeeds, and whatever pieces its request arrives in, all server integrations give
exactly the three fields, in order, and the example servers show them. The boundary may be any of those the client generates, if it does not occur in the file. -/
theorem C101_client {env : FileEnv} {req : ClientReq} {file : List Ev} {ct : Mime} {rs rs' : List UInt32} (hD : D.Sane) (hT : D.Tokenizes) (hg : genBoundary rs = some (b, rs'))
    (hf : LoremOk D env b file ct) (ho : req.openErr = none) (hk : WritesFine req.script) (hfin : req.finishErr = none) :
    ∃ s, hyperClientMain env req b = (.ok (), some s) ∧ ∀ evs, NoStall evs → NoErr evs → Ev.bytes evs = s.sink.got →
      ∀ (q : HyperClientReq) (m : HMime), q.method = .post → (q.applyHeaders b none).2.contentType = some m →
        let fs := [helloText, loremFile ct.src (Ev.upToEnd file), helloBytes b!"Hello world from binary!"]
        let cts := [none, some ct, some octetStream]
        Arrives D b evs m fs cts ∧
        ∀ (T : TempEnv) (S : Surroundings) (F : DebugFmt) (w : World) (dir : Path), T.tempdir b!"multipart-rs" = .ok dir → DiskReady w dir 3 → S.Shows F →
          ServersShow D T S F w b evs m (List.zipWith OutField.asRead fs cts) := by
  obtain ⟨hsb, hlen⟩ := genBoundary_safe hg
  have hos : All2 (StandsFor env) hyperClientCalls [helloText, loremFile ct.src (Ev.upToEnd file), helloBytes b!"Hello world from binary!"] := by
    refine .cons (.text _ _) (.cons ?_ (.cons (.octets _ _ _) .nil))
    have := StandsFor.file (env := env) b!"file" [] b!"lorem_ipsum.txt" file hf.opens ⟨(utf8Valid_iff _).mp (by decide +kernel), by decide⟩
    rw [List.nil_append, hf.type] at this
    exact this
  have hs : All2 (Sendable D b) [helloText, loremFile ct.src (Ev.upToEnd file), helloBytes b!"Hello world from binary!"] [none, some ct, some octetStream] :=
    .cons (helloText_sendable hlen) (.cons (loremFile_sendable hlen hf) (.cons (helloBytes_sendable (by decide +kernel) hlen hf.octets) .nil))
  obtain ⟨s, h1, h2⟩ := C25_short_writes (b := b) ho hk hfin hos (by
    intro o ho evs hr
    simp only [hyperClientCalls, List.mem_cons, List.not_mem_nil, or_false] at ho
    rcases ho with rfl | rfl | rfl
    · exact absurd hr (by simp [ClientOp.reads])
    · have : env.open_ [b!"lorem_ipsum.txt"] = .ok evs := hr
      rw [hf.opens] at this
      cases this
      exact hf.reads.readsFine
    · have : evs = [.data b!"Hello world from binary!"] := hr
      subst this; exact .data .nil)
  refine ⟨s, by simp only [hyperClientMain, h1], fun evs hn hne he q m hq hm => ⟨C92_plain hD hT hsb h1 hos hs hq hm hn hne he, fun T S F w dir ht hw hS => ?_⟩⟩
  refine serversShow hD hn hne hsb (sent_parts hT hsb h1 hos hs he) (by simp) ?_ ht (by simpa using hw) hS hq hm
  intro p hp
  simp only [List.zipWith_cons_cons, List.zipWith_nil_left, List.mem_cons, List.not_mem_nil, or_false] at hp
  rcases hp with rfl | rfl | rfl
  · decide
  · exact hf.size
  · decide

example : refDeps.Sane ∧ refDeps.Tokenizes ∧ (∃ rs rs', genBoundary rs = some (Sample.loremBoundary, rs')) ∧
    LoremOk refDeps Sample.loremEnv.toFileEnv Sample.loremBoundary [.data b!"Lorem ipsum\r\n-", .data b!"-dolor"] ⟨b!"text/plain", b!"text"⟩ ∧
    Sample.req.openErr = none ∧ WritesFine Sample.req.script ∧ Sample.req.finishErr = none :=
  ⟨refDeps_sane, refDeps_tokenizes, ⟨List.replicate 17 0xFFFFFFFF ++ List.replicate 20 0x12345678, List.replicate 4 0x12345678, by decide +kernel⟩, Sample.lorem_ok, rfl, by
    intro ev hev e
    simp [Sample.req] at hev
    rcases hev with rfl | rfl | rfl | rfl <;> rintro (⟨h, h'⟩ | ⟨h, -⟩) <;> cases h
    exact h' rfl, rfl⟩

/-- The request as it is sent. -/
example : (hyperClientMain Sample.loremEnv.toFileEnv Sample.req Sample.loremBoundary).1 = .ok () ∧
    ((hyperClientMain Sample.loremEnv.toFileEnv Sample.req Sample.loremBoundary).2.map (·.sink.got)) =
      some (encode Sample.loremBoundary [helloText, loremFile b!"text/plain" b!"Lorem ipsum\r\n--dolor", helloBytes b!"Hello world from binary!"]) := by decide +kernel

/-- C101: without the file both clients panic: `hyper_client` after it has sent at most the text field, `hyper_reqbuilder` without having sent anything. -/
theorem C101_no_file {env : LazyEnv} {e : IoErr} (he : env.open_ [b!"lorem_ipsum.txt"] = .error e) (req : ClientReq) :
    (hyperClientMain env.toFileEnv req b).1 = .panic ∧ (∀ s, (hyperClientMain env.toFileEnv req b).2 = some s → s.sink.got <+: encode b [helloText]) ∧ reqBuilderMain env b = .panic := by
  have hno : ∀ {n : Bytes} {f : OutField}, ¬ StandsFor env.toFileEnv (.file n [b!"lorem_ipsum.txt"]) f := by
    intro n f h
    generalize hp : ([b!"lorem_ipsum.txt"] : Path) = p at h
    cases h with
    | file _ _ _ _ h => rw [← hp, he] at h; cases h
    | fileUnnamed _ _ _ h => rw [← hp, he] at h; cases h
  have h3 : reqBuilderMain env b = .panic := by
    have := (C87_failed (env := env) (b := b) (url := b!"http://localhost:80") (os := reqBuilderCalls) (f := id) e).mpr
      ⟨[.text b!"text" b!"Hello, world!"], _, _, b!"file", rfl, ⟨_, rfl, .inl he⟩, by rintro o ho n e' ⟨_, rfl, -⟩; simp at ho⟩
    unfold reqBuilderMain LazyMp.clientRequest
    rw [this]
  refine ⟨?_, ?_, h3⟩
  · unfold hyperClientMain
    rcases C25_outcome (env := env.toFileEnv) (req := req) (b := b) (os := hyperClientCalls) with ⟨e, -, h⟩ | ⟨s, h⟩ | ⟨e, s, h⟩
    · rw [h]
    · obtain ⟨fs, h1, -⟩ := C23_body h
      cases h1 with | cons _ h1 => cases h1 with | cons h1 _ => exact absurd h1 hno
    · rw [h]
  · intro s hs
    unfold hyperClientMain at hs
    rcases C25_outcome (env := env.toFileEnv) (req := req) (b := b) (os := hyperClientCalls) with ⟨e, -, h⟩ | ⟨s', h⟩ | ⟨e, s', h⟩
    · rw [h] at hs; cases hs
    · obtain ⟨fs, h1, -⟩ := C23_body h
      cases h1 with | cons _ h1 => cases h1 with | cons h1 _ => exact absurd h1 hno
    · rw [h] at hs
      cases hs
      obtain ⟨pre, post, fs, used, hos, h1, h2, h4, -, -⟩ := C25_failure h
      cases h1 with
      | nil =>
        simp only [List.nil_append] at hos
        obtain ⟨n, p, err, rest, h5, -⟩ := h4 (by rw [← hos]; simp [hyperClientCalls])
        rw [h5] at hos
        simp [hyperClientCalls] at hos
      | cons a1 a2 =>
        simp only [hyperClientCalls, List.cons_append, List.cons.injEq] at hos
        obtain ⟨rfl, hos⟩ := hos
        cases a1
        cases a2 with
        | nil => exact h2
        | cons a3 _ =>
          simp only [List.cons_append, List.cons.injEq] at hos
          obtain ⟨rfl, -⟩ := hos
          exact absurd a3 hno

example : ({ Sample.loremEnv with open_ := fun _ => .error .notFound } : LazyEnv).open_ [b!"lorem_ipsum.txt"] = .error .notFound := rfl

/-- C101, `hyper_reqbuilder`: if the file is there, a POST request is handed to Hyper, without a length. Hyper can read its body to the end, and whatever sizes it reads with, and whatever
pieces the request arrives in, all server integrations give exactly the three fields, the file last, and the example servers show them. -/
theorem C101_builder {env : LazyEnv} {file : List Ev} {ct : Mime} {rs rs' : List UInt32} (hD : D.Sane) (hT : D.Tokenizes) (hg : genBoundary rs = some (b, rs'))
    (hf : LoremOk D env.toFileEnv b file ct) (hz : env.size [b!"lorem_ipsum.txt"] = .ok (Ev.upToEnd file).length) :
    ∃ p m, reqBuilderMain env b = .ok ⟨.post, b!"http://localhost:80", some m, [], some (.chunked p)⟩ ∧ (∀ n, n ≠ 0 → ∃ k u, OnWire (List.replicate k n) (.chunked p) u) ∧
      ∀ ns evs, NoStall evs → NoErr evs → OnWire ns (.chunked p) (Ev.bytes evs) →
        let fs := [helloText, helloBytes b!"Hello world in binary!", loremFile ct.src (Ev.upToEnd file)]
        let cts := [none, some octetStream, some ct]
        Arrives D b evs m fs cts ∧
        ∀ (T : TempEnv) (S : Surroundings) (F : DebugFmt) (w : World) (dir : Path), T.tempdir b!"multipart-rs" = .ok dir → DiskReady w dir 3 → S.Shows F →
          ServersShow D T S F w b evs m (List.zipWith OutField.asRead fs cts) := by
  obtain ⟨hsb, hlen⟩ := genBoundary_safe hg
  have hfa : ∀ o ∈ reqBuilderCalls, ∀ n e, ¬ FileFails env o n e := by
    rintro o ho n e ⟨path, rfl, h⟩
    simp only [reqBuilderCalls, List.mem_cons, reduceCtorEq, ClientOp.file.injEq, List.not_mem_nil, or_false, false_or] at ho
    obtain ⟨rfl, rfl⟩ := ho
    rcases h with h | ⟨_, -, h⟩
    · rw [hf.opens] at h; cases h
    · rw [hz] at h; cases h
  have hr : NoReadErr env.toFileEnv reqBuilderCalls := by
    intro o ho evs hr
    simp only [reqBuilderCalls, List.mem_cons, List.not_mem_nil, or_false] at ho
    rcases ho with rfl | rfl | rfl
    · exact absurd hr (by simp [ClientOp.reads])
    · have : env.open_ [b!"lorem_ipsum.txt"] = .ok evs := hr
      rw [hf.opens] at this
      cases this
      exact hf.reads
    · have : evs = [.data b!"Hello world in binary!"] := hr
      subst this; intro e; simp
  have hts : TrueSizes env reqBuilderCalls := by
    intro n path evs hm ho
    simp only [reqBuilderCalls, List.mem_cons, reduceCtorEq, ClientOp.file.injEq, List.not_mem_nil, or_false, false_or] at hm
    obtain ⟨rfl, rfl⟩ := hm
    rw [hf.opens] at ho
    cases ho
    exact hz
  have hos : All2 (StandsFor env.toFileEnv) reqBuilderCalls [helloText, loremFile ct.src (Ev.upToEnd file), helloBytes b!"Hello world in binary!"] := by
    refine .cons (.text _ _) (.cons ?_ (.cons (.octets _ _ _) .nil))
    have := StandsFor.file (env := env.toFileEnv) b!"file" [] b!"lorem_ipsum.txt" file hf.opens ⟨(utf8Valid_iff _).mp (by decide +kernel), by decide⟩
    rw [List.nil_append, hf.type] at this
    exact this
  have hst : ∃ o ∈ reqBuilderCalls, o.isStream = true := ⟨_, List.mem_cons_of_mem _ (List.mem_cons_of_mem _ (List.mem_cons_self ..)), rfl⟩
  have hs : All2 (Sendable D b) [helloText, helloBytes b!"Hello world in binary!", loremFile ct.src (Ev.upToEnd file)] [none, some octetStream, some ct] :=
    .cons (helloText_sendable hlen) (.cons (helloBytes_sendable (by decide +kernel) hlen hf.octets) (.cons (loremFile_sendable hlen hf) .nil))
  have hne : reqBuilderCalls ≠ [] := by simp [reqBuilderCalls]
  obtain ⟨p, hp, h1⟩ := C87_plain (b := b) (url := b!"http://localhost:80") hne hfa
  have hb : p.toBody = .chunked p := by
    have := (C31_without_texts_partial hp hr hts hos).1.mpr hst
    simp only [Prepared.toBody, this]
  rw [hb] at h1
  refine ⟨p, multipartMime b, by simp only [reqBuilderMain, h1], ?_, fun ns evs hn hnE hw => ?_⟩
  · intro n hn
    obtain ⟨ts, ss, -, -, -, h⟩ := C32_all_fields hp hr
    obtain ⟨k, u, h⟩ := h n hn
    exact ⟨k, u, .chunked h⟩
  · have hlo : lazyOrder [helloText, loremFile ct.src (Ev.upToEnd file), helloBytes b!"Hello world in binary!"] = [helloText, helloBytes b!"Hello world in binary!", loremFile ct.src (Ev.upToEnd file)] := rfl
    have ha := C92_lazy (f := id) (url := b!"http://localhost:80") (fs := [helloText, loremFile ct.src (Ev.upToEnd file), helloBytes b!"Hello world in binary!"]) hD hT hsb
      (congrArg Prod.fst h1) rfl rfl hr hts hos hs (.inl hst) hw hn hnE
    refine ⟨ha, fun T S F w dir ht hwD hS => ?_⟩
    cases hw with
    | chunked hw =>
      refine serversShow hD hn hnE hsb (hlo ▸ prepared_parts hT hsb hp hr hne hos hs hw rfl) (by simp) ?_ ht (by simpa using hwD) hS (q := ⟨.post, none, none⟩) (len := none) rfl rfl
      intro p hp
      simp only [List.zipWith_cons_cons, List.zipWith_nil_left, List.mem_cons, List.not_mem_nil, or_false] at hp
      rcases hp with rfl | rfl | rfl
      · decide
      · decide
      · exact hf.size

example : LoremOk refDeps Sample.loremEnv.toFileEnv Sample.loremBoundary [.data b!"Lorem ipsum\r\n-", .data b!"-dolor"] ⟨b!"text/plain", b!"text"⟩ ∧
    Sample.loremEnv.size [b!"lorem_ipsum.txt"] = .ok (Ev.upToEnd [.data b!"Lorem ipsum\r\n-", .data b!"-dolor"]).length := ⟨Sample.lorem_ok, rfl⟩

/-- C102: `form_test` answers every request, whatever it is, with the page, if the page can be read and the response be written; else it panics. -/
theorem C102_form_test (hD : D.Sane) (req : HyperReq) (page : Except IoErr Bytes) (connected : Bool) :
    (∀ p, page = .ok p → connected = true → formTest D page connected req = .ok ⟨200, p⟩) ∧ ((∃ e, page = .error e) ∨ connected = false → formTest D page connected req = .panic) := by
  have key : formTestRead D req = .ok () := by
    unfold formTestRead
    rcases fromRequest_cases hyperHttp req with ⟨b, -, h⟩ | ⟨-, h⟩
    · rw [h]
      have := (C20_foreach_entry hD (fun st _ _ => ([], st)) () (s := withBody (hyperHttp.body req) b) ⟨[], rfl⟩ _).mpr rfl
      have hr : ∀ {st : Unit} {s : BR} {r : Res Unit × Unit × BR}, ByHand D (fun st _ _ => ([], st)) st s r → r.1 = .ok () ∨ ∃ e, r.1 = .err e := by
        intro st s r h
        induction h with
        | entry _ _ ih => exact ih
        | done _ => exact .inl rfl
        | fail _ => exact .inr ⟨_, rfl⟩
      simp only
      rcases hr this with h | ⟨e, h⟩ <;> rw [h]
    · rw [h]
  unfold formTest
  rw [key]
  refine ⟨?_, ?_⟩
  · rintro p rfl rfl; rfl
  · rintro (⟨e, rfl⟩ | rfl)
    · rfl
    · cases page <;> rfl

/-- A request with two fields, one that is cut off, and one that is no multipart request. -/
example : formTest refDeps (.ok b!"<html>") true (Sample.ironReq Sample.evsTwo) = .ok ⟨200, b!"<html>"⟩ ∧ formTest refDeps (.ok b!"<html>") true (Sample.ironReq (Sample.evsTwo.take 1)) = .ok ⟨200, b!"<html>"⟩ ∧
    formTest refDeps (.ok b!"<html>") true ⟨.ext b!"GET", none, []⟩ = .ok ⟨200, b!"<html>"⟩ ∧ formTest refDeps (.error .notFound) true ⟨.ext b!"GET", none, []⟩ = .panic := by decide +kernel

end Multipart

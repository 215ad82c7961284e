import Verif.Props.Upload
/-!
# Requests that Iron's `Intercept` accepts (C84)
-/
namespace Multipart

variable {D : Deps} {b : Bytes} {evs : List Ev} {w : World} {i : Intercept} {fail : Option (IoErr × (Path → Bool))} {dir : Path}

/-- A request whose body can be saved fully passes the middleware in both modes. -/
theorem Intercept.before_full {fuel : Nat} {req : HyperReq} {ext : Option Entries} {e : Entries} {w' : World} {t : BR} (hb : ironBoundary req = some b)
    (h : withEntries D i.settings fuel (Entries.new (.temp dir)) { w with dirs := w.dirs ++ [dir] } (withBody req.body b) = (.full e, w', t)) :
    i.before D fuel (.ok dir) fail w req ext = (.ok (.ok ()), some e, w') := by
  unfold Intercept.before Intercept.readRequest fromRequest ironHttp
  simp only [hb]
  cases i.limitBehavior with
  | throwError =>
    unfold Intercept.readRequestStrict withTempDir
    simp only [h]
  | continue_ =>
    unfold Intercept.readRequestLenient withTempDir
    simp only [h]

theorem DiskReady.mkdir {n : Nat} {dir' : Path} (h : DiskReady w dir n) : DiskReady { w with dirs := w.dirs ++ [dir'] } dir n :=
  ⟨h.mkdirs, h.opens, h.writes, h.names, h.distinct, h.fresh⟩

/-- C84: a `multipart/form-data` request with a well-formed body, fewer parts than `file_count_limit` and none longer than `file_size_limit` passes the middleware in both modes if the disk works: the
entries of the body, all parts with their headers and data, are then among its extensions. (If a read of the body may end inside the CRLF before a delimiter, the limit needs room for it: see C01.) -/
theorem C84_accepts (hD : D.Sane) {req : HyperReq} {m : HMime} (hp : m.Parsed) (h1 : req.contentType = some m) (h2 : m.IsFormData) (h3 : m.HasBoundary b)
    (hn : NoStall req.body) (hne : NoErr req.body) (ht : i.Typed) {es : List (FieldHeaders × Bytes)} (hP : Parts D (dashes ++ b) (Ev.bytes req.body) es .closed)
    (hl : es.length < i.fileCountLimit)
    (hz : ∀ p ∈ es, p.2.length + 2 ≤ i.fileSizeLimit ∨ ((CleanSplit (dashes ++ b) req.body ∨ p.2.length + 2 ≤ entryBuf (dashes ++ b)) ∧ p.2.length ≤ i.fileSizeLimit)) (hw : DiskReady w dir es.length) (ext : Option Entries) :
    ∃ n, ∀ fuel, n ≤ fuel → ∃ e w' fs, i.before D fuel (.ok dir) fail w req ext = (.ok (.ok ()), some e, w') ∧ e.saveDir = .temp dir ∧
      GroupedByName e.fields fs ∧ e.fieldsCount = es.length ∧ All2 (SavedAs b req.body w') fs es := by
  have hb : ironBoundary req = some b := (C61_iron (by rw [h1]; rintro _ ⟨⟩; exact hp)).mpr ⟨m, h1, h2, h3⟩
  obtain ⟨n, h⟩ := C77_request_succeeds (cfg := i.settings) hD hn hne ht.settings rfl (fun h => absurd h (by show TextPolicy.try_ ≠ .force; simp)) (.inl i.settings_bound) hP (.temp dir) hl hz hw.mkdir
  refine ⟨n, fun fuel hf => ?_⟩
  obtain ⟨e, w', t, fs, a1, a2, a3, a4⟩ := h fuel hf
  obtain ⟨_, _, _, _, _, _, a5⟩ := C53_all_read ht.settings (.temp dir) a1
  exact ⟨e, w', fs, Intercept.before_full hb a1, a5, a2, a3, a4⟩

/-- C84 from the client on: fields that can be represented, sent with success by the client with the headers that its Hyper backend applies, and received in any pieces, within the limits: they
are among the extensions of the request afterwards, in order, with their names, filenames, content types and contents. -/
theorem C84_upload {env : FileEnv} {req : ClientReq} {s : ClientStream} {os : List ClientOp} {fs : List OutField} {cts : List (Option Mime)} (hD : D.Sane) (hT : D.Tokenizes)
    (hb : SafeBoundary b) (h : plainRequest env req b os = (.ok (), some s)) (hos : All2 (StandsFor env) os fs) (hs : All2 (Sendable D b) fs cts)
    {q : HyperClientReq} {len : Option Nat} {m m' : HMime} (hq : q.method = .post) (hm : (q.applyHeaders b len).2.contentType = some m) (hm' : m.SentAs m')
    (hn : NoStall evs) (hne : NoErr evs) (he : Ev.bytes evs = s.sink.got) (ht : i.Typed) (hl : fs.length < i.fileCountLimit) (hz : ∀ f ∈ fs, f.data.length + 2 ≤ i.fileSizeLimit)
    (hw : DiskReady w dir fs.length) (ext : Option Entries) :
    ∃ n, ∀ fuel, n ≤ fuel → ∃ e w' xs, i.before D fuel (.ok dir) fail w ⟨.post, some m', evs⟩ ext = (.ok (.ok ()), some e, w') ∧ e.saveDir = .temp dir ∧
      GroupedByName e.fields xs ∧ e.fieldsCount = fs.length ∧ All2 (Arrived b evs w') xs (fs.zip cts) := by
  obtain ⟨m0, g1, -, g2⟩ := (C69_hyper_client q len hb).1 hq
  rw [g1] at hm
  simp only [Option.some.injEq] at hm
  subst hm
  obtain ⟨n, hu⟩ := C78_upload (cfg := i.settings) (w := { w with dirs := w.dirs ++ [dir] }) hD hT hb h hos hs hn hne he (.temp dir)
    ⟨ht.settings, rfl, fun h => absurd h (by show TextPolicy.try_ ≠ .force; simp), .inl i.settings_bound, hl, hz, hw.mkdir⟩
  refine ⟨n, fun fuel hf => ?_⟩
  obtain ⟨e, w', t, xs, a1, a2, a3, a4⟩ := hu fuel hf
  obtain ⟨_, _, _, _, _, _, a5⟩ := C53_all_read ht.settings (.temp dir) a1
  exact ⟨e, w', xs, Intercept.before_full (g2 m' evs hm').2.1 a1, a5, a2, a3, a4⟩

example : ∃ n, ∀ fuel, n ≤ fuel → ∃ e w' xs,
    (Intercept.mk none 10 5 .continue_).before refDeps fuel (.ok [b!"tmp"]) none Sample.readyDisk ⟨.post, some ⟨.multipart, .formData, [(.boundary, .ext b!"b")]⟩, Sample.sentEvs⟩ none =
      (.ok (.ok ()), some e, w') ∧ e.saveDir = .temp [b!"tmp"] ∧ GroupedByName e.fields xs ∧ e.fieldsCount = 3 ∧ All2 (Arrived b!"b" Sample.sentEvs w') xs (Sample.flds.zip Sample.flctypes) := by
  refine C84_upload (q := ⟨.post, none, none⟩) (len := none) (m := ((⟨.post, none, none⟩ : HyperClientReq).applyHeaders b!"b" none).2.contentType.get rfl)
    refDeps_sane refDeps_tokenizes ⟨by simp, by decide⟩ Sample.sent_eq Sample.ops_fields Sample.sendable rfl rfl ?_ (by decide +kernel) (by intro e; simp [Sample.sentEvs]) (by decide +kernel)
    ⟨by decide, by decide⟩ (by decide) (by decide) (Sample.readyDisk_ready (by decide) _) none
  exact ⟨⟨by simp, by simp, by simp, by intro p hp; simp only [List.mem_singleton] at hp; subst hp; decide⟩, rfl, rfl, rfl⟩

example : ∃ n, ∀ fuel, n ≤ fuel → ∃ e w' fs,
    (Intercept.mk none 5 3 .throwError).before refDeps fuel (.ok [b!"tmp"]) none Sample.readyDisk (Sample.ironReq Sample.evsTwo) none = (.ok (.ok ()), some e, w') ∧ e.saveDir = .temp [b!"tmp"] ∧
      GroupedByName e.fields fs ∧ e.fieldsCount = 2 ∧ All2 (SavedAs Sample.bnd Sample.evsTwo w') fs [(Sample.fh, b!"one"), (Sample.fh, b!"two")] :=
  C84_accepts (b := Sample.bnd) (req := Sample.ironReq Sample.evsTwo) (i := ⟨none, 5, 3, .throwError⟩) (es := [(Sample.fh, b!"one"), (Sample.fh, b!"two")])
    refDeps_sane (m := ⟨.multipart, .formData, [(.boundary, .ext b!"b")]⟩)
    ⟨by simp, by simp, by simp, by intro p hp; simp only [List.mem_singleton] at hp; subst hp; decide⟩ rfl ⟨rfl, rfl⟩ ⟨[], .boundary, .ext b!"b", [], rfl, rfl, rfl, by simp⟩
    (by decide +kernel) (by intro e; simp [Sample.ironReq, Sample.evsTwo]) ⟨by decide, by decide⟩ Sample.partsTwo (by decide)
    (fun p hp => .inl (by have : ∀ p ∈ [(Sample.fh, b!"one"), (Sample.fh, b!"two")], p.2.length + 2 ≤ 5 := by decide
                          exact this p hp)) (Sample.readyDisk_ready (by decide) _) none

end Multipart

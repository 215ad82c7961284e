import Verif.Props.Success
import Verif.Props.Lazy
/-!
# From the client to the disk of the server (C78)
-/
namespace Multipart

variable {D : Deps} {b : Bytes} {os : List ClientOp} {fs : List OutField} {cts : List (Option Mime)} {evs : List Ev} {cfg : Settings} {w : World}

/-- The settings and the disk allow for the fields `fs`, with the content types `cts`: there are fewer than `count_limit`, each of at most `size_limit` bytes (with room for the CRLF of C01); if text is
forced, those whose content type is text, or that have none, are UTF-8; a limit of memory is set, or text is ignored; files are created, not overwritten. -/
structure Allows (cfg : Settings) (w : World) (dir : Path) (fs : List OutField) (cts : List (Option Mime)) : Prop where
  typed : cfg.Typed
  createNew : cfg.openOpts.createNew = true
  forced : cfg.textPolicy = .force → ∀ f ct, (f, ct) ∈ fs.zip cts → (∀ m, ct = some m → m.type_ = b!"text") → IsUtf8 f.data
  memory : Nat.min cfg.sizeLimit cfg.memoryThreshold < u64Max ∨ cfg.textPolicy = .ignore
  count : fs.length < cfg.countLimit
  size : ∀ f ∈ fs, f.data.length + 2 ≤ cfg.sizeLimit
  disk : DiskReady w dir fs.length

/-- A saved field is the field that was sent: name, filename, content type and contents. -/
def Arrived (b : Bytes) (evs : List Ev) (w : World) (x : SavedField) (f : OutField × Option Mime) : Prop :=
  x.headers.name = f.1.name ∧ x.headers.filename = f.1.filename ∧ x.headers.contentType = f.2 ∧ ∃ c, x.data.readable w = .ok c ∧ SavedOk (dashes ++ b) evs f.1.data c

theorem All2.zipWith {α β γ : Type} {R : γ → α × β → Prop} {S : γ → FieldHeaders × Bytes → Prop} {f : α → β → FieldHeaders × Bytes} (h : ∀ c x y, S c (f x y) → R c (x, y)) :
    ∀ {cs : List γ} {xs : List α} {ys : List β}, All2 S cs (List.zipWith f xs ys) → All2 R cs (xs.zip ys) := by
  intro cs xs
  induction xs generalizing cs with
  | nil => intro ys hh; cases hh; exact .nil
  | cons x xs ih =>
    intro ys hh
    cases ys with
    | nil => cases hh; exact .nil
    | cons y ys =>
      cases hh with
      | cons h1 h2 => exact .cons (h _ _ _ h1) (ih h2)

theorem Allows.forced' {dir : Path} (ha : Allows cfg w dir fs cts) (hl : fs.length = cts.length) (h : cfg.textPolicy = .force) :
    ∀ p ∈ List.zipWith OutField.asRead fs cts, p.1.isText = true → IsUtf8 p.2 := by
  intro p hp ht
  obtain ⟨i, hi, rfl⟩ := List.getElem_of_mem hp
  rw [List.length_zipWith] at hi
  rw [List.getElem_zipWith] at ht ⊢
  have hz : i < (fs.zip cts).length := by rw [List.length_zip]; omega
  have hm : (fs[i], cts[i]) ∈ fs.zip cts := by rw [← List.getElem_zip (h := hz)]; exact List.getElem_mem hz
  refine ha.forced h _ _ hm fun m hm => ?_
  simp only [OutField.asRead, FieldHeaders.isText, hm, decide_eq_true_eq] at ht
  exact ht

theorem upload (hD : D.Sane) (hn : NoStall evs) (hne : NoErr evs) (hl : fs.length = cts.length) (hP : Parts D (dashes ++ b) (Ev.bytes evs) (List.zipWith OutField.asRead fs cts) .closed)
    (dir : SaveDir) (ha : Allows cfg w dir.asPath fs cts) :
    ∃ n, ∀ fuel, n ≤ fuel → ∃ e w' t xs, withEntries D cfg fuel (Entries.new dir) w (withBody evs b) = (.full e, w', t) ∧
      GroupedByName e.fields xs ∧ e.fieldsCount = fs.length ∧ All2 (Arrived b evs w') xs (fs.zip cts) := by
  have hlen : (List.zipWith OutField.asRead fs cts).length = fs.length := by rw [List.length_zipWith]; omega
  obtain ⟨n, h⟩ := C77_request_succeeds (cfg := cfg) (w := w) hD hn hne ha.typed ha.createNew (ha.forced' hl) ha.memory hP dir (by rw [hlen]; exact ha.count) (by
    intro p hp
    obtain ⟨i, hi, rfl⟩ := List.getElem_of_mem hp
    rw [List.getElem_zipWith]
    exact .inl (ha.size _ (List.getElem_mem _))) (by rw [hlen]; exact ha.disk)
  refine ⟨n, fun fuel hf => ?_⟩
  obtain ⟨e, w', t, xs, h1, h2, h3, h4⟩ := h fuel hf
  refine ⟨e, w', t, xs, h1, h2, by rw [h3, hlen], All2.zipWith ?_ h4⟩
  rintro x f ct ⟨g1, c, g2, g3⟩
  exact ⟨by rw [g1]; rfl, by rw [g1]; rfl, by rw [g1]; rfl, c, g2, g3⟩

/-- C78: a request sent with success by the client (with any short or interrupted writes), received in any pieces and saved by the server, is saved fully: the saved fields are those that were
sent, in order, with their names, filenames, content types and contents. -/
theorem C78_upload {env : FileEnv} {req : ClientReq} {s : ClientStream} (hD : D.Sane) (hT : D.Tokenizes) (hb : SafeBoundary b) (h : plainRequest env req b os = (.ok (), some s))
    (hos : All2 (StandsFor env) os fs) (hs : All2 (Sendable D b) fs cts) (hn : NoStall evs) (hne : NoErr evs) (he : Ev.bytes evs = s.sink.got) (dir : SaveDir)
    (ha : Allows cfg w dir.asPath fs cts) :
    ∃ n, ∀ fuel, n ≤ fuel → ∃ e w' t xs, withEntries D cfg fuel (Entries.new dir) w (withBody evs b) = (.full e, w', t) ∧
      GroupedByName e.fields xs ∧ e.fieldsCount = fs.length ∧ All2 (Arrived b evs w') xs (fs.zip cts) :=
  upload hD hn hne hs.length (sent_parts hT hb h hos hs he) dir ha

/-- C78 for the lazy client: the text fields come first, in order, then the others backwards. -/
theorem C78_lazy_upload {env : LazyEnv} {p : Prepared} {ns : List Nat} (hD : D.Sane) (hT : D.Tokenizes) (hb : SafeBoundary b) (h : PreparedFrom env b os p)
    (hr : NoReadErr env.toFileEnv os) (ho : os ≠ []) (hos : All2 (StandsFor env.toFileEnv) os fs) (hs : All2 (Sendable D b) (lazyOrder fs) cts) (hn : NoStall evs) (hne : NoErr evs)
    (hu : ReadsOut p ns (Ev.bytes evs)) (dir : SaveDir) (ha : Allows cfg w dir.asPath (lazyOrder fs) cts) :
    ∃ n, ∀ fuel, n ≤ fuel → ∃ e w' t xs, withEntries D cfg fuel (Entries.new dir) w (withBody evs b) = (.full e, w', t) ∧
      GroupedByName e.fields xs ∧ e.fieldsCount = fs.length ∧ All2 (Arrived b evs w') xs ((lazyOrder fs).zip cts) := by
  have := upload hD hn hne hs.length (prepared_parts hT hb h hr ho hos hs hu rfl) dir ha
  rw [(C32_permutation fs).length_eq] at this
  exact this

namespace Sample

def readyDisk : World := { disk with names := [b!"x", b!"y", b!"z", b!"u"] }

theorem readyDisk_ready {n : Nat} (h : n ≤ 4) (dir : Path) : DiskReady readyDisk dir n :=
  ⟨by simp [readyDisk, disk], by simp [readyDisk, disk], by intro ev h; simp [readyDisk, disk] at h, h,
    (List.take_sublist n _).nodup (show [b!"x", b!"y", b!"z", b!"u"].Nodup by decide), fun _ _ => rfl⟩

theorem allows {fs : List OutField} (h : fs.length ≤ 4) (h' : ∀ f ∈ fs, f.data.length ≤ 8) (dir : Path) : Allows { Settings.default with sizeLimit := 10, countLimit := 5 } readyDisk dir fs cts :=
  ⟨⟨by decide, by decide, by decide, rfl⟩, rfl, fun h => by simp [Settings.default] at h, .inl (by decide), by show fs.length < 5; omega, fun f hf => by have := h' f hf; show f.data.length + 2 ≤ 10; omega, readyDisk_ready h dir⟩

end Sample

example : ∃ n, ∀ fuel, n ≤ fuel → ∃ e w' t xs,
    withEntries refDeps { Settings.default with sizeLimit := 10, countLimit := 5 } fuel (Entries.new (.perm [b!"d"])) Sample.readyDisk (withBody Sample.sentEvs b!"b") = (.full e, w', t) ∧
      GroupedByName e.fields xs ∧ e.fieldsCount = 3 ∧ All2 (Arrived b!"b" Sample.sentEvs w') xs (Sample.flds.zip Sample.flctypes) :=
  C78_upload refDeps_sane refDeps_tokenizes ⟨by simp, by decide⟩ Sample.sent_eq Sample.ops_fields Sample.sendable (by decide +kernel) (by intro e; simp [Sample.sentEvs]) (by decide +kernel) _
    (Sample.allows (by decide) (by decide) _)

example : ∃ n, ∀ fuel, n ≤ fuel → ∃ e w' t xs,
    withEntries refDeps { Settings.default with sizeLimit := 10, countLimit := 5 } fuel (Entries.new (.perm [b!"d"])) Sample.readyDisk (withBody [.data Sample.lread] b!"b") = (.full e, w', t) ∧
      GroupedByName e.fields xs ∧ e.fieldsCount = 4 ∧ All2 (Arrived b!"b" [.data Sample.lread] w') xs ((lazyOrder Sample.lflds).zip Sample.lctypes) :=
  C78_lazy_upload (ns := [7, 50, 300, 300]) refDeps_sane refDeps_tokenizes ⟨by simp, by decide⟩ (Sample.lprep_ok (by decide +kernel)) Sample.lops_noErr (by simp [Sample.lops]) Sample.lops_fields
    Sample.lsendable (by decide +kernel) (by intro e; simp) (by
      have : Ev.bytes [.data Sample.lread] = Sample.lread := by simp [Ev.bytes]
      rw [this]; exact ⟨by decide, by decide +kernel, rfl⟩) _ (Sample.allows (by decide) (by decide) _)

end Multipart

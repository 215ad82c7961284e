import Verif.Props.Upload
/-!
# When the split of the body into reads does not matter (C93)
-/
namespace Multipart

variable {D : Deps} {evs evs' : List Ev} {b : Bytes}

/-- The full claim C93: what a caller can get does not depend on the split of the body into reads. -/
def SplitDoesNotMatter (D : Deps) : Prop :=
  ∀ (evs evs' : List Ev) (b : Bytes) (got : List (FieldHeaders × Bytes)) (fin : Ending), NoStall evs → NoErr evs → NoStall evs' → NoErr evs' → Ev.bytes evs = Ev.bytes evs' →
    Reads D (withBody evs b) got fin → ∃ got' fin', Reads D (withBody evs' b) got' fin' ∧ got' = got ∧ fin' = fin

theorem fill_small {min : Nat} : ∀ {evs : List Ev} {buf : Bytes}, NoStall evs → NoErr evs → (buf ++ Ev.bytes evs).length ≤ min → fill min buf evs = (none, buf ++ Ev.bytes evs, []) := by
  intro evs
  induction evs with
  | nil => intro buf _ _ _; simp [fill, Ev.bytes]
  | cons ev r ih =>
    intro buf hn he hl
    have hn' : NoStall r := fun h => hn (by simp [h])
    have he' : NoErr r := fun e h => he e (by simp [h])
    match ev with
    | .err e => exact absurd (List.mem_cons_self ..) (he e)
    | .data [] => exact absurd (List.mem_cons_self ..) hn
    | .data (x :: xs) =>
      simp only [Ev.bytes] at hl ⊢
      have : ¬ min ≤ buf.length := by simp at hl; omega
      rw [fill, if_neg this, ih hn' he' (by simpa using hl)]
      simp

/-- C93, as far as it holds: if the body is not longer than the buffer that `read_entry` asks for (1024 bytes, or more for long boundaries), the first call of `read_entry`, by which every use
of a request begins, gives the same result and leaves the same state however the body is split into reads. -/
theorem C93_same_partial (hn : NoStall evs) (he : NoErr evs) (hn' : NoStall evs') (he' : NoErr evs') (hb : Ev.bytes evs = Ev.bytes evs')
    (hl : (Ev.bytes evs).length ≤ entryBuf (dashes ++ b)) : (withBody evs b).readEntry D = (withBody evs' b).readEntry D := by
  have hmin : ∀ evs : List Ev, ((withBody evs b).setMin minBufSize) = ⟨[], evs, entryBuf (dashes ++ b), dashes ++ b, 0, .searching⟩ := by
    intro evs
    simp only [withBody, BR.fromReader, BR.setMin, entryBuf, minBufSize, BR.mk.injEq, true_and, and_true]
    rw [Nat.mul_comm]
    exact Nat.max_comm _ _
  have hrd : ∀ evs : List Ev, NoStall evs → NoErr evs → (Ev.bytes evs).length ≤ entryBuf (dashes ++ b) →
      (⟨[], evs, entryBuf (dashes ++ b), dashes ++ b, 0, .searching⟩ : BR).readToBoundary = (⟨Ev.bytes evs, [], entryBuf (dashes ++ b), dashes ++ b, 0, .searching⟩ : BR).readToBoundary := by
    intro evs hn he hl
    unfold BR.readToBoundary
    simp only
    rw [fill_small hn he (by simpa using hl)]
    simp [fill]
  suffices h : ∀ evs : List Ev, NoStall evs → NoErr evs → (Ev.bytes evs).length ≤ entryBuf (dashes ++ b) →
      (⟨[], evs, entryBuf (dashes ++ b), dashes ++ b, 0, .searching⟩ : BR).consumeBoundary = (⟨Ev.bytes evs, [], entryBuf (dashes ++ b), dashes ++ b, 0, .searching⟩ : BR).consumeBoundary by
    unfold BR.readEntry
    rw [hmin, hmin, h evs hn he hl, h evs' hn' he' (hb ▸ hl), hb]
  intro evs hn he hl
  unfold BR.consumeBoundary
  have hp : (⟨[], evs, entryBuf (dashes ++ b), dashes ++ b, 0, .searching⟩ : BR).pending = (⟨Ev.bytes evs, [], entryBuf (dashes ++ b), dashes ++ b, 0, .searching⟩ : BR).pending := by
    simp [BR.pending, Ev.bytes]
  simp only [reduceCtorEq, if_false]
  rw [hp, BR.searchLoop, BR.searchLoop, hrd evs hn he hl]
  simp only [if_true]

/-- C93: so whatever calls follow, also on the fields, lead to the same state, -/
theorem C93_session_partial (hn : NoStall evs) (he : NoErr evs) (hn' : NoStall evs') (he' : NoErr evs') (hb : Ev.bytes evs = Ev.bytes evs')
    (hl : (Ev.bytes evs).length ≤ entryBuf (dashes ++ b)) (os : List SOp) : (withBody evs b).session D (.readEntry :: os) = (withBody evs' b).session D (.readEntry :: os) := by
  simp only [BR.session, BR.sop]
  rw [C93_same_partial hn he hn' he' hb hl]

/-- whoever reads the entries to their end gets the same, -/
theorem C93_reads_partial (hn : NoStall evs) (he : NoErr evs) (hn' : NoStall evs') (he' : NoErr evs') (hb : Ev.bytes evs = Ev.bytes evs')
    (hl : (Ev.bytes evs).length ≤ entryBuf (dashes ++ b)) {got : List (FieldHeaders × Bytes)} {fin : Ending} :
    Reads D (withBody evs b) got fin ↔ Reads D (withBody evs' b) got fin := by
  have key : ∀ {s s' : BR}, s.readEntry D = s'.readEntry D → Reads D s got fin → Reads D s' got fin := by
    intro s s' h hr
    cases hr with
    | close h' => exact .close (h ▸ h')
    | fail h' => exact .fail (h ▸ h')
    | entry h' h2 h3 => exact .entry (h ▸ h') h2 h3
  have := C93_same_partial (D := D) hn he hn' he' hb hl
  exact ⟨key this, key this.symm⟩

/-- and so does whoever saves them. -/
theorem C93_saved_partial (hn : NoStall evs) (he : NoErr evs) (hn' : NoStall evs') (he' : NoErr evs') (hb : Ev.bytes evs = Ev.bytes evs')
    (hl : (Ev.bytes evs).length ≤ entryBuf (dashes ++ b)) (cfg : Settings) (fuel : Nat) (e : Entries) (w : World) :
    withEntries D cfg fuel e w (withBody evs b) = withEntries D cfg fuel e w (withBody evs' b) := by
  unfold withEntries
  rw [C93_same_partial hn he hn' he' hb hl]

theorem single_cleanSplit {d x : Bytes} (hd : d ≠ []) : CleanSplit d [.data x] := by
  refine .of_none ?_
  rintro k ⟨p, q, h1, h2⟩ ho
  obtain ⟨y, hy⟩ := ho
  have hy := congrArg List.length hy
  have : 0 < d.length := List.length_pos_iff.mpr hd
  simp only [crlf, List.length_append, List.length_cons, List.length_nil, List.length_drop, Ev.bytes] at hy
  cases p with
  | nil => simp [Ev.bytes] at h2
  | cons a p =>
    simp only [List.cons_append, List.cons.injEq] at h1
    obtain ⟨rfl, h1⟩ := h1
    have : p = [] := by cases p <;> simp at h1 ⊢
    subst this
    simp [Ev.bytes] at h2 hy
    omega

theorem exact_of_clean (hD : D.Sane) (hn : NoStall evs) (he : NoErr evs) (hc : CleanSplit (dashes ++ b) evs) {es got : List (FieldHeaders × Bytes)} {fin fin' : Ending}
    (hP : Parts D (dashes ++ b) (Ev.bytes evs) es fin) (hr : Reads D (withBody evs b) got fin') : got = es ∧ fin' = fin := by
  obtain ⟨h1, h2⟩ := C10_entries_are_parts hD hn he hP hr
  refine ⟨?_, h1⟩
  clear hr hP
  induction h2 with
  | nil => rfl
  | cons hr _ ih =>
    obtain ⟨ha, hd | ⟨-, hd⟩⟩ := hr
    · rw [ih]; congr 1; exact Prod.ext ha hd
    · exact absurd hc hd

/-- So C01, C10 and C24 hold for small bodies without exception: exactly the parts come out, however the body is split. -/
theorem C93_exact_partial (hD : D.Sane) (hn : NoStall evs) (he : NoErr evs) (hl : (Ev.bytes evs).length ≤ entryBuf (dashes ++ b)) {es got : List (FieldHeaders × Bytes)} {fin fin' : Ending}
    (hP : Parts D (dashes ++ b) (Ev.bytes evs) es fin) (hr : Reads D (withBody evs b) got fin') : got = es ∧ fin' = fin := by
  have hd : dashes ++ b ≠ [] := by simp [dashes]
  by_cases h0 : Ev.bytes evs = []
  · have : evs = [] := by
      cases evs with
      | nil => rfl
      | cons ev r =>
        match ev with
        | .err e => exact absurd (List.mem_cons_self ..) (he e)
        | .data [] => exact absurd (List.mem_cons_self ..) hn
        | .data (x :: xs) => simp [Ev.bytes] at h0
    subst this
    refine exact_of_clean hD hn he ?_ hP hr
    rintro k ⟨p, q, h1, h2⟩
    have : p = [] := by cases p <;> simp at h1 ⊢
    subst this
    simp [Ev.bytes] at h2
  · have hb : Ev.bytes evs = Ev.bytes [.data (Ev.bytes evs)] := by simp [Ev.bytes]
    have hn1 : NoStall [.data (Ev.bytes evs)] := by
      intro h
      simp only [List.mem_singleton, Ev.data.injEq] at h
      exact h0 h.symm
    have he1 : NoErr [.data (Ev.bytes evs)] := by intro e; simp
    exact exact_of_clean hD hn1 he1 (single_cleanSplit hd) (hb ▸ hP) ((C93_reads_partial hn he hn1 he1 hb hl).mp hr)

/-- C24 and C34 in the same way: of a small request, sent with success by the client and received in any pieces, exactly the fields that were sent come out. -/
theorem C93_round_trip_partial {env : FileEnv} {req : ClientReq} {s : ClientStream} {os : List ClientOp} {fs : List OutField} {cts : List (Option Mime)} (hD : D.Sane) (hT : D.Tokenizes)
    (hb : SafeBoundary b) (h : plainRequest env req b os = (.ok (), some s)) (hos : All2 (StandsFor env) os fs) (hs : All2 (Sendable D b) fs cts) (hn : NoStall evs) (hne : NoErr evs)
    (he : Ev.bytes evs = s.sink.got) (hl : s.sink.got.length ≤ entryBuf (dashes ++ b)) {got : List (FieldHeaders × Bytes)} {fin : Ending} (hr : Reads D (withBody evs b) got fin) :
    got = List.zipWith OutField.asRead fs cts ∧ fin = .closed :=
  C93_exact_partial hD hn hne (by rw [he]; exact hl) (sent_parts hT hb h hos hs he) hr

theorem C93_lazy_round_trip_partial {env : LazyEnv} {p : Prepared} {ns : List Nat} {os : List ClientOp} {fs : List OutField} {cts : List (Option Mime)} (hD : D.Sane) (hT : D.Tokenizes)
    (hb : SafeBoundary b) (h : PreparedFrom env b os p) (hr : NoReadErr env.toFileEnv os) (ho : os ≠ []) (hos : All2 (StandsFor env.toFileEnv) os fs) (hs : All2 (Sendable D b) (lazyOrder fs) cts)
    (hn : NoStall evs) (hne : NoErr evs) (hu : ReadsOut p ns (Ev.bytes evs)) (hl : (Ev.bytes evs).length ≤ entryBuf (dashes ++ b)) {got : List (FieldHeaders × Bytes)} {fin : Ending}
    (hrd : Reads D (withBody evs b) got fin) : got = List.zipWith OutField.asRead (lazyOrder fs) cts ∧ fin = .closed :=
  C93_exact_partial hD hn hne hl (prepared_parts hT hb h hr ho hos hs hu rfl) hrd

namespace Sample

/-- The body of `evs` byte by byte. -/
def bytewise : List Ev := (Ev.bytes evsTwo).map fun c => .data [c]

theorem bytewise_eq : Ev.bytes bytewise = Ev.bytes evsTwo := by decide +kernel

theorem parts_big : Parts refDeps (dashes ++ bnd) (b!"--b\r\n" ++ (hdr ++ (big ++ b!"\r\n--b--\r\n"))) [(fh, big)] .closed :=
  .part (X := big ++ b!"\r\n--b--\r\n") (.part (p := 0) (by decide +kernel) (by decide +kernel))
    ⟨⟨hdr, _, headerBlock (by decide +kernel), by decide +kernel, by decide, fun h => absurd h (by
      intro h
      have : findSub (dashes ++ bnd) (big ++ b!"\r\n--b--\r\n") = some (big.length + 2) := by decide +kernel
      exact (findSub_some this).2 _ (by omega) h.1)⟩, .crlf (findSub_some (by decide +kernel)) ⟨b!"--b--\r\n", by decide +kernel⟩⟩
    (.close (.close (p := 1102) (rest := b!"\r\n") (findSub_some (by decide +kernel)) (by decide +kernel)))

def sCr' : BR := (sCr.run [.read 2000, .read 2000, .read 2000]).2

theorem endCr : (sCr'.readEntry refDeps).1 = .ok none := by decide +kernel

theorem evsCr_reads : Reads refDeps (withBody evsCr bnd) [(fh, big ++ crlf)] .closed := by
  have h : Reads refDeps sCr' [] .closed := .close (pair_eq endCr rfl)
  have h := Reads.entry (D := refDeps) (os := [.read 2000, .read 2000, .read 2000]) entryCr eofCr h
  rwa [readCr] at h

end Sample

/-- The hypotheses of C93_same_partial, C93_session_partial, C93_reads_partial, C93_saved_partial and C93_exact_partial are met. -/
example : NoStall Sample.evsTwo ∧ NoErr Sample.evsTwo ∧ NoStall Sample.bytewise ∧ NoErr Sample.bytewise ∧ Ev.bytes Sample.evsTwo = Ev.bytes Sample.bytewise ∧
    (Ev.bytes Sample.evsTwo).length ≤ entryBuf (dashes ++ Sample.bnd) ∧ ∃ es, Parts refDeps (dashes ++ Sample.bnd) (Ev.bytes Sample.evsTwo) es .closed :=
  ⟨by decide +kernel, by intro e; simp [Sample.evsTwo], by decide +kernel, by intro e; simp [Sample.bytewise], Sample.bytewise_eq.symm, by decide +kernel, _, Sample.partsTwo⟩

/-- The bodies of the examples of C24 (for C93_round_trip_partial) and of C34 (for C93_lazy_round_trip_partial) are small enough. -/
example : Sample.sent.sink.got.length ≤ entryBuf (dashes ++ b!"b") ∧ (Ev.bytes [.data Sample.lread]).length ≤ entryBuf (dashes ++ b!"b") := by decide +kernel

/-- C93 is false of the code for larger bodies, even with a clean end: of the same body the field comes out with or without a CRLF, see C01. -/
theorem C93_false : ¬ SplitDoesNotMatter refDeps := by
  intro h
  obtain ⟨got', fin', h1, rfl, rfl⟩ := h Sample.evsCr [.data (b!"--b\r\n" ++ (Sample.hdr ++ (Sample.big ++ b!"\r\n--b--\r\n")))] Sample.bnd _ _ (by decide +kernel) (by intro e; simp [Sample.evsCr])
    (by decide +kernel) (by intro e; simp) (by decide +kernel) Sample.evsCr_reads
  obtain ⟨h2, -⟩ := exact_of_clean (es := [(Sample.fh, Sample.big)]) (fin := .closed) refDeps_sane (by decide +kernel) (by intro e; simp) (single_cleanSplit (by simp [dashes]))
    (by have := Sample.parts_big; simpa [Ev.bytes] using this) h1
  simp [crlf] at h2

end Multipart

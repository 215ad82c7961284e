import Verif.Lemmas.Held
import Verif.Props.Lazy
import Verif.Props.Requests
/-!
# C100: reads smaller than the minimum buffer are exact

The defect of C01 needs a read of at least 1024 bytes (or twice the delimiter, if that is more): a shorter one leaves the CR at the end of the buffer there.
-/
namespace Multipart
variable {D : Deps} {evs : List Ev} {b : Bytes} {s0 s : BR} {fh : FieldHeaders}

/-- C100: a field that is read to its end by reads of fewer than `entryBuf` (at least 1024) bytes gives its data exactly, for every split of the body into reads, and also
if some of these reads fail in between. -/
theorem C100_field (hD : D.Sane) (hn : NoStall evs) (hr : Reachable D evs b s0) (he : s0.readEntry D = (.ok (some fh), s)) {dat : Bytes}
    (hd : FieldData (dashes ++ b) s.unread dat) {os : List FieldOp} (hos : ∀ o ∈ os, o.below (entryBuf (dashes ++ b))) (heof : (s.run os).2.AtEof) : (s.run os).1 = dat := by
  obtain ⟨hi, hu, hdl, hev⟩ := hr.spec hD
  rw [← hdl] at hd hos
  exact BR.field_small hD hi hev hu (Nat.le_refl _) he hn hd hos heof

theorem All2.eq_of {α β : Type} {as es : List (α × β)} (h : All2 (fun a b => a.1 = b.1 ∧ a.2 = b.2) as es) : as = es := by
  induction h with
  | nil => rfl
  | cons hr _ ih => rw [ih]; congr 1; exact Prod.ext hr.1 hr.2

/-- C100: whoever reads every field in this way gets exactly the parts of the body. -/
theorem C100_entries (hD : D.Sane) (hn : NoStall evs) (hne : NoErr evs) {m : Nat} (hm : m ≤ entryBuf (dashes ++ b)) {es got : List (FieldHeaders × Bytes)} {fin fin' : Ending}
    (hP : Parts D (dashes ++ b) (Ev.bytes evs) es fin) (hR : ReadsBelow D m (withBody evs b) got fin') : fin' = fin ∧ got = es := by
  have := readsBelow_parts hD hn hne hm hR (BR.fromReader_inv evs b) rfl List.suffix_rfl (by simp [withBody, BR.fromReader, BR.unread])
    (by simp [withBody, BR.fromReader]) (.inl (by intro h; simp [withBody, BR.fromReader] at h))
    (by simpa [withBody, BR.fromReader, BR.unread] using hP)
  exact ⟨this.1, this.2.eq_of⟩

example : NoStall Sample.evsTwo ∧ NoErr Sample.evsTwo ∧ 1024 ≤ entryBuf (dashes ++ Sample.bnd) ∧
    Parts refDeps (dashes ++ Sample.bnd) (Ev.bytes Sample.evsTwo) [(Sample.fh, b!"one"), (Sample.fh, b!"two")] .closed :=
  ⟨by decide +kernel, by intro e; simp [Sample.evsTwo], by decide, Sample.partsTwo⟩

/-- There is always such a reading, for buffers of any size: with reads of `n` bytes, if 0 < n < m. -/
theorem C100_total (hD : D.Sane) {m n : Nat} (h0 : 0 < n) (hnm : n < m) (hr : Reachable D evs b s) : ∃ got fin, ReadsBelow D m s got fin := by
  have key : ∀ (k : Nat) {s : BR}, s.Inv → s.unread.length ≤ k → ∃ got fin, ReadsBelow D m s got fin := by
    intro k
    induction k with
    | zero =>
      intro s h hk
      rcases hr : s.readEntry D with ⟨r, t⟩
      have hp := BR.readEntry_noPanic hD h
      rw [hr] at hp
      cases r with
      | err e => exact ⟨_, _, .fail hr⟩
      | panic => simp at hp
      | hang => simp at hp
      | ok o =>
        cases o with
        | none => exact ⟨_, _, .close hr⟩
        | some fh => have := BR.readEntry_shrinks hD h hr; omega
    | succ k ih =>
      intro s h hk
      rcases hr : s.readEntry D with ⟨r, t⟩
      have hp := BR.readEntry_noPanic hD h
      rw [hr] at hp
      cases r with
      | err e => exact ⟨_, _, .fail hr⟩
      | panic => simp at hp
      | hang => simp at hp
      | ok o =>
        cases o with
        | none => exact ⟨_, _, .close hr⟩
        | some fh =>
          have hsh := BR.readEntry_shrinks hD h hr
          have hti : t.Inv := by have := BR.readEntry_inv hD h; rw [hr] at this; exact this
          obtain ⟨j, _, hj⟩ := BR.reaches_eof h0 _ hti (Nat.le_refl _)
          have hu := congrArg List.length (BR.run_unread (List.replicate j (.read n)) hti)
          simp only [List.length_append] at hu
          obtain ⟨got, fin, hg⟩ := ih (BR.run_inv (List.replicate j (.read n)) hti) (by omega)
          exact ⟨_, _, .entry hr (fun o ho => by rw [List.eq_of_mem_replicate ho]; exact hnm) hj hg⟩
  exact key _ (hr.spec hD).1 (Nat.le_refl _)

/-- C100: what a client has sent (C24) is read back as it was, in every split of the body. -/
theorem C100_round_trip {env : FileEnv} {req : ClientReq} {st : ClientStream} {os : List ClientOp} {fs : List OutField} {cts : List (Option Mime)} (hD : D.Sane) (hT : D.Tokenizes)
    (hb : SafeBoundary b) (h : plainRequest env req b os = (.ok (), some st)) (hos : All2 (StandsFor env) os fs) (hs : All2 (Sendable D b) fs cts) (hn : NoStall evs) (hne : NoErr evs)
    (he : Ev.bytes evs = st.sink.got) {m : Nat} (hm : m ≤ entryBuf (dashes ++ b)) {got : List (FieldHeaders × Bytes)} {fin : Ending} (hr : ReadsBelow D m (withBody evs b) got fin) :
    fin = .closed ∧ got = List.zipWith OutField.asRead fs cts :=
  C100_entries hD hn hne hm (sent_parts hT hb h hos hs he) hr

example : refDeps.Sane ∧ refDeps.Tokenizes ∧ SafeBoundary b!"b" ∧ plainRequest Sample.env Sample.req b!"b" Sample.ops = (.ok (), some Sample.sent) ∧
    All2 (StandsFor Sample.env) Sample.ops Sample.flds ∧ All2 (Sendable refDeps b!"b") Sample.flds Sample.flctypes ∧ NoStall Sample.sentEvs ∧ NoErr Sample.sentEvs ∧
    Ev.bytes Sample.sentEvs = Sample.sent.sink.got ∧ ∃ got fin, ReadsBelow refDeps 1024 (withBody Sample.sentEvs b!"b") got fin :=
  ⟨refDeps_sane, refDeps_tokenizes, ⟨by simp, by decide⟩, Sample.sent_eq, Sample.ops_fields, Sample.sendable, by decide +kernel, by intro e; simp [Sample.sentEvs], by decide +kernel,
    C100_total refDeps_sane (n := 100) (by decide) (by decide) ⟨[], rfl⟩⟩

/-- The same for a lazy client (C34). -/
theorem C100_lazy_round_trip {env : LazyEnv} {p : Prepared} {ns : List Nat} {os : List ClientOp} {fs : List OutField} {cts : List (Option Mime)} (hD : D.Sane) (hT : D.Tokenizes)
    (hb : SafeBoundary b) (h : PreparedFrom env b os p) (hr : NoReadErr env.toFileEnv os) (ho : os ≠ []) (hos : All2 (StandsFor env.toFileEnv) os fs) (hs : All2 (Sendable D b) (lazyOrder fs) cts)
    (hn : NoStall evs) (hne : NoErr evs) (hu : ReadsOut p ns (Ev.bytes evs)) {m : Nat} (hm : m ≤ entryBuf (dashes ++ b)) {got : List (FieldHeaders × Bytes)} {fin : Ending}
    (hrd : ReadsBelow D m (withBody evs b) got fin) : fin = .closed ∧ got = List.zipWith OutField.asRead (lazyOrder fs) cts :=
  C100_entries hD hn hne hm (prepared_parts hT hb h hr ho hos hs hu rfl) hrd

namespace Sample

/-- A field of 1023 bytes, all of which arrive with the CR behind them in one read. -/
def edge : Bytes := List.replicate 1023 0x61

def evsEdge : List Ev := [.data (b!"--b\r\n" ++ hdr ++ edge ++ [0x0D]), .data b!"\n--b--\r\n"]

def sEdge : BR := ((withBody evsEdge bnd).readEntry refDeps).2

theorem entryEdge : (withBody evsEdge bnd).readEntry refDeps = (.ok (some Sample.fh), sEdge) := by
  have h : ((withBody evsEdge bnd).readEntry refDeps).1 = .ok (some Sample.fh) := by decide +kernel
  have h2 : ((withBody evsEdge bnd).readEntry refDeps).2 = sEdge := sEdge.eq_def.symm
  exact pair_eq h h2

theorem readEdge : (sEdge.run [.read 1024, .read 1024]).1 = edge ++ crlf := by decide +kernel

theorem eofEdge : (sEdge.run [.read 1024, .read 1024]).2.AtEof := by unfold BR.AtEof; decide +kernel

theorem smallEdge : (sEdge.run [.read 1023, .read 1023]).1 = edge := by decide +kernel

theorem smallEofEdge : (sEdge.run [.read 1023, .read 1023]).2.AtEof := by unfold BR.AtEof; decide +kernel

theorem unreadEdge : sEdge.unread = edge ++ b!"\r\n--b--\r\n" := by decide +kernel

theorem dataEdge : FieldData (dashes ++ bnd) sEdge.unread edge := by
  rw [unreadEdge]
  exact .crlf (findSub_some (by decide +kernel)) ⟨b!"--b--\r\n", by decide +kernel⟩

end Sample

/-- The hypotheses of C100_field are met. -/
example : Reachable refDeps Sample.evsEdge Sample.bnd (withBody Sample.evsEdge Sample.bnd) ∧ NoStall Sample.evsEdge ∧
    (withBody Sample.evsEdge Sample.bnd).readEntry refDeps = (.ok (some Sample.fh), Sample.sEdge) ∧ FieldData (dashes ++ Sample.bnd) Sample.sEdge.unread Sample.edge ∧
    (∀ o ∈ [FieldOp.read 1023, .read 1023], o.below (entryBuf (dashes ++ Sample.bnd))) ∧ (Sample.sEdge.run [.read 1023, .read 1023]).2.AtEof :=
  ⟨⟨[], rfl⟩, by decide +kernel, Sample.entryEdge, Sample.dataEdge, by intro o ho; simp at ho; subst ho; show 1023 < entryBuf (dashes ++ Sample.bnd); decide, Sample.smallEofEdge⟩

/-- C100 is sharp: with reads of one byte more it is false. -/
theorem C100_sharp : ¬ ∀ (evs : List Ev) (b : Bytes) (s0 s : BR) (fh : FieldHeaders) (dat : Bytes) (os : List FieldOp), NoStall evs → Reachable refDeps evs b s0 →
    s0.readEntry refDeps = (.ok (some fh), s) → FieldData (dashes ++ b) s.unread dat → (∀ o ∈ os, o.below (entryBuf (dashes ++ b) + 1)) → (s.run os).2.AtEof → (s.run os).1 = dat := by
  intro h
  have := h Sample.evsEdge Sample.bnd _ _ _ Sample.edge _ (by decide +kernel) ⟨[], rfl⟩ Sample.entryEdge Sample.dataEdge
    (by intro o ho; simp at ho; subst ho; show 1024 < entryBuf (dashes ++ Sample.bnd) + 1; decide) Sample.eofEdge
  rw [Sample.readEdge] at this
  have := congrArg List.length this
  simp [crlf] at this

/-- The hypotheses of C100_lazy_round_trip are met. -/
example : refDeps.Sane ∧ refDeps.Tokenizes ∧ SafeBoundary b!"b" ∧ PreparedFrom Sample.lenv b!"b" Sample.lops (Sample.lprep Sample.lops) ∧ NoReadErr Sample.lenv.toFileEnv Sample.lops ∧ Sample.lops ≠ [] ∧
    All2 (StandsFor Sample.lenv.toFileEnv) Sample.lops Sample.lflds ∧ All2 (Sendable refDeps b!"b") (lazyOrder Sample.lflds) Sample.lctypes ∧
    ReadsOut (Sample.lprep Sample.lops) [7, 50, 300, 300] (Ev.bytes [.data Sample.lread]) ∧ ∃ got fin, ReadsBelow refDeps 1024 (withBody [.data Sample.lread] b!"b") got fin :=
  ⟨refDeps_sane, refDeps_tokenizes, ⟨by simp, by decide⟩, Sample.lprep_ok (by decide +kernel), Sample.lops_noErr, by simp [Sample.lops], Sample.lops_fields, Sample.lsendable,
    ⟨by decide, by decide +kernel, (List.append_nil Sample.lread).symm⟩, C100_total refDeps_sane (n := 100) (by decide) (by decide) ⟨[], rfl⟩⟩

end Multipart

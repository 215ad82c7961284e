import Verif.Props.Tolerant
/-!
# C126: parts without a body
-/
namespace Multipart

variable {D : Deps} {evs : List Ev} {b d : Bytes} {s t : BR} {es got : List (FieldHeaders × Bytes)} {fin fin' : Ending} {u w rest H X : Bytes} {hs : List Header} {fh : FieldHeaders}

/-- C126, the full claim: a part that consists of its headers only (the delimiter comes directly behind the blank line, which RFC 2046 allows) is read as a field without data. -/
def BodilessIsEmpty (D : Deps) : Prop :=
  ∀ (evs : List Ev) (b rest H X : Bytes) (hs : List Header) (fh : FieldHeaders), NoStall evs → NoErr evs → NextIs (dashes ++ b) (Ev.bytes evs) (.part rest) → HeaderBlock D (dashes ++ b) rest H hs X →
    FieldHeaders.parse D hs = .ok fh → H.length + (dashes ++ b).length + 1 ≤ entryBuf (dashes ++ b) → dashes ++ b <+: X → ((withBody evs b).readEntry D).1 = .ok (some fh)

theorem firstAt_behind (hH : HeaderBlock D d rest H hs X) (hX : d <+: X) : FirstAt d rest H.length := by
  refine ⟨?_, hH.noDelim⟩
  unfold OccursAt
  rw [hH.split, List.drop_left]; exact hX

/-- C126, what happens instead: such a part has no headers of a field as far as they are shown, because the CRLF of the blank line is taken for that of the delimiter. -/
theorem C126_refused (hD : D.Sane) (hI : D.Incremental) (hH : HeaderBlock D d rest H hs X) (hX : d <+: X) (hc : crlf <:+ H) (hb : H.length ≤ entryBuf d) : NoFieldHeaders D d rest := by
  rintro P n hs' ⟨⟨z, hz⟩, -, hnear⟩ hP - fh -
  have h1 := hI P n hs' hP z
  have h2 := hH.parses X
  rw [hz, hH.split, h2] at h1
  simp only [HParse.complete.injEq] at h1
  have h3 := hD.len _ _ _ hP
  obtain ⟨y, hy⟩ := hc
  have hl : H.length = y.length + 2 := by rw [← hy]; simp [crlf]
  have hf := firstAt_behind hH hX
  rw [hl] at hf hb
  have hcr : OccursAt crlf rest y.length := by
    unfold OccursAt
    rw [hH.split, ← hy, List.append_assoc, List.drop_left]; exact List.prefix_append _ _
  have := hnear _ hf hcr hb
  omega

namespace Sample

/-- A part, one without a body, and another part. -/
def evsBare : List Ev := [.data (b!"--b\r\n" ++ hdr ++ b!"one\r\n--b\r\n" ++ hdr), .data (b!"--b\r\n" ++ hdr ++ b!"two\r\n--b--\r\n")]

def bareX : Bytes := b!"--b\r\n" ++ hdr ++ b!"two\r\n--b--\r\n"

theorem bare_block : HeaderBlock refDeps (dashes ++ bnd) (hdr ++ bareX) hdr [⟨b!"Content-Disposition", b!"form-data; name=\"a\""⟩] bareX := headerBlock (by decide +kernel)

theorem bare_refused : NoFieldHeaders refDeps (dashes ++ bnd) (hdr ++ bareX) :=
  C126_refused refDeps_sane refDeps_incremental bare_block (List.isPrefixOf_iff_prefix.mp (by decide +kernel)) ⟨b!"Content-Disposition: form-data; name=\"a\"\r\n", by decide +kernel⟩ (by decide)

theorem bare_parts : PartsTo refDeps (dashes ++ bnd) (Ev.bytes evsBare) [(Sample.fh, b!"one")] (b!"one\r\n--b\r\n" ++ hdr ++ bareX) :=
  .part (rest := hdr ++ (b!"one\r\n--b\r\n" ++ hdr ++ bareX)) (.part (p := 0) (findSub_some (by decide +kernel)) (by decide +kernel))
    ⟨⟨hdr, _, headerBlock (by decide +kernel), by decide +kernel, by decide, fun h => absurd h (by decide)⟩, .crlf (findSub_some (by decide +kernel)) (List.isPrefixOf_iff_prefix.mp (by decide +kernel))⟩ .nil

/-- The part without a body in front. -/
def evsBare1 : List Ev := [.data b!"--b\r\nContent-Disposition: form-da", .data b!"ta; name=\"a\"\r\n\r\n--b\r\nContent-Disposition: form-data; name=\"a\"\r\n\r\ntwo\r\n--b--\r\n"]

theorem bare1_next : NextIs (dashes ++ bnd) (Ev.bytes evsBare1) (.part (hdr ++ bareX)) := .part (p := 0) (findSub_some (by decide +kernel)) (by decide +kernel)

/-- Empty, but with the CRLF. -/
def evsEmptyPart : List Ev := [.data b!"--b\r\nContent-Disposition: form-data; name=\"a\"\r\n\r\n\r", .data b!"\n--b--\r\n"]

end Sample

/-- The hypotheses of C126_refused are met. -/
example : HeaderBlock refDeps (dashes ++ Sample.bnd) (Sample.hdr ++ Sample.bareX) Sample.hdr [⟨b!"Content-Disposition", b!"form-data; name=\"a\""⟩] Sample.bareX ∧ dashes ++ Sample.bnd <+: Sample.bareX ∧
    crlf <:+ Sample.hdr ∧ Sample.hdr.length ≤ entryBuf (dashes ++ Sample.bnd) ∧ NoFieldHeaders refDeps (dashes ++ Sample.bnd) (Sample.hdr ++ Sample.bareX) :=
  ⟨Sample.bare_block, List.isPrefixOf_iff_prefix.mp (by decide +kernel), ⟨b!"Content-Disposition: form-data; name=\"a\"\r\n", by decide +kernel⟩, by decide, Sample.bare_refused⟩

/-- C126 is false of the code as stated. -/
theorem C126_false : ¬ BodilessIsEmpty refDeps := by
  intro h
  have := h Sample.evsBare1 Sample.bnd _ _ _ _ Sample.fh (by decide +kernel) (by intro e; simp [Sample.evsBare1]) Sample.bare1_next Sample.bare_block (by decide +kernel) (by decide)
    (List.isPrefixOf_iff_prefix.mp (by decide +kernel))
  have h2 : ((withBody Sample.evsBare1 Sample.bnd).readEntry refDeps).1 = .err .invalidData := by decide +kernel
  rw [h2] at this
  cases this

/-- C126: a caller who reads all entries gets the parts in front of one without a body, and then `InvalidData`. -/
theorem C126_reads (hD : D.Sane) (hI : D.Incremental) (hn : NoStall evs) (hne : NoErr evs) (hP : PartsTo D (dashes ++ b) (Ev.bytes evs) es w) (hw : NextIs (dashes ++ b) w (.part rest))
    (hH : HeaderBlock D (dashes ++ b) rest H hs X) (hX : dashes ++ b <+: X) (hc : crlf <:+ H) (hb : H.length ≤ entryBuf (dashes ++ b)) (hr : Reads D (withBody evs b) got fin) :
    fin = .failed .invalidData ∧ All2 (fun a p => a.1 = p.1 ∧ DataOk (dashes ++ b) evs p.2 a.2) got es :=
  C120_reads hD hn hne hP hw (C126_refused hD hI hH hX hc hb) hr

/-- The hypotheses of C126_reads are met. -/
example : ∃ got, Reads refDeps (withBody Sample.evsBare Sample.bnd) got (.failed .invalidData) ∧ All2 (fun a e => a.1 = e.1 ∧ DataOk (dashes ++ Sample.bnd) Sample.evsBare e.2 a.2) got [(Sample.fh, b!"one")] := by
  obtain ⟨got, fin, hr⟩ := C10_reads_total (evs := Sample.evsBare) (b := Sample.bnd) refDeps_sane ⟨[], rfl⟩
  obtain ⟨rfl, h⟩ := C126_reads refDeps_sane refDeps_incremental (by decide +kernel) (by intro e; simp [Sample.evsBare]) Sample.bare_parts (.part (p := 5) (findSub_some (by decide +kernel)) (by decide +kernel))
    Sample.bare_block (List.isPrefixOf_iff_prefix.mp (by decide +kernel)) ⟨b!"Content-Disposition: form-data; name=\"a\"\r\n", by decide +kernel⟩ (by decide) hr
  exact ⟨got, hr, h⟩

/-- C126: such a part is to a caller who goes on after `InvalidData` as any with bad headers: what is behind it is read (under the conditions of C122). -/
theorem C126_goes_on {ms : List (Option (FieldHeaders × Bytes))} (hD : D.Sane) (hI : D.Incremental) (hd : d ≠ []) (hu : NextIs d u (.part rest)) (hH : HeaderBlock D d rest H hs X) (hX : d <+: X) (hc : crlf <:+ H)
    (hb : H.length ≤ entryBuf d) (hm : MixedParts D d X ms fin) : MixedParts D d u (none :: ms) fin :=
  .bad hu (C126_refused hD hI hH hX hc hb) (hm.same fun v hv => NextIs.of_drop (k := H.length) hd (by rw [hH.split, List.drop_left]; exact hv) hH.noDelim)

/-- The hypotheses of C126_goes_on are met: the part behind the one without a body is read. -/
example : ∃ got, TolerantReads refDeps (withBody Sample.evsBare1 Sample.bnd) got .closed ∧ All2 (GotPart (dashes ++ Sample.bnd) Sample.evsBare1) got [none, some (Sample.fh, b!"two")] := by
  have hm : MixedParts refDeps (dashes ++ Sample.bnd) (Ev.bytes Sample.evsBare1) [none, some (Sample.fh, b!"two")] .closed :=
    C126_goes_on refDeps_sane refDeps_incremental (by decide) Sample.bare1_next Sample.bare_block (List.isPrefixOf_iff_prefix.mp (by decide +kernel)) ⟨b!"Content-Disposition: form-data; name=\"a\"\r\n", by decide +kernel⟩
      (by decide) (.part (rest := Sample.hdr ++ b!"two\r\n--b--\r\n") (.part (p := 0) (findSub_some (by decide +kernel)) (by decide +kernel))
        ⟨⟨Sample.hdr, _, Sample.headerBlock (by decide +kernel), by decide +kernel, by decide, fun h => absurd h (by decide)⟩, .crlf (by decide) ⟨b!"--b--\r\n", rfl⟩⟩
        (.close (rest := b!"\r\n") (.close (p := 5) (findSub_some (by decide +kernel)) (by decide +kernel))))
  have hs : ShortBadParts refDeps (dashes ++ Sample.bnd) (Ev.bytes Sample.evsBare1) := .of_small (by decide +kernel)
  obtain ⟨got, h⟩ := C122_ends_partial (evs := Sample.evsBare1) refDeps_sane (by decide +kernel) (by intro e; simp [Sample.evsBare1]) (.inr hs) hm
  exact ⟨got, h, (C122_reads_partial refDeps_sane (by decide +kernel) (by intro e; simp [Sample.evsBare1]) (.inr hs) hm h).2⟩

/-- C126, as far as it holds: with an empty body, so with CRLF in front of the delimiter line and behind the blank line, it is read as a field without data. Missing: without this CRLF. -/
theorem C126_empty_partial (hD : D.Sane) (hn : NoStall evs) (hne : NoErr evs) (hu : NextIs (dashes ++ b) (Ev.bytes evs) (.part rest)) (hH : HeaderBlock D (dashes ++ b) rest H hs X)
    (hp : FieldHeaders.parse D hs = .ok fh) (hb : H.length + (dashes ++ b).length + 1 ≤ entryBuf (dashes ++ b)) (hX : crlf ++ (dashes ++ b) <+: X) :
    ((withBody evs b).readEntry D).1 = .ok (some fh) ∧ ((withBody evs b).readEntry D).2.unread = X ∧ FieldData (dashes ++ b) X [] := by
  obtain ⟨y, rfl⟩ := hX
  have hfd : FieldData (dashes ++ b) (crlf ++ (dashes ++ b) ++ y) [] := by
    refine .crlf ⟨?_, ?_⟩ ?_
    · exact List.prefix_append _ _
    · intro q hq h
      match q, hq with
      | 0, _ => simp [OccursAt, crlf, dashes] at h
      | 1, _ => simp [OccursAt, crlf, dashes] at h
    · simp
  have hf0 : ¬ FirstAt (dashes ++ b) (crlf ++ (dashes ++ b) ++ y) ([] : Bytes).length := by
    intro h
    have := h.1
    simp [OccursAt, crlf, dashes] at this
  have hdr : (withBody evs b).Drained := by intro h; simp [withBody, BR.fromReader] at h
  have hun : (withBody evs b).unread = Ev.bytes evs := by simp [withBody, BR.fromReader, BR.unread]
  have := (BR.readEntry_verdict (s := withBody evs b) hD (BR.fromReader_inv evs b) (by simp [withBody, BR.fromReader]) (.inl hdr) hn hne List.suffix_rfl (by rw [hun]; exact List.suffix_rfl)).2 rest H _ []
    hs fh (by rw [hun]; exact hu) hH hfd (fun h => absurd h hf0) hb hp
  exact ⟨this.1, this.2, hfd⟩

/-- The hypotheses of C126_empty_partial are met. -/
example : ((withBody Sample.evsEmptyPart Sample.bnd).readEntry refDeps).1 = .ok (some Sample.fh) :=
  (C126_empty_partial (rest := Sample.hdr ++ b!"\r\n--b--\r\n") (X := b!"\r\n--b--\r\n") refDeps_sane (by decide +kernel) (by intro e; simp [Sample.evsEmptyPart])
    (.part (p := 0) (findSub_some (by decide +kernel)) (by decide +kernel)) (Sample.headerBlock (by decide +kernel)) (by decide +kernel) (by decide) ⟨b!"--\r\n", rfl⟩).1

end Multipart

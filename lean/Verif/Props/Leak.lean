import Verif.Lemmas.Leak
import Verif.Props.Sample
/-!
# C01: the two bytes too many, in every body with a long enough field

The counterexample to C01 is not a peculiar one: if the CRLF in front of a delimiter is behind at least `entryBuf` bytes of data, there
is a way for the body to arrive, in reads of a usual size, such that this CRLF is taken for data.
-/
namespace Multipart
variable {D : Deps} {b : Bytes} {fh : FieldHeaders} {s : BR}

/-- C01 fails for every field that is long enough, whatever was called before (without enlarging the buffer), when its data arrive in reads that fill the minimum buffer (`Ps`: the first with the last byte of
the headers or earlier, the last ends with the CR in front of the delimiter): to every caller whose reads have room for all that may be buffered, the CRLF is handed out as the end of the data. -/
theorem C01_leaks (hD : D.Sane) (hcr : (0x0D : Byte) ∉ b) {dat post : Bytes} {G Ps B : List Ev} {os : List SOp} {k : Nat} (hn : NoStall (G ++ Ps ++ B)) (hk : ReadsUpTo k (G ++ Ps ++ B))
    (hP : ReadsFrom (entryBuf (dashes ++ b)) Ps) (hB : Ev.bytes B = 0x0A :: (dashes ++ b ++ post)) (hlen : dat.length + 1 < (Ev.bytes Ps).length)
    (hos : ∀ n, SOp.field (.setMin n) ∈ os → n ≤ entryBuf (dashes ++ b))
    (he : ((withBody (G ++ Ps ++ B) b).session D os).readEntry D = (.ok (some fh), s))
    (hX : s.unread = dat ++ crlf ++ (dashes ++ b) ++ post) (hf : FirstAt (dashes ++ b) s.unread (dat.length + 2))
    (hlong : entryBuf (dashes ++ b) ≤ dat.length + 1) {rs : List FieldOp} (hrs : ∀ o ∈ rs, TakesAll (entryBuf (dashes ++ b) + k) o) (heof : (s.run rs).2.AtEof) :
    (s.run rs).1 = dat ++ crlf := by
  have hB0 : B ≠ [] := by rintro rfl; cases hB
  have hlate : ∀ before after, G ++ Ps ++ B = before ++ after → after ≠ [] → ((withBody (G ++ Ps ++ B) b).session D os).Late (entryBuf (dashes ++ b)) after := by
    intro before after h ha
    exact BR.Late.session hD ha os ⟨BR.fromReader_inv _ _, Nat.le_max_left _ _, .inl ⟨before, h⟩⟩ (Nat.le_refl _) hos
  obtain ⟨h1, h2, h3, h4⟩ := BR.session_spec (D := D) hD os (BR.fromReader_inv (G ++ Ps ++ B) b)
  have hXe : s.unread = dat ++ [0x0D] ++ Ev.bytes B := by rw [hX, hB]; simp [crlf]
  have hse : s.evs <:+ ((withBody (G ++ Ps ++ B) b).session D os).evs := by have := BR.readEntry_evs hD h1; rw [show ((BR.fromReader (G ++ Ps ++ B) b).session D os).readEntry D = _ from he] at this; exact this
  have hsu : s.unread <:+ ((withBody (G ++ Ps ++ B) b).session D os).unread := by have := BR.readEntry_suffix hD h1; rw [show ((BR.fromReader (G ++ Ps ++ B) b).session D os).readEntry D = _ from he] at this; exact this
  have hbuf : s.buf.length < entryBuf (dashes ++ b) + k := by
    refine BR.buffer_of_late (Nat.lt_of_lt_of_le (by decide) (Nat.le_max_left 1024 _)) hk (hse.trans h4) (hsu.trans h2) fun before after h ha => ?_
    have := (hlate before after h ha).readEntry (D := D) ha (by unfold withBody; rw [h3]; exact Nat.le_refl _)
    rw [he] at this
    exact this
  exact BR.leak_field hD hB0 h3 hn (show (0x0D : Byte) ∉ dashes ++ b by simpa [dashes] using hcr) (hlate (G ++ Ps) B rfl hB0) h4 h2 he hXe
    (.crlf hf (by rw [hX, List.append_assoc]; exact List.prefix_append _ _)) hf hlong hP hlen
    (fun bs hb => Nat.add_le_add_left (hk bs (by simp [hb])) _) (Nat.le_of_lt hbuf) hrs heof

/-- C01 fails in every body with a long enough field: some way for this body to arrive, in reads of less than twice the minimum buffer, and a caller who reads all fields to their ends, with the CRLF in
front of the delimiter as part of the data of this field. -/
theorem C01_leaks_somehow (hD : D.Sane) (hcr : (0x0D : Byte) ∉ b) {body w rest dat X : Bytes} {es es' : List (FieldHeaders × Bytes)} {fin : Ending}
    (hP : PartsTo D (dashes ++ b) body es w) (hN : NextIs (dashes ++ b) w (.part rest)) (hW : WellFormedPart D (dashes ++ b) rest fh dat X)
    (hX : dat ++ crlf ++ (dashes ++ b) <+: X) (hlong : entryBuf (dashes ++ b) ≤ dat.length + 1) (hR : Parts D (dashes ++ b) X es' fin) :
    ∃ evs got, Ev.bytes evs = body ∧ NoStall evs ∧ NoErr evs ∧ ReadsUpTo (2 * entryBuf (dashes ++ b)) evs ∧ Reads D (withBody evs b) got fin ∧ got[es.length]? = some (fh, dat ++ crlf) := by
  obtain ⟨post, hpost⟩ := hX
  subst hpost
  have hf : FirstAt (dashes ++ b) (dat ++ crlf ++ (dashes ++ b) ++ post) (dat.length + 2) := by
    cases hW.data with
    | crlf a _ => exact a
    | bare a _ _ =>
      exfalso
      have := a.1
      unfold OccursAt at this
      rw [List.append_assoc, List.append_assoc, List.drop_left] at this
      simp [dashes, crlf] at this
  have hparts : Parts D (dashes ++ b) body (es ++ (fh, dat) :: es') fin := hP.then (.part hN hW hR)
  obtain ⟨G, Ps, B, hb, hn, hne, hup, hfrom, hB, hB0, hlen⟩ := hW.arrive hP hN hlong
  have hXe : dat ++ crlf ++ (dashes ++ b) ++ post = dat ++ [0x0D] ++ Ev.bytes B := by rw [hB]; simp [crlf]
  rw [hXe] at hW hf
  have h0 : BR.Late (entryBuf (dashes ++ b)) B (withBody (G ++ Ps ++ B) b) := ⟨BR.fromReader_inv _ _, Nat.le_max_left _ _, .inl ⟨G ++ Ps, rfl⟩⟩
  have hun : (withBody (G ++ Ps ++ B) b).unread = body := hb
  obtain ⟨got, fin', hG, hg⟩ := reads_leak hD hn hne rfl hB0 (fun bs h => hup bs (by simp [h])) hfrom hlen (by simpa [dashes] using hcr) hW hf hlong hP h0 rfl List.suffix_rfl
    (by rw [hun, hb]; exact List.suffix_rfl) (by simp [withBody, BR.fromReader]) (by intro h; simp [withBody, BR.fromReader] at h) (fun v hv => by rw [hun]; exact hv) hN
  obtain ⟨rfl, -⟩ := (AtParts.start (by rw [hb]; exact hparts)).reads hD hn hne (.inl (by intro h; simp [withBody, BR.fromReader] at h)) hG
  exact ⟨_, got, hb, hn, hne, hup, hG, hg⟩

/-- C01_leaks applies to this body. -/
example : (Sample.sCr.run [.read 8192, .fillBuf, .read 8192]).1 = Sample.big ++ crlf :=
  C01_leaks (D := refDeps) (b := Sample.bnd) (fh := Sample.fh) (dat := Sample.big) (post := b!"--\r\n") (G := []) (os := []) (k := 1200)
    (Ps := [.data (b!"--b\r\n" ++ Sample.hdr ++ Sample.big ++ [0x0D])]) (B := [.data (0x0A :: (dashes ++ Sample.bnd ++ b!"--\r\n"))]) refDeps_sane
    (by decide) (by decide +kernel) (by simp only [ReadsUpTo, List.nil_append, List.singleton_append, List.mem_cons, List.not_mem_nil, or_false, Ev.data.injEq]; rintro bs (rfl | rfl) <;> decide +kernel)
    (fun e he => ⟨_, List.mem_singleton.mp he, by decide +kernel⟩) (by decide +kernel) (by decide +kernel) (by intro n h; cases h)
    Sample.entryCr (Sample.unreadCr.trans (by decide +kernel)) (by rw [Sample.unreadCr]; exact findSub_some (by decide +kernel)) (by decide +kernel)
    (fun o ho => by
      simp only [List.mem_cons, List.not_mem_nil, or_false] at ho
      rcases ho with rfl | rfl | rfl
      · exact .inr ⟨_, by decide +kernel, rfl⟩
      · exact .inl rfl
      · exact .inr ⟨_, by decide +kernel, rfl⟩) (by unfold BR.AtEof; decide +kernel)

/-- And C01_leaks_somehow to the body of the same bytes, whatever way they arrive. -/
example : ∃ evs got, Ev.bytes evs = Ev.bytes Sample.evsCr ∧ NoStall evs ∧ NoErr evs ∧ ReadsUpTo (2 * entryBuf (dashes ++ Sample.bnd)) evs ∧ Reads refDeps (withBody evs Sample.bnd) got .closed ∧
    got[0]? = some (Sample.fh, Sample.big ++ crlf) :=
  C01_leaks_somehow (es := []) (w := Ev.bytes Sample.evsCr) (rest := Sample.hdr ++ (Sample.big ++ b!"\r\n--b--\r\n")) (X := Sample.big ++ b!"\r\n--b--\r\n") (es' := [])
    refDeps_sane (by decide) .nil
    (.part (p := 0) (findSub_some (by decide +kernel)) (by decide +kernel))
    ⟨⟨Sample.hdr, _, Sample.headerBlock (by decide +kernel), by decide +kernel, by decide, fun _ => by decide +kernel⟩,
      .crlf (findSub_some (by decide +kernel)) ⟨b!"--b--\r\n", by decide +kernel⟩⟩
    ⟨b!"--\r\n", by decide +kernel⟩ (by decide +kernel)
    (.close (rest := b!"\r\n") (.close (p := 1102) (findSub_some (by decide +kernel)) (by decide +kernel)))

end Multipart

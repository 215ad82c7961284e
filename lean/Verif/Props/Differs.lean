import Verif.Props.Leak
import Verif.Props.Split
/-!
# C93: of every body with a long field, something else comes out of another split
-/
namespace Multipart
variable {D : Deps} {b : Bytes} {fh : FieldHeaders}

/-- C93 fails for every body with a field as long as the minimum buffer: two ways for the same body to arrive, in one of which this field comes out with two bytes more. Everyone who reads the fields of
the other one to their ends gets exactly the parts. -/
theorem C93_differs (hD : D.Sane) (hcr : (0x0D : Byte) ∉ b) {body w rest dat X : Bytes} {es es' : List (FieldHeaders × Bytes)} {fin : Ending}
    (hP : PartsTo D (dashes ++ b) body es w) (hN : NextIs (dashes ++ b) w (.part rest)) (hW : WellFormedPart D (dashes ++ b) rest fh dat X)
    (hX : dat ++ crlf ++ (dashes ++ b) <+: X) (hlong : entryBuf (dashes ++ b) ≤ dat.length + 1) (hR : Parts D (dashes ++ b) X es' fin) :
    ∃ evs evs', Ev.bytes evs = body ∧ Ev.bytes evs' = body ∧ NoStall evs ∧ NoErr evs ∧ NoStall evs' ∧ NoErr evs' ∧
      (∃ got, Reads D (withBody evs b) got fin ∧ got[es.length]? = some (fh, dat ++ crlf)) ∧
      Reads D (withBody evs' b) (es ++ (fh, dat) :: es') fin ∧ ∀ got fin', Reads D (withBody evs' b) got fin' → got = es ++ (fh, dat) :: es' ∧ fin' = fin := by
  obtain ⟨evs, got, h1, h2, h3, -, h4, h5⟩ := C01_leaks_somehow hD hcr hP hN hW hX hlong hR
  have h0 : body ≠ [] := by
    rintro rfl
    have key : ∀ {v}, ¬ NextIs (dashes ++ b) [] (.part v) := by
      intro v hv
      cases hv with
      | part _ h => simp [crlf] at h
    cases hP with
    | nil => exact key hN
    | part h _ _ => exact key h
  have hb : Ev.bytes [.data body] = body := by simp [Ev.bytes]
  have hn1 : NoStall [.data body] := by simpa [NoStall] using h0.symm
  have he1 : NoErr [.data body] := by intro e; simp
  have hex : ∀ got fin', Reads D (withBody [.data body] b) got fin' → got = es ++ (fh, dat) :: es' ∧ fin' = fin := fun got fin' g =>
    exact_of_clean hD hn1 he1 (single_cleanSplit (by simp [dashes])) (by rw [hb]; exact hP.then (.part hN hW hR)) g
  obtain ⟨got', fin', hg⟩ := C10_reads_total (D := D) (b := b) (evs := [.data body]) hD ⟨[], rfl⟩
  obtain ⟨rfl, rfl⟩ := hex _ _ hg
  exact ⟨evs, _, h1, hb, h2, h3, hn1, he1, ⟨got, h4, h5⟩, hg, hex⟩

/-- The hypotheses of C93_differs are met: those of C01_leaks_somehow. -/
example : ∃ evs evs', Ev.bytes evs = Ev.bytes Sample.evsCr ∧ Ev.bytes evs' = Ev.bytes Sample.evsCr ∧ NoStall evs ∧ NoErr evs ∧ NoStall evs' ∧ NoErr evs' ∧
    (∃ got, Reads refDeps (withBody evs Sample.bnd) got .closed ∧ got[0]? = some (Sample.fh, Sample.big ++ crlf)) ∧
    Reads refDeps (withBody evs' Sample.bnd) [(Sample.fh, Sample.big)] .closed ∧ ∀ got fin', Reads refDeps (withBody evs' Sample.bnd) got fin' → got = [(Sample.fh, Sample.big)] ∧ fin' = .closed :=
  C93_differs (es := []) (w := Ev.bytes Sample.evsCr) (rest := Sample.hdr ++ (Sample.big ++ b!"\r\n--b--\r\n")) (X := Sample.big ++ b!"\r\n--b--\r\n") (es' := [])
    refDeps_sane (by decide) .nil
    (.part (p := 0) (findSub_some (by decide +kernel)) (by decide +kernel))
    ⟨⟨Sample.hdr, _, Sample.headerBlock (by decide +kernel), by decide +kernel, by decide, fun _ => by decide +kernel⟩,
      .crlf (findSub_some (by decide +kernel)) ⟨b!"--b--\r\n", by decide +kernel⟩⟩
    ⟨b!"--\r\n", by decide +kernel⟩ (by decide +kernel)
    (.close (rest := b!"\r\n") (.close (p := 1102) (findSub_some (by decide +kernel)) (by decide +kernel)))

end Multipart

import Verif.Lemmas.Skip
import Verif.Props.Tools
/-!
# C07 and C97: which fields cannot be skipped

Fields that are not long can always be skipped. A long one cannot be skipped if the body arrives in the wrong pieces, and every body with a long field can arrive so.
-/
namespace Multipart
variable {D : Deps} {evs : List Ev} {b : Bytes} {fh : FieldHeaders} {s t : BR}

/-- C07 for fields of which not much is left: if the delimiter line begins and ends within the first `entryBuf` bytes of what is unread, then skipping the rest of the field is the same as reading it. -/
theorem C07_short_partial (hD : D.Sane) (hn : NoStall evs) (hne : NoErr evs) (hr : Reachable D evs b s) (os : List FieldOp)
    (hw : ∀ rest, NextIs (dashes ++ b) s.unread (.part rest) → (∃ fh dat X, WellFormedPart D (dashes ++ b) rest fh dat X) ∨ NoFieldHeaders D (dashes ++ b) rest)
    (hs : ∀ p, FirstAt (dashes ++ b) s.unread p → p + (dashes ++ b).length + 2 ≤ entryBuf (dashes ++ b)) (heof : (s.run os).2.AtEof) :
    (s.readEntry D).1 = ((s.run os).2.readEntry D).1 ∧ (∀ o, (s.readEntry D).1 = .ok o → (s.readEntry D).2.unread = ((s.run os).2.readEntry D).2.unread) := by
  rcases C07_skip_partial hD hn hne hr os hw heof with h | ⟨-, -, p, -, hp, hl, -⟩
  · exact h
  · have := hs p hp; omega

/-- The hypotheses are met: the second field of `evsTwo` behind the unread first one. -/
example : NoStall Sample.evsTwo ∧ NoErr Sample.evsTwo ∧ Reachable refDeps Sample.evsTwo Sample.bnd Sample.sTwo ∧ (Sample.sTwo.run [.read 2, .read 9]).2.AtEof ∧
    (∀ rest, NextIs (dashes ++ Sample.bnd) Sample.sTwo.unread (.part rest) → (∃ fh dat X, WellFormedPart refDeps (dashes ++ Sample.bnd) rest fh dat X) ∨ NoFieldHeaders refDeps (dashes ++ Sample.bnd) rest) ∧
    (∀ p, FirstAt (dashes ++ Sample.bnd) Sample.sTwo.unread p → p + (dashes ++ Sample.bnd).length + 2 ≤ entryBuf (dashes ++ Sample.bnd)) := by
  refine ⟨by decide +kernel, Sample.noErrTwo, ⟨[.readEntry], rfl⟩, by decide +kernel, fun rest h => ?_, fun p hp => ?_⟩
  · have := NextIs.unique (by decide) h (.part (p := 5) (rest := Sample.hdr ++ b!"two\r\n--b--\r\n") (by decide +kernel) (by decide +kernel))
    cases this
    exact .inl ⟨_, _, _, Sample.wellFormed2⟩
  · rw [hp.unique (q := 5) (by decide +kernel)]; decide +kernel

/-- C07 fails for every long field, whatever was called before (without enlarging the buffer), when one of the reads of the body returns the last byte of its headers, all its data, and the delimiter
behind them, and ends there or one byte later: directly after the `read_entry` that gave this field, the next one fails. -/
theorem C07_fails (hD : D.Sane) {L dat x : Bytes} {G B : List Ev} {os : List SOp} (hB : B ≠ []) (hos : ∀ n, SOp.field (.setMin n) ∈ os → n ≤ entryBuf (dashes ++ b))
    (he : ((withBody (G ++ .data L :: B) b).session D os).readEntry D = (.ok (some fh), s))
    (hX : s.unread = dat ++ crlf ++ (dashes ++ b) ++ x ++ Ev.bytes B) (hf : FirstAt (dashes ++ b) s.unread (dat.length + 2)) (hx : x.length ≤ 1)
    (hL : dat.length + 2 + (dashes ++ b).length + x.length < L.length)
    (hlong : entryBuf (dashes ++ b) ≤ dat.length + 2 + (dashes ++ b).length + x.length) : (s.readEntry D).1 = .err .unexpectedEof := by
  have h0 : BR.Late (entryBuf (dashes ++ b)) B (withBody (G ++ .data L :: B) b) :=
    ⟨BR.fromReader_inv _ _, Nat.le_max_left _ _, .inl ⟨G ++ [.data L], by simp [withBody, BR.fromReader]⟩⟩
  obtain ⟨-, -, h3, h4⟩ := BR.session_spec hD os h0.inv
  exact BR.entry_skip_fails hD hB h3 (BR.Late.session (D := D) hD hB os h0 (Nat.le_refl _) hos) h4 he hX hf hx hL hlong

/-- C07 fails in every body with a long field, say `fh` is the first: there is a way for this body to arrive, in reads of not much more than this field, such that a caller who reads none of the fields
gets the headers of all of them up to this one, and then an error, although this field is followed by a complete delimiter line. -/
theorem C07_fails_somehow (hD : D.Sane) {body w rest dat X tail : Bytes} {es : List (FieldHeaders × Bytes)} (hP : PartsTo D (dashes ++ b) body es w) (hs : ∀ e ∈ es, ¬ LongField (dashes ++ b) e.2)
    (hN : NextIs (dashes ++ b) w (.part rest)) (hW : WellFormedPart D (dashes ++ b) rest fh dat X) (ht : tail = crlf ∨ tail = dashes) (hX : dat ++ crlf ++ (dashes ++ b) ++ tail <+: X)
    (hlong : LongField (dashes ++ b) dat) :
    ∃ evs t, Ev.bytes evs = body ∧ NoStall evs ∧ NoErr evs ∧ ReadsUpTo (dat.length + (dashes ++ b).length + 4) evs ∧
      Skips D (withBody evs b) (es.map (·.1) ++ [fh]) t ∧ (t.readEntry D).1 = .err .unexpectedEof := by
  obtain ⟨evs, x, L, G, B, hbytes, hup, -, h⟩ := Trap.exists hP hN hW (by rcases ht with rfl | rfl <;> rfl) hX hlong
  have h0 : BR.Late (entryBuf (dashes ++ b)) B (withBody evs b) := ⟨BR.fromReader_inv _ _, Nat.le_max_left _ _, .inl ⟨G ++ [.data L], by simp [withBody, BR.fromReader, h.script]⟩⟩
  have hun : (withBody evs b).unread = body := hbytes
  obtain ⟨t, h1, h2, -⟩ := skips_fail hD h.stall h.err h.more h.script h.part h.first h.short h.read h.long hP h0 rfl
    List.suffix_rfl (by rw [hun, hbytes]; exact List.suffix_rfl) (by simp [withBody, BR.fromReader]) (.inl (by intro h; simp [withBody, BR.fromReader] at h)) hs (fun v hv => by rw [hun]; exact hv) hN
  exact ⟨_, t, hbytes, h.stall, h.err, hup, h1, h2⟩

/-- C11 fails in every body in which a damaged delimiter follows a long field, if no other field is long: there is a way for this body to arrive such that a caller who reads none of the fields gets the headers
of all of them up to this one, and then not "invalid data", but "unexpected end". -/
theorem C11_fails_somehow (hD : D.Sane) {body w rest dat X : Bytes} {es : List (FieldHeaders × Bytes)} (hP : PartsTo D (dashes ++ b) body es w) (hs : ∀ e ∈ es, ¬ LongField (dashes ++ b) e.2)
    (hN : NextIs (dashes ++ b) w (.part rest)) (hW : WellFormedPart D (dashes ++ b) rest fh dat X) (hX : dat ++ crlf ++ (dashes ++ b) <+: X) (hd : NextIs (dashes ++ b) X .damaged)
    (hlong : LongField (dashes ++ b) dat) :
    ∃ evs t, Ev.bytes evs = body ∧ NoStall evs ∧ NoErr evs ∧ ReadsUpTo (dat.length + (dashes ++ b).length + 4) evs ∧
      Skips D (withBody evs b) (es.map (·.1) ++ [fh]) t ∧ NextIs (dashes ++ b) t.unread .damaged ∧ (t.readEntry D).1 = .err .unexpectedEof := by
  obtain ⟨post, rfl⟩ := hX
  obtain ⟨c1, c2, post, rfl⟩ : ∃ c1 c2 r, post = c1 :: c2 :: r := by
    cases hd with
    | @damaged p h1 h2 =>
      have : dat.length + 2 ≤ p := by
        cases hW.data with
        | crlf a _ => have := h1.unique a; omega
        | bare a _ _ =>
          exfalso
          have := a.1
          unfold OccursAt at this
          rw [List.append_assoc, List.append_assoc, List.drop_left] at this
          simp [dashes, crlf] at this
      simp only [List.length_append, show crlf.length = 2 from rfl, show dashes.length = 2 from rfl] at h2
      match post, h2 with
      | [], h2 => simp at h2; omega
      | [_], h2 => simp at h2; omega
      | c1 :: c2 :: r, _ => exact ⟨_, _, _, rfl⟩
  obtain ⟨evs, x, L, G, B, hbytes, hup, hXe, h⟩ := Trap.exists (tail := [c1, c2]) hP hN hW rfl ⟨post, by simp⟩ hlong
  have h0 : BR.Late (entryBuf (dashes ++ b)) B (withBody evs b) := ⟨BR.fromReader_inv _ _, Nat.le_max_left _ _, .inl ⟨G ++ [.data L], by simp [withBody, BR.fromReader, h.script]⟩⟩
  have hun : (withBody evs b).unread = body := hbytes
  obtain ⟨t, h1, h2, h3⟩ := skips_fail hD h.stall h.err h.more h.script h.part h.first h.short h.read h.long hP h0 rfl
    List.suffix_rfl (by rw [hun, hbytes]; exact List.suffix_rfl) (by simp [withBody, BR.fromReader]) (.inl (by intro h; simp [withBody, BR.fromReader] at h)) hs (fun v hv => by rw [hun]; exact hv) hN
  exact ⟨_, t, hbytes, h.stall, h.err, hup, h1, by rw [h3, ← hXe]; exact hd, h2⟩

/-- `evsDmg`, however it arrived. -/
example : ∃ evs t, Ev.bytes evs = Ev.bytes Sample.evsDmg ∧ NoStall evs ∧ NoErr evs ∧ ReadsUpTo (Sample.big.length + (dashes ++ Sample.bnd).length + 4) evs ∧
    Skips refDeps (withBody evs Sample.bnd) [Sample.fh] t ∧ NextIs (dashes ++ Sample.bnd) t.unread .damaged ∧ (t.readEntry refDeps).1 = .err .unexpectedEof :=
  C11_fails_somehow (es := []) (w := Ev.bytes Sample.evsDmg) (rest := Sample.hdr ++ (Sample.big ++ b!"\r\n--bXY\r\n")) (dat := Sample.big) (X := Sample.big ++ b!"\r\n--bXY\r\n")
    refDeps_sane .nil (by simp) (.part (p := 0) (findSub_some (by decide +kernel)) (by decide +kernel))
    ⟨⟨Sample.hdr, _, Sample.headerBlock (by decide +kernel), by decide +kernel, by decide, fun _ => by decide +kernel⟩,
      .crlf (findSub_some (by decide +kernel)) ⟨b!"--bXY\r\n", by decide +kernel⟩⟩
    ⟨b!"XY\r\n", by decide +kernel⟩ (.damaged (p := 1102) (findSub_some (by decide +kernel)) (by decide +kernel) (by decide +kernel) (by decide +kernel)) (by unfold LongField; decide +kernel)

theorem readFileLoop_skips {fhs : List FieldHeaders} (h : Skips D s fhs t) (n : Nat) :
    readFileLoop D (n + fhs.length) s = ((readFileLoop D n t).1, fhs.map (·.name) ++ (readFileLoop D n t).2) := by
  induction h with
  | nil => rfl
  | cons h1 _ ih =>
    rw [List.length_cons, ← Nat.add_assoc, readFileLoop, h1]
    simp only [ih, List.map_cons, List.cons_append]

/-- C97 fails for every file with a long field: there are pieces in which the file may be read such that `read_file` prints the names up to the first of them, and then panics. -/
theorem C97_fails_somehow (hD : D.Sane) {body w rest dat X tail : Bytes} {es : List (FieldHeaders × Bytes)} (hP : PartsTo D (dashes ++ b) body es w) (hs : ∀ e ∈ es, ¬ LongField (dashes ++ b) e.2)
    (hN : NextIs (dashes ++ b) w (.part rest)) (hW : WellFormedPart D (dashes ++ b) rest fh dat X) (ht : tail = crlf ∨ tail = dashes) (hX : dat ++ crlf ++ (dashes ++ b) ++ tail <+: X)
    (hlong : LongField (dashes ++ b) dat) :
    ∃ evs, Ev.bytes evs = body ∧ NoStall evs ∧ NoErr evs ∧ ReadsUpTo (dat.length + (dashes ++ b).length + 4) evs ∧
      ∃ n, ∀ fuel, n ≤ fuel → readFile D fuel b evs = (.panic, es.map (·.1.name) ++ [fh.name]) := by
  obtain ⟨evs, t, h1, h2, h3, h3', h4, h5⟩ := C07_fails_somehow hD hP hs hN hW ht hX hlong
  refine ⟨evs, h1, h2, h3, h3', (es.map (·.1) ++ [fh]).length + 1, fun fuel hf => ?_⟩
  obtain ⟨n, rfl⟩ : ∃ n, fuel = (n + 1) + (es.map (·.1) ++ [fh]).length := ⟨fuel - ((es.map (·.1) ++ [fh]).length + 1), by omega⟩
  unfold readFile
  rw [readFileLoop_skips h4]
  have : readFileLoop D (n + 1) t = (.panic, []) := by
    unfold readFileLoop
    rcases hx : t.readEntry D with ⟨r, u⟩
    rw [hx] at h5
    simp only at h5
    subst h5
    rfl
  rw [this]
  simp

namespace Sample
theorem evsCut_eq : evsCut = [] ++ .data ((b!"--b\r\n" ++ hdr) ++ big ++ crlf ++ (dashes ++ bnd) ++ []) :: [.data b!"--\r\n"] := by decide +kernel
/-- After the only field of `evsCut`. -/
def sCut0 : BR := ((withBody evsCut bnd).readEntry refDeps).2
theorem entryCut : (withBody evsCut bnd).readEntry refDeps = (.ok (some Sample.fh), sCut0) := pair_eq (by decide +kernel) sCut0.eq_def.symm
theorem unreadCut0 : sCut0.unread = big ++ crlf ++ (dashes ++ bnd) ++ [] ++ Ev.bytes [.data b!"--\r\n"] := by decide +kernel
end Sample

/-- C07_fails applies to `evsCut`. -/
example : (Sample.sCut0.readEntry refDeps).1 = .err .unexpectedEof :=
  C07_fails (D := refDeps) (b := Sample.bnd) (fh := Sample.fh) (dat := Sample.big) (x := []) (os := []) refDeps_sane (by simp) (by intro n h; cases h)
    (Sample.evsCut_eq ▸ Sample.entryCut) Sample.unreadCut0 (by rw [Sample.unreadCut0]; exact findSub_some (by decide +kernel)) (by decide) (by decide +kernel) (by decide +kernel)

/-- And C97_fails_somehow (and with it C07_fails_somehow) to the body of the same bytes, whatever way they arrive. -/
example : ∃ evs, Ev.bytes evs = Ev.bytes Sample.evsCut ∧ NoStall evs ∧ NoErr evs ∧ ReadsUpTo (Sample.big.length + (dashes ++ Sample.bnd).length + 4) evs ∧
    ∃ n, ∀ fuel, n ≤ fuel → readFile refDeps fuel Sample.bnd evs = (.panic, [Sample.fh.name]) :=
  C97_fails_somehow (es := []) (w := Ev.bytes Sample.evsCut) (rest := Sample.hdr ++ (Sample.big ++ b!"\r\n--b--\r\n")) (dat := Sample.big) (X := Sample.big ++ b!"\r\n--b--\r\n") (tail := dashes)
    refDeps_sane .nil (by simp) (.part (p := 0) (findSub_some (by decide +kernel)) (by decide +kernel))
    ⟨⟨Sample.hdr, _, Sample.headerBlock (by decide +kernel), by decide +kernel, by decide, fun _ => by decide +kernel⟩,
      .crlf (findSub_some (by decide +kernel)) ⟨b!"--b--\r\n", by decide +kernel⟩⟩ (.inr rfl)
    ⟨b!"\r\n", by decide +kernel⟩ (by unfold LongField; decide +kernel)

end Multipart

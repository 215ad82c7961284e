import Verif.Props.Success
/-!
# Small requests never hit a limit (C94)
-/
namespace Multipart

variable {D : Deps} {evs : List Ev} {b : Bytes} {s t : BR} {cfg : Settings} {fuel : Nat} {T : Target} {w w' : World} {e : Entries}

/-- An entry uses up at least its delimiter line. -/
theorem Reachable.line (hD : D.Sane) {fh : FieldHeaders} (hr : Reachable D evs b s) (he : s.readEntry D = (.ok (some fh), t)) : t.unread.length + (b.length + 4) ≤ s.unread.length := by
  obtain ⟨p, rest, seen, n, hs, -, h1, -, -, -, -, -, h2⟩ := C10_entry_introduced hD hr he
  have h3 := congrArg List.length h1
  have h4 := congrArg List.length h2
  simp [crlf, dashes] at h3 h4
  omega

theorem SavedSeq.lines (hD : D.Sane) {dir : Path} {fs : List SavedField} (h : SavedSeq D cfg fuel dir w s fs w' t) (hr : Reachable D evs b s) :
    t.unread.length + fs.length * (b.length + 4) ≤ s.unread.length := by
  induction h with
  | nil => simp
  | cons h1 h2 h3 ih =>
    have hr1 := hr.entry h1
    have hl := hr.line hD h1
    have hi := (hr1.spec hD).1
    obtain ⟨x, hx⟩ := Target.save_took _ hi h2 (by simp)
    have h4 := congrArg List.length (hx.unread hi)
    have h5 := ih (hx.reachable hr1)
    rw [List.length_append] at h4
    rw [List.length_cons, Nat.succ_mul]
    omega

/-- A field reports `SizeLimit` only if more than `size_limit` bytes of it are there, and `Utf8Error` only if text is forced. -/
theorem Target.save_reason (hi : s.Inv) (hc : cfg.Typed) {d : SavedData} {r : Reason} (h : T.save cfg fuel w s = (.part d r, w', t)) :
    (r = .sizeLimit → cfg.sizeLimit < s.unread.length) ∧ (r = .utf8 → cfg.textPolicy = .force) := by
  have hz := hc.size
  cases Target.save_spec hi h with
  | partText h1 h2 h3 h4 h5 h6 =>
    rcases h6 with ⟨rfl, g1, more, u, g2, g3⟩ | ⟨e, rfl, -, g⟩ | ⟨rfl, g1, y, u, -, g2, g3, g4⟩
    · refine ⟨fun _ => ?_, by simp⟩
      have := Took.shorter hi g3
      rw [List.length_append] at this
      have := List.length_pos_iff.mpr g2
      omega
    · simp
    · exact ⟨by simp, fun _ => g1⟩
  | @partBytes taken _ h1 h2 h3 h4 =>
    rcases h4 with ⟨rfl, g1, more, u, g2, g3⟩ | ⟨e, rfl, -, g⟩
    · refine ⟨fun _ => ?_, by simp⟩
      have h5 := Took.shorter hi g2
      rw [List.length_append] at g3 h5
      simp only [Settings.memLimit, Nat.sub_zero, Nat.min_def] at h3 g3
      repeat' split at h3
      all_goals split at g3
      all_goals omega
    · simp
  | file h1 h2 h3 h4 h5 =>
    cases h5 with
    | cut => simp
    | part _ _ _ _ g =>
      rcases g with ⟨rfl, more, u, g1, g2⟩ | ⟨e, rfl, g⟩
      · refine ⟨fun _ => ?_, by simp⟩
        have := Took.shorter hi (h1.trans g1)
        rw [List.length_append] at this
        omega
      · simp

/-- C94: `SizeLimit` is reported only if the body has more bytes than `size_limit` and a delimiter line, `CountLimit` only if it has `count_limit` delimiter lines, and `Utf8Error` only if
text is forced. -/
theorem C94_reasons (hD : D.Sane) (hc : cfg.Typed) (dir : SaveDir) {p : PartialEntries} {r : Reason}
    (h : withEntries D cfg fuel (Entries.new dir) w (withBody evs b) = (.part p r, w', t)) :
    (r = .sizeLimit → cfg.sizeLimit + b.length + 4 < (Ev.bytes evs).length) ∧
    (r = .countLimit → cfg.countLimit * (b.length + 4) ≤ (Ev.bytes evs).length) ∧
    (r = .utf8 → cfg.textPolicy = .force) := by
  have hr : Reachable D evs b (withBody evs b) := ⟨[], rfl⟩
  have hu : (withBody evs b).unread.length = (Ev.bytes evs).length := by simp [withBody, BR.fromReader, BR.unread]
  have key : ∀ {fs : List SavedField} {w1 : World} {s1 s2 t2 : BR} {hd : FieldHeaders} {d : SavedData} {w2 : World} {T : Target}, SavedSeq D cfg fuel dir.asPath w (withBody evs b) fs w1 s1 →
      s1.readEntry D = (.ok (some hd), s2) → T.save { cfg with textPolicy := if hd.isText then cfg.textPolicy else .ignore } fuel w1 s2 = (.part d r, w2, t2) →
      (r = .sizeLimit → cfg.sizeLimit + b.length + 4 < (Ev.bytes evs).length) ∧ (r ≠ .countLimit) ∧ (r = .utf8 → cfg.textPolicy = .force) := by
    intro fs w1 s1 s2 t2 hd d w2 T h1 h4 h6
    have hr1 := h1.reachable hD hr
    have hi2 := ((hr1.entry h4).spec hD).1
    obtain ⟨k1, k2⟩ := Target.save_reason (cfg := { cfg with textPolicy := if hd.isText then cfg.textPolicy else .ignore }) hi2 ⟨hc.size, hc.mem, hc.count, hc.write⟩ h6
    refine ⟨fun hr' => ?_, ?_, fun hr' => ?_⟩
    · have := k1 hr'
      have := h1.lines hD hr
      have := hr1.line hD h4
      simp only at *
      omega
    · rintro rfl
      exact Target.save_not_count _ hi2 h6
    · have := k2 hr'
      simp only at this
      split at this
      · exact this
      · simp at this
  by_cases hcl : r = .countLimit
  · subst hcl
    refine ⟨by simp, fun _ => ?_, by simp⟩
    obtain ⟨fs, s1, h1, h2, -⟩ := count_spec hc (e := Entries.new dir) (by simp [Entries.new, total]) h (count_no_part hD hr h)
    have h2 : fs.length = cfg.countLimit := by simpa [Entries.new, total] using h2
    have := h1.lines hD hr
    rw [h2] at this
    omega
  · obtain ⟨fs, w1, s1, h1, h2, h3⟩ := withEntries_spec h
    rcases h3 with h3 | ⟨h3, -⟩
    · cases h3 with
      | count => exact absurd rfl hcl
      | read => exact ⟨by simp, by simp, by simp⟩
      | part h4 _ h6 => obtain ⟨k1, k2, k3⟩ := key h1 h4 h6; exact ⟨k1, fun h => absurd h k2, k3⟩
      | error => exact ⟨by simp, by simp, by simp⟩
    · simp at h3

/-- C94: a body of at most `size_limit` bytes that is too short for `count_limit` delimiter lines is never stopped by a limit: the save is full, or it is partial because of an I/O error (or, if text is
forced, because of text that is not UTF-8). -/
theorem C94_small (hD : D.Sane) (hc : cfg.Typed) (dir : SaveDir) (hz : (Ev.bytes evs).length ≤ cfg.sizeLimit) (hl : (Ev.bytes evs).length < cfg.countLimit * (b.length + 4))
    {p : PartialEntries} {r : Reason} (h : withEntries D cfg fuel (Entries.new dir) w (withBody evs b) = (.part p r, w', t)) : (∃ er, r = .io er) ∨ (r = .utf8 ∧ cfg.textPolicy = .force) := by
  obtain ⟨h1, h2, h3⟩ := C94_reasons hD hc dir h
  cases r with
  | io er => exact .inl ⟨er, rfl⟩
  | sizeLimit => have := h1 rfl; omega
  | countLimit => have := h2 rfl; omega
  | utf8 => exact .inr ⟨rfl, h3 rfl⟩

/-- A body that ends inside of the second field. -/
example : let evs : List Ev := [.data (b!"--b\r\n" ++ Sample.hdr ++ b!"one\r\n--b\r\n" ++ Sample.hdr ++ b!"tw")]
    (Ev.bytes evs).length ≤ Settings.default.sizeLimit ∧ (Ev.bytes evs).length < Settings.default.countLimit * (Sample.bnd.length + 4) ∧
    (withEntries refDeps .default 20 (Entries.new (.temp [b!"tmp"])) Sample.disk (withBody evs Sample.bnd)).1 =
      .part { entries := { fields := [(b!"a", [⟨Sample.fh, .text b!"one"⟩, ⟨Sample.fh, .text b!"tw"⟩])], saveDir := .temp [b!"tmp"], fieldsCount := 2 }, part := none } (.io .unexpectedEof) := by
  decide +kernel

/-- Each limit is reported for a body of enough bytes. The hypotheses of C94_reasons are met. -/
example : 10 ≤ (Ev.bytes Sample.evsTwo).length ∧
    (match (withEntries refDeps { Settings.default with sizeLimit := 2 } 20 (Entries.new (.temp [b!"tmp"])) Sample.disk (withBody Sample.evsTwo Sample.bnd)).1 with
      | .part _ .sizeLimit => true | _ => false) = true ∧
    (match (withEntries refDeps { Settings.default with countLimit := 2 } 20 (Entries.new (.temp [b!"tmp"])) Sample.disk (withBody Sample.evsTwo Sample.bnd)).1 with
      | .part _ .countLimit => true | _ => false) = true := by
  decide +kernel

end Multipart

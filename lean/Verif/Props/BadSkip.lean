import Verif.Props.Skip
/-!
# C16: behind bad headers
-/
namespace Multipart

variable {D : Deps} {b : Bytes} {s t v : BR}

/-- The buffer is full and holds a whole part and the delimiter behind it: `fill_buf` shows the part. -/
theorem BR.shows_part {y x : Bytes} (hi : v.Inv) (hst : v.st = .searching) (hb : v.buf = y ++ crlf ++ v.delim ++ x) (hf : FirstAt v.delim v.unread (y.length + 2)) (hm : v.min ≤ v.buf.length) :
    ∃ u, v.readToBoundary = (.ok y, u) ∧ u.readToBoundary = (.ok y, u) ∧ u.buf = v.buf ∧ u.evs = v.evs ∧ u.delim = v.delim ∧ u.st = .boundaryRead ∧ u.idx = y.length ∧ u.Inv := by
  have hre := BR.refill_eq_self (s := v) (.inl hm)
  have hdl := hi.delim_len
  obtain ⟨e1, e2, e3, e4, e5, e6, e7⟩ := v.search_spec hi hst
  obtain ⟨b1, b2, b3, b4, b5, b6⟩ := v.search.backUp_spec
  have ha : v.afterRead = v.search.backUp := by rw [BR.afterRead_searching hst, hre.1]
  have hblen : v.buf.length = y.length + 2 + v.delim.length + x.length := by rw [hb]; simp [crlf]; omega
  have hfound : v.search.st = .boundaryRead ∧ v.search.idx = y.length + 2 := by
    rcases e7 with ⟨h1, h2, -⟩ | ⟨-, h2, h3⟩
    · exact ⟨h1, h2.unique hf⟩
    · exfalso
      have h4 : ¬ y.length + 2 < v.search.idx := fun h => h2 _ h hf.1
      rcases h3 with h3 | ⟨-, -, h3⟩ <;> omega
  have hidx : v.afterRead.idx = y.length := by
    rw [ha]
    have h1 : ¬ crlf <+: v.search.buf.drop v.search.idx := by
      rw [e1, hfound.2, hb, List.append_assoc, show y.length + 2 = (y ++ crlf).length by simp [crlf], List.drop_left]
      obtain ⟨z, hz⟩ := hi.dash
      rw [← hz]
      simp [crlf, dashes]
    have h2 : (v.search.buf.drop (v.search.idx - 2)).take 2 = crlf := by
      rw [e1, hfound.2, hb, List.append_assoc, List.append_assoc, show y.length + 2 - 2 = y.length by omega, List.drop_left, List.take_append_of_le_length (by simp [crlf])]
      rfl
    rcases b6 with ⟨-, h⟩ | ⟨-, h, -⟩
    · exact absurd h2 (h (by omega) h1)
    · omega
  have hbuf : v.afterRead.buf = v.buf := by rw [ha, b1, e1]
  have hev : v.afterRead.evs = v.evs := by rw [ha, b2, e2]
  have hmin : v.afterRead.min = v.min := by rw [ha, b3, e3]
  have hast : v.afterRead.st = .boundaryRead := by rw [ha, b5, hfound.1]
  have htake : v.afterRead.buf.take v.afterRead.idx = y := by
    rw [hidx, hbuf, hb, List.append_assoc, List.append_assoc, List.take_left]
  have hai := v.afterRead_inv hi
  refine ⟨v.afterRead, ?_, ?_, hbuf, hev, by rw [ha, b4, e4], hast, hidx, hai⟩
  · rcases BR.readToBoundary_eq hi with ⟨e, h1, _⟩ | ⟨-, h⟩
    · rw [hre.2] at h1; simp at h1
    · rw [h, htake]
  · have hre' := BR.refill_eq_self (s := v.afterRead) (.inl (by rw [hmin, hbuf]; exact hm))
    rcases BR.readToBoundary_eq hai with ⟨e, h1, _⟩ | ⟨-, h⟩
    · rw [hre'.2] at h1; simp at h1
    · rw [h, BR.afterRead_other (by rw [hast]; simp), hre'.1, htake]

/-- The headers of this part are refused. -/
theorem BR.refuses (hD : D.Sane) {y left x : Bytes} (hbad : BadHeaders D y left) (hy : y ≠ []) (hi : v.Inv) (hst : v.st = .searching) (hb : v.buf = y ++ crlf ++ v.delim ++ x)
    (hf : FirstAt v.delim v.unread (y.length + 2)) (hm : v.min ≤ v.buf.length) :
    ∃ t, v.readHeaders D = (.err .invalidData, t) ∧ t.buf = left ++ crlf ++ v.delim ++ x ∧ t.evs = v.evs ∧ t.delim = v.delim ∧ t.st = .boundaryRead ∧ t.Inv ∧
      FirstAt v.delim t.unread (left.length + 2) := by
  obtain ⟨u, h1, h2, h3, h4, h5, h6, h7, h8⟩ := BR.shows_part hi hst hb hf hm
  have hy' : ¬ y.length = 0 := fun h => hy (List.length_eq_zero_iff.mp h)
  have hun : u.unread = v.unread := by unfold BR.unread; rw [h3, h4]
  have same : ∀ e : HdrErr, withHeadersLoop D (v.evs.length + 2) 0 v = (.err e, u) →
      ∃ t, v.readHeaders D = (.err .invalidData, t) ∧ t.buf = y ++ crlf ++ v.delim ++ x ∧ t.evs = v.evs ∧ t.delim = v.delim ∧ t.st = .boundaryRead ∧ t.Inv ∧
        FirstAt v.delim t.unread (y.length + 2) := by
    intro e h
    refine ⟨u, ?_, h3.trans hb, h4, h5, h6, h8, by rw [hun]; exact hf⟩
    unfold BR.readHeaders FieldHeaders.readFrom withHeaders
    rw [h]
  cases hbad with
  | malformed h =>
    refine same .tokenize ?_
    rw [withHeadersLoop, h1]
    simp only [if_neg hy', h]
  | unfinished h =>
    refine same .tooLarge ?_
    rw [withHeadersLoop, h1]
    simp only [if_neg hy', h]
    rw [withHeadersLoop, h2]
    simp only [if_true]
  | @notText n hs h hu =>
    refine same (.io .invalidData) ?_
    rw [withHeadersLoop, h1]
    simp only [if_neg hy', h]
    have : ¬ (hs.all fun h => utf8Valid h.val) = true := by
      obtain ⟨x, hx1, hx2⟩ := hu
      intro hc
      exact hx2 ((utf8Valid_iff _).mp (List.all_eq_true.mp hc _ hx1))
    unfold copyHeaders
    rw [if_neg this]
  | @refused n hs e h hu hp =>
    have hn := hD.len _ _ _ h
    have hmin : Nat.min n u.idx = n := by rw [h7]; exact Nat.min_eq_left hn
    have hbuf : (u.consume n).buf = y.drop n ++ crlf ++ v.delim ++ x := by
      show u.buf.drop (Nat.min n u.idx) = _
      rw [hmin, h3, hb, List.append_assoc, List.append_assoc, List.drop_append_of_le_length hn]
      simp
    refine ⟨u.consume n, ?_, hbuf, h4, h5, h6, BR.consume_inv h8 n, ?_⟩
    · have : withHeadersLoop D (v.evs.length + 2) 0 v = (.ok (n, hs), u) := by
        rw [withHeadersLoop, h1]
        simp only [if_neg hy', h]
        unfold copyHeaders
        rw [if_pos (by simpa [utf8Valid_iff] using hu), if_pos (hD.four _ _ _ h)]
      unfold BR.readHeaders FieldHeaders.readFrom withHeaders
      rw [this]
      simp only [hp]
    · rw [BR.consume_unread_drop h8, hmin, hun]
      have := hf.drop (n := n) (by omega)
      rw [show y.length + 2 - n = (y.drop n).length + 2 by rw [List.length_drop]; omega] at this
      exact this

/-- C16 fails for every body in which a field with bad headers is long (see C07), if no field before it is long: there is a way for the body to arrive such that `read_entry`, behind the complaint about the headers, does
not go on with the next delimiter line, which is all right, but reports an unexpected end. -/
theorem C16_fails_somehow (hD : D.Sane) {body w y left tail post : Bytes} {es : List (FieldHeaders × Bytes)} (hP : PartsTo D (dashes ++ b) body es w) (hs : ∀ e ∈ es, ¬ LongField (dashes ++ b) e.2)
    (hN : NextIs (dashes ++ b) w (.part (y ++ crlf ++ (dashes ++ b) ++ tail ++ post))) (hf : FirstAt (dashes ++ b) (y ++ crlf ++ (dashes ++ b) ++ tail ++ post) (y.length + 2))
    (ht : tail = crlf ∨ tail = dashes) (hbad : BadHeaders D y left) (hlong : LongField (dashes ++ b) left) :
    ∃ evs s t, Ev.bytes evs = body ∧ NoStall evs ∧ NoErr evs ∧ ReadsUpTo (y.length + (dashes ++ b).length + 4) evs ∧ Skips D (withBody evs b) (es.map (·.1)) s ∧
      s.readEntry D = (.err .invalidData, t) ∧ t.unread = left ++ crlf ++ (dashes ++ b) ++ tail ++ post ∧ (t.readEntry D).1 = .err .unexpectedEof := by
  have hleft : left.length ≤ y.length := by cases hbad <;> simp
  unfold LongField at hlong
  have hbig : (dashes ++ b).length + 3 < entryBuf (dashes ++ b) := by
    have h1 : 1024 ≤ entryBuf (dashes ++ b) := Nat.le_max_left _ _
    have h2 : 2 * (dashes ++ b).length ≤ entryBuf (dashes ++ b) := Nat.le_max_right _ _
    omega
  obtain ⟨c1, c2, rfl⟩ : ∃ c1 c2, tail = [c1, c2] := by rcases ht with rfl | rfl <;> exact ⟨_, _, rfl⟩
  obtain ⟨gone, hgone⟩ : ∃ gone, body = gone ++ [0x0A] ++ (y ++ crlf ++ (dashes ++ b) ++ [c1, c2] ++ post) := by
    have hc : crlf ++ (y ++ crlf ++ (dashes ++ b) ++ [c1, c2] ++ post) <:+ w := by
      cases hN with | part _ h => exact h ▸ List.drop_suffix _ _
    obtain ⟨g, hg⟩ := hc.trans hP.suffix
    exact ⟨g ++ [0x0D], by rw [← hg]; simp [crlf]⟩
  let L : Bytes := 0x0A :: (y ++ crlf ++ (dashes ++ b) ++ [c1])
  let B := Ev.single (c2 :: post)
  have hBb : Ev.bytes B = c2 :: post := Ev.bytes_single _
  let evs := Ev.single gone ++ [.data L] ++ B
  have hLlen : L.length = y.length + (dashes ++ b).length + 4 := by simp [L, crlf]; omega
  have hbytes : Ev.bytes evs = body := by
    show Ev.bytes (Ev.single gone ++ [.data L] ++ B) = body
    rw [Ev.bytes_append, Ev.bytes_append, Ev.bytes_single, hgone, hBb]
    simp [Ev.bytes, L]
  have hB : B ≠ [] := by simp [B, Ev.single]
  obtain ⟨hn, hne, hup⟩ := Ev.around (u := gone) (Ps := [.data L]) (v := c2 :: post) (m := 1) (n := y.length + (dashes ++ b).length + 4)
    (fun e he => ⟨L, List.mem_singleton.mp he, by omega⟩) (fun bs hb => by cases List.mem_singleton.mp hb; omega) Nat.one_pos (by omega)
  have hE : evs = Ev.single gone ++ .data L :: B := List.append_assoc _ _ _
  have h0 : BR.Late (entryBuf (dashes ++ b)) B (withBody evs b) := ⟨BR.fromReader_inv _ _, Nat.le_max_left _ _, .inl ⟨Ev.single gone ++ [.data L], by simp [withBody, BR.fromReader, evs]⟩⟩
  have hun : (withBody evs b).unread = body := hbytes
  obtain ⟨s, k1, k2, k3, k4, k5, k6, k7, k8⟩ := skips_to hD hn hne hB hP h0 rfl
    List.suffix_rfl (by rw [hun, hbytes]; exact List.suffix_rfl) (by simp [withBody, BR.fromReader]) (.inl (by intro h; simp [withBody, BR.fromReader] at h)) hs (fun v hv => by rw [hun]; exact hv)
  obtain ⟨v, l1, l2, l3, l4, l5, l6⟩ := BR.boundary_of_near hn hne hB k2 k3 k4 k5 k6 k7 (k8 _ hN)
  have hvu : v.unread = y ++ crlf ++ (dashes ++ b) ++ [c1] ++ Ev.bytes B := by rw [l2, hBb]; simp
  have hZ : (y ++ crlf ++ (dashes ++ b) ++ [c1]).length = y.length + (dashes ++ b).length + 3 := by simp [crlf]; omega
  obtain ⟨m1, m2⟩ := l3.buf_eq (G := Ev.single gone) (L := L) (by rw [← hE]; exact l5) hvu (by omega) (by omega)
  obtain ⟨t, n1, n2, n3, n4, n5, n6, n7⟩ := BR.refuses hD hbad (by rintro rfl; simp at hleft; subst hleft; simp at hlong; simp at hbig; omega) l3.inv l6 (by rw [l4, m1]) (by rw [l4, l2]; exact hf)
    (Nat.le_trans l3.min (by rw [m1]; omega))
  rw [l4] at n2 n4 n7
  refine ⟨evs, s, t, hbytes, hn, hne, hup, k1, ?_, ?_, ?_⟩
  · unfold BR.readEntry
    rw [l1]
    simp only [n1]
  · unfold BR.unread
    rw [n2, n3, m2, hBb]
    simp
  · have hlen : t.buf.length = left.length + (dashes ++ b).length + 3 := by rw [n2]; simp [crlf]; omega
    exact BR.skip_fails (D := D) n6 n5 (by rw [n4]; exact n7) (by rw [n4, hlen]; omega) (by rw [n4, hlen]; omega)

/-- The body of `evsBad`, however it arrived. -/
example : ∃ evs s t, Ev.bytes evs = Ev.bytes Sample.evsBad ∧ NoStall evs ∧ NoErr evs ∧ ReadsUpTo ((b!"bad\r\n\r\n" ++ Sample.big).length + (dashes ++ Sample.bnd).length + 4) evs ∧
    Skips refDeps (withBody evs Sample.bnd) [] s ∧ s.readEntry refDeps = (.err .invalidData, t) ∧ t.unread = b!"bad\r\n\r\n" ++ Sample.big ++ crlf ++ (dashes ++ Sample.bnd) ++ dashes ++ b!"\r\n" ∧
    (t.readEntry refDeps).1 = .err .unexpectedEof :=
  C16_fails_somehow (es := []) (w := Ev.bytes Sample.evsBad) refDeps_sane .nil (by simp) (.part (p := 0) (findSub_some (by decide +kernel)) (by decide +kernel)) (findSub_some (by decide +kernel)) (.inr rfl)
    (.malformed (by decide +kernel)) (by unfold LongField; decide +kernel)

end Multipart

import Verif.Lemmas.LeakSave
import Verif.Props.Leak
import Verif.Props.Upload
/-!
# C77, C78: the two bytes too many in saved files

What C77 and C78 say of saved contents, they say up to the CRLF of C01. This is needed for every upload with a long enough field: there is a way for it to arrive such that the CRLF is
saved as part of the field, and the result is `Full`.
-/
namespace Multipart
variable {D : Deps} {b : Bytes} {fh : FieldHeaders} {s t : BR} {cfg : Settings} {fuel : Nat} {w w' : World}

theorem SavedSeq.leak (hD : D.Sane) {dat u w0 rest : Bytes} {es : List (FieldHeaders × Bytes)} {evs G Ps B : List Ev} {k : Nat} {dir : Path}
    (hn : NoStall evs) (hne : NoErr evs) (hE : evs = G ++ Ps ++ B) (hB : B ≠ []) (hk : ReadsUpTo k Ps) (hPs : ReadsFrom (entryBuf (dashes ++ b)) Ps) (hlen : dat.length + 1 < (Ev.bytes Ps).length)
    (hcr : (0x0D : Byte) ∉ dashes ++ b) (ho : cfg.openOpts.createNew = true)
    (hW : WellFormedPart D (dashes ++ b) rest fh dat (dat ++ [0x0D] ++ Ev.bytes B)) (hf : FirstAt (dashes ++ b) (dat ++ [0x0D] ++ Ev.bytes B) (dat.length + 2))
    (hlong : entryBuf (dashes ++ b) ≤ dat.length + 1) (hu : fh.isText = true → cfg.textPolicy ≠ .ignore → IsUtf8 dat) (hP : PartsTo D (dashes ++ b) u es w0) :
    ∀ {s : BR} {w : World} {fs : List SavedField}, SavedSeq D cfg fuel dir w s fs w' t → es.length < fs.length → Reachable D evs b s → s.Late (entryBuf (dashes ++ b)) B →
      s.st ≠ .atEnd → s.Drained → (∀ v, NextIs (dashes ++ b) u v → NextIs (dashes ++ b) s.unread v) → NextIs (dashes ++ b) w0 (.part rest) →
      ∃ f, fs[es.length]? = some f ∧ f.headers = fh ∧ f.data.readable w' = .ok (dat ++ crlf) := by
  induction hP with
  | nil =>
    intro s w fs hS hlt hr hL hst hdr hun hN
    cases hS with
    | nil => simp at hlt
    | @cons _ w1 _ _ t s2 _ h d fs h1 h2 h3 =>
      obtain ⟨hi, hu', hd, hevs⟩ := hr.spec hD
      obtain ⟨-, hexact⟩ := BR.readEntry_verdict hD hi hst (.inl hdr) hn hne hevs hu'
      obtain ⟨H, hs, g1, g2, g3, g4⟩ := hW.headers
      rw [hd] at hexact
      have hex := hexact _ _ _ _ _ _ (hun _ hN) g1 hW.data g4 g3 g2
      rw [h1] at hex
      obtain ⟨hh, hX⟩ := hex
      simp only [Res.ok.injEq, Option.some.injEq] at hh hX
      subst hh
      have hr1 := hr.entry h1
      obtain ⟨x, hx, heof, hread⟩ := Target.save_full (.dir dir) hD hn hr1 h2 (.inl ho)
      have hr2 := hx.reachable hr1
      have hleak := (BR.leak_state (N := entryBuf (dashes ++ b) + k + t.buf.length) hD hB hd hcr hL (hE ▸ hevs) h1 hX (by rw [hX]; exact hf) hlong hPs hlen
        (fun bs h => by have := hk bs h; omega) (by omega) (by
          intro hp
          refine hu ?_ ?_
          · cases hx : h.isText with
            | true => rfl
            | false => rw [hx] at hp; simp at hp
          · intro hx; rw [hx] at hp; simp at hp)).save h2
      refine ⟨_, rfl, rfl, ?_⟩
      have hdat : x = dat ++ crlf := by
        refine hleak.taken ?_ ((hx.savedOk hD hn hr h1 (by rw [hX]; exact hW.data) heof).imp id And.left)
        rw [← hX]
        exact (hx.unread (hr1.spec hD).1).symm
      rw [hdat] at hread
      exact SavedData.readable_mono hread (fun q c => h3.keeps hD ho hr2)
  | @part u rest' X w0 dat' fh' es hN' hW' hP' ih =>
    intro s w fs hS hlt hr hL hst hdr hun hN
    cases hS with
    | nil => simp at hlt
    | @cons _ w1 _ _ t1 s2 _ h d fs h1 h2 h3 =>
      obtain ⟨hi, hu', hd, hevs⟩ := hr.spec hD
      obtain ⟨-, hexact⟩ := BR.readEntry_verdict hD hi hst (.inl hdr) hn hne hevs hu'
      obtain ⟨H, hs, g1, g2, g3, g4⟩ := hW'.headers
      rw [hd] at hexact
      have hex := hexact _ _ _ _ _ _ (hun _ hN') g1 hW'.data g4 g3 g2
      rw [h1] at hex
      obtain ⟨hh, hX⟩ := hex
      simp only [Res.ok.injEq, Option.some.injEq] at hh hX
      have hr1 := hr.entry h1
      obtain ⟨x, hx, heof, hread⟩ := Target.save_full (.dir dir) hD hn hr1 h2 (.inl ho)
      have hr2 := hx.reachable hr1
      obtain ⟨os, hos⟩ := hx.run (hr1.spec hD).1
      have htl := hL.readEntry (D := D) hB (by rw [hd]; exact Nat.le_refl _)
      rw [h1] at htl
      simp only at htl
      have htd : t1.delim = s.delim := by have := BR.readEntry_delim hD hi; rw [h1] at this; exact this
      have htst : t1.st ≠ .atEnd := by
        have hsp := BR.readEntry_spec hD hi
        rw [h1] at hsp
        simp only at hsp
        cases hsp with | entry => assumption
      obtain ⟨r1, r2, r3, r4, r5⟩ := BR.run_skipped os htl.inv
      rw [hos] at r1 r2 r3 r4 r5
      obtain ⟨f, hf1, hf2⟩ := ih h3 (by simp at hlt; omega) hr2 (htl.withPath hB h2) (fun h => htst (r5.mp h)) (BR.AtEof.drained (hr2.spec hD).1 heof)
        (fun v hv => by rw [r1, hX]; apply hv.drop; rw [htd, hd, hX] at r2; exact r2) hN
      exact ⟨f, by simpa using hf1, hf2⟩

/-- C77 needs its exception for every request with a long enough field (that is UTF-8 if it is saved as text): there is a way for this request to arrive, in reads of less than twice the minimum buffer, such that it is saved fully, and the CRLF in
front of the delimiter is saved as part of this field. -/
theorem C77_leaks (hD : D.Sane) (hcr : (0x0D : Byte) ∉ b) (hc : cfg.Typed) (ho : cfg.openOpts.createNew = true) {body w0 rest dat X : Bytes} {es es' : List (FieldHeaders × Bytes)}
    (hP : PartsTo D (dashes ++ b) body es w0) (hN : NextIs (dashes ++ b) w0 (.part rest)) (hW : WellFormedPart D (dashes ++ b) rest fh dat X)
    (hX : dat ++ crlf ++ (dashes ++ b) <+: X) (hlong : entryBuf (dashes ++ b) ≤ dat.length + 1) (hR : Parts D (dashes ++ b) X es' .closed)
    (hu : fh.isText = true → cfg.textPolicy ≠ .ignore → IsUtf8 dat)
    (hp : cfg.textPolicy = .force → ∀ p ∈ es ++ (fh, dat) :: es', p.1.isText = true → IsUtf8 p.2) (ht : Nat.min cfg.sizeLimit cfg.memoryThreshold < u64Max ∨ cfg.textPolicy = .ignore)
    (dir : SaveDir) (hl : (es ++ (fh, dat) :: es').length < cfg.countLimit) (hz : ∀ p ∈ es ++ (fh, dat) :: es', p.2.length + 2 ≤ cfg.sizeLimit)
    (hw : DiskReady w dir.asPath (es ++ (fh, dat) :: es').length) :
    ∃ evs, Ev.bytes evs = body ∧ NoStall evs ∧ NoErr evs ∧ ReadsUpTo (2 * entryBuf (dashes ++ b)) evs ∧ ∃ n, ∀ fuel, n ≤ fuel → ∃ e w' t fs f,
      withEntries D cfg fuel (Entries.new dir) w (withBody evs b) = (.full e, w', t) ∧ GroupedByName e.fields fs ∧ All2 (SavedAs b evs w') fs (es ++ (fh, dat) :: es') ∧
      fs[es.length]? = some f ∧ f.headers = fh ∧ f.data.readable w' = .ok (dat ++ crlf) := by
  have hparts : Parts D (dashes ++ b) body (es ++ (fh, dat) :: es') .closed := hP.then (.part hN hW hR)
  obtain ⟨post, hpost⟩ := hX
  subst hpost
  have hd0 : dashes ++ b ≠ [] := by simp [dashes]
  have hf : FirstAt (dashes ++ b) (dat ++ crlf ++ (dashes ++ b) ++ post) (dat.length + 2) := by
    cases hW.data with
    | crlf a _ => exact a
    | bare a _ _ =>
      exfalso
      have := a.1
      unfold OccursAt at this
      rw [List.append_assoc, List.append_assoc, List.drop_left] at this
      simp [dashes, crlf] at this
  obtain ⟨G, Ps, B, hb, hn, hne, hup, hfrom, hB, hB0, hlen'⟩ := hW.arrive hP hN hlong
  have hXe : dat ++ crlf ++ (dashes ++ b) ++ post = dat ++ [0x0D] ++ Ev.bytes B := by rw [hB]; simp [crlf]
  rw [hXe] at hW hf
  refine ⟨_, hb, hn, hne, hup, ?_⟩
  obtain ⟨n, hs⟩ := C77_request_succeeds (w := w) hD hn hne hc ho hp ht (by rw [hb]; exact hparts) dir hl (fun p h => .inl (hz p h)) hw
  refine ⟨n, fun fuel hfu => ?_⟩
  obtain ⟨e, w', t, -, h1, -⟩ := hs fuel hfu
  obtain ⟨fs, s1, h2, h3, h4, h5, -⟩ := C53_all_read hc dir h1
  have hlen : fs.length = (es ++ (fh, dat) :: es').length := by
    obtain ⟨-, fs', k1, k2, k3⟩ := C53_full_has_every_field hD hn hne hc ho (by rw [hb]; exact hparts) dir h1
    omega
  have h0 : BR.Late (entryBuf (dashes ++ b)) B (withBody (G ++ Ps ++ B) b) := ⟨BR.fromReader_inv _ _, Nat.le_max_left _ _, .inl ⟨G ++ Ps, rfl⟩⟩
  have hdr : BR.Drained (withBody (G ++ Ps ++ B) b) := by intro h; simp [withBody, BR.fromReader] at h
  have hun : (withBody (G ++ Ps ++ B) b).unread = body := hb
  obtain ⟨f, g1, g2, g3⟩ := h2.leak hD hn hne rfl hB0 (fun bs h => hup bs (by simp [h])) hfrom hlen' (by simpa [dashes] using hcr) ho hW hf hlong hu hP (by rw [hlen]; simp) ⟨[], rfl⟩ h0
    (by simp [withBody, BR.fromReader]) hdr (fun v hv => by rw [hun]; exact hv) hN
  have hsv := (h2.savedAs hD hn hne ho ⟨[], rfl⟩ (.start (by rw [hb]; exact hparts)) (.inl hdr)).1
  rw [hlen, List.take_length] at hsv
  exact ⟨e, w', t, fs, f, h1, h4, hsv, g1, g2, g3⟩

theorem encodeTo_append (b z : Bytes) (fs gs : List OutField) : encodeTo b z (fs ++ gs) = encodeTo b (encodeTo b z gs) fs := by
  induction fs with
  | nil => rfl
  | cons f fs ih => simp [encodeTo, ih]

/-- The part of an encoded body for one of its fields. -/
theorem framed_at (hT : D.Tokenizes) (hb : SafeBoundary b) {fs gs : List OutField} {f : OutField} {es es' : List (FieldHeaders × Bytes)} (h1 : All2 (fun f e => Framed D b f e.1 ∧ e.2 = f.data) fs es)
    (h2 : Framed D b f fh) (h3 : All2 (fun f e => Framed D b f e.1 ∧ e.2 = f.data) gs es') :
    ∃ w0 rest X, PartsTo D (dashes ++ b) (encode b (fs ++ f :: gs)) es w0 ∧ NextIs (dashes ++ b) w0 (.part rest) ∧ WellFormedPart D (dashes ++ b) rest fh f.data X ∧
      f.data ++ crlf ++ (dashes ++ b) <+: X ∧ Parts D (dashes ++ b) X es' .closed := by
  have hz : dashes ++ b <+: encodeWith b crlf gs := encodeWith_prefix _ _ _
  have he : encode b (fs ++ f :: gs) = [] ++ encodeTo b (dashes ++ b ++ crlf ++ f.headers ++ f.data ++ crlf ++ encodeWith b crlf gs) fs := by
    rw [encode_with, encodeWith_to, encodeTo_append, List.nil_append, encodeWith_to]
    rfl
  rw [he]
  have hp : dashes ++ b <+: dashes ++ b ++ crlf ++ f.headers ++ f.data ++ crlf ++ encodeWith b crlf gs := by
    simp only [List.append_assoc]; rw [← List.append_assoc]; exact List.prefix_append _ _
  obtain ⟨pre, k1, k2⟩ := framed_partsTo hT hb hp h1 [] ⟨encodeTo_prefix hp fs, fun q hq => by simp at hq⟩
  obtain ⟨k3, k4, k5⟩ := framed_part hT hb hz h2 pre k2
  refine ⟨_, _, _, k1, k3, k4, ?_, framed_partsWith hT hb crlf h3 _ k5⟩
  rw [List.append_assoc, List.append_assoc, List.prefix_append_right_inj, List.prefix_append_right_inj]
  exact hz

theorem All2.at {α β : Type} {R : α → β → Prop} {as : List α} {bs : List β} (h : All2 R as bs) {k : Nat} {a : α} (ha : as[k]? = some a) :
    ∃ a1 a2 b1 b2 b, as = a1 ++ a :: a2 ∧ bs = b1 ++ b :: b2 ∧ b1.length = k ∧ All2 R a1 b1 ∧ R a b ∧ All2 R a2 b2 := by
  induction h generalizing k with
  | nil => simp at ha
  | @cons x y as bs h hs ih =>
    cases k with
    | zero =>
      simp only [List.getElem?_cons_zero, Option.some.injEq] at ha
      subst ha
      exact ⟨[], as, [], bs, y, rfl, rfl, rfl, .nil, h, hs⟩
    | succ k =>
      rw [List.getElem?_cons_succ] at ha
      obtain ⟨a1, a2, b1, b2, b, rfl, rfl, h3, h4, h5, h6⟩ := ih ha
      exact ⟨x :: a1, a2, y :: b1, b2, b, rfl, rfl, by simp [h3], .cons h h4, h5, h6⟩

/-- The same for an encoded request. -/
theorem encoded_leaks {fs : List OutField} {cts : List (Option Mime)} {f : OutField} {ct : Option Mime} {k : Nat} (hD : D.Sane) (hT : D.Tokenizes) (hb : SafeBoundary b)
    (hs : All2 (Sendable D b) fs cts) (dir : SaveDir) (ha : Allows cfg w dir.asPath fs cts) (hk : fs[k]? = some f) (hct : cts[k]? = some ct) (hlong : entryBuf (dashes ++ b) ≤ f.data.length + 1)
    (hu : (∀ m, ct = some m → m.type_ = b!"text") → cfg.textPolicy ≠ .ignore → IsUtf8 f.data) :
    ∃ evs, Ev.bytes evs = encode b fs ∧ NoStall evs ∧ NoErr evs ∧ ReadsUpTo (2 * entryBuf (dashes ++ b)) evs ∧ ∃ n, ∀ fuel, n ≤ fuel → ∃ e w' t xs x,
      withEntries D cfg fuel (Entries.new dir) w (withBody evs b) = (.full e, w', t) ∧ GroupedByName e.fields xs ∧ All2 (Arrived b evs w') xs (fs.zip cts) ∧
      xs[k]? = some x ∧ x.data.readable w' = .ok (f.data ++ crlf) := by
  have hfr := all2_framed hb hs
  have hlen : (List.zipWith OutField.asRead fs cts).length = fs.length := by rw [List.length_zipWith, hs.length]; omega
  have hek : (List.zipWith OutField.asRead fs cts)[k]? = some (f.asRead ct) := by rw [List.getElem?_zipWith, hk, hct]
  have hfc := ha.forced' hs.length
  have hcount := ha.count
  have hdisk := ha.disk
  have hsize : ∀ p ∈ List.zipWith OutField.asRead fs cts, p.2.length + 2 ≤ cfg.sizeLimit := by
    intro p hp
    obtain ⟨i, hi, rfl⟩ := List.getElem_of_mem hp
    rw [List.getElem_zipWith]
    exact ha.size _ (List.getElem_mem _)
  rw [← hlen] at hcount hdisk
  have harr : ∀ {evs w' xs}, All2 (SavedAs b evs w') xs (List.zipWith OutField.asRead fs cts) → All2 (Arrived b evs w') xs (fs.zip cts) := by
    intro evs w' xs h
    refine All2.zipWith ?_ h
    rintro x f ct ⟨g1, c, g2, g3⟩
    exact ⟨by rw [g1]; rfl, by rw [g1]; rfl, by rw [g1]; rfl, c, g2, g3⟩
  obtain ⟨f1, f2, e1, e2, p, rfl, he, hl1, h1, h2, h3⟩ := hfr.at hk
  have hp : p = f.asRead ct := by
    rw [he, List.getElem?_append_right (by omega), hl1, Nat.sub_self] at hek
    simpa using hek
  subst hp
  obtain ⟨w0, rest, X, k1, k2, k3, k4, k5⟩ := framed_at (fh := (f.asRead ct).1) hT hb h1 h2.1 h3
  rw [he] at hcount hdisk hfc hsize harr
  obtain ⟨evs, g1, g2, g3, g3', n, g4⟩ := C77_leaks (w := w) hD (fun hx => hb.notMem (c := 0x0D) (by decide) (List.mem_append_right _ hx)) ha.typed ha.createNew k1 k2 k3 k4 hlong k5 (fun hx hy => hu (by
    intro m hm
    subst hm
    simpa [OutField.asRead, FieldHeaders.isText] using hx) hy) hfc ha.memory dir hcount hsize hdisk
  refine ⟨evs, g1, g2, g3, g3', n, fun fuel hf => ?_⟩
  obtain ⟨e, w', t, xs, x, j1, j2, j3, j4, j5, j6⟩ := g4 fuel hf
  exact ⟨e, w', t, xs, x, j1, j2, harr j3, by rw [← hl1]; exact j4, j6⟩

/-- C78 needs its exception for every upload with a long enough field: there is a way for what was sent to arrive, in reads of less than twice the minimum buffer, such that it is saved fully, with the CRLF in front of the delimiter at the end of this field. -/
theorem C78_leaks {env : FileEnv} {req : ClientReq} {s : ClientStream} {os : List ClientOp} {fs : List OutField} {cts : List (Option Mime)} {f : OutField} {ct : Option Mime} {k : Nat}
    (hD : D.Sane) (hT : D.Tokenizes) (hb : SafeBoundary b) (h : plainRequest env req b os = (.ok (), some s))
    (hos : All2 (StandsFor env) os fs) (hs : All2 (Sendable D b) fs cts) (dir : SaveDir) (ha : Allows cfg w dir.asPath fs cts)
    (hk : fs[k]? = some f) (hct : cts[k]? = some ct) (hlong : entryBuf (dashes ++ b) ≤ f.data.length + 1)
    (hu : (∀ m, ct = some m → m.type_ = b!"text") → cfg.textPolicy ≠ .ignore → IsUtf8 f.data) :
    ∃ evs, Ev.bytes evs = s.sink.got ∧ NoStall evs ∧ NoErr evs ∧ ReadsUpTo (2 * entryBuf (dashes ++ b)) evs ∧ ∃ n, ∀ fuel, n ≤ fuel → ∃ e w' t xs x,
      withEntries D cfg fuel (Entries.new dir) w (withBody evs b) = (.full e, w', t) ∧ GroupedByName e.fields xs ∧ All2 (Arrived b evs w') xs (fs.zip cts) ∧
      xs[k]? = some x ∧ x.data.readable w' = .ok (f.data ++ crlf) := by
  rw [sent_encode h hos]
  exact encoded_leaks hD hT hb hs dir ha hk hct hlong hu

namespace Sample

def bigCfg : Settings := { Settings.default with sizeLimit := 2000, countLimit := 5 }

theorem bigUtf8 : IsUtf8 big := (utf8Valid_iff _).mp (by decide +kernel)

def bigSent : ClientStream := ((plainRequest env req b!"b" [.text b!"t" big]).2).getD ⟨[], ⟨[], []⟩, none⟩

theorem bigSent_eq : plainRequest env req b!"b" [.text b!"t" big] = (.ok (), some bigSent) := by decide +kernel

theorem bigSendable : All2 (Sendable refDeps b!"b") [⟨b!"t", none, none, big⟩] [none] := by
  have abs : ∀ v : Bytes, findSub (dashes ++ b!"b") v = none → Absent (dashes ++ b!"b") v := fun v h => findSub_eq_none_iff.mp h
  exact .cons ⟨nameText (by decide) (by decide) (by decide) (by decide) (by decide +kernel), by simp, by simp, by decide +kernel, by decide +kernel,
    abs _ (by decide +kernel), by simp, by simp, abs _ (by decide +kernel)⟩ .nil

theorem bigAllows : Allows bigCfg readyDisk [b!"d"] [⟨b!"t", none, none, big⟩] [none] :=
  ⟨⟨by decide, by decide, by decide, rfl⟩, rfl, fun h => by simp [bigCfg, Settings.default] at h, .inl (by decide), by decide, by decide +kernel, readyDisk_ready (by decide) _⟩

end Sample

/-- The hypotheses of C77_leaks can be met. -/
example : ∃ evs, Ev.bytes evs = Ev.bytes Sample.evsCr ∧ NoStall evs ∧ NoErr evs ∧ ReadsUpTo (2 * entryBuf (dashes ++ Sample.bnd)) evs ∧ ∃ n, ∀ fuel, n ≤ fuel → ∃ e w' t fs f,
    withEntries refDeps Sample.bigCfg fuel (Entries.new (.perm [b!"d"])) Sample.readyDisk (withBody evs Sample.bnd) = (.full e, w', t) ∧ GroupedByName e.fields fs ∧
      All2 (SavedAs Sample.bnd evs w') fs [(Sample.fh, Sample.big)] ∧ fs[0]? = some f ∧ f.headers = Sample.fh ∧ f.data.readable w' = .ok (Sample.big ++ crlf) :=
  C77_leaks (es := []) (w0 := Ev.bytes Sample.evsCr) (rest := Sample.hdr ++ (Sample.big ++ b!"\r\n--b--\r\n")) (X := Sample.big ++ b!"\r\n--b--\r\n") (es' := [])
    refDeps_sane (by decide) ⟨by decide, by decide, by decide, rfl⟩ rfl .nil
    (.part (p := 0) (findSub_some (by decide +kernel)) (by decide +kernel))
    ⟨⟨Sample.hdr, _, Sample.headerBlock (by decide +kernel), by decide +kernel, by decide, fun _ => by decide +kernel⟩,
      .crlf (findSub_some (by decide +kernel)) ⟨b!"--b--\r\n", by decide +kernel⟩⟩
    ⟨b!"--\r\n", by decide +kernel⟩ (by decide +kernel)
    (.close (rest := b!"\r\n") (.close (p := 1102) (findSub_some (by decide +kernel)) (by decide +kernel)))
    (fun _ _ => Sample.bigUtf8) (fun h => by simp [Sample.bigCfg, Settings.default] at h) (.inl (by decide)) _ (by decide) (by decide +kernel) (Sample.readyDisk_ready (by decide) _)

/-- And those of C78_leaks, by a request with one text. -/
example : ∃ evs, Ev.bytes evs = Sample.bigSent.sink.got ∧ NoStall evs ∧ NoErr evs ∧ ReadsUpTo (2 * entryBuf (dashes ++ b!"b")) evs ∧ ∃ n, ∀ fuel, n ≤ fuel → ∃ e w' t xs x,
    withEntries refDeps Sample.bigCfg fuel (Entries.new (.perm [b!"d"])) Sample.readyDisk (withBody evs b!"b") = (.full e, w', t) ∧ GroupedByName e.fields xs ∧
      All2 (Arrived b!"b" evs w') xs [(⟨b!"t", none, none, Sample.big⟩, none)] ∧ xs[0]? = some x ∧ x.data.readable w' = .ok (Sample.big ++ crlf) :=
  C78_leaks (fs := [⟨b!"t", none, none, Sample.big⟩]) (cts := [none]) refDeps_sane refDeps_tokenizes ⟨by simp, by decide⟩ Sample.bigSent_eq (.cons (.text _ _) .nil)
    Sample.bigSendable (.perm [b!"d"]) Sample.bigAllows (k := 0)
    rfl rfl (by decide +kernel) (fun _ _ => Sample.bigUtf8)

end Multipart

import Verif.Props.Exceeds
import Verif.Props.IronOversize
/-!
# Every request with a long field over the limit can arrive so that lenient interception rejects it (more on C110)
-/
namespace Multipart

variable {D : Deps} {evs : List Ev} {b : Bytes} {s t : BR} {cfg : Settings} {fuel : Nat} {T : Target} {w w' : World} {e : Entries} {es : List (FieldHeaders × Bytes)} {i : Intercept}
  {fail : Option (IoErr × (Path → Bool))} {dir : Path} {fh : FieldHeaders}

theorem saveFile_none {p : Path} {y : Bytes} (h : s.readToBoundary = (.ok y, s)) (hl : cfg.sizeLimit < Nat.min y.length u64Max) :
    (saveFile cfg (fuel + 1) p [] w s).2.2 = s ∧ ∀ d, (saveFile cfg (fuel + 1) p [] w s).1 ≠ .full d := by
  have hlt : cfg.sizeLimit < u64Max := Nat.lt_of_lt_of_le hl (Nat.min_le_right _ _)
  unfold saveFile
  rcases w.createDirAll p with ⟨_ | e, w1⟩
  · simp only
    rcases w1.openFile cfg.openOpts p with ⟨e | old, w2⟩
    · simp
    · have hwa : tryWriteAll [] { script := w2.writes, got := [] } = (.full 0, { script := w2.writes, got := [] }) := by
        unfold tryWriteAll
        cases w2.writes <;> simp [tryWriteAllAux]
      simp only
      rw [hwa]
      simp only
      unfold writeTo
      rw [if_pos hlt, tryCopyLimited_stops h hl]
      simp [SaveRes.map]
  · simp

theorem withPathMem_none {p : Path} {y : Bytes} (h : s.readToBoundary = (.ok y, s)) (hl : cfg.sizeLimit < Nat.min y.length u64Max) :
    (withPathMem cfg (fuel + 1) p [] w s).2.2 = s ∧ ∀ d, (withPathMem cfg (fuel + 1) p [] w s).1 ≠ .full d := by
  have hm : cfg.memLimit 0 < Nat.min y.length u64Max := Nat.lt_of_le_of_lt (by simp only [Settings.memLimit, Nat.sub_zero]; exact Nat.min_le_left _ _) hl
  unfold withPathMem saveMem
  rw [show cfg.memLimit ([] : Bytes).length = cfg.memLimit 0 from rfl, tryCopyLimited_stops h hm]
  simp only
  split
  · exact saveFile_none h hl
  · simp

/-- If the data of a field are shown all at once and are too many, nothing is taken of them. -/
theorem withPath_none {p : Path} {y : Bytes} (h : s.readToBoundary = (.ok y, s)) (hl : cfg.sizeLimit < Nat.min y.length u64Max) :
    (withPath cfg fuel p w s).2.2 = s ∧ ∀ d, (withPath cfg fuel p w s).1 ≠ .full d := by
  have hm : cfg.memLimit 0 < Nat.min y.length u64Max := Nat.lt_of_le_of_lt (by simp only [Settings.memLimit, Nat.sub_zero]; exact Nat.min_le_left _ _) hl
  cases fuel with
  | zero =>
    unfold withPath withPathMem saveText saveMem tryCopyLimited tryReadBuf
    split <;> simp
  | succ fuel =>
    unfold withPath
    split
    · unfold saveText
      rw [tryCopyLimited_stops h hm]
      simp only
      split
      · exact withPathMem_none h hl
      · simp
    · exact withPathMem_none h hl

/-- The reader is before the fields `es`, none of which is long, and the field in question comes next. -/
structure Ahead (D : Deps) (b : Bytes) (evs : List Ev) (rest : Bytes) (B : List Ev) (s : BR) (es : List (FieldHeaders × Bytes)) : Prop where
  reach : Reachable D evs b s
  late : s.Late (entryBuf (dashes ++ b)) B
  near : s.Near (dashes ++ b)
  st : s.st ≠ .atEnd
  parts : ∃ w0, PartsTo D (dashes ++ b) s.unread es w0 ∧ NextIs (dashes ++ b) w0 (.part rest)
  small : ∀ e ∈ es, ¬ LongField (dashes ++ b) e.2

variable {dat x L rest : Bytes} {G B : List Ev}

theorem Ahead.last (hD : D.Sane) (h : Trap D b evs fh dat x L rest G B) (ha : Ahead D b evs rest B s []) :
    ∃ t, s.readEntry D = (.ok (some fh), t) ∧ (t.readEntry D).1 = .err .unexpectedEof ∧ ∃ y, t.readToBoundary = (.ok y, t) ∧ dat.length ≤ y.length := by
  obtain ⟨w0, hP, hN⟩ := ha.parts
  cases hP
  have hsp := ha.reach.spec hD
  obtain ⟨t, h1, h2, h3, h4, h5, h6, h7⟩ := BR.entry_of_near hD h.stall h.err h.more ha.late hsp.2.2.1 hsp.2.2.2 hsp.2.1 ha.st ha.near hN h.part
  have hevs : s.evs <:+ G ++ .data L :: B := h.script ▸ hsp.2.2.2
  refine ⟨t, h1, BR.entry_skip_fails hD h.more hsp.2.2.1 ha.late hevs h1 h2 (by rw [h2]; exact h.first) h.short h.read h.long, ?_⟩
  obtain ⟨k1, k2, k3, k4⟩ := BR.entry_found hD h.more hsp.2.2.1 ha.late hevs h1 h2 h.read h.long
  have hlen : t.buf.length = dat.length + 2 + (dashes ++ b).length + x.length := by rw [k1]; simp [crlf]; omega
  have hfull : t.Full := .inl (Nat.le_trans h3.min (by rw [hlen]; exact h.long))
  obtain ⟨g1, g2⟩ := BR.refill_eq_self hfull
  have hsame : t.afterRead = t := by rw [BR.afterRead_other (by rw [k2]; simp), g1]
  have hidx : dat.length ≤ t.idx := by
    have hc := k3.cursor
    unfold BR.CursorOk at hc
    rw [k2] at hc
    simp only at hc
    obtain ⟨p, c1, -, c2⟩ := hc
    rw [k4, h2] at c1
    have := c1.unique h.first
    rcases c2 with c2 | ⟨c2, -⟩ <;> omega
  rcases BR.readToBoundary_eq k3 with ⟨e, g, -⟩ | ⟨-, g⟩
  · rw [g2] at g; simp at g
  · rw [hsame] at g
    exact ⟨_, g, by rw [List.length_take, hlen]; omega⟩

/-- The step over one of the fields before, of which anything may be read. -/
theorem Ahead.next (hD : D.Sane) (h : Trap D b evs fh dat x L rest G B) {fh' : FieldHeaders} {dat' : Bytes} (ha : Ahead D b evs rest B s ((fh', dat') :: es)) :
    ∃ t, s.readEntry D = (.ok (some fh'), t) ∧ ∀ y u, Took t y u → Ahead D b evs rest B u es := by
  obtain ⟨w0, hP, hN⟩ := ha.parts
  have hsp := ha.reach.spec hD
  cases hP with
  | part hN' hW' hP' =>
    obtain ⟨t, h1, h2, h3, h4, h5, h6, h7⟩ := BR.entry_of_near hD h.stall h.err h.more ha.late hsp.2.2.1 hsp.2.2.2 hsp.2.1 ha.st ha.near hN' hW'
    refine ⟨t, h1, fun y u hu => ?_⟩
    have hrt := ha.reach.entry h1
    obtain ⟨os, hos⟩ := hu.run h3.inv
    obtain ⟨r1, r2, r3, r4, r5⟩ := BR.run_skipped os h3.inv
    rw [hos] at r1 r2 r3 r4 r5
    simp only at r1 r2 r3 r4 r5
    rw [h4] at r2
    have hk : KeptByFields fun s => s.Late (entryBuf (dashes ++ b)) B :=
      ⟨fun s h' => h'.readToBoundary h.more, fun s t buf n h' hr => by have := (h'.readToBoundary h.more).consume n; rw [hr] at this; exact this⟩
    refine ⟨hu.reachable hrt, hu.keeps hk h3, .inr fun p hp => ?_, fun g => h7 (r5.mp g), ?_, fun e he => ha.small e (List.mem_cons_of_mem _ he)⟩
    · rw [r1] at hp
      have hp' := hp.of_drop r2
      rw [h2] at hp'
      by_cases hl : entryBuf (dashes ++ b) < p + (dashes ++ b).length + 2
      · exact absurd (hW'.data.longField hp' (by omega)) (ha.small _ List.mem_cons_self)
      · omega
    · obtain ⟨w1, g1, g2⟩ := PartsTo.drop (u := t.unread) (h2 ▸ hP') r2 hN
      exact ⟨w1, by rw [r1]; exact g1, g2⟩

theorem Ahead.seq (hD : D.Sane) (h : Trap D b evs fh dat x L rest G B) (hl : cfg.sizeLimit < Nat.min dat.length u64Max) {fs : List SavedField} (hs : SavedSeq D cfg fuel dir w s fs w' t)
    (ha : Ahead D b evs rest B s es) : ∃ es', Ahead D b evs rest B t es' := by
  induction hs generalizing es with
  | nil => exact ⟨_, ha⟩
  | @cons w w1 w2 s s1 s2 t hd d fs h1 h2 h3 ih =>
    cases es with
    | nil =>
      exfalso
      obtain ⟨t', g1, -, y, g3, g4⟩ := ha.last hD h
      rw [h1] at g1
      simp only [Prod.mk.injEq, Res.ok.injEq, Option.some.injEq] at g1
      obtain ⟨rfl, rfl⟩ := g1
      rw [Target.save_eq] at h2
      have := (withPath_none (cfg := { cfg with textPolicy := if hd.isText then cfg.textPolicy else .ignore }) (fuel := fuel) (w := (Target.dir dir).world w) (p := (Target.dir dir).file w) g3
        (by show cfg.sizeLimit < _; simp only [Nat.min_def] at hl ⊢; split at hl <;> split <;> omega)).2 d
      rw [h2] at this
      exact this rfl
    | cons p es =>
      obtain ⟨t', g1, g2⟩ := ha.next hD h
      rw [h1] at g1
      simp only [Prod.mk.injEq, Res.ok.injEq, Option.some.injEq] at g1
      obtain ⟨-, rfl⟩ := g1
      obtain ⟨y, hy⟩ := Target.save_took _ ((ha.reach.entry h1).spec hD).1 h2 (by simp)
      exact ih (g2 _ _ hy)

/-- If `read_entry` fails, lenient interception does not return entries. -/
theorem Intercept.lenientLoop_entry_fails (ht : i.Typed) {er : IoErr} (h : (s.readEntry D).1 = .err er) {n : Nat} {o : Option Entries} :
    i.lenientLoop D fuel fail n e w s ≠ (.ok (.ok o), w', t) := by
  cases n with
  | zero => simp [Intercept.lenientLoop]
  | succ n =>
    intro hc
    rcases hw : withEntries D i.settings fuel e w s with ⟨r, w1, t1⟩
    simp only [Intercept.lenientLoop, hw] at hc
    obtain ⟨fs, w2, s1, h1, -, h3⟩ := withEntries_spec hw
    cases h1 with
    | cons g => rw [g] at h; simp at h
    | nil =>
      rcases h3 with h3 | ⟨rfl, -⟩
      · cases h3 with
        | full g => rw [g] at h; simp at h
        | count h4 =>
          have h5 := Entries.count_ge _ _ h4
          have := Intercept.lenient_stuck (D := D) (fuel := fuel) (fail := fail) (w := w) (s := (s.readEntry D).2) ht (n := n) (e := e.recountFields.pushAll []) (by
            rw [Entries.pushAll_total]; exact h5)
          simp only [PartialEntries.keepPartial] at hc
          rw [hc] at this
          simp at this
        | read => simp at hc
        | part g => rw [g] at h; simp at h
        | error g => rw [g] at h; simp at h
        | panic => simp at hc
        | hang => simp at hc
      · simp at hc

theorem Intercept.lenientLoop_trapped (hD : D.Sane) (ht : i.Typed) (h : Trap D b evs fh dat x L rest G B) (hl : i.fileSizeLimit < Nat.min dat.length u64Max) {n : Nat} {o : Option Entries}
    (ha : Ahead D b evs rest B s es) : i.lenientLoop D fuel fail n e w s ≠ (.ok (.ok o), w', t) := by
  induction n generalizing e w s es with
  | zero => simp [Intercept.lenientLoop]
  | succ n ih =>
    intro hc
    rcases hw : withEntries D i.settings fuel e w s with ⟨r, w1, t1⟩
    simp only [Intercept.lenientLoop, hw] at hc
    obtain ⟨fs, w2, s1, h1, -, h3⟩ := withEntries_spec hw
    obtain ⟨es', ha1⟩ := ha.seq (cfg := i.settings) hD h hl h1
    have hent : ∃ hd u, s1.readEntry D = (.ok (some hd), u) := by
      cases es' with
      | nil => obtain ⟨u, g, -⟩ := ha1.last hD h; exact ⟨_, _, g⟩
      | cons p es' => obtain ⟨u, g, -⟩ := ha1.next hD h; exact ⟨_, _, g⟩
    obtain ⟨hd, u, hent⟩ := hent
    rcases h3 with h3 | ⟨rfl, -⟩
    · cases h3 with
      | full g => rw [g] at hent; simp at hent
      | count h4 =>
        have h5 := Entries.count_ge _ _ h4
        have := Intercept.lenient_stuck (D := D) (fuel := fuel) (fail := fail) (w := w1) (s := (s1.readEntry D).2) ht (n := n) (e := e.recountFields.pushAll fs) (by
          rw [Entries.pushAll_total]; exact h5)
        simp only [PartialEntries.keepPartial] at hc
        rw [hc] at this
        simp at this
      | read g => rw [g] at hent; simp at hent
      | error => simp at hc
      | panic => simp at hc
      | hang => simp at hc
      | @part hd d r _ s2 _ g1 g2 g3 =>
        have hc' : i.lenientLoop D fuel fail n (PartialEntries.keepPartial ⟨e.recountFields.pushAll fs, some ⟨hd, some d⟩⟩) w1 t1 = (.ok (.ok o), w', t) := by
          cases r <;> simp at hc <;> exact hc
        cases es' with
        | nil =>
          obtain ⟨u, k1, k2, y, k3, k4⟩ := ha1.last hD h
          rw [g1] at k1
          simp only [Prod.mk.injEq, Res.ok.injEq, Option.some.injEq] at k1
          obtain ⟨rfl, rfl⟩ := k1
          rw [Target.save_eq] at g3
          have hst := (withPath_none (cfg := { i.settings with textPolicy := if hd.isText then i.settings.textPolicy else .ignore }) (fuel := fuel)
            (w := (Target.dir (e.recountFields.pushAll fs).saveDir.asPath).world w2) (p := (Target.dir (e.recountFields.pushAll fs).saveDir.asPath).file w2) k3
            (by show i.fileSizeLimit < _; simp only [Nat.min_def] at hl ⊢; split at hl <;> split <;> omega)).1
          rw [g3] at hst
          simp only at hst
          subst hst
          exact Intercept.lenientLoop_entry_fails ht k2 hc'
        | cons p es' =>
          obtain ⟨u, k1, k2⟩ := ha1.next hD h
          rw [g1] at k1
          simp only [Prod.mk.injEq, Res.ok.injEq, Option.some.injEq] at k1
          obtain ⟨-, rfl⟩ := k1
          obtain ⟨y, hy⟩ := Target.save_took _ ((ha1.reach.entry g1).spec hD).1 g3 (by simp)
          exact ih (k2 _ _ hy) hc'
    · simp at hc

/-- C110 fails for every request with a long field (see C07) over the limit, say `fh` is the first long one: there is a way for its body to arrive, in reads of not much more than this field, such that
lenient interception rejects the request. This is so whatever the disk does. -/
theorem C110_fails_somehow (hD : D.Sane) (ht : i.Typed) {body w0 rest dat X tail : Bytes} {es es' : List (FieldHeaders × Bytes)} {fin : Ending} (hP : PartsTo D (dashes ++ b) body es w0)
    (hs : ∀ e ∈ es, ¬ LongField (dashes ++ b) e.2) (hN : NextIs (dashes ++ b) w0 (.part rest)) (hW : WellFormedPart D (dashes ++ b) rest fh dat X) (htl : tail = crlf ∨ tail = dashes)
    (hX : dat ++ crlf ++ (dashes ++ b) ++ tail <+: X) (hlong : LongField (dashes ++ b) dat) (hrest : Parts D (dashes ++ b) X es' fin) (hbig : i.fileSizeLimit < dat.length)
    (hmax : i.fileSizeLimit < u64Max) (hl : es.length + es'.length + 1 < i.fileCountLimit) :
    ∃ evs, Ev.bytes evs = body ∧ NoStall evs ∧ NoErr evs ∧ ReadsUpTo (dat.length + (dashes ++ b).length + 4) evs ∧
      ∀ fail dir w, ∃ n, ∀ fuel, n ≤ fuel → ∃ er w' t, i.readRequestLenient D fuel fail dir w (withBody evs b) = (.ok (.error er), w', t) := by
  obtain ⟨evs, x, L, G, B, hbytes, hup, -, h⟩ := Trap.exists hP hN hW (by rcases htl with rfl | rfl <;> rfl) hX hlong
  refine ⟨evs, hbytes, h.stall, h.err, hup, fun fail dir w => ?_⟩
  have hP' : Parts D (dashes ++ b) (Ev.bytes evs) (es ++ (fh, dat) :: es') fin := hbytes ▸ hP.then (.part hN hW hrest)
  obtain ⟨n, hn⟩ := C60_returns_parts_partial (i := i) (fail := fail) (dir := dir) (w := w) hD h.stall h.err hP' (by simp; omega)
  refine ⟨n, fun fuel hf => ?_⟩
  obtain ⟨out, w', t, h1, -⟩ := hn fuel hf
  rcases out with er | o
  · exact ⟨er, w', t, h1⟩
  · exfalso
    rw [Intercept.lenient_eq] at h1
    have hun : (withBody evs b).unread = body := hbytes
    refine Intercept.lenientLoop_trapped hD ht h (by simp only [Nat.min_def]; split <;> omega) (es := es) (s := withBody evs b) ⟨⟨[], rfl⟩, ?_, .inl (by intro h; simp [withBody, BR.fromReader] at h),
      by simp [withBody, BR.fromReader], ⟨w0, by rw [hun]; exact hP, hN⟩, hs⟩ h1
    exact ⟨BR.fromReader_inv _ _, Nat.le_max_left _ _, .inl ⟨G ++ [.data L], by simp [withBody, BR.fromReader, h.script]⟩⟩

/-- A request with one field of 1100 bytes and a limit of 1000. -/
example : ∃ evs, Ev.bytes evs = Ev.bytes Sample.evsCut ∧ NoStall evs ∧ NoErr evs ∧ ReadsUpTo (Sample.big.length + (dashes ++ Sample.bnd).length + 4) evs ∧
    ∀ fail dir w, ∃ n, ∀ fuel, n ≤ fuel → ∃ er w' t, Intercept.readRequestLenient refDeps ⟨none, 1000, 8, .continue_⟩ fuel fail dir w (withBody evs Sample.bnd) = (.ok (.error er), w', t) :=
  C110_fails_somehow (es := []) (es' := []) (fin := .closed) (fh := Sample.fh) (w0 := Ev.bytes Sample.evsCut) (rest := Sample.hdr ++ (Sample.big ++ b!"\r\n--b--\r\n")) (dat := Sample.big)
    (X := Sample.big ++ b!"\r\n--b--\r\n") (tail := dashes) refDeps_sane ⟨by decide, by decide⟩ .nil (by simp) (.part (p := 0) (findSub_some (by decide +kernel)) (by decide +kernel))
    ⟨⟨Sample.hdr, _, Sample.headerBlock (by decide +kernel), by decide +kernel, by decide, fun _ => by decide +kernel⟩,
      .crlf (findSub_some (by decide +kernel)) ⟨b!"--b--\r\n", by decide +kernel⟩⟩ (.inr rfl)
    ⟨b!"\r\n", by decide +kernel⟩ (by unfold LongField; decide +kernel) (.close (rest := b!"\r\n") (.close (p := 1102) (findSub_some (by decide +kernel)) (by decide +kernel))) (by decide +kernel) (by decide) (by decide)

end Multipart

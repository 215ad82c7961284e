import Verif.Spec.Mock
import Verif.Lemmas.Client
import Verif.Props.Client
import Verif.Props.RoundTrip
/-!
# C63, C64, C71: the mock streams
-/
namespace Multipart

theorem genRange_bounds (rng : List Nat) {n : Nat} (h : n ≠ 0) : 1 ≤ (genRange rng n).1 ∧ (genRange rng n).1 ≤ n := by
  unfold genRange
  cases rng with
  | nil => simp only; omega
  | cons r rs => simp only [Nat.min_def]; split <;> omega

/-! ## C63 -/

/-- C63, one read: the bytes copied are taken from the front of the data, fit into the buffer, and are none only if the buffer or the data is empty. -/
theorem C63_read (s : MockServer) (n : Nat) : s.data = (s.read n).1 ++ (s.read n).2.data ∧ (s.read n).1.length ≤ n ∧
    ((s.read n).1 = [] → n = 0 ∨ s.data = []) ∧ (s.read n).2.boundary = s.boundary := by
  unfold MockServer.read
  by_cases h : n = 0
  · simp [h]
  · obtain ⟨h1, h2⟩ := genRange_bounds s.rng h
    rw [if_neg h]
    simp only
    generalize (genRange s.rng n).1 = k at h1 h2
    refine ⟨(List.take_append_drop _ _).symm, by rw [List.length_take]; omega, ?_, trivial⟩
    intro hk
    right
    rcases List.take_eq_nil_iff.mp hk with hk | hk
    · omega
    · exact hk

/-- C63: whatever the random numbers and the sizes of the buffers, what the reads deliver, one after the other, and what is left are the data. -/
theorem C63_reads (s : MockServer) (ns : List Nat) : (s.reads ns).1.flatten ++ (s.reads ns).2.data = s.data := by
  induction ns generalizing s with
  | nil => rfl
  | cons n ns ih =>
    simp only [MockServer.reads, List.flatten_cons, List.append_assoc, ih]
    exact (C63_read s n).1.symm

/-- C63: everything arrives: reads into non-empty buffers, as many as there are bytes, deliver all data. -/
theorem C63_all_read (s : MockServer) (ns : List Nat) (hn : 0 ∉ ns) (hl : s.data.length ≤ ns.length) : (s.reads ns).1.flatten = s.data := by
  have : (s.reads ns).2.data = [] := by
    induction ns generalizing s with
    | nil => simpa [MockServer.reads] using hl
    | cons n ns ih =>
      simp only [List.mem_cons, not_or] at hn
      simp only [MockServer.reads]
      apply ih _ hn.2
      obtain ⟨h1, -, h3, -⟩ := C63_read s n
      have h4 := congrArg List.length h1
      simp only [List.length_append, List.length_cons] at h4 hl
      by_cases he : (s.read n).1 = []
      · rcases h3 he with h | h
        · exact absurd h.symm hn.1
        · rw [h] at h4; simp at h4; omega
      · have := List.length_pos_iff.mpr he
        omega
  have h := C63_reads s ns
  rw [this, List.append_nil] at h
  exact h

example : (0 : Nat) ∉ [3, 2, 2, 9] ∧ (⟨b!"abcd", b!"b", none, [0, 5, 1]⟩ : MockServer).data.length ≤ [3, 2, 2, 9].length ∧
    ((⟨b!"abcd", b!"b", none, [0, 5, 1]⟩ : MockServer).reads [3, 2, 2, 9]).1 = [b!"a", b!"bc", b!"d", []] := by decide

/-- C63, one write: the front of the buffer of the returned length is recorded; it is not empty unless the buffer is. -/
theorem C63_write (h : HttpBuffer) (buf : Bytes) : (h.write buf).2.buf = h.buf ++ buf.take (h.write buf).1 ∧ (h.write buf).1 ≤ buf.length ∧
    ((h.write buf).1 = 0 → buf = []) ∧ (h.write buf).2.boundary = h.boundary ∧ (h.write buf).2.contentLen = h.contentLen := by
  unfold HttpBuffer.write
  by_cases hb : buf = []
  · simp [hb]
  · obtain ⟨h1, h2⟩ := genRange_bounds h.rng (n := buf.length) (by simpa using hb)
    rw [if_neg hb]
    exact ⟨rfl, h2, fun h0 => by simp only at h0; omega, rfl, rfl⟩

theorem HttpBuffer.writeAllLoop_spec : ∀ (n : Nat) (buf : Bytes) (h : HttpBuffer), buf.length < n →
    (HttpBuffer.writeAllLoop n buf h).1 = .ok () ∧ (HttpBuffer.writeAllLoop n buf h).2.buf = h.buf ++ buf := by
  intro n
  induction n with
  | zero => intro buf h hl; omega
  | succ n ih =>
    intro buf h hl
    unfold HttpBuffer.writeAllLoop
    by_cases hb : buf = []
    · simp [hb]
    · obtain ⟨h1, h2, h3, -⟩ := C63_write h buf
      have h0 : (h.write buf).1 ≠ 0 := fun h0 => hb (h3 h0)
      simp only [hb, if_false, h0]
      obtain ⟨h4, h5⟩ := ih (buf.drop (h.write buf).1) (h.write buf).2 (by rw [List.length_drop]; omega)
      refine ⟨h4, ?_⟩
      rw [h5, h1, List.append_assoc, List.take_append_drop]

/-- C63: whatever the random numbers, `write_all` succeeds and records exactly the bytes. -/
theorem C63_write_all (h : HttpBuffer) (buf : Bytes) : (h.writeAll buf).1 = .ok () ∧ (h.writeAll buf).2.buf = h.buf ++ buf :=
  HttpBuffer.writeAllLoop_spec _ _ _ (Nat.lt_succ_self _)

example : ((⟨[], b!"b", none, [0, 1]⟩ : HttpBuffer).writeAll b!"abcde").2.buf = b!"abcde" ∧ ((⟨[], b!"b", none, [0, 1]⟩ : HttpBuffer).write b!"abcde").1 = 1 := by decide

theorem HttpBuffer.writeAllLoop_meta : ∀ (n : Nat) (buf : Bytes) (h : HttpBuffer), (HttpBuffer.writeAllLoop n buf h).2.boundary = h.boundary ∧
    (HttpBuffer.writeAllLoop n buf h).2.contentLen = h.contentLen := by
  intro n
  induction n with
  | zero => intro buf h; exact ⟨rfl, rfl⟩
  | succ n ih =>
    intro buf h
    obtain ⟨-, -, -, h4, h5⟩ := C63_write h buf
    unfold HttpBuffer.writeAllLoop
    split
    · exact ⟨rfl, rfl⟩
    · simp only
      split
      · exact ⟨h4, h5⟩
      · exact ⟨(ih _ _).1.trans h4, (ih _ _).2.trans h5⟩

theorem HttpBuffer.writeAllLoop_sink : ∀ (n : Nat) (buf : Bytes) (h : HttpBuffer), buf.length < n →
    writeAllAux buf h.buf h.sink.script = ((HttpBuffer.writeAllLoop n buf h).1, (HttpBuffer.writeAllLoop n buf h).2.sink) := by
  intro n
  induction n with
  | zero => intro buf h hl; omega
  | succ n ih =>
    intro buf h hl
    unfold HttpBuffer.writeAllLoop
    by_cases hb : buf = []
    · subst hb
      obtain ⟨b, bd, cl, rng⟩ := h
      cases rng <;> simp [writeAllAux, HttpBuffer.sink]
    · obtain ⟨h1, h2, h3, -⟩ := C63_write h buf
      have h0 : (h.write buf).1 ≠ 0 := fun h0 => hb (h3 h0)
      simp only [hb, if_false, h0]
      rw [← ih (buf.drop (h.write buf).1) (h.write buf).2 (by rw [List.length_drop]; omega)]
      obtain ⟨b, bd, cl, rng⟩ := h
      cases rng with
      | nil => simp [writeAllAux, HttpBuffer.sink, HttpBuffer.write, hb, genRange]
      | cons r rs =>
        have hm : Nat.min (r + 1) buf.length ≠ 0 := by
          have := List.length_pos_iff.mpr hb
          simp only [Nat.min_def]; split <;> omega
        simp only [HttpBuffer.sink, HttpBuffer.write, hb, if_false, genRange, List.map_cons, writeAllAux, hm]

/-- C63: for `write_all`, the way in which the client writes, the buffer is a destination with short writes as in the client model. -/
theorem C63_is_sink (h : HttpBuffer) (buf : Bytes) : h.sink.writeAll buf = ((h.writeAll buf).1, (h.writeAll buf).2.sink) :=
  HttpBuffer.writeAllLoop_sink _ _ _ (Nat.lt_succ_self _)

/-- A whole mock connection: `open_stream` panics only if no headers were applied. Otherwise the boundary and content length applied last reach the server, together with exactly
the bytes that were written, whatever the random numbers are. -/
theorem C63_connection (c : MockClient) (b : Bytes) (len : Option Nat) (bufs : List Bytes) (rng ns : List Nat) :
    (c.openStream = .panic ↔ c.boundary = none) ∧ (c.applyHeaders b len).1 = true ∧
    ∃ h s, (c.applyHeaders b len).2.openStream = .ok h ∧ (bufs.foldl (fun h x => (h.writeAll x).2) h).forServer rng = s ∧
      s.boundary = b ∧ s.contentLen = len ∧ s.data = bufs.flatten ∧ s.rng = rng ∧
      (s.reads ns).1.flatten ++ (s.reads ns).2.data = bufs.flatten ∧ (s.reads ns).2.boundary = b ∧ (s.reads ns).2.contentLen = len := by
  refine ⟨?_, rfl, _, _, rfl, rfl, ?_⟩
  · unfold MockClient.openStream; cases c.boundary <;> simp
  · have hw : ∀ (bufs : List Bytes) (h : HttpBuffer), (bufs.foldl (fun h x => (h.writeAll x).2) h).buf = h.buf ++ bufs.flatten ∧
        (bufs.foldl (fun h x => (h.writeAll x).2) h).boundary = h.boundary ∧ (bufs.foldl (fun h x => (h.writeAll x).2) h).contentLen = h.contentLen := by
      intro bufs
      induction bufs with
      | nil => intro h; simp
      | cons x bufs ih =>
        intro h
        obtain ⟨h1, h2, h3⟩ := ih (h.writeAll x).2
        obtain ⟨h4, h5⟩ := HttpBuffer.writeAllLoop_meta (x.length + 1) x h
        exact ⟨by rw [List.foldl_cons, h1, (C63_write_all h x).2]; simp, h2.trans h4, h3.trans h5⟩
    have hr : ∀ (ns : List Nat) (s : MockServer), (s.reads ns).2.boundary = s.boundary ∧ (s.reads ns).2.contentLen = s.contentLen := by
      intro ns
      induction ns with
      | nil => intro s; exact ⟨rfl, rfl⟩
      | cons n ns ih =>
        intro s
        have h1 := ih (s.read n).2
        have h2 : (s.read n).2.boundary = s.boundary ∧ (s.read n).2.contentLen = s.contentLen := by unfold MockServer.read; split <;> exact ⟨rfl, rfl⟩
        exact ⟨h1.1.trans h2.1, h1.2.trans h2.2⟩
    obtain ⟨h1, h2, h3⟩ := hw bufs (HttpBuffer.withBuf [] b len c.rng)
    refine ⟨h2, h3, h1, rfl, ?_, (hr _ _).1.trans h2, (hr _ _).2.trans h3⟩
    rw [C63_reads]; exact h1

example : let h := [b!"ab", b!"cde"].foldl (fun h x => (HttpBuffer.writeAll x h).2) (HttpBuffer.withBuf [] b!"b" (some 5) [0, 7, 1])
    (h.forServer [1]).data = b!"abcde" ∧ (h.forServer [1]).contentLen = some 5 ∧ ((h.forServer [1]).reads [3, 2]).1 = [b!"ab", b!"cd"] := by decide

/-! ## C64 -/

theorem Sink.writeAll_ok {k k' : Sink} {buf : Bytes} (h : k.writeAll buf = (.ok (), k')) : k'.got = k.got ++ buf := by
  obtain ⟨u, hu, ⟨-, h2, -⟩ | ⟨e, p, h1, -⟩⟩ := k.writeAll_spec (c := fun _ => True) buf
  · rw [h] at h2; exact h2
  · rw [h] at h1; simp at h1

theorem writeAllAux_interrupted : ∀ (script : List WEv) (buf got : Bytes), (writeAllAux buf got script).1 ≠ .err .interrupted ∧
    (writeAllAux buf got script).1 ≠ .panic ∧ (writeAllAux buf got script).1 ≠ .hang := by
  intro script
  induction script with
  | nil => intro buf got; simp [writeAllAux]
  | cons ev script ih =>
    intro buf got
    unfold writeAllAux
    by_cases hb : buf = []
    · simp [hb]
    · rw [if_neg hb]
      cases ev with
      | accept n => simp only; split <;> simp [ih]
      | err e => cases e <;> simp [ih]

theorem Tee.writeAllLoop_ok : ∀ (n : Nat) (buf : Bytes) (t t' : Tee), Tee.writeAllLoop n buf t = (.ok (), t') →
    t'.stdout.got = t.stdout.got ++ buf ∧ (∃ x, t'.inner.got = t.inner.got ++ x ∧ Repeats buf x) ∧ t'.stdout.script <:+ t.stdout.script ∧
    ((∀ ev ∈ t.stdout.script, ∃ k, ev = .accept k ∧ buf.length ≤ k) → t'.inner.got = t.inner.got ++ buf) := by
  intro n
  induction n with
  | zero => intro buf t t' h; simp [Tee.writeAllLoop] at h
  | succ n ih =>
    intro buf t t' h
    unfold Tee.writeAllLoop at h
    by_cases hb : buf = []
    · rw [if_pos hb] at h
      cases h
      subst hb
      exact ⟨by simp, ⟨[], by simp, [], by simp, by simp⟩, List.suffix_rfl, by simp⟩
    · rw [if_neg hb] at h
      unfold Tee.write at h
      rcases hw : t.inner.writeAll buf with ⟨r, i⟩
      rw [hw] at h
      cases r with
      | ok u =>
        have hi := Sink.writeAll_ok hw
        simp only at h
        obtain ⟨inner, ⟨script, got⟩⟩ := t
        cases script with
        | nil =>
          simp only [Sink.write] at h
          have hl : buf.length ≠ 0 := by simpa using hb
          rw [if_neg hl] at h
          obtain ⟨h1, ⟨x, h2, ends, h3, h4⟩, h5, h6⟩ := ih _ _ _ h
          have hx : x = [] := by
            rw [h3]
            simp only [List.drop_length, List.nil_append, List.flatten_eq_nil_iff]
            intro e he
            have := h4 e he
            simpa using this
          subst hx
          simp only [List.drop_length, List.append_nil] at h1 h2
          exact ⟨h1, ⟨buf, by rw [h2, hi], [], by simp, by simp⟩, h5, fun _ => by rw [h2, hi]⟩
        | cons ev script =>
          cases ev with
          | accept k =>
            simp only [Sink.write] at h
            split at h
            · simp at h
            · obtain ⟨h1, ⟨x, h2, ends, h3, h4⟩, h5, h6⟩ := ih _ _ _ h
              refine ⟨?_, ⟨buf ++ x, ?_, buf.drop (Nat.min k buf.length) :: ends, ?_, ?_⟩, h5.trans (List.suffix_cons _ _), ?_⟩
              · rw [h1]; simp only [List.append_assoc, List.take_append_drop]
              · rw [h2, hi, List.append_assoc]
              · rw [h3]; simp
              · intro e he
                rcases List.mem_cons.mp he with rfl | he
                · exact List.drop_suffix _ _
                · exact (h4 e he).trans (List.drop_suffix _ _)
              · intro hall
                obtain ⟨k', hk, hle⟩ := hall (.accept k) (by simp)
                cases hk
                have hm : Nat.min k buf.length = buf.length := Nat.min_eq_right hle
                rw [hm, List.drop_length] at h6
                have := h6 (fun ev hev => by
                  obtain ⟨k', hk, -⟩ := hall ev (by simp only [List.mem_cons]; exact .inr hev)
                  exact ⟨k', hk, by simp⟩)
                rw [this, List.append_nil, hi]
          | err e =>
            simp only [Sink.write] at h
            cases e <;> simp only [Prod.mk.injEq, reduceCtorEq, false_and] at h
            obtain ⟨h1, ⟨x, h2, ends, h3, h4⟩, h5, h6⟩ := ih _ _ _ h
            refine ⟨h1, ⟨buf ++ x, by rw [h2, hi, List.append_assoc], buf :: ends, by rw [h3]; simp, ?_⟩, h5.trans (List.suffix_cons _ _), ?_⟩
            · intro e he
              rcases List.mem_cons.mp he with rfl | he
              · exact List.suffix_rfl
              · exact h4 e he
            · intro hall
              obtain ⟨k', hk, -⟩ := hall (.err .interrupted) (by simp)
              simp at hk
      | err e =>
        have := (writeAllAux_interrupted t.inner.script buf t.inner.got).1
        unfold Sink.writeAll at hw
        rw [hw] at this
        simp only at h
        cases e <;> simp_all
      | panic => simp at h
      | hang => simp at h

/-- C64 is false of the code: if standard output takes only a part of the bytes, the rest is written to the inner writer again. -/
theorem C64_false : ¬ TeeFaithful := by
  intro h
  have := (h ⟨⟨[], []⟩, ⟨[.accept 1], []⟩⟩ ⟨⟨[], b!"abb"⟩, ⟨[], b!"ab"⟩⟩ [b!"ab"] (by decide)).1
  revert this; decide

/-- C64, as far as it holds: what is written with success arrives exactly once on standard output. In the inner writer, every buffer arrives in order, each followed by
repetitions of its ends (one for every short or interrupted write to standard output). Missing: that it arrives only once there. -/
theorem C64_arrives_partial {bufs : List Bytes} {t t' : Tee} (h : Tee.writeEach bufs t = (.ok (), t')) :
    t'.stdout.got = t.stdout.got ++ bufs.flatten ∧ ∃ xs, t'.inner.got = t.inner.got ++ xs.flatten ∧ All2 Repeats bufs xs := by
  induction bufs generalizing t with
  | nil => cases h; exact ⟨by simp, [], by simp, .nil⟩
  | cons b bs ih =>
    unfold Tee.writeEach at h
    rcases hw : t.writeAll b with ⟨r, t1⟩
    rw [hw] at h
    cases r with
    | ok u =>
      obtain ⟨h1, ⟨x, h2, h3⟩, -, -⟩ := Tee.writeAllLoop_ok _ _ _ _ hw
      obtain ⟨h4, xs, h5, h6⟩ := ih h
      exact ⟨by rw [h4, h1]; simp, x :: xs, by rw [h5, h2]; simp, .cons h3 h6⟩
    | err e => simp at h
    | panic => simp at h
    | hang => simp at h

/-- C64 holds if standard output takes every buffer whole. -/
theorem C64_whole_partial {bufs : List Bytes} {t t' : Tee} (h : Tee.writeEach bufs t = (.ok (), t'))
    (hs : ∀ ev ∈ t.stdout.script, ∃ k, ev = .accept k ∧ ∀ b ∈ bufs, b.length ≤ k) :
    t'.inner.got = t.inner.got ++ bufs.flatten ∧ t'.stdout.got = t.stdout.got ++ bufs.flatten := by
  induction bufs generalizing t with
  | nil => cases h; simp
  | cons b bs ih =>
    unfold Tee.writeEach at h
    rcases hw : t.writeAll b with ⟨r, t1⟩
    rw [hw] at h
    cases r with
    | ok u =>
      obtain ⟨h1, -, h2, h3⟩ := Tee.writeAllLoop_ok _ _ _ _ hw
      have h3 := h3 (fun ev hev => by obtain ⟨k, hk, hl⟩ := hs ev hev; exact ⟨k, hk, hl b (by simp)⟩)
      obtain ⟨h4, h5⟩ := ih h (fun ev hev => by obtain ⟨k, hk, hl⟩ := hs ev (h2.subset hev); exact ⟨k, hk, fun b hb => hl b (by simp [hb])⟩)
      exact ⟨by rw [h4, h3]; simp, by rw [h5, h1]; simp⟩
    | err e => simp at h
    | panic => simp at h
    | hang => simp at h

/-- The hypothesis of C64_arrives_partial is met, with and without an interruption. -/
example : Tee.writeEach [b!"ab", b!"", b!"cd"] ⟨⟨[.accept 1], []⟩, ⟨[.accept 9], []⟩⟩ = (.ok (), ⟨⟨[], b!"abcd"⟩, ⟨[], b!"abcd"⟩⟩) := by decide
example : Tee.writeEach [b!"ab", b!"cd"] ⟨⟨[], []⟩, ⟨[.accept 1, .err .interrupted], []⟩⟩ = (.ok (), ⟨⟨[], b!"abbbcd"⟩, ⟨[], b!"abcd"⟩⟩) := by decide

/-- C64, exactly when it holds for one buffer: if and only if the first write to standard output takes all of it. If it takes less or is interrupted, the bytes that are left arrive in the inner
writer at least twice. -/
theorem C64_when {buf : Bytes} {t t' : Tee} (hb : buf ≠ []) (h : t.writeAll buf = (.ok (), t')) :
    (t'.inner.got = t.inner.got ++ buf ↔ ∀ ev r, t.stdout.script = ev :: r → ∃ k, ev = .accept k ∧ buf.length ≤ k) ∧
    ∀ ev r, t.stdout.script = ev :: r → ¬ (∃ k, ev = .accept k ∧ buf.length ≤ k) → ∃ rest, rest ≠ [] ∧ rest <:+ buf ∧ t.inner.got ++ buf ++ rest <+: t'.inner.got := by
  have key : ∀ ev r, t.stdout.script = ev :: r →
      (¬ (∃ k, ev = .accept k ∧ buf.length ≤ k) ∧ ∃ rest, rest ≠ [] ∧ rest <:+ buf ∧ t.inner.got ++ buf ++ rest <+: t'.inner.got) ∨ (t'.inner.got = t.inner.got ++ buf ∧ ∃ k, ev = .accept k ∧ buf.length ≤ k) := by
    intro ev r hev
    unfold Tee.writeAll at h
    rw [hev, List.length_cons, Tee.writeAllLoop, if_neg hb] at h
    unfold Tee.write at h
    have hin := Sink.writeAll_spec (c := fun _ => False) buf t.inner
    generalize t.inner.writeAll buf = x at h hin
    obtain ⟨r1, i⟩ := x
    obtain ⟨used, -, ⟨h1, h2, -, -⟩ | ⟨e, pre, h1, -, -, h2⟩⟩ := hin
    · simp only at h1 h2
      subst h1
      obtain ⟨inner, ⟨script, got⟩⟩ := t
      simp only at hev h h2 ⊢
      subst hev
      have more : ∀ (n : Nat) (rest : Bytes) (t1 : Tee), rest ≠ [] → t1.inner.got = inner.got ++ buf → Tee.writeAllLoop n rest t1 = (.ok (), t') → inner.got ++ buf ++ rest <+: t'.inner.got := by
        intro n rest t1 hne hi hw
        cases n with
        | zero => simp [Tee.writeAllLoop] at hw
        | succ n =>
          obtain ⟨-, ⟨x, h3, ends, h4, -⟩, -, -⟩ := Tee.writeAllLoop_ok _ _ _ _ hw
          rw [h3, hi, h4]
          simp
      cases ev with
      | accept k =>
        simp only [Sink.write] at h
        split at h
        · simp at h
        · by_cases hk : buf.length ≤ k
          · refine .inr ⟨?_, k, rfl, hk⟩
            rw [show Nat.min k buf.length = buf.length from Nat.min_eq_right hk, List.drop_length] at h
            simp only [Tee.writeAllLoop, if_true, Prod.mk.injEq, true_and] at h
            rw [← h]; exact h2
          · have hm : Nat.min k buf.length = k := Nat.min_eq_left (by omega)
            rw [hm] at h
            have hne : buf.drop k ≠ [] := by rw [Ne, List.drop_eq_nil_iff]; omega
            exact .inl ⟨by rintro ⟨k', hk', hle⟩; cases hk'; exact hk hle, _, hne, List.drop_suffix _ _, more _ _ _ hne h2 h⟩
      | err e =>
        simp only [Sink.write] at h
        cases e <;> simp only [Prod.mk.injEq, reduceCtorEq, false_and] at h
        exact .inl ⟨(by rintro ⟨_, hk, -⟩; cases hk), buf, hb, List.suffix_rfl, more _ _ _ hb h2 h⟩
    · have hni := (writeAllAux_interrupted t.inner.script buf t.inner.got).1
      simp only at h1; subst h1
      cases e <;> simp at h
      all_goals rcases h2 with ⟨_, -, h2⟩ | ⟨-, h2⟩
      all_goals first | exact h2.elim | skip
      all_goals rcases h2 with ⟨-, h2⟩ | ⟨-, h2⟩ <;> simp_all
  refine ⟨⟨fun he ev r hev => ?_, fun hall => ?_⟩, fun ev r hev hno => ?_⟩
  · rcases key ev r hev with ⟨-, rest, h1, -, h3⟩ | ⟨-, h2⟩
    · have := h3.length_le
      rw [he] at this
      have := List.length_pos_iff.mpr h1
      simp only [List.length_append] at *
      omega
    · exact h2
  · cases hs : t.stdout.script with
    | nil => exact (Tee.writeAllLoop_ok _ _ _ _ h).2.2.2 (by rw [hs]; simp)
    | cons ev r =>
      rcases key ev r hs with ⟨h1, -⟩ | ⟨h2, -⟩
      · exact absurd (hall ev r hs) h1
      · exact h2
  · rcases key ev r hev with ⟨-, h1⟩ | ⟨-, h2⟩
    · exact h1
    · exact absurd h2 hno

/-- C64_when, in both cases. -/
example : (⟨⟨[.accept 1], []⟩, ⟨[.accept 9], []⟩⟩ : Tee).writeAll b!"ab" = (.ok (), ⟨⟨[], b!"ab"⟩, ⟨[], b!"ab"⟩⟩) ∧
    (⟨⟨[], []⟩, ⟨[.accept 1], []⟩⟩ : Tee).writeAll b!"ab" = (.ok (), ⟨⟨[], b!"abb"⟩, ⟨[], b!"ab"⟩⟩) := by decide

theorem Tee.writeAllLoop_ends : ∀ (n : Nat) (buf : Bytes) (t : Tee), t.stdout.script.length + 2 ≤ n → (Tee.writeAllLoop n buf t).1 ≠ .hang ∧ (Tee.writeAllLoop n buf t).1 ≠ .panic := by
  intro n
  induction n with
  | zero => intro buf t h; omega
  | succ n ih =>
    intro buf t hn
    unfold Tee.writeAllLoop
    by_cases hb : buf = []
    · simp [hb]
    · rw [if_neg hb]
      unfold Tee.write
      obtain ⟨h1, h2, h3⟩ := writeAllAux_interrupted t.inner.script buf t.inner.got
      rcases hw : t.inner.writeAll buf with ⟨r, i⟩
      unfold Sink.writeAll at hw
      rw [hw] at h1 h2 h3
      cases r with
      | ok u =>
        obtain ⟨inner, ⟨script, got⟩⟩ := t
        cases script with
        | nil =>
          have hl : buf.length ≠ 0 := by simpa using hb
          simp only [Sink.write, if_neg hl, List.drop_length]
          cases n with
          | zero => simp at hn
          | succ n => simp [Tee.writeAllLoop]
        | cons ev script =>
          simp only [List.length_cons] at hn
          cases ev with
          | accept k =>
            simp only [Sink.write]
            split
            · simp
            · exact ih _ _ (by simp only; omega)
          | err e =>
            simp only [Sink.write]
            cases e <;> first | exact ih _ _ (by simp only; omega) | simp
      | err e => cases e <;> simp_all
      | panic => simp at h2
      | hang => simp at h3

/-- `write_all` on a `StdoutTee` always returns, with success or an error. -/
theorem C64_returns (t : Tee) (buf : Bytes) : (t.writeAll buf).1 ≠ .hang ∧ (t.writeAll buf).1 ≠ .panic := Tee.writeAllLoop_ends _ _ _ (Nat.le_refl _)

/-! ## C71 -/

theorem mockReq_fine (rng : List Nat) : WritesFine (mockReq rng).script := by
  intro ev hev e
  simp only [mockReq, List.mem_map] at hev
  obtain ⟨r, -, rfl⟩ := hev
  rintro (⟨h, -⟩ | ⟨h, -⟩) <;> simp at h

theorem MockServer.script_spec (s : MockServer) (ns : List Nat) (hn : 0 ∉ ns) (hl : s.data.length ≤ ns.length) :
    NoStall (s.script ns) ∧ NoErr (s.script ns) ∧ Ev.bytes (s.script ns) = s.data := by
  refine ⟨?_, ?_, ?_⟩
  · unfold NoStall MockServer.script; simp
  · intro e; unfold MockServer.script; simp
  · rw [← C63_all_read s ns hn hl]
    unfold MockServer.script
    generalize (s.reads ns).1 = l
    induction l with
    | nil => rfl
    | cons x l ih =>
      by_cases hx : x = []
      · simp [hx]; simpa using ih
      · rw [List.filter_cons_of_pos (by simpa using hx)]
        simp only [List.map_cons, List.flatten_cons, ← ih]
        rfl

variable {D : Deps} {env : FileEnv} {b : Bytes} {os : List ClientOp} {fs : List OutField} {cts : List (Option Mime)}

/-- C71: the mock request accepts all headers; the stream it opens then is empty and has the boundary and length that were applied last. Opened before, it panics. -/
theorem C71_open_stream (c : MockClient) (calls : List (Bytes × Option Nat)) (len : Option Nat) :
    ((calls.foldl (fun c x => (c.applyHeaders x.1 x.2).2) c).applyHeaders b len).1 = true ∧
    ((calls.foldl (fun c x => (c.applyHeaders x.1 x.2).2) c).applyHeaders b len).2.openStream = .ok ⟨[], b, len, c.rng⟩ ∧
    (c.boundary = none → c.openStream = .panic) := by
  have hr : ∀ c : MockClient, (calls.foldl (fun c x => (c.applyHeaders x.1 x.2).2) c).rng = c.rng := by
    induction calls with
    | nil => intro c; rfl
    | cons x xs ih => intro c; rw [List.foldl_cons, ih]; rfl
  refine ⟨rfl, ?_, fun h => by unfold MockClient.openStream; rw [h]⟩
  rw [← hr c]
  rfl

/-- C71: a request to the mock client whose streams can be read succeeds, whatever the random numbers. The buffer has the body, the boundary, and no length. -/
theorem C71_sent (rng : List Nat) (hos : All2 (StandsFor env) os fs) (hr : ∀ o ∈ os, ∀ evs, o.reads env evs → ReadsFine evs) :
    ∃ h, mockRequest env rng b os = .ok h ∧ h.buf = encode b fs ∧ h.boundary = b ∧ h.contentLen = none := by
  obtain ⟨s, h1, h2⟩ := C25_short_writes (req := mockReq rng) (b := b) rfl (mockReq_fine rng) rfl hos hr
  have h3 : s.applied = [(b, none)] := by
    rw [plainRequest_eq (req := mockReq rng) rfl] at h1
    simp only [Prod.mk.injEq, Option.some.injEq] at h1
    rw [← h1.2]; rfl
  refine ⟨⟨s.sink.got, b, none, []⟩, ?_, h2, rfl, rfl⟩
  simp only [mockRequest, h1, h3, List.getLast?_singleton]
  rfl

example : (mockRequest Sample.env [0, 3, 1, 0, 7] b!"b" [.text b!"a" b!"x"]) = .ok ⟨encode b!"b" [⟨b!"a", none, none, b!"x"⟩], b!"b", none, []⟩ := by decide +kernel

/-- C71: the server's reader made from the mock request reads the body with its boundary, in some split without errors and empty reads, whatever the random numbers and the sizes of the
(non-empty) buffers. -/
theorem C71_received (h : HttpBuffer) (rng : List Nat) {ns : List Nat} (hn : 0 ∉ ns) (hl : h.buf.length ≤ ns.length) :
    ∃ evs, fromRequest (mockHttp ns) (h.forServer rng) = .ok (withBody evs h.boundary) ∧ NoStall evs ∧ NoErr evs ∧ Ev.bytes evs = h.buf := by
  obtain ⟨h1, h2, h3⟩ := MockServer.script_spec (h.forServer rng) ns hn hl
  exact ⟨_, rfl, h1, h2, h3⟩

/-- C71: so what is sent to a mock client is read back from the mock server, under the restrictions of `C24_round_trip_partial`. -/
theorem C71_round_trip (hD : D.Sane) (hT : D.Tokenizes) (hb : SafeBoundary b) (rng rng' : List Nat) (hos : All2 (StandsFor env) os fs)
    (hr : ∀ o ∈ os, ∀ evs, o.reads env evs → ReadsFine evs) (hs : All2 (Sendable D b) fs cts) :
    ∃ h, mockRequest env rng b os = .ok h ∧ ∀ ns, 0 ∉ ns → h.buf.length ≤ ns.length → ∃ evs, fromRequest (mockHttp ns) (h.forServer rng') = .ok (withBody evs b) ∧
      (∃ got fin, Reads D (withBody evs b) got fin) ∧ ∀ got fin, Reads D (withBody evs b) got fin →
        fin = .closed ∧ All2 (fun a e => a.1 = e.1 ∧ DataOk (dashes ++ b) evs e.2 a.2) got (List.zipWith OutField.asRead fs cts) := by
  obtain ⟨h, h1, h2, h3, -⟩ := C71_sent (b := b) rng hos hr
  refine ⟨h, h1, fun ns hn hl => ?_⟩
  obtain ⟨evs, h4, h5, h6, h7⟩ := C71_received h rng' hn hl
  rw [h3] at h4
  obtain ⟨s, h8, h9⟩ := C25_short_writes (req := mockReq rng) (b := b) rfl (mockReq_fine rng) rfl hos hr
  exact ⟨evs, h4, C10_reads_total hD ⟨[], rfl⟩, fun got fin hg => C24_round_trip_partial hD hT hb h8 hos hs h5 h6 (by rw [h7, h2, h9]) hg⟩

/-- The hypotheses of the theorem above and (for the read sizes 3, 2, 2, 9) those of C71_received are met. -/
example : refDeps.Sane ∧ refDeps.Tokenizes ∧ SafeBoundary b!"b" ∧ All2 (StandsFor Sample.env) Sample.ops Sample.flds ∧ All2 (Sendable refDeps b!"b") Sample.flds Sample.flctypes ∧
    (∀ o ∈ Sample.ops, ∀ evs, o.reads Sample.env evs → ReadsFine evs) :=
  ⟨refDeps_sane, refDeps_tokenizes, ⟨by simp, by decide⟩, Sample.ops_fields, Sample.sendable, (C23_body Sample.sent_eq).elim fun _ h => h.2.2⟩

end Multipart

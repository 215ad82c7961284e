import Verif.Lemmas.Keeps
import Verif.Props.Leak
import Verif.Props.Upload
/-!
# C114: the reader reads no further ahead than its minimum buffer

`m` stands for the size of the minimum buffer: 1024 bytes, twice the delimiter, or what was asked for by `set_min_buf_size`, whatever is most.
-/
namespace Multipart
variable {D : Deps} {b : Bytes} {m n : Nat} {s : BR} {cfg : Settings} {fuel : Nat} {w : World}

theorem BR.Late.new {before after : List Ev} (hm : entryBuf (dashes ++ b) ≤ m) : (withBody (before ++ after) b).Late m after :=
  ⟨BR.fromReader_inv _ _, Nat.le_trans (Nat.le_max_left _ _) hm, .inl ⟨before, rfl⟩⟩

/-- C114: whatever was called before, of the last reads of a stream none has been made, or fewer than `m` bytes of what precedes them are left. -/
theorem C114_read_ahead (hD : D.Sane) (hm : entryBuf (dashes ++ b) ≤ m) {os : List SOp} (hos : ∀ n, SOp.field (.setMin n) ∈ os → n ≤ m)
    {before after : List Ev} (ha : after ≠ []) (hs : s = (withBody (before ++ after) b).session D os) :
    (∃ es, s.evs = es ++ after) ∨ s.unread.length < m + (Ev.bytes after).length := by
  subst hs
  exact (BR.Late.session hD ha os (.new hm) hm hos).late

/-- C114: if the stream delivers at most `n` bytes at once, there are never `m + n` bytes in the buffer. -/
theorem C114_buffer (hD : D.Sane) (hm : entryBuf (dashes ++ b) ≤ m) {os : List SOp} (hos : ∀ n, SOp.field (.setMin n) ∈ os → n ≤ m)
    {evs : List Ev} (hsz : ReadsUpTo n evs) (hs : s = (withBody evs b).session D os) : s.buf.length < m + n := by
  have hr : Reachable D evs b s := ⟨os, hs⟩
  obtain ⟨-, hu, -, he⟩ := hr.spec hD
  refine BR.buffer_of_late (Nat.lt_of_lt_of_le (by decide) (Nat.le_trans (Nat.le_max_left 1024 _) hm)) hsz he hu fun before after h ha => ?_
  subst h
  subst hs
  exact BR.Late.session hD ha os (.new hm) hm hos

/-- C114 for saving a whole request, whatever its result: the buffer stays below the minimum buffer and one read. (Also in the middle of it: with less fuel it ends there.) -/
theorem C114_saving (hD : D.Sane) {evs : List Ev} (hsz : ReadsUpTo n evs) (e : Entries) :
    (withEntries D cfg fuel e w (withBody evs b)).2.2.buf.length < Nat.max 1024 (2 * (b.length + 2)) + n := by
  have hm : entryBuf (dashes ++ b) = Nat.max 1024 (2 * (b.length + 2)) := by simp [entryBuf, dashes, show b.length + 1 + 1 = b.length + 2 by omega]
  rw [← hm]
  have hJ : KeptByFields fun s => Reachable D evs b s ∧ ∀ before after, evs = before ++ after → after ≠ [] → s.Late (entryBuf (dashes ++ b)) after :=
    ⟨fun s ⟨h1, h2⟩ => ⟨h1.run [.fillBuf], fun before after h ha => (h2 before after h ha).readToBoundary ha⟩,
      fun s t buf n ⟨h1, h2⟩ hr => ⟨by have := (h1.run [.fillBuf]).run [.consume n]; simp only [BR.run, BR.op, hr] at this; exact this, fun before after h ha => by have := ((h2 before after h ha).readToBoundary ha).consume n; rw [hr] at this; exact this⟩⟩
  obtain ⟨h1, h2⟩ := hJ.withEntries (D := D) (cfg := cfg) (fuel := fuel) (w := w) (e := e) (s := withBody evs b)
    (fun s ⟨h1, h2⟩ => ⟨h1.entry rfl, fun before after h ha => (h2 before after h ha).readEntry ha (by rw [(h1.spec hD).2.2.1]; exact Nat.le_refl _)⟩)
    ⟨⟨[], rfl⟩, fun before after h _ => by subst h; exact .new (Nat.le_refl _)⟩
  obtain ⟨-, hu, -, he⟩ := h1.spec hD
  exact BR.buffer_of_late (Nat.lt_of_lt_of_le (by decide) (Nat.le_max_left 1024 _)) hsz he hu h2

namespace Sample

/-- One byte less than the minimum buffer, then a read of the same size. -/
def evsAhead : List Ev := [.data (List.replicate 1023 0x61), .data (List.replicate 1023 0x61), .data b!"--b"]

theorem evsAhead_size {n : Nat} (h : 1023 ≤ n) : ReadsUpTo n evsAhead := by
  intro bs hb
  simp only [evsAhead, List.mem_cons, List.not_mem_nil, or_false, Ev.data.injEq] at hb
  rcases hb with rfl | rfl | rfl
  · rw [List.length_replicate]; exact h
  · rw [List.length_replicate]; omega
  · show 3 ≤ n; omega

end Sample

/-- C114: the bound is sharp. -/
theorem C114_sharp : ∃ evs b n os s, ReadsUpTo n evs ∧ (∀ n, SOp.field (.setMin n) ∉ os) ∧ s = (withBody evs b).session refDeps os ∧
    s.buf.length + 1 = Nat.max 1024 (2 * (b.length + 2)) + n :=
  ⟨Sample.evsAhead, Sample.bnd, 1023, [.field .fillBuf], _, Sample.evsAhead_size (Nat.le_refl _), by simp, rfl, by decide +kernel⟩

/-- The hypotheses of C114_read_ahead can be met, and the second case occurs; in the first of these states the first occurs. -/
example : ((withBody Sample.evsAhead Sample.bnd).session refDeps [.field .fillBuf]).evs = [.data b!"--b"] ∧
    ((withBody Sample.evsAhead Sample.bnd).session refDeps [.field .fillBuf, .field (.consume 1200), .field .fillBuf]).evs = [] ∧
    ((∃ es, ((withBody Sample.evsAhead Sample.bnd).session refDeps [.field .fillBuf, .field (.consume 1200), .field .fillBuf]).evs = es ++ [.data b!"--b"]) ∨
      ((withBody Sample.evsAhead Sample.bnd).session refDeps [.field .fillBuf, .field (.consume 1200), .field .fillBuf]).unread.length < 1024 + 3) :=
  ⟨by decide +kernel, by decide +kernel,
    C114_read_ahead (before := [.data (List.replicate 1023 0x61), .data (List.replicate 1023 0x61)]) (os := [.field .fillBuf, .field (.consume 1200), .field .fillBuf])
      refDeps_sane (by decide +kernel) (by simp) (by simp) rfl⟩

example : ((withBody Sample.evsAhead Sample.bnd).session refDeps [.field (.setMin 3000), .field .fillBuf]).buf.length < 3000 + 1023 :=
  C114_buffer (os := [.field (.setMin 3000), .field .fillBuf]) refDeps_sane (by decide +kernel) (by simp) (Sample.evsAhead_size (Nat.le_refl _)) rfl

example : (withEntries refDeps Settings.default 9 (Entries.new (.perm [b!"d"])) Sample.readyDisk (withBody Sample.evsCr Sample.bnd)).2.2.buf.length < 1024 + 1200 :=
  C114_saving (b := Sample.bnd) refDeps_sane (by simp only [ReadsUpTo, Sample.evsCr, List.mem_cons, List.not_mem_nil, or_false, Ev.data.injEq]; rintro bs (rfl | rfl) <;> decide +kernel) _

end Multipart

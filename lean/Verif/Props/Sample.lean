import Verif.Lemmas.Tokenizer
import Verif.Lemmas.Utf8
import Verif.Spec.Parts
/-!
# Concrete bodies for the non-vacuity examples
-/
deriving instance DecidableEq for Except

namespace Multipart.Sample

theorem pair_eq {α β : Type} {p : α × β} {a : α} {b : β} (h : p.1 = a) (h' : p.2 = b) : p = (a, b) := by
  cases p; cases h; cases h'; rfl

theorem fst_eq {α β γ : Type} {p : α × β × γ} {a : α} (h : p.1 = a) : p = (a, p.2.1, p.2.2) := by
  obtain ⟨x, y, z⟩ := p; cases h; rfl

/-- A header block with just a name, as the client writes it. -/
def hdr : Bytes := b!"Content-Disposition: form-data; name=\"a\"\r\n\r\n"

/-- Preamble, one field with data `hello`, closing delimiter, epilogue; split in three reads. -/
def evs : List Ev := [.data b!"pre--b\r\nContent-Disp", .data b!"osition: form-data; name=\"a\"\r\n\r\nhel", .data b!"lo\r\n--b--\r\nepi"]

def bnd : Bytes := b!"b"

def fh : FieldHeaders := { name := b!"a", filename := none, contentType := none }

/-- The state after the first `read_entry`. -/
def s1 : BR := ((withBody evs bnd).readEntry refDeps).2

theorem entry1 : (withBody evs bnd).readEntry refDeps = (.ok (some fh), s1) := by
  have h : ((withBody evs bnd).readEntry refDeps).1 = .ok (some fh) := by decide +kernel
  have h2 : ((withBody evs bnd).readEntry refDeps).2 = s1 := s1.eq_def.symm
  exact pair_eq h h2

/-- A body whose first read ends between CR and LF in front of the delimiter, with 1100 bytes of data. -/
def big : Bytes := List.replicate 1100 0x61

def evsCr : List Ev := [.data (b!"--b\r\n" ++ hdr ++ big ++ [0x0D]), .data b!"\n--b--\r\n"]

/-- A short field that arrives in the same way. -/
def evsSmallCr : List Ev := [.data (b!"--b\r\n" ++ hdr ++ b!"hello\r"), .data b!"\n--b--\r\n"]

def s1Cr : BR := ((withBody evsSmallCr bnd).readEntry refDeps).2

theorem entrySmallCr : (withBody evsSmallCr bnd).readEntry refDeps = (.ok (some fh), s1Cr) := by
  have h : ((withBody evsSmallCr bnd).readEntry refDeps).1 = .ok (some fh) := by decide +kernel
  have h2 : ((withBody evsSmallCr bnd).readEntry refDeps).2 = s1Cr := s1Cr.eq_def.symm
  exact pair_eq h h2

def sCr : BR := ((withBody evsCr bnd).readEntry refDeps).2

theorem entryCr : (withBody evsCr bnd).readEntry refDeps = (.ok (some fh), sCr) := by
  have h : ((withBody evsCr bnd).readEntry refDeps).1 = .ok (some fh) := by decide +kernel
  have h2 : ((withBody evsCr bnd).readEntry refDeps).2 = sCr := sCr.eq_def.symm
  exact pair_eq h h2

theorem readCr : (sCr.run [.read 2000, .read 2000, .read 2000]).1 = big ++ crlf := by decide +kernel
theorem eofCr : (sCr.run [.read 2000, .read 2000, .read 2000]).2.AtEof := by decide +kernel
theorem unreadCr : sCr.unread = big ++ b!"\r\n--b--\r\n" := by decide +kernel

theorem _root_.Multipart.refParse_hdr (more : Bytes) : refParseHeaders (hdr ++ more) =
    .complete hdr.length [{ name := b!"Content-Disposition", val := b!"form-data; name=\"a\"" }] := by
  unfold refParseHeaders
  have h1 : findSub crlf (hdr ++ more) = some 40 := by
    apply findSub_eq_some_iff.mpr
    exact (findSub_some (xs := hdr) (by decide)).append (by decide) more
  have h2 : findSub crlf (b!"\r\n" ++ more) = some 0 := by
    apply findSub_eq_some_iff.mpr
    exact (findSub_some (xs := b!"\r\n") (by decide)).append (by decide) more
  have hl : (hdr ++ more).length + 1 = (more.length + 43) + 1 + 1 := by simp [hdr]
  rw [hl]
  unfold refParseAux
  rw [h1]
  simp only
  have h3 : parseHeaderLine ((hdr ++ more).take (39 + 1)) =
      some { name := b!"Content-Disposition", val := b!"form-data; name=\"a\"" } := by
    rw [List.take_append_of_le_length (by decide)]; decide
  rw [h3]
  simp only
  rw [if_pos (by decide)]
  have h4 : (hdr ++ more).drop (39 + 3) = b!"\r\n" ++ more := by
    rw [List.drop_append_of_le_length (by decide)]; rfl
  rw [h4]
  unfold refParseAux
  rw [h2]
  rfl

theorem headerBlock {d X : Bytes} (h : ∀ q, q < hdr.length → ¬ OccursAt d (hdr ++ X) q) :
    HeaderBlock refDeps d (hdr ++ X) hdr [{ name := b!"Content-Disposition", val := b!"form-data; name=\"a\"" }] X :=
  ⟨rfl, by decide, refParse_hdr, by simp only [← utf8Valid_iff]; decide, h⟩

/-- Two fields of the same name. -/
def evsTwo : List Ev := [.data (b!"--b\r\n" ++ hdr ++ b!"one\r\n--b\r\n" ++ hdr), .data b!"two\r\n--b--\r\n"]

theorem wellFormed2 : WellFormedPart refDeps (dashes ++ bnd) (hdr ++ b!"two\r\n--b--\r\n") fh b!"two" b!"two\r\n--b--\r\n" :=
  ⟨⟨hdr, _, headerBlock (by decide +kernel), by decide +kernel, by decide, fun h => absurd h (by decide)⟩, .crlf (by decide) ⟨b!"--b--\r\n", rfl⟩⟩

theorem wellFormed1 : WellFormedPart refDeps (dashes ++ bnd) (hdr ++ (b!"one\r\n--b\r\n" ++ hdr ++ b!"two\r\n--b--\r\n")) fh b!"one"
    (b!"one\r\n--b\r\n" ++ hdr ++ b!"two\r\n--b--\r\n") :=
  ⟨⟨hdr, _, headerBlock (by decide +kernel), by decide +kernel, by decide, fun h => absurd h (by decide)⟩, .crlf (by decide) ⟨b!"--b\r\n" ++ hdr ++ b!"two\r\n--b--\r\n", rfl⟩⟩

theorem partsTwo : Parts refDeps (dashes ++ bnd) (Ev.bytes evsTwo) [(fh, b!"one"), (fh, b!"two")] .closed :=
  .part (.part (p := 0) (by decide +kernel) (by decide +kernel)) wellFormed1 (.part (.part (p := 5) (by decide +kernel) (by decide +kernel)) wellFormed2
    (.close (.close (p := 5) (rest := b!"\r\n") (by decide +kernel) (by decide +kernel))))

/-- The one field of `evs`. -/
theorem parts1 : Parts refDeps (dashes ++ bnd) (Ev.bytes evs) [(fh, b!"hello")] .closed :=
  .part (.part (p := 3) (by decide +kernel) (by decide +kernel)) ⟨⟨hdr, _, headerBlock (X := b!"hello\r\n--b--\r\nepi") (by decide +kernel), by decide +kernel, by decide, fun h => absurd h (by decide)⟩, .crlf (by decide) ⟨b!"--b--\r\nepi", rfl⟩⟩
    (.close (.close (p := 7) (rest := b!"\r\nepi") (by decide +kernel) (by decide +kernel)))

theorem data1 : FieldData (dashes ++ bnd) s1.unread b!"hello" := .crlf (by decide +kernel) ⟨b!"--b--\r\nepi", by decide +kernel⟩

theorem cleanSplit_of {d : Bytes} {evs : List Ev} (h : ∀ i ≤ evs.length, (Ev.bytes (evs.take i)).length = 0 ∨ ¬ OccursAt (crlf ++ d) (Ev.bytes evs) ((Ev.bytes (evs.take i)).length - 1)) :
    CleanSplit d evs := by
  rintro k ⟨x, y, rfl, hk⟩ ho -
  have := h x.length (by simp)
  rw [List.take_left, hk] at this
  simp [ho] at this

theorem clean1 : CleanSplit (dashes ++ bnd) evs := cleanSplit_of (by decide +kernel)
theorem cleanTwo : CleanSplit (dashes ++ bnd) evsTwo := cleanSplit_of (by decide +kernel)

theorem noErr1 : NoErr evs := by intro e; simp [evs]
theorem noErrTwo : NoErr evsTwo := by intro e; simp [evsTwo]

/-- The state after the first `read_entry` of `evsTwo`. -/
def sTwo : BR := ((withBody evsTwo bnd).readEntry refDeps).2

theorem entryTwo : (withBody evsTwo bnd).readEntry refDeps = (.ok (some fh), sTwo) := pair_eq (by decide +kernel) sTwo.eq_def.symm

end Multipart.Sample

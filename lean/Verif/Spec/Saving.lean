import Verif.Model.Save
import Verif.Spec.Stream
import Verif.Spec.Text
/-!
# Vocabulary for saving
-/
namespace Multipart

/-- Some calls on the data of a field took exactly the bytes `taken` out of it and led from `s` to `t`: calls of `fill_buf`, and behind one that succeeded
of `consume` with at most as many bytes as it has shown. -/
inductive Took (s : BR) : Bytes → BR → Prop
  | start : Took s [] s
  | look {taken : Bytes} {t : BR} : Took s taken t → Took s taken t.readToBoundary.2
  | take {taken buf : Bytes} {t u : BR} {n : Nat} : Took s taken t → t.readToBoundary = (.ok buf, u) → n ≤ buf.length → Took s (taken ++ buf.take n) (u.consume n)

/-- As `Took`, and these were all bytes of the field: `fill_buf` reported its end. -/
def TookAll (s : BR) (taken : Bytes) (t : BR) : Prop := Took s taken t ∧ ∃ s1, Took s taken s1 ∧ s1.AtEof ∧ t = s1.readToBoundary.2

/-- More than `n` bytes can be taken from the field, of which `taken` are the first. -/
def Beyond (s : BR) (taken : Bytes) (n : Nat) : Prop := ∃ more t, Took s (taken ++ more) t ∧ n < (taken ++ more).length

/-- A write that fails `write_all` or `try_write_all` with `e`: this error, or `WriteZero` when nothing is accepted. -/
def WEv.FailsWith (e : IoErr) (ev : WEv) : Prop := (ev = .err e ∧ e ≠ .interrupted) ∨ (ev = .accept 0 ∧ e = .writeZero)

/-- Writes that do not fail: short writes and interruptions only. -/
def WritesFine (script : List WEv) : Prop := ∀ ev ∈ script, ∀ e, ¬ ev.FailsWith e

/-- The four methods that save one field, with their arguments (`tmp` is the OS temporary directory). -/
inductive Target where
  | path (p : Path)
  | dir (d : Path)
  | temp (tmp : Path)
  | filename (tmp : Path) (name : Bytes)

def Target.save (T : Target) (b : Settings) (fuel : Nat) (w : World) (s : BR) : SaveRes SavedData SavedData × World × BR :=
  match T with
  | .path p => withPath b fuel p w s
  | .dir d => withDir b fuel d w s
  | .temp tmp => saveTemp b fuel tmp w s
  | .filename tmp name => withFilename b fuel tmp name w s

/-- The path of the file such a call may create: for `with_dir` and `temp` it has a random name. -/
def Target.file (T : Target) (w : World) : Path :=
  match T with
  | .path p => p
  | .dir d => d ++ [w.names.headD []]
  | .temp tmp => tmp ++ [w.names.headD []]
  | .filename tmp name => tmp.dropLast ++ [name]

/-- If the file `p` is opened with these settings, it is empty then: it must be new (the default), or is truncated, or does not exist. -/
def OpensEmpty (b : Settings) (w : World) (p : Path) : Prop := b.openOpts.createNew = true ∨ b.openOpts.truncate = true ∨ w.files p = none

/-- The standard library accepts the options: the file is written, and a file that need not be new is not both truncated and appended to. -/
def OpenOpts.Valid (o : OpenOpts) : Prop := (o.write = true ∨ o.append = true) ∧ (o.append = true → o.truncate = true → o.createNew = true)

/-- The options do not allow to open the file `p`: it exists but must be new, or it does not exist and may not be created, or the standard library does not accept them. -/
inductive OpenRefused (w : World) (o : OpenOpts) (p : Path) : IoErr → Prop
  | «exists» : o.Valid → w.files p ≠ none → o.createNew = true → OpenRefused w o p .alreadyExists
  | missing : o.Valid → w.files p = none → o.createNew = false → o.create = false → OpenRefused w o p .notFound
  | invalid : ¬ o.Valid → OpenRefused w o p (.other 22)

/-- The disk works and the file `p` can be opened with these options: it does not exist and may be created, or it exists and need not be new. -/
structure DiskWorks (w : World) (o : OpenOpts) (p : Path) : Prop where
  mkdirs : ∀ e, some e ∉ w.mkdirs
  opens : ∀ e, some e ∉ w.opens
  writes : WritesFine w.writes
  file : (w.files p = none ∧ (o.createNew = true ∨ o.create = true)) ∨ (w.files p ≠ none ∧ o.createNew = false)
  valid : o.Valid

/-- The disk works, and the next `n` random names are different from each other and not yet used in the directory. -/
structure DiskReady (w : World) (dir : Path) (n : Nat) : Prop where
  mkdirs : ∀ e, some e ∉ w.mkdirs
  opens : ∀ e, some e ∉ w.opens
  writes : WritesFine w.writes
  names : n ≤ w.names.length
  distinct : (w.names.take n).Nodup
  fresh : ∀ name ∈ w.names.take n, w.files (dir ++ [name]) = none

/-- The only errors of the stream are interruptions. -/
def OnlyInterrupted (evs : List Ev) : Prop := ∀ e, Ev.err e ∈ evs → e = .interrupted

/-- Nothing happened in the file system. -/
def SameDisk (w w' : World) : Prop := w'.files = w.files ∧ w'.dirs = w.dirs

end Multipart

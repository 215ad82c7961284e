import Verif.Spec.Settings
/-!
# C90: the last setting counts
-/
namespace Multipart

theorem LastSays.nil {α β : Type} {f : α → Option β} {d : β} : LastSays f [] d d := .inl ⟨rfl, by simp⟩

theorem LastSays.same {α β : Type} {f : α → Option β} {cs : List α} {c : α} {d v : β} (h : LastSays f cs d v) (hc : f c = none) : LastSays f (cs ++ [c]) d v := by
  rcases h with ⟨rfl, h⟩ | ⟨x, y, z, rfl, h1, h2⟩
  · refine .inl ⟨rfl, fun c' hc' => ?_⟩
    rcases List.mem_append.mp hc' with h' | h'
    · exact h _ h'
    · rw [List.mem_singleton.mp h']; exact hc
  · refine .inr ⟨x, y, z ++ [c], by simp, h1, fun c' hc' => ?_⟩
    rcases List.mem_append.mp hc' with h' | h'
    · exact h2 _ h'
    · rw [List.mem_singleton.mp h']; exact hc

theorem LastSays.set {α β : Type} {f : α → Option β} {cs : List α} {c : α} {d v : β} (hc : f c = some v) : LastSays f (cs ++ [c]) d v :=
  .inr ⟨cs, c, [], rfl, hc, by simp⟩

theorem snoc_induction {α : Type} {P : List α → Prop} (h0 : P []) (h1 : ∀ xs x, P xs → P (xs ++ [x])) (xs : List α) : P xs := by
  have : ∀ ys : List α, P ys.reverse := by
    intro ys
    induction ys with
    | nil => exact h0
    | cons y ys ih => rw [List.reverse_cons]; exact h1 _ _ ih
  rw [← List.reverse_reverse xs]
  exact this _

/-- C90: after any calls of setters on `save()`, each setting is what the last call for it said, with the greatest number for `None`, or else the documented default: 8 MiB per field,
256 fields, 10 KiB in memory, text if it is valid. -/
theorem C90_builder (calls : List SetCall) :
    LastSays (fun | .sizeLimit l => some (l.getD (2 ^ 64 - 1)) | _ => none) calls (8 * 2 ^ 20) (calls.foldl SetCall.run .default).sizeLimit ∧
    LastSays (fun | .countLimit l => some (l.getD (2 ^ 32 - 1)) | _ => none) calls 256 (calls.foldl SetCall.run .default).countLimit ∧
    LastSays (fun | .memoryThreshold n => some n | _ => none) calls (10 * 2 ^ 10) (calls.foldl SetCall.run .default).memoryThreshold ∧
    LastSays (fun | .tryText => some .try_ | .forceText => some .force | .ignoreText => some .ignore | _ => none) calls TextPolicy.try_ (calls.foldl SetCall.run .default).textPolicy := by
  induction calls using snoc_induction with
  | h0 => exact ⟨.nil, .nil, .nil, .nil⟩
  | h1 cs c ih =>
    obtain ⟨h1, h2, h3, h4⟩ := ih
    rw [List.foldl_append]
    cases c with
    | sizeLimit l => exact ⟨.set rfl, h2.same rfl, h3.same rfl, h4.same rfl⟩
    | countLimit l => exact ⟨h1.same rfl, .set rfl, h3.same rfl, h4.same rfl⟩
    | memoryThreshold n => exact ⟨h1.same rfl, h2.same rfl, .set rfl, h4.same rfl⟩
    | tryText => exact ⟨h1.same rfl, h2.same rfl, h3.same rfl, .set rfl⟩
    | forceText => exact ⟨h1.same rfl, h2.same rfl, h3.same rfl, .set rfl⟩
    | ignoreText => exact ⟨h1.same rfl, h2.same rfl, h3.same rfl, .set rfl⟩
    | modOpenOpts f => exact ⟨h1.same rfl, h2.same rfl, h3.same rfl, h4.same rfl⟩

/-- C90: the options for opening files are all modifications that were asked for, one after the other, of options that only create new files; after each, writing is allowed again. -/
theorem C90_open_options (calls : List SetCall) :
    (calls.foldl SetCall.run .default).openOpts =
      (calls.filterMap fun | .modOpenOpts f => some f | _ => none).foldl (fun o f => { f o with write := true }) { write := true, append := false, truncate := false, create := false, createNew := true } := by
  induction calls using snoc_induction with
  | h0 => rfl
  | h1 cs c ih =>
    rw [List.foldl_append, List.filterMap_append, List.foldl_append, ← ih]
    cases c <;> rfl

/-- C90: writing is allowed whatever the modifications do. -/
theorem C90_write (calls : List SetCall) : (calls.foldl SetCall.run .default).openOpts.write = true := by
  induction calls using snoc_induction with
  | h0 => rfl
  | h1 cs c ih =>
    rw [List.foldl_append]
    cases c <;> first | rfl | exact ih

/-- C90: so it is with `Intercept`: by default 2 MiB per file, 16 files, the directory for temporary files of the system, and errors above the limits. -/
theorem C90_intercept (calls : List InterceptCall) :
    LastSays (fun | .tempDirPath p => some (some p) | _ => none) calls none (calls.foldl InterceptCall.run .default).tempDirPath ∧
    LastSays (fun | .fileSizeLimit n => some n | _ => none) calls (2 * 2 ^ 20) (calls.foldl InterceptCall.run .default).fileSizeLimit ∧
    LastSays (fun | .fileCountLimit n => some n | _ => none) calls 16 (calls.foldl InterceptCall.run .default).fileCountLimit ∧
    LastSays (fun | .limitBehavior b => some b | _ => none) calls LimitBehavior.throwError (calls.foldl InterceptCall.run .default).limitBehavior := by
  induction calls using snoc_induction with
  | h0 => exact ⟨.nil, .nil, .nil, .nil⟩
  | h1 cs c ih =>
    obtain ⟨h1, h2, h3, h4⟩ := ih
    rw [List.foldl_append]
    cases c with
    | tempDirPath p => exact ⟨.set rfl, h2.same rfl, h3.same rfl, h4.same rfl⟩
    | fileSizeLimit n => exact ⟨h1.same rfl, .set rfl, h3.same rfl, h4.same rfl⟩
    | fileCountLimit n => exact ⟨h1.same rfl, h2.same rfl, .set rfl, h4.same rfl⟩
    | limitBehavior b => exact ⟨h1.same rfl, h2.same rfl, h3.same rfl, .set rfl⟩

/-- C90: the middleware saves with its limits, and with the default settings otherwise. -/
theorem C90_intercept_saves (i : Intercept) : i.settings.sizeLimit = i.fileSizeLimit ∧ i.settings.countLimit = i.fileCountLimit ∧ i.settings.memoryThreshold = 10 * 2 ^ 10 ∧ i.settings.textPolicy = .try_ ∧
    i.settings.openOpts = { write := true, append := false, truncate := false, create := false, createNew := true } := ⟨rfl, rfl, rfl, rfl, rfl⟩

example : ([SetCall.sizeLimit (some 5), .forceText, .sizeLimit none, .modOpenOpts fun o => { o with createNew := false, write := false }, .modOpenOpts fun o => { o with create := true }].foldl SetCall.run .default) =
    { openOpts := { write := true, append := false, truncate := false, create := true, createNew := false }, sizeLimit := 2 ^ 64 - 1, countLimit := 256, memoryThreshold := 10240, textPolicy := .force } := rfl
example : ([InterceptCall.fileCountLimit 3, .tempDirPath [b!"x"], .fileCountLimit 4].foldl InterceptCall.run .default) = ⟨some [b!"x"], 2097152, 4, .throwError⟩ := rfl

end Multipart

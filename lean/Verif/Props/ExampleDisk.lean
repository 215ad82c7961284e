import Verif.Spec.ExampleDisk
import Verif.Props.Examples
import Verif.Props.DiskUse
import Verif.Props.Whole
/-!
# C140: what the example servers leave on the disk
-/
namespace Multipart

variable {D : Deps} {fuel : Nat} {w w' : World} {T : TempEnv} {req : ExampleReq}

theorem ExampleReq.multipart_body (req : ExampleReq) : req.multipart = none ∨ ∃ evs b, req.multipart = some (withBody evs b) := by
  cases req with
  | tiny r =>
    unfold ExampleReq.multipart
    rcases fromRequest_cases tinyHttp r with ⟨b, -, h⟩ | ⟨-, h⟩ <;> simp only [h]
    · exact .inr ⟨_, _, rfl⟩
    · exact .inl trivial
  | iron r =>
    unfold ExampleReq.multipart
    rcases fromRequest_cases ironHttp r with ⟨b, -, h⟩ | ⟨-, h⟩ <;> simp only [h]
    · exact .inr ⟨_, _, rfl⟩
    · exact .inl trivial
  | nickel r =>
    unfold ExampleReq.multipart multipartBody
    rcases fromRequest_cases nickelHttp r with ⟨b, -, h⟩ | ⟨-, h⟩ <;> simp only [h]
    · exact .inr ⟨_, _, rfl⟩
    · exact .inl trivial
  | hyper r =>
    unfold ExampleReq.multipart switchHandle
    rcases fromRequest_cases hyperHttp r with ⟨b, -, h⟩ | ⟨-, h⟩ <;> simp only [h]
    · exact .inr ⟨_, _, rfl⟩
    · exact .inl trivial
  | rocket r =>
    unfold ExampleReq.multipart
    simp only
    split
    · split
      · exact .inl rfl
      · exact .inr ⟨_, _, rfl⟩
    · exact .inl rfl

theorem ExampleReq.kept_dir (req : ExampleReq) (p : PartialEntries) : (req.kept p).saveDir = p.entries.saveDir := by
  have hk : p.keepPartial.saveDir = p.entries.saveDir := by
    unfold PartialEntries.keepPartial
    split <;> rfl
  cases req with
  | tiny => exact hk
  | iron => exact hk
  | nickel => exact hk
  | hyper => rfl
  | rocket => rfl

/-- The rounds that are enough to save the request. -/
def ExampleReq.rounds (req : ExampleReq) : Nat :=
  match req.multipart with
  | none => 0
  | some m => m.enough (Settings.default.memLimit 0) + 1

theorem ExampleReq.answered_spec (hD : D.Sane) (req : ExampleReq) (hf : req.rounds ≤ fuel) (fail : Option (IoErr × (Path → Bool))) :
    (∀ q, (∀ dir, T.tempdir b!"multipart-rs" = .ok dir → ¬ Below dir q) → (req.answered D fuel T fail w).files q = w.files q) ∧
    (fail = none → ∀ dir, req.multipart ≠ none → T.tempdir b!"multipart-rs" = .ok dir → ∀ q, Below dir q → (req.answered D fuel T fail w).files q = none ∧ q ∉ (req.answered D fuel T fail w).dirs) := by
  rcases req.multipart_body with hm | ⟨evs, b, hm⟩
  · unfold ExampleReq.answered
    simp [hm]
  · have hf : (withBody evs b).enough (Settings.default.memLimit 0) < fuel := by
      unfold ExampleReq.rounds at hf
      rw [hm] at hf
      exact hf
    have hr : Reachable D evs b (withBody evs b) := ⟨[], rfl⟩
    have key : ∀ {dir : Path} {r : SaveRes Entries PartialEntries} {w1 : World} {t : BR} {d : SaveDir}, T.tempdir b!"multipart-rs" = .ok dir →
        withEntries D .default fuel (Entries.new (.temp dir)) { w with dirs := w.dirs ++ [dir] } (withBody evs b) = (r, w1, t) → r ≠ .hang → r ≠ .panic → r.saveDir = some d →
        (∀ q, (∀ dir, T.tempdir b!"multipart-rs" = .ok dir → ¬ Below dir q) → (d.drop fail w1).files q = w.files q) ∧
        (fail = none → ∀ dir, req.multipart ≠ none → T.tempdir b!"multipart-rs" = .ok dir → ∀ q, Below dir q → (d.drop fail w1).files q = none ∧ q ∉ (d.drop fail w1).dirs) := by
      intro dir r w1 t d hdir h h1 h2 hd
      have hd' := (withEntries_made h h1 h2).2.1
      rw [hd] at hd'
      have hd' : d = .temp dir := Option.some.inj hd'
      obtain ⟨g1, g2⟩ := SaveDir.drop_temp (fail := fail) (w := w1) d hd'
      constructor
      · intro q hq
        rw [g2 q (hq dir hdir), withEntries_outside hD hr h h1 h2 (q := q) (hq dir hdir)]
      · intro hfail dir' _ hdir' q hq
        rw [hdir] at hdir'
        cases hdir'
        exact g1 hfail q hq
    have he := tempSave_ended_at hD evs b T w hf
    unfold ExampleReq.answered
    simp only [hm]
    rw [← hm]
    generalize tempSave D .default fuel T w (withBody evs b) = x at he ⊢
    cases he with
    | error h => exact ⟨fun _ _ => rfl, fun _ dir _ hdir => by rw [h] at hdir; cases hdir⟩
    | full h1 h2 => exact key h1 h2 (by simp) (by simp) rfl
    | part h1 h2 => exact key h1 h2 (by simp) (by simp) (by rw [req.kept_dir]; rfl)

/-- C140: whatever a request to one of the example servers is: when it is answered, no file outside of its temporary directory was changed, and if the directory could be deleted nothing is left in it. -/
theorem C140_request (hD : D.Sane) (req : ExampleReq) (T : TempEnv) : ∃ n, ∀ fuel, n ≤ fuel → ∀ (fail : Option (IoErr × (Path → Bool))) (w : World),
    (∀ q, (∀ dir, T.tempdir b!"multipart-rs" = .ok dir → ¬ Below dir q) → (req.answered D fuel T fail w).files q = w.files q) ∧
    (fail = none → ∀ dir, req.multipart ≠ none → T.tempdir b!"multipart-rs" = .ok dir → ∀ q, Below dir q → (req.answered D fuel T fail w).files q = none ∧ q ∉ (req.answered D fuel T fail w).dirs) :=
  ⟨req.rounds, fun _ hf fail _ => req.answered_spec hD hf fail⟩

namespace Sample

/-- 11 KB of data, more than is held in memory. -/
def evsHuge : List Ev := .data (b!"--b\r\n" ++ hdr) :: (List.replicate 11 (.data (List.replicate 1000 0x61)) ++ [.data b!"\r\n--b--\r\n"])

end Sample

/-- C140_request: the request is saved in a file, which is gone when the request is answered. -/
example : (ExampleReq.saved refDeps 40 Sample.temp Sample.disk (.rocket ⟨true, [(b!"boundary", b!"b")], Sample.evsHuge⟩)).fileSize [b!"tmp", b!"multipart-rs1", b!"rnd"] = 11000 ∧
    (ExampleReq.answered refDeps 40 Sample.temp none Sample.disk (.rocket ⟨true, [(b!"boundary", b!"b")], Sample.evsHuge⟩)).files [b!"tmp", b!"multipart-rs1", b!"rnd"] = none ∧
    ExampleReq.multipart (.rocket ⟨true, [(b!"boundary", b!"b")], Sample.evsHuge⟩) ≠ none ∧ Sample.temp.tempdir b!"multipart-rs" = .ok [b!"tmp", b!"multipart-rs1"] := by
  decide +kernel

theorem ExampleReq.answered_same (hD : D.Sane) (req : ExampleReq) (hf : req.rounds ≤ fuel) (hT : T.NewIn w) : (req.answered D fuel T none w).files = w.files := by
  obtain ⟨h1, h2⟩ := req.answered_spec (T := T) (w := w) hD hf none
  funext q
  by_cases hq : ∃ dir, T.tempdir b!"multipart-rs" = .ok dir ∧ Below dir q
  · obtain ⟨dir, hdir, hq⟩ := hq
    rw [hT dir hdir q hq]
    cases hm : req.multipart with
    | none =>
      unfold ExampleReq.answered
      simp only [hm]
      exact hT dir hdir q hq
    | some m => exact (h2 rfl dir (by rw [hm]; simp) hdir q hq).1
  · exact h1 q fun dir hdir hb => hq ⟨dir, hdir, hb⟩

theorem ExampleReq.saved_use (req : ExampleReq) (ps : List Path) (hps : ps.Nodup) : (req.saved D fuel T w).diskUse ps ≤ w.diskUse ps + 256 * (8 * 1024 * 1024 + 10 * 1024) := by
  unfold ExampleReq.saved
  split
  · omega
  · rename_i m _
    unfold tempSave tempWithPrefix requestTemp withTempDir
    split
    · rename_i dir _
      exact (C137_request_partial (D := D) (e := Entries.new (.temp dir)) (n := 0) (fuel := fuel) (s := m) Settings.default_typed (by decide) rfl (triple_eq _)).1 ps hps
    · simp only; omega

theorem World.diskUse_files (h : w'.files = w.files) (ps : List Path) : w'.diskUse ps = w.diskUse ps := by
  unfold World.diskUse World.fileSize
  rw [h]

/-- C140: the example servers can run forever. Whatever requests come, as many as may be: after them all files are as they were at the start, and meanwhile all files together never have more than 256 times (8 MiB + 10 KiB) more bytes
than at the start. (The temporary directories are new and can be deleted.) -/
theorem C140_forever (hD : D.Sane) (reqs : List (ExampleReq × TempEnv)) : ∃ n, ∀ fuel, n ≤ fuel → ∀ w : World, (∀ x ∈ reqs, x.2.NewIn w) →
    (After D fuel w reqs).files = w.files ∧
    ∀ x, During D fuel w reqs x → ∀ ps : List Path, ps.Nodup → x.diskUse ps ≤ w.diskUse ps + 256 * (8 * 1024 * 1024 + 10 * 1024) := by
  refine ⟨(reqs.map fun x => x.1.rounds).sum, fun fuel => ?_⟩
  induction reqs with
  | nil => exact fun _ w _ => ⟨rfl, fun x h => by cases h⟩
  | cons y reqs ih =>
    obtain ⟨req, T⟩ := y
    intro hf w hT
    simp only [List.map_cons, List.sum_cons] at hf
    have hsame := req.answered_same (fuel := fuel) hD (by omega) (hT (req, T) (List.mem_cons_self ..))
    obtain ⟨k1, k2⟩ := ih (by omega) (req.answered D fuel T none w) fun x hx dir hdir q hq => by
      rw [hsame]
      exact hT x (List.mem_cons_of_mem _ hx) dir hdir q hq
    refine ⟨k1.trans hsame, fun x hx ps hps => ?_⟩
    cases hx with
    | saving => exact req.saved_use ps hps
    | later hx =>
      have := k2 x hx ps hps
      rw [World.diskUse_files hsame] at this
      exact this

/-- The hypotheses of C140_forever are met, and the file is there meanwhile. -/
example : (∀ x ∈ [(ExampleReq.tiny (Sample.tinyReq Sample.evsTwo), Sample.temp), (.rocket ⟨true, [(b!"boundary", b!"b")], Sample.evsHuge⟩, Sample.temp)], x.2.NewIn Sample.readyDisk) ∧
    ∃ x, During refDeps 40 Sample.readyDisk [(.tiny (Sample.tinyReq Sample.evsTwo), Sample.temp), (.rocket ⟨true, [(b!"boundary", b!"b")], Sample.evsHuge⟩, Sample.temp)] x ∧
      x.fileSize [b!"tmp", b!"multipart-rs1", b!"z"] = 11000 :=
  ⟨fun _ _ _ _ _ _ => rfl, _, .later (.saving (Nat.le_refl 40)), by decide +kernel⟩

end Multipart

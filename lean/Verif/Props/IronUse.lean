import Verif.Props.DiskUse
import Verif.Props.Iron
/-!
# What a request occupies while Iron's `Intercept` handles it (C138)
-/
namespace Multipart

variable {D : Deps} {cfg : Settings} {fuel : Nat} {w w' : World} {s t : BR} {i : Intercept} {fail : Option (IoErr × (Path → Bool))} {dir : Path}

theorem keepPartial_use (p : PartialEntries) (reason : Reason) : memoryUse p.keepPartial.stored = memoryUse (SaveRes.part p reason).stored := by
  obtain ⟨e, part⟩ := p
  match part with
  | none => rfl
  | some ⟨h, none⟩ => rfl
  | some ⟨h, some d⟩ =>
    show memoryUse (e.pushField h d).stored = memoryUse (e.stored ++ [d])
    rw [memoryUse_push, memoryUse_append]

/-- Between `w` and `w'` nothing was written but the files `L`, each time at most `k` bytes; files may have been removed. -/
def WroteFiles (L : List Path) (k : Nat) (w w' : World) : Prop := ∀ q, w'.fileSize q ≤ w.fileSize q + L.count q * k ∧ (q ∉ L → w'.files q = w.files q ∨ w'.files q = none)

theorem WroteFiles.drop {L : List Path} {k : Nat} (h : WroteFiles L k w w') (d : SaveDir) (fail : Option (IoErr × (Path → Bool))) : WroteFiles L k w (d.drop fail w') := by
  intro q
  obtain ⟨h1, h2⟩ := h q
  have hd : (d.drop fail w').files q = w'.files q ∨ (d.drop fail w').files q = none := by
    cases d with
    | perm _ => exact .inl rfl
    | temp p =>
      cases fail with
      | none => show (if p.isPrefixOf q then none else w'.files q) = _ ∨ (if p.isPrefixOf q then none else w'.files q) = _; split <;> simp
      | some f => show (if p.isPrefixOf q && f.2 q then none else w'.files q) = _ ∨ (if p.isPrefixOf q && f.2 q then none else w'.files q) = _; split <;> simp
  rcases hd with hd | hd
  · exact ⟨by unfold World.fileSize at h1 ⊢; rw [hd]; exact h1, fun hq => by rw [hd]; exact h2 hq⟩
  · exact ⟨by unfold World.fileSize; rw [hd]; exact Nat.zero_le _, fun _ => .inr hd⟩

theorem WroteFiles.trans {L L' : List Path} {k : Nat} {w1 : World} (h : WroteFiles L k w w1) (h' : WroteFiles L' k w1 w') : WroteFiles (L ++ L') k w w' := by
  intro q
  obtain ⟨a1, a2⟩ := h q
  obtain ⟨b1, b2⟩ := h' q
  refine ⟨by rw [List.count_append, Nat.add_mul]; omega, fun hq => ?_⟩
  simp only [List.mem_append, not_or] at hq
  rcases b2 hq.2 with b | b
  · rw [b]; exact a2 hq.1
  · exact .inr b

/-- `withEntries`, as needed here. -/
theorem withEntries_wrote (hl : cfg.sizeLimit < u64Max) (hc : cfg.countLimit ≤ u32Max) (e : Entries) (w : World) (s : BR) :
    ∃ L : List Path, L.length ≤ cfg.countLimit - e.stored.length ∧ WroteFiles L (cfg.sizeLimit + cfg.memLimit 0) w (withEntries D cfg fuel e w s).2.1 ∧
      memoryUse (withEntries D cfg fuel e w s).1.stored ≤ memoryUse e.stored + L.length * cfg.memLimit 0 ∧ (withEntries D cfg fuel e w s).1.counts (e.stored.length + L.length) := by
  obtain ⟨L, h1, h2, h3, h4, h5⟩ := entriesLoop_grow (D := D) (fuel := fuel) hl hc fuel (s.readEntry D).1 e.recountFields w (s.readEntry D).2 (fieldsCount_recount e)
  rw [fieldsCount_recount] at h1
  change L.length ≤ cfg.countLimit - Min.min u32Max e.stored.length at h1
  exact ⟨L, by omega, fun q => ⟨h2 q, fun hq => .inl (h3 q hq)⟩, h4, h5⟩

/-- What is in memory when the middleware passes the request on. -/
def usedBy : Res (Except IronErr (Option Entries)) → Nat
  | .ok (.ok (some e)) => memoryUse e.stored
  | _ => 0

theorem lenientLoop_wrote (hl : i.settings.sizeLimit < u64Max) (hc : i.settings.countLimit ≤ u32Max) : ∀ (n : Nat) (e : Entries) (w : World) (s : BR),
    ∃ L : List Path, L.length ≤ i.settings.countLimit - e.stored.length ∧
      WroteFiles L (i.settings.sizeLimit + i.settings.memLimit 0) w (Intercept.lenientLoop D i fuel fail n e w s).2.1 ∧
      usedBy (Intercept.lenientLoop D i fuel fail n e w s).1 ≤ memoryUse e.stored + L.length * i.settings.memLimit 0 := by
  intro n
  induction n with
  | zero => intro e w s; exact ⟨[], Nat.zero_le _, fun q => ⟨by simp [Intercept.lenientLoop], fun _ => .inl rfl⟩, Nat.zero_le _⟩
  | succ n ih =>
    intro e w s
    obtain ⟨L, h1, h2, h3, h4⟩ := withEntries_wrote (D := D) (fuel := fuel) hl hc e w s
    unfold Intercept.lenientLoop
    generalize withEntries D i.settings fuel e w s = x at h2 h3 h4 ⊢
    rcases x with ⟨r, w1, s1⟩
    simp only at h2 h3 h4
    have hgo : ∀ (p : PartialEntries) (reason : Reason), r = .part p reason → (∀ er, reason ≠ .io er) →
        ∃ L : List Path, L.length ≤ i.settings.countLimit - e.stored.length ∧
          WroteFiles L (i.settings.sizeLimit + i.settings.memLimit 0) w (Intercept.lenientLoop D i fuel fail n p.keepPartial w1 s1).2.1 ∧
          usedBy (Intercept.lenientLoop D i fuel fail n p.keepPartial w1 s1).1 ≤ memoryUse e.stored + L.length * i.settings.memLimit 0 := by
      intro p reason hr hnio
      subst hr
      obtain ⟨L', g1, g2, g3⟩ := ih p.keepPartial w1 s1
      have hcnt : p.keepPartial.stored.length = e.stored.length + L.length := by
        rcases h4 with ⟨er, h4⟩ | h4
        · exact absurd h4 (hnio er)
        · exact h4
      rw [keepPartial_use p reason] at g3
      refine ⟨L ++ L', by rw [List.length_append]; omega, h2.trans g2, by rw [List.length_append, Nat.add_mul]; omega⟩
    cases r with
    | full e' => exact ⟨L, h1, h2, h3⟩
    | part p reason =>
      cases reason with
      | io er => exact ⟨L, h1, h2.drop _ _, Nat.zero_le _⟩
      | countLimit => exact hgo p _ rfl (by simp)
      | sizeLimit => exact hgo p _ rfl (by simp)
      | utf8 => exact hgo p _ rfl (by simp)
    | error er => exact ⟨L, h1, h2.drop _ _, Nat.zero_le _⟩
    | panic => exact ⟨L, h1, h2, Nat.zero_le _⟩
    | hang => exact ⟨L, h1, h2, Nat.zero_le _⟩

theorem readRequest_wrote (hl : i.settings.sizeLimit < u64Max) (hc : i.settings.countLimit ≤ u32Max) (made : Except IoErr Path) (req : HyperReq) :
    ∃ L : List Path, L.length ≤ i.settings.countLimit ∧ WroteFiles L (i.settings.sizeLimit + i.settings.memLimit 0) w (i.readRequest D fuel made fail w req).2 ∧
      usedBy (i.readRequest D fuel made fail w req).1 ≤ L.length * i.settings.memLimit 0 := by
  have hnone : ∃ L : List Path, L.length ≤ i.settings.countLimit ∧ WroteFiles L (i.settings.sizeLimit + i.settings.memLimit 0) w w ∧ 0 ≤ L.length * i.settings.memLimit 0 :=
    ⟨[], Nat.zero_le _, fun q => ⟨by simp, fun _ => .inl rfl⟩, Nat.zero_le _⟩
  unfold Intercept.readRequest
  cases fromRequest ironHttp req with
  | error _ => exact hnone
  | ok s =>
    cases made with
    | error e => exact hnone
    | ok dir =>
      simp only
      have hw : ∀ {L k w'}, WroteFiles L k { w with dirs := w.dirs ++ [dir] } w' → WroteFiles L k w w' := fun h => h
      have h0 : (Entries.new (.temp dir)).stored = [] := rfl
      obtain ⟨L, h1, h2, h3, h4⟩ := withEntries_wrote (D := D) (fuel := fuel) hl hc (Entries.new (.temp dir)) { w with dirs := w.dirs ++ [dir] } s
      rw [h0] at h1 h3 h4
      simp only [memoryUse, List.map_nil, List.sum_nil, Nat.zero_add, List.length_nil, Nat.sub_zero] at h1 h3 h4
      cases i.limitBehavior with
      | throwError =>
        simp only
        unfold Intercept.readRequestStrict withTempDir
        generalize withEntries D i.settings fuel (Entries.new (.temp dir)) { w with dirs := w.dirs ++ [dir] } s = x at h2 h3 h4 ⊢
        rcases x with ⟨r, w1, s1⟩
        simp only at h2 h3 h4
        cases r with
        | full e' => exact ⟨L, h1, hw h2, h3⟩
        | part p reason =>
          cases reason with
          | io er => exact ⟨L, h1, hw (h2.drop _ _), Nat.zero_le _⟩
          | countLimit => exact ⟨L, h1, hw (h2.drop _ _), Nat.zero_le _⟩
          | sizeLimit =>
            simp only
            split <;> exact ⟨L, h1, hw (h2.drop _ _), Nat.zero_le _⟩
          | utf8 => exact ⟨L, h1, hw (h2.drop _ _), Nat.zero_le _⟩
        | error er => exact ⟨L, h1, hw (h2.drop _ _), Nat.zero_le _⟩
        | panic => exact ⟨L, h1, hw h2, Nat.zero_le _⟩
        | hang => exact ⟨L, h1, hw h2, Nat.zero_le _⟩
      | continue_ =>
        simp only
        unfold Intercept.readRequestLenient withTempDir
        generalize withEntries D i.settings fuel (Entries.new (.temp dir)) { w with dirs := w.dirs ++ [dir] } s = x at h2 h3 h4 ⊢
        rcases x with ⟨r, w1, s1⟩
        simp only at h2 h3 h4
        have hgo : ∀ (p : PartialEntries) (reason : Reason), r = .part p reason → (∀ er, reason ≠ .io er) →
            ∃ L : List Path, L.length ≤ i.settings.countLimit ∧
              WroteFiles L (i.settings.sizeLimit + i.settings.memLimit 0) w (Intercept.lenientLoop D i fuel fail fuel p.keepPartial w1 s1).2.1 ∧
              usedBy (Intercept.lenientLoop D i fuel fail fuel p.keepPartial w1 s1).1 ≤ L.length * i.settings.memLimit 0 := by
          intro p reason hr hnio
          subst hr
          obtain ⟨L', g1, g2, g3⟩ := lenientLoop_wrote (D := D) (fuel := fuel) (fail := fail) hl hc fuel p.keepPartial w1 s1
          have hcnt : p.keepPartial.stored.length = L.length := by
            rcases h4 with ⟨er, h4⟩ | h4
            · exact absurd h4 (hnio er)
            · exact h4
          rw [keepPartial_use p reason] at g3
          unfold memoryUse at g3
          refine ⟨L ++ L', by rw [List.length_append]; omega, (hw h2).trans g2, by rw [List.length_append, Nat.add_mul]; omega⟩
        cases r with
        | full e' => exact ⟨L, h1, hw h2, h3⟩
        | part p reason =>
          cases reason with
          | io er => exact ⟨L, h1, hw (h2.drop _ _), Nat.zero_le _⟩
          | countLimit => exact hgo p _ rfl (by simp)
          | sizeLimit => exact hgo p _ rfl (by simp)
          | utf8 => exact hgo p _ rfl (by simp)
        | error er => exact ⟨L, h1, hw (h2.drop _ _), Nat.zero_le _⟩
        | panic => exact ⟨L, h1, hw h2, Nat.zero_le _⟩
        | hang => exact ⟨L, h1, hw h2, Nat.zero_le _⟩

/-! ## C138 -/

/-- C138: in both modes, whatever the request is and whatever the outcome (also while the middleware has not returned, which it may never do: C60), the files of the system have together at most
`file_count_limit` times `file_size_limit` and 10 KiB more bytes than before; at most `file_count_limit` of them are new or have other contents; and the entries that are handed on take at most
`file_count_limit` times 10 KiB of memory, or `file_size_limit` if this is less. -/
theorem C138_bounded (ht : i.Typed) (hl : i.fileSizeLimit < u64Max) {made : Except IoErr Path} {req : HyperReq} {ext ext' : Option Entries} {r : Res (Except IronErr Unit)}
    (h : i.before D fuel made fail w req ext = (r, ext', w')) :
    (∀ ps : List Path, ps.Nodup → w'.diskUse ps ≤ w.diskUse ps + i.fileCountLimit * (i.fileSizeLimit + Nat.min i.fileSizeLimit (10 * 1024))) ∧
    (∀ ps : List Path, ps.Nodup → (∀ p ∈ ps, w'.files p ≠ none ∧ w'.files p ≠ w.files p) → ps.length ≤ i.fileCountLimit) ∧
    (∀ e, ext' = some e → ext' = ext ∨ memoryUse e.stored ≤ i.fileCountLimit * Nat.min i.fileSizeLimit (10 * 1024)) := by
  obtain ⟨L, h1, h2, h3⟩ := readRequest_wrote (D := D) (fuel := fuel) (fail := fail) (w := w) (i := i) hl ht.settings.count made req
  have hml : i.settings.memLimit 0 = Nat.min i.fileSizeLimit (10 * 1024) := rfl
  rw [hml] at h2 h3
  have hw : w' = (i.readRequest D fuel made fail w req).2 := by
    unfold Intercept.before at h
    split at h <;> simp_all
  rw [← hw] at h2
  change L.length ≤ i.fileCountLimit at h1
  change WroteFiles L (i.fileSizeLimit + Nat.min i.fileSizeLimit (10 * 1024)) w w' at h2
  refine ⟨fun ps hps => ?_, fun ps hps hch => ?_, fun e he => ?_⟩
  · have a : w'.diskUse ps ≤ (ps.map fun q => w.fileSize q + L.count q * (i.fileSizeLimit + Nat.min i.fileSizeLimit (10 * 1024))).sum := sum_map_le (fun q _ => (h2 q).1)
    rw [sum_map_add, sum_map_mul] at a
    have b := Nat.mul_le_mul_right (i.fileSizeLimit + Nat.min i.fileSizeLimit (10 * 1024)) (Nat.le_trans (sum_count L hps) h1)
    unfold World.diskUse at a ⊢
    omega
  · have a : (ps.map fun _ => 1).sum ≤ (ps.map fun q => L.count q).sum := sum_map_le (fun q hq => by
      have : q ∈ L := Classical.byContradiction fun hn => by
        rcases (h2 q).2 hn with g | g
        · exact (hch q hq).2 g
        · exact (hch q hq).1 g
      exact List.count_pos_iff.mpr this)
    have b := sum_const 1 ps
    have := sum_count L hps
    omega
  · unfold Intercept.before at h
    have hb := Nat.mul_le_mul_right (Nat.min i.fileSizeLimit (10 * 1024)) h1
    split at h
    · rename_i e' w1 hx
      rw [hx] at h3
      simp only [Prod.mk.injEq] at h
      obtain ⟨-, rfl, -⟩ := h
      cases he
      exact .inr (Nat.le_trans h3 hb)
    all_goals
      simp only [Prod.mk.injEq] at h
      obtain ⟨-, rfl, -⟩ := h
      exact .inl rfl

/-- A request that the lenient middleware reads for ever: two fields, and no more than two allowed. -/
example (fuel : Nat) (ps : List Path) (h : ps.Nodup) :
    ((Intercept.mk none 100 2 .continue_).before refDeps fuel (.ok [b!"tmp"]) none Sample.disk (Sample.ironReq Sample.evsTwo) none).2.2.diskUse ps ≤ Sample.disk.diskUse ps + 2 * (100 + Nat.min 100 (10 * 1024)) :=
  (C138_bounded (D := refDeps) (i := ⟨none, 100, 2, .continue_⟩) (fuel := fuel) (fail := none) (w := Sample.disk) (made := .ok [b!"tmp"]) (req := Sample.ironReq Sample.evsTwo) (ext := none)
    ⟨by decide, by decide⟩ (by decide) (triple_eq _)).1 ps h

end Multipart

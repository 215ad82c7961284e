import Verif.Props.Forward
import Verif.Props.Success
/-!
# C154: saved requests can be sent on
-/
namespace Multipart
variable {D : Deps} {b b' : Bytes} {evs evs' : List Ev} {es : List (FieldHeaders × Bytes)}

/-- A call of the client that sends on a saved field, and what should be read on the other side: the call gets the contents of the saved data, as text or from any stream that delivers them. -/
def Resends (w : World) (f : SavedField) (o : ClientOp) (e : FieldHeaders × Bytes) : Prop := ∃ c, f.data.readable w = .ok c ∧ Forwards (f.headers, c) o e

theorem All2.perm {α β : Type} {R : α → β → Prop} {as as' : List α} {bs : List β} (hp : as'.Perm as) (h : All2 R as bs) : ∃ bs', bs'.Perm bs ∧ All2 R as' bs' := by
  induction hp generalizing bs with
  | nil => exact ⟨bs, .refl _, h⟩
  | cons x _ ih =>
    cases h with
    | @cons _ y _ ys h1 h2 =>
      obtain ⟨bs', p, h3⟩ := ih h2
      exact ⟨y :: bs', p.cons _, .cons h1 h3⟩
  | swap x y l =>
    cases h with
    | @cons _ u _ us h1 h2 =>
      cases h2 with
      | @cons _ v _ vs h3 h4 => exact ⟨v :: u :: vs, .swap _ _ _, .cons h3 (.cons h1 h4)⟩
  | trans _ _ ih1 ih2 =>
    obtain ⟨bs1, p1, h1⟩ := ih2 h
    obtain ⟨bs2, p2, h2⟩ := ih1 h1
    exact ⟨bs2, p2.trans p1, h2⟩

/-- The fields in the map, group by group, are all fields that were saved. -/
theorem GroupedByName.perm {m : List (Bytes × List SavedField)} {fs : List SavedField} (h : GroupedByName m fs) : (m.flatMap (·.2)).Perm fs := by
  have key : ∀ m : List (Bytes × List SavedField), (m.map Prod.fst).Nodup → (∀ x ∈ m, x.2 = fs.filter (fun f => f.headers.name = x.1)) →
      (m.flatMap (·.2)).Perm (fs.filter fun f => decide (f.headers.name ∈ m.map Prod.fst)) := by
    intro m
    induction m with
    | nil => intro _ _; simp
    | cons x m ih =>
      intro hk hg
      rw [List.map_cons, List.nodup_cons] at hk
      have h1 := ih hk.2 fun y hy => hg y (List.mem_cons_of_mem _ hy)
      rw [List.flatMap_cons, hg x List.mem_cons_self]
      refine (h1.append_left _).trans ?_
      have h2 := List.filter_append_perm (fun f : SavedField => decide (f.headers.name = x.1)) (fs.filter fun f => decide (f.headers.name ∈ (x :: m).map Prod.fst))
      rw [List.filter_filter, List.filter_filter] at h2
      have e1 : (fs.filter fun f => decide (f.headers.name = x.1) && decide (f.headers.name ∈ (x :: m).map Prod.fst)) = fs.filter fun f => decide (f.headers.name = x.1) :=
        List.filter_congr fun f _ => by by_cases hf : f.headers.name = x.1 <;> simp [hf]
      have e2 : (fs.filter fun f => (!decide (f.headers.name = x.1)) && decide (f.headers.name ∈ (x :: m).map Prod.fst)) = fs.filter fun f => decide (f.headers.name ∈ m.map Prod.fst) :=
        List.filter_congr fun f _ => by
          by_cases hf : f.headers.name = x.1
          · have : f.headers.name ∉ m.map Prod.fst := by rw [hf]; exact hk.1
            rw [decide_eq_false this]
            simp [hf]
          · rw [List.map_cons]
            simp only [List.mem_cons, hf, false_or]
            simp
      rw [e1, e2] at h2
      exact h2
  have h1 := key m h.keys fun x hx => ((h.groups x.1 x.2).mp hx).2
  have h2 : (fs.filter fun f => decide (f.headers.name ∈ m.map Prod.fst)) = fs := by
    refine List.filter_eq_self.mpr fun f hf => decide_eq_true ?_
    refine List.mem_map.mpr ⟨(f.headers.name, fs.filter fun g => g.headers.name = f.headers.name), (h.groups _ _).mpr ⟨?_, rfl⟩, rfl⟩
    exact List.ne_nil_of_mem (List.mem_filter.mpr ⟨hf, by simp⟩)
  rw [h2] at h1
  exact h1

theorem All2.headers {P : FieldHeaders → Prop} {Q : Bytes → Bytes → Prop} {got : List (FieldHeaders × Bytes)} (h : All2 (fun a e => a.1 = e.1 ∧ Q e.2 a.2) got es) (hg : ∀ a ∈ got, P a.1) :
    ∀ a ∈ es, P a.1 := by
  induction h with
  | nil => simp
  | cons hxy _ ih =>
    intro a ha
    rcases List.mem_cons.mp ha with rfl | ha
    · rw [← hxy.1]; exact hg _ List.mem_cons_self
    · exact ih (fun x hx => hg x (List.mem_cons_of_mem _ hx)) a ha

/-- C154: a request that was saved fully can be sent on later. Go through the saved fields in any order (that of the map is not specified), and send the contents of each with its name, filename and type, with a boundary that
does not occur in them. Then another server saves all of it, within its limits and if its disk works: the same fields with the same contents, where fields without a type get the type `application/octet-stream`
if they have a filename or are not sent as text. (No read, on either side, ends inside the CRLF before a delimiter; see C01.) -/
theorem C154_store_and_forward {cfg cfg' : Settings} {w w' v : World} {e : Entries} {fuel : Nat} {t : BR} {dir dir' : SaveDir} {env : FileEnv} {req : ClientReq} {c : ClientStream}
    {gs : List SavedField} {xs : List (ClientOp × (FieldHeaders × Bytes))}
    (hD : D.Sane) (hT : D.Tokenizes) (hC : D.Clean) (hO : D.parseMime octetStream.src = some octetStream)
    -- the first server has saved a request
    (hP : Parts D (dashes ++ b) (Ev.bytes evs) es .closed) (hn : NoStall evs) (hne : NoErr evs) (hcl : CleanSplit (dashes ++ b) evs) (hc : cfg.Typed) (ho : cfg.openOpts.createNew = true)
    (h : withEntries D cfg fuel (Entries.new dir) w (withBody evs b) = (.full e, w', t))
    -- the fields are sent on
    (hg : gs.Perm (e.fields.flatMap (·.2))) (hx : All2 (fun f x => Resends w' f x.1 x.2) gs xs) (hb : SafeBoundary b') (hroom : ∀ x ∈ xs, RoomFor b' x.2)
    (hs : plainRequest env req b' (xs.map (·.1)) = (.ok (), some c))
    -- they arrive at the second server
    (he : Ev.bytes evs' = c.sink.got) (hn' : NoStall evs') (hne' : NoErr evs') (hcl' : CleanSplit (dashes ++ b') evs') (hc' : cfg'.Typed) (ho' : cfg'.openOpts.createNew = true)
    (hp' : cfg'.textPolicy = .force → ∀ x ∈ xs, x.2.1.isText = true → IsUtf8 x.2.2) (ht' : Nat.min cfg'.sizeLimit cfg'.memoryThreshold < u64Max ∨ cfg'.textPolicy = .ignore)
    (hl' : xs.length < cfg'.countLimit) (hz' : ∀ x ∈ xs, x.2.2.length ≤ cfg'.sizeLimit) (hv : DiskReady v dir'.asPath xs.length) :
    ∃ sent, sent.Perm es ∧ ForwardsAll sent (xs.map (·.1)) (xs.map (·.2)) ∧
      ∃ n, ∀ fuel', n ≤ fuel' → ∃ e' v' t' fs', withEntries D cfg' fuel' (Entries.new dir') v (withBody evs' b') = (.full e', v', t') ∧ GroupedByName e'.fields fs' ∧ e'.fieldsCount = es.length ∧
        All2 (fun (f : SavedField) x => f.headers = x.1 ∧ f.data.readable v' = .ok x.2) fs' (xs.map (·.2)) := by
  obtain ⟨-, fs, h1, -, h2⟩ := C53_full_has_every_field hD hn hne hc ho hP dir h
  obtain ⟨sent, hperm, h3⟩ := All2.perm (hg.trans h1.perm) h2
  have hf : ForwardsAll sent (xs.map (·.1)) (xs.map (·.2)) := by
    clear hperm hg hs hroom hp' hl' hz' hv
    induction h3 generalizing xs with
    | nil => cases hx; exact .nil
    | @cons f a fs as ha _ ih =>
      cases hx with
      | @cons _ x _ xs hx1 hx2 =>
        refine .cons ?_ (ih hx2)
        obtain ⟨a1, y, a2, a3⟩ := ha
        obtain ⟨z, b1, b2⟩ := hx1
        rw [a2] at b1
        cases b1
        rcases a3 with a3 | ⟨-, a3, -⟩
        · have : (f.headers, y) = a := Prod.ext a1 a3
          rwa [this] at b2
        · exact absurd hcl a3
  have hlen : xs.length = es.length := by
    rw [← hperm.length_eq]
    clear hperm h3 hg hx hs hroom hp' hl' hz' hv
    generalize hA : xs.map (·.1) = A at hf
    generalize hB : xs.map (·.2) = B at hf
    induction hf generalizing xs with
    | nil => simpa using hA
    | cons _ _ ih =>
      cases xs with
      | nil => simp at hA
      | cons x xs =>
        simp at hA hB
        simp [ih hA.2 hB.2]
  have hclean : ∀ a ∈ sent, CleanHeaders D a.1 := by
    intro a ha
    obtain ⟨got, fin, hr⟩ := C10_reads_total (evs := evs) (b := b) hD ⟨[], rfl⟩
    obtain ⟨-, hg2⟩ := C10_entries_are_parts hD hn hne hP hr
    have hgot := reads_clean hD hC hr (BR.fromReader_inv _ _)
    exact hg2.headers (P := CleanHeaders D) hgot a (hperm.mem_iff.mp ha)
  obtain ⟨ofs, cts, k1, k2, k3⟩ := hf.sendable (env := env) (b := b') hO hclean (by
    intro y hy
    obtain ⟨x, hx, rfl⟩ := List.mem_map.mp hy
    exact hroom x hx)
  have hP' := sent_parts hT hb hs k1 k2 he
  rw [k3] at hP'
  refine ⟨sent, hperm, hf, ?_⟩
  obtain ⟨n, hn2⟩ := C77_request_succeeds (es := xs.map (·.2)) (w := v) hD hn' hne' hc' ho' (by
      intro hfo y hy
      obtain ⟨x, hx, rfl⟩ := List.mem_map.mp hy
      exact hp' hfo x hx) ht' hP' dir' (by simpa using hl') (by
      intro y hy
      obtain ⟨x, hx, rfl⟩ := List.mem_map.mp hy
      exact .inr ⟨.inl hcl', hz' x hx⟩) (by simpa using hv)
  refine ⟨n, fun fuel' hfu => ?_⟩
  obtain ⟨e', v', t', fs', q1, q2, q3, q4⟩ := hn2 fuel' hfu
  refine ⟨e', v', t', fs', q1, q2, by rw [q3, List.length_map, hlen], ?_⟩
  clear q1 q2 q3
  generalize xs.map (·.2) = ys at q4
  induction q4 with
  | nil => exact .nil
  | cons hq _ ih =>
    refine .cons ⟨hq.1, ?_⟩ ih
    obtain ⟨y, q5, q6 | ⟨-, q6, -⟩⟩ := hq.2
    · rw [← q6]; exact q5
    · exact absurd hcl' q6

namespace Sample

/-- A disk for two files. -/
def storeDisk : World := { disk with names := [b!"x", b!"y"], writes := [.err .interrupted, .accept 2] }
theorem storeDisk_ready : DiskReady storeDisk [b!"d"] 2 :=
  ⟨by simp [storeDisk, disk], by simp [storeDisk, disk], by rintro ev h e (⟨h1, h2⟩ | ⟨h1, h2⟩) <;> simp [storeDisk] at h <;> rcases h with rfl | rfl <;> simp_all, by decide, by decide, fun _ _ => rfl⟩
/-- All fields are saved to files. -/
def storeCfg : Settings := { Settings.default with memoryThreshold := 0, sizeLimit := 5, countLimit := 3 }

end Sample

/-- The two fields of a body of another client are saved to files, sent on, and saved to files again. -/
example : ∃ n, ∀ fuel, n ≤ fuel → ∃ e v t fs, withEntries refDeps Sample.storeCfg fuel (Entries.new (.perm [b!"d"])) Sample.storeDisk (withBody Sample.fwdEvs b!"q") = (.full e, v, t) ∧ GroupedByName e.fields fs ∧
    e.fieldsCount = 2 ∧ All2 (fun (f : SavedField) x => f.headers = x.1 ∧ f.data.readable v = .ok x.2) fs [(⟨b!"a\"b", some b!"x y", some octetStream⟩, b!"hi"), (Sample.fh, b!"yo")] := by
  have hcl : CleanSplit (dashes ++ Sample.bnd) Sample.evsFwd := .of_small (by decide +kernel)
  obtain ⟨n, hn⟩ := C77_request_succeeds (cfg := Sample.storeCfg) (w := Sample.storeDisk) (b := Sample.bnd) (evs := Sample.evsFwd) refDeps_sane (by decide +kernel) (by intro e; simp [Sample.evsFwd])
    ⟨by decide, by decide, by decide, rfl⟩ rfl (fun h => by simp [Sample.storeCfg, Settings.default] at h) (.inl (by decide)) Sample.fwd_parts (.perm [b!"d"]) (by decide)
    (by intro p hp; simp at hp; rcases hp with rfl | rfl <;> exact .inl (by decide)) Sample.storeDisk_ready
  obtain ⟨e, w', t, fs, h1, h2, -, h4⟩ := hn n (Nat.le_refl _)
  have hx : All2 (fun f (x : ClientOp × (FieldHeaders × Bytes)) => Resends w' f x.1 x.2) fs
      (Sample.fwdOps.zip [(⟨b!"a\"b", some b!"x y", some octetStream⟩, b!"hi"), (Sample.fh, b!"yo")]) := by
    cases h4 with
    | cons a1 h4 => cases h4 with
      | cons a2 h4 =>
        cases h4
        have key : ∀ {f : SavedField} {p : FieldHeaders × Bytes} {o : ClientOp} {y : FieldHeaders × Bytes}, SavedAs Sample.bnd Sample.evsFwd w' f p → Forwards p o y → Resends w' f o y := by
          rintro f p o y ⟨k1, c, k2, k3 | ⟨-, k3, -⟩⟩ k4
          · exact ⟨c, k2, by rw [k1, k3]; exact k4⟩
          · exact absurd hcl k3
        have hall := Sample.fwd_all
        unfold Sample.fwdOps at hall ⊢
        cases hall with
        | cons g1 g2 => cases g2 with
          | cons g2 _ => exact .cons (key a1 g1) (.cons (key a2 g2) .nil)
  have h := C154_store_and_forward (env := Sample.env) (req := Sample.req) (evs' := Sample.fwdEvs) (cfg' := Sample.storeCfg) (v := Sample.storeDisk) (dir' := .perm [b!"d"]) refDeps_sane refDeps_tokenizes refDeps_clean
    (by decide +kernel) Sample.fwd_parts (by decide +kernel) (by intro e; simp [Sample.evsFwd]) hcl ⟨by decide, by decide, by decide, rfl⟩ rfl h1 h2.perm.symm hx ⟨by simp, by decide⟩
    (by intro x hx; exact Sample.fwd_room x.2 ((List.of_mem_zip (a := x.1) (b := x.2) hx).2)) Sample.fwdSent_eq (by decide +kernel) (by decide +kernel) (by intro e; simp [Sample.fwdEvs]) (.of_small (by decide +kernel))
    ⟨by decide, by decide, by decide, rfl⟩ rfl (fun h => by simp [Sample.storeCfg, Settings.default] at h) (.inl (by decide)) (by decide) (by decide) Sample.storeDisk_ready
  obtain ⟨-, -, -, h⟩ := h
  exact h

end Multipart

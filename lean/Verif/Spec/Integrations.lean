import Verif.Props.Upload
import Verif.Spec.Adapters
/-!
# What arrives at the server integrations
-/
namespace Multipart

/-- The text of a header with this value, as the `mime` crate writes it, for values that need no quoting. -/
def HMime.text (m : HMime) : Bytes := m.top.asStr ++ b!"/" ++ m.sub.asStr ++ m.params.flatMap fun p => b!"; " ++ p.1.asStr ++ b!"=" ++ p.2.asStr

/-- This reader gives the fields `fs` (with the content types `cts`): whoever reads the entries to their end gets them in order and then the end, and whoever saves them with
sufficient limits on a working disk has them all. -/
structure Delivers (D : Deps) (b : Bytes) (evs : List Ev) (fs : List OutField) (cts : List (Option Mime)) (br : BR) : Prop where
  total : ∃ got fin, Reads D br got fin
  read : ∀ got fin, Reads D br got fin → fin = .closed ∧ All2 (fun a e => a.1 = e.1 ∧ DataOk (dashes ++ b) evs e.2 a.2) got (List.zipWith OutField.asRead fs cts)
  saved : ∀ (cfg : Settings) (w : World) (dir : SaveDir), Allows cfg w dir.asPath fs cts → ∃ n, ∀ fuel, n ≤ fuel → ∃ e w' t xs, withEntries D cfg fuel (Entries.new dir) w br = (.full e, w', t) ∧
    GroupedByName e.fields xs ∧ e.fieldsCount = fs.length ∧ All2 (Arrived b evs w') xs (fs.zip cts)

/-- A POST request with the header `m` and the body `evs` arrives: `Switch` gives it to the multipart handler, Nickel's `multipart_body` and `Multipart::from_request` for Iron and `tiny_http`
give a reader, all for the same reader of the fields. Hyper, Iron and Nickel parse the header; `tiny_http` has its text among the others. -/
def Arrives (D : Deps) (b : Bytes) (evs : List Ev) (m : HMime) (fs : List OutField) (cts : List (Option Mime)) : Prop :=
  ∃ br, Delivers D b evs fs cts br ∧
    (∀ m', m.SentAs m' → (∀ (α : Type) (normal : HyperReq → α) (multipart : BR → α), switchHandle normal multipart ⟨.post, some m', evs⟩ = multipart br) ∧
      fromRequest ironHttp ⟨.post, some m', evs⟩ = .ok br ∧ multipartBody ⟨.post, some m', evs⟩ = some br) ∧
    (∀ hs h, FirstHeader hs b!"Content-Type" h → h.val = m.text → fromRequest tinyHttp ⟨.post, hs, evs⟩ = .ok br)

end Multipart

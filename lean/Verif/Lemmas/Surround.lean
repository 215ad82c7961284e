import Verif.Lemmas.Parts
/-!
# Preamble and epilogue on the level of bytes
-/
namespace Multipart
variable {D : Deps} {d : Bytes}

theorem NextIs.preamble {pre u : Bytes} {v : Verdict} (hd : d ≠ []) (h : NextIs d u v) (hp : ∀ q, q < pre.length → ¬ OccursAt d (pre ++ u) q) :
    NextIs d (pre ++ u) v :=
  NextIs.of_drop (k := pre.length) hd (by rw [List.drop_left]; exact h) hp

theorem Parts.preamble {pre u : Bytes} {es : List (FieldHeaders × Bytes)} {fin : Ending} (hd : d ≠ []) (h : Parts D d u es fin)
    (hp : ∀ q, q < pre.length → ¬ OccursAt d (pre ++ u) q) : Parts D d (pre ++ u) es fin := by
  cases h with
  | close h => exact .close (h.preamble hd hp)
  | damaged h => exact .damaged (h.preamble hd hp)
  | truncated h => exact .truncated (h.preamble hd hp)
  | refused h h' => exact .refused (h.preamble hd hp) h'
  | part h w p => exact .part (h.preamble hd hp) w p

theorem FieldData.epilogue {X dat : Bytes} (hd : d ≠ []) (h : FieldData d X dat) (epi : Bytes) : FieldData d (X ++ epi) dat := by
  cases h with
  | crlf a b => exact .crlf (a.append hd epi) (b.trans (List.prefix_append _ _))
  | bare a b c => exact .bare (a.append hd epi) (b.trans (List.prefix_append _ _)) c

theorem WellFormedPart.epilogue {rest X dat : Bytes} {fh : FieldHeaders} (hd : d ≠ []) (h : WellFormedPart D d rest fh dat X) (epi : Bytes) :
    WellFormedPart D d (rest ++ epi) fh dat (X ++ epi) := by
  obtain ⟨H, hs, hb, hp, hl, hsep⟩ := h.headers
  obtain ⟨p, hf, hle, -⟩ := h.data.firstAt
  have hlen := occursAt_lt hf.1 hd
  refine ⟨⟨H, hs, ⟨by rw [hb.split, List.append_assoc], hb.nonempty, hb.parses, hb.utf8, fun q hq hc => ?_⟩, hp, hl, fun hfa => hsep ?_⟩,
    h.data.epilogue hd epi⟩
  · exact hb.noDelim q hq (occursAt_of_append hc (by rw [hb.split, List.length_append]; omega))
  · have := hfa.unique (hf.append hd epi)
    rw [this]; exact hf

theorem Parts.epilogue {u : Bytes} {es : List (FieldHeaders × Bytes)} {fin : Ending} (hd : d ≠ []) (h : Parts D d u es fin)
    (hf : fin = .closed) (epi : Bytes) : Parts D d (u ++ epi) es fin := by
  induction h with
  | @close u rest h =>
    cases h with
    | close a b =>
      have := occursAt_lt a.1 hd
      exact .close (.close (a.append hd epi) (by rw [List.drop_append_of_le_length this, b, List.append_assoc]))
  | damaged | truncated | refused => simp at hf
  | part h w _ ih =>
    cases h with
    | part a b =>
      have := occursAt_lt a.1 hd
      exact .part (.part (a.append hd epi) (by rw [List.drop_append_of_le_length this, b, List.append_assoc])) (w.epilogue hd epi) (ih hf)

end Multipart

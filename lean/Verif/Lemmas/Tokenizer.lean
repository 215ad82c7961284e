import Verif.Model.Tokenizer
import Verif.Lemmas.Find
namespace Multipart

theorem refParseAux_sane : ∀ (n pos : Nat) (acc : List Header) (bs : Bytes) (c : Nat) (hs : List Header), acc.length ≤ 4 →
    refParseAux n pos acc bs = .complete c hs → hs.length ≤ 4 ∧ c ≤ pos + bs.length := by
  intro n
  induction n with
  | zero => intro pos acc bs c hs _ h; simp [refParseAux] at h
  | succ n ih =>
    intro pos acc bs c hs hacc h
    unfold refParseAux at h
    split at h
    · cases h
    · next hf =>
      cases h
      have := occursAt_lt (findSub_some hf).1 (by decide)
      simp [crlf] at this
      exact ⟨hacc, by omega⟩
    · next i hf =>
      have hl := occursAt_lt (findSub_some hf).1 (by decide)
      simp [crlf] at hl
      split at h
      · cases h
      · next hd hp =>
        split at h
        · next hlt =>
          have := ih _ _ _ _ _ (by simp; omega) h
          refine ⟨this.1, ?_⟩
          have := this.2
          rw [List.length_drop] at this
          omega
        · cases h

theorem refDeps_sane : refDeps.Sane :=
  ⟨fun _ _ _ h => (refParseAux_sane _ _ _ _ _ _ (by simp) h).1,
   fun _ _ _ h => by simpa using (refParseAux_sane _ _ _ _ _ _ (by simp) h).2⟩

example : refDeps.parseHeaders b!"Content-Disposition: form-data; name=\"a\"\r\nX:y\r\n\r\nrest" =
    .complete 49 [⟨b!"Content-Disposition", b!"form-data; name=\"a\""⟩, ⟨b!"X", b!"y"⟩] := by decide

end Multipart

import Verif.Spec.Stream
/-!
# How many bytes the reads of a stream return
-/
namespace Multipart

/-- No read of the script returns more than `n` bytes. -/
def ReadsUpTo (n : Nat) (evs : List Ev) : Prop := ∀ bs, .data bs ∈ evs → bs.length ≤ n

/-- All reads of the script are successful, and each returns at least `n` bytes. -/
def ReadsFrom (n : Nat) (evs : List Ev) : Prop := ∀ e ∈ evs, ∃ bs, e = .data bs ∧ n ≤ bs.length

/-- `fill_buf`, or `read` with room for `N` bytes. -/
def TakesAll (N : Nat) (o : FieldOp) : Prop := o = .fillBuf ∨ ∃ n, N ≤ n ∧ o = .read n

end Multipart

import Verif.Spec.Threads
/-!
# Vocabulary for what a request would meet if it were handled alone
-/
namespace Multipart

/-- Nothing happens on the first disk that does not happen on the second: what fails there, and the random names, are from the scripts of the second. (An entry that makes no difference is allowed: no failure, a write that is accepted, and
the empty name that is taken when there are no others.) -/
structure World.MeetsOnly (w0 w : World) : Prop where
  mkdirs : ∀ x ∈ w0.mkdirs, x ∈ w.mkdirs ∨ x = none
  opens : ∀ x ∈ w0.opens, x ∈ w.opens ∨ x = none
  writes : ∀ x ∈ w0.writes, x ∈ w.writes ∨ ∃ n, x = .accept (n + 1)
  names : ∀ x ∈ w0.names, x ∈ w.names ∨ x = []

/-- The requests are saved in different directories, none within another. -/
def Job.Apart (j j' : Job) : Prop := ∀ q, ¬ (Below j.dir.asPath q ∧ Below j'.dir.asPath q)

end Multipart

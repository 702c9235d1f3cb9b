import Verif.ProblemSpec

/-
Marginals added to a problem.
-/

namespace HL

/-- Each of the marginals `B` names no dimension twice and shares at most one dimension with all the marginals that come
before it, in `A` or in `B`. -/
def Attached (A B : Prob Int) : Prop :=
  ∀ C p D, B = C ++ p :: D → p.1.Nodup ∧
    ∀ d ∈ p.1, ∀ e ∈ p.1, (∃ q ∈ A ++ C, d ∈ q.1) → (∃ q ∈ A ++ C, e ∈ q.1) → d = e

end HL

import Verif.Spec

/-
When two marginals can be met by a table with given zeros (C99).
-/

namespace HL

/-- The categories of the marginal with dimensions `q` that the non-zero cells of the table `b` leave for the categories `A` of the
marginal with dimensions `p`. -/
def reach (s : List Nat) (p q : List Nat) (b : List Int → ℚ) (A : Finset (List Int)) : Finset (List Int) :=
  (cells (projSizes q s)).filter (fun j => ∃ v ∈ cells s, b v ≠ 0 ∧ proj p v ∈ A ∧ proj q v = j)

end HL

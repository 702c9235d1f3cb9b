import Verif.ProblemSpec

/-
What it means for a problem to be made up of separate ones: the vocabulary of C124.
-/

namespace HL
variable {α β : Type}

/-- Dimension 0 of the table (a region, say) is the first dimension of every marginal, and every marginal has
other dimensions. -/
def Stratified (P : Prob α) : Prop := ∀ p ∈ P, ∃ ds : List Nat, ds ≠ [] ∧ p.1 = 0 :: ds.map (· + 1)

/-- The part of a table of which the first entry of the index is `x`. -/
def part (x : Nat) (a : List Int → β) : List Int → β := fun v => a ((x : Int) :: v)

/-- The problem for the region `x` alone: the marginals with dimension 0 left out, its entry being `x`. -/
def stratum (x : Nat) (P : Prob α) : Prob α := P.map (fun p => (p.1.tail.map (· - 1), part x p.2))

end HL

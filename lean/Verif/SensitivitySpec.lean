import Verif.ClosestSpec

/-
Specification for C137 and C138: problems that differ a little, seeds with some cells raised.
-/

namespace HL

/-- Every cell of either seed is at most `F` times that of the other. -/
def SeedsWithin (F : ℝ) (s : List Nat) (a b : List Int → ℚ) : Prop :=
  ∀ v, InRange s v → (a v : ℝ) ≤ F * b v ∧ (b v : ℝ) ≤ F * a v

/-- Marginals over the same dimensions, in the same order, with every entry of either at most `F` times that of the other. -/
structure MarginalsWithin (F : ℝ) (s : List Nat) (Q' Q : Prob ℚ) : Prop where
  dims : Q'.map Prod.fst = Q.map Prod.fst
  near : ∀ k (hk : k < Q.length) (hk' : k < Q'.length), ∀ j, InRange (projSizes Q[k].1 s) j →
    (Q'[k].2 j : ℝ) ≤ F * Q[k].2 j ∧ (Q[k].2 j : ℝ) ≤ F * Q'[k].2 j

/-- The seed `b` with the cells in `S` multiplied by `t`. -/
def raised (S : List Int → Bool) (t : ℚ) (b : List Int → ℚ) : List Int → ℚ := fun v => if S v then t * b v else b v

/-- The total of a table over the cells in `S`. -/
noncomputable def totalOn (s : List Nat) (S : List Int → Bool) (x : List Int → ℝ) : ℝ := ∑ v ∈ cells s with S v, x v

end HL

import Verif.EntropySpec

/-
Specification for C136: the table that iterative proportional fitting is for.
-/

namespace HL

/-- `x` is, among the non-negative tables that meet the marginals of `Q` and vanish where the seed `b` does, one with the least relative
entropy with respect to the seed. -/
structure IsClosest (s : List Nat) (Q : Prob ℚ) (b : List Int → ℚ) (x : List Int → ℝ) : Prop where
  nonneg : NonnegTable s x
  meets : MeetsMarginals s Q x
  vanishes : VanishesWith s x (realTable b)
  least : ∀ t, NonnegTable s t → MeetsMarginals s Q t → VanishesWith s t (realTable b) →
    relEntropy s x (realTable b) ≤ relEntropy s t (realTable b)

end HL

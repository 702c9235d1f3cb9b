import Verif.ProblemSpec
import Mathlib.Analysis.SpecialFunctions.Log.Basic

/-
Closeness of tables in the sense of relative entropy (Kullback and Leibler): the vocabulary of the theorems about what the
fitted table is.
-/

namespace HL

/-- The relative entropy of the table `t` with respect to the table `b`, both of sizes `s`: the sum of `t log (t / b)`, cells with
`t = 0` counting nothing.  (It is infinite, and the expression below meaningless, when `b` vanishes in a cell where `t` does not,
see `VanishesWith`.) -/
noncomputable def relEntropy (s : List Nat) (t b : List Int → ℝ) : ℝ := ∑ v ∈ cells s, t v * Real.log (t v / b v)

/-- `t` is zero wherever `b` is. -/
def VanishesWith (s : List Nat) (t b : List Int → ℝ) : Prop := ∀ v, InRange s v → b v = 0 → t v = 0

/-- `t` has no negative entry. -/
def NonnegTable (s : List Nat) (t : List Int → ℝ) : Prop := ∀ v, InRange s v → 0 ≤ t v

/-- The sums of `t` over the dimensions of each marginal of `Q` are the entries of the marginal. -/
def MeetsMarginals (s : List Nat) (Q : Prob ℚ) (t : List Int → ℝ) : Prop :=
  ∀ q ∈ Q, ∀ j, InRange (projSizes q.1 s) j → marginalSum s q.1 t j = (q.2 j : ℝ)

/-- A table of rationals as a table of reals. -/
def realTable (b : List Int → ℚ) : List Int → ℝ := fun v => (b v : ℝ)

end HL

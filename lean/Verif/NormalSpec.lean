import Verif.Model.Normal
import Mathlib.MeasureTheory.Integral.IntervalIntegral.FundThmCalculus
import Mathlib.Analysis.SpecialFunctions.Log.Basic
import Mathlib.Analysis.SpecialFunctions.Gaussian.GaussianIntegral

/-
The standard normal distribution and the error function, as integrals of real functions.
-/

namespace HL.Normal
open Real MeasureTheory

/-- the density of the standard normal distribution -/
noncomputable def density (x : ℝ) : ℝ := exp (-(x ^ 2) / 2) / √(2 * π)

/-- the standard normal distribution function: the integral of the density up to `x` -/
noncomputable def cdf (x : ℝ) : ℝ := ∫ t in Set.Iic x, density t

/-- the error function -/
noncomputable def erfR (x : ℝ) : ℝ := 2 / √π * ∫ t in (0 : ℝ)..x, exp (-t ^ 2)

/-- A mathematics library whose functions are right up to one part in `10^14`, about fifty times less accurate than the
usual ones: `log` between 0 and 1, `exp` and `sqrt` up to 100, `erf` (absolute error), and `atan(1)`. -/
structure Accurate (fp : FP) (lm : Libm) (atan1 : Fl) : Prop where
  log : ∀ q : ℚ, 0 < q → q ≤ 1 → ∃ y : ℚ, lm.log (.fin q) = .fin y ∧ |(y : ℝ) - Real.log q| ≤ 1 / 10 ^ 14 * |Real.log q|
  exp : ∀ q : ℚ, |q| ≤ 100 → ∃ y : ℚ, lm.exp (.fin q) = .fin y ∧ |(y : ℝ) - Real.exp q| ≤ 1 / 10 ^ 14 * Real.exp q
  erf : ∀ q : ℚ, ∃ y : ℚ, lm.erf (.fin q) = .fin y ∧ |(y : ℝ) - erfR q| ≤ 1 / 10 ^ 14
  sqrt : ∀ q : ℚ, 0 ≤ q → q ≤ 100 → ∃ y : ℚ, fp.sqrt (.fin q) = .fin y ∧ |(y : ℝ) - √(q : ℝ)| ≤ 1 / 10 ^ 14 * √(q : ℝ)
  atan : ∃ y : ℚ, atan1 = .fin y ∧ |(y : ℝ) - π / 4| ≤ 1 / 10 ^ 14

end HL.Normal

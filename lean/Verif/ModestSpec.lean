import Verif.NoTinySpec

/-
Specification for C133: problems of `ipf` with a positive seed and positive marginals, none of them extremely large or small.
-/

namespace HL
open Micro

/-- The cells of the seed are between `lo` and `hi`, every entry of a marginal is at least the part `ρ` of the population, no entry of
a marginal stands for more than `f` cells, and the numbers are not extreme. -/
structure Modest (s : List Nat) (Q : Prob ℚ) (pop : Int) (b : List Int → ℚ) (lo hi ρ : ℚ) (f : Nat) : Prop where
  seed : ∀ v, InRange s v → lo ≤ b v ∧ b v ≤ hi
  seedLow : 1 / 2 ^ 200 ≤ lo
  seedOrder : lo ≤ hi
  seedHigh : hi ≤ 2 ^ 200
  partPos : 0 < ρ
  part : ∀ q ∈ Q, ∀ j, InRange (projSizes q.1 s) j → ρ * pop ≤ q.2 j
  mid : ∀ q ∈ Q, ∀ j, InRange (projSizes q.1 s) j → MidSize (q.2 j)
  cellsPer : ∀ q ∈ Q, ∀ j, ((cells s).filter (fun v => proj q.1 v = j)).card ≤ f
  few : 1000 * Q.length + f + 4 ≤ 2 ^ 50
  size : 4 * (hi / lo) * (2 * (hi / lo) / ρ) ^ Q.length ≤ 2 ^ 200 * pop

end HL

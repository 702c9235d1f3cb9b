import Verif.RegularSpec

/-
Runs of `ipf` in double precision without tiny numbers (C131).
-/

namespace HL
open Micro

/-- a number of moderate size: between 2^-200 and 2^200 -/
def MidSize (x : ℚ) : Prop := 1 / 2 ^ 200 ≤ x ∧ x ≤ 2 ^ 200

/-- In the first `n` iterations (after `m` iterations and scaling to the first `i` marginals) no cell is positive and less than 2^-200. -/
def NoTiny (fp : FP) (s : List Nat) (Q : Prob ℚ) (b : List Int → ℚ) (n : Nat) : Prop :=
  ∀ m < n, ∀ i ≤ Q.length, ∀ v, InRange s v → ∀ x,
    sweep fp (numFl fp) s ((finProb Q).take i) ((sweep fp (numFl fp) s (finProb Q))^[m] (fun v => .fin (b v))) v = .fin x →
    x = 0 ∨ 1 / 2 ^ 200 ≤ x

end HL

import Verif.Proof.IPFLemmas

/-
Specification for C94: runs of `ipf` in which no number comes near the ends of the range of doubles.
-/

namespace HL
open Micro

/-- a positive number far from the ends of the range -/
def Regular (x : ℚ) : Prop := (2 : ℚ) ^ (-1021 : ℤ) ≤ x ∧ x ≤ 2 ^ 1021

/-- a cell that can be positive: the seed and all its marginal values are -/
def Live (Q : Prob ℚ) (b : List Int → ℚ) (v : List Int) : Prop := 0 < b v ∧ ∀ q ∈ Q, 0 < q.2 (proj q.1 v)

/-- Every cell of the table is regular, or zero, and zero only if the seed or one of the marginals is. -/
def RegularTable (s : List Nat) (Q : Prob ℚ) (b : List Int → ℚ) (a : List Int → Fl) : Prop :=
  ∀ v, InRange s v → ∃ x, a v = .fin x ∧ (Regular x ∨ (x = 0 ∧ ¬ Live Q b v))

/-- The tables of the first `n` sweeps (after `m` sweeps and scaling to the first `i` marginals) are regular. -/
def RegularRun (fp : FP) (s : List Nat) (Q : Prob ℚ) (b : List Int → ℚ) (n : Nat) : Prop :=
  ∀ m < n, ∀ i ≤ Q.length, RegularTable s Q b
    (sweep fp (numFl fp) s ((finProb Q).take i) ((sweep fp (numFl fp) s (finProb Q))^[m] (fun v => .fin (b v))))

end HL

import Verif.ProblemSpec

/-
Problems that are consistent up to the tolerances of the code.
-/

namespace HL

/-- A problem with rational marginals that is consistent up to the tolerances of the code: no entry is negative, every total plus
one half rounds down to `pop`, and wherever a dimension `d` occurs (as dimension `b` of the marginal number `l`) the sums along it
differ by at most 1e-8 from those at the first place it occurs (dimension `a` of the marginal number `k`). -/
structure CloseOK (s : List Nat) (Q : Prob ℚ) (pop : Int) : Prop extends ProbShape s Q where
  nonneg : ∀ p ∈ Q, ∀ j, InRange (projSizes p.1 s) j → 0 ≤ p.2 j
  total : ∀ p ∈ Q, (pop : ℚ) ≤ ∑ j ∈ cells (projSizes p.1 s), p.2 j + 1 / 2 ∧ ∑ j ∈ cells (projSizes p.1 s), p.2 j + 1 / 2 < pop + 1
  partials : ∀ (d k a l b : Nat) (p q : List Nat × (List Int → ℚ)), (places d 0 (Q.map Prod.fst)).head? = some (k, a) →
    Q[k]? = some p → Q[l]? = some q → q.1[b]? = some d → ∀ x : Nat, x < s.getD d 0 →
      |marginalSum (projSizes q.1 s) [b] q.2 [(x : Int)] - marginalSum (projSizes p.1 s) [a] p.2 [(x : Int)]| ≤ 1 / 10 ^ 8

end HL

import Verif.QISISpec

/-
How `qisi` proceeds in exact arithmetic: the rule.
-/

namespace HL

/-- The individuals `vs` and the working tables `W` follow the rule of quasirandom sampling from an IPF, for the marginals `P`, the
seed `sd` and the points `pt 0`, `pt 1`, ... (one whole number below 2^32 for each dimension).  The first table is the fit of the seed
to the marginals.  The coordinate `d` of individual `i` is the first state whose running total passes the fraction `pt i d / 2^32` of
the total, in the cells of table `i` that agree with the individual in the dimensions after `d`.  The next table has one less in the
cell drawn, if that held at least 1; if not, it is the fit of the seed to what the individuals so far have left of the marginals. -/
def SampledByRule (s : List Nat) (P : Prob Int) (sd : List Int → ℚ) (pt : Nat → Nat → Nat) (vs : List (List Int))
    (W : Nat → List Int → ℚ) : Prop :=
  Fit FP.exact s P (fun v => .fin (sd v)) (fun v => .fin (W 0 v)) ∧
  ∀ i v, vs[i]? = some v → InRange s v ∧
    (∀ d < s.length, FirstPastQ (sliceWeight s (W i) v d) (s.getD d 0)
      ((pt i d : ℚ) / 2 ^ 32 * ∑ x ∈ Finset.range (s.getD d 0), sliceWeight s (W i) v d x) (v.getD d 0)) ∧
    (1 ≤ W i v → ∀ u, InRange s u → W (i + 1) u = if u = v then W i u - 1 else W i u) ∧
    (W i v < 1 → Fit FP.exact s (remaining (vs.take (i + 1)) P) (fun v => .fin (sd v)) (fun v => .fin (W (i + 1) v)))

end HL

import Verif.Proof.EntropyTwo
import Verif.Props.IPFClosest

/-
C96: the error of ipf with two marginals, when it stops.  In exact arithmetic.
-/

namespace HL
open Ent

/-- The sum of the absolute differences between the sums of the table `c` and a marginal. -/
def sumDev (s : List Nat) (q : List Nat × (List Int → ℚ)) (c : List Int → ℚ) : ℚ :=
  ∑ j ∈ cells (projSizes q.1 s), |marginalSum s q.1 c j - q.2 j|

theorem devSum_cast (s : List Nat) (q : List Nat × (List Int → ℚ)) (c : List Int → ℚ) :
    devSum s (q.1, fun j => (q.2 j : ℝ)) (realTable c) = ((sumDev s q c : ℚ) : ℝ) := by
  unfold devSum sumDev
  push_cast
  apply Finset.sum_congr rfl
  intro j _
  rw [margin_cast]

section
variable {s : List Nat} {p q : List Nat × (List Int → ℚ)} {pop : Int}

/-- **C96**: two marginals (which may have dimensions in common), a non-negative seed, and some non-negative table `t` that meets
both marginals and vanishes where the seed does.  When `ipf` returns, converged or not, its table meets the second marginal exactly,
the reported error is at most the sum of the differences from the first, and the square of that sum, times `2 iters - 1`, is at most
`4 pop` times the relative entropy of `t` with respect to the seed (scaled to the population). -/
theorem C96_error (h : RatOK s [p, q] pop) (h0 : 0 < pop) (hp : ProperProb s [p, q]) {b : List Int → ℚ}
    (hb : ∀ v, InRange s v → 0 ≤ b v) {t : List Int → ℝ} (ht : NonnegTable s t) (hm : MeetsMarginals s [p, q] t)
    (hv : VanishesWith s t (realTable b)) {r : IPF Fl} (hr : ipfExact s [p, q] b = .ok r) :
    ∃ (c : List Int → ℚ) (e : ℚ), r.micro.array = finArr s c ∧ r.maxError = .fin e ∧
      (∀ j, InRange (projSizes q.1 s) j → marginalSum s q.1 c j = q.2 j) ∧ e ≤ sumDev s p c ∧
      (2 * r.iters - 1) * ((sumDev s p c : ℚ) : ℝ) ^ 2 ≤
        4 * pop * relEntropy s t (fun v => pop / (∑ w ∈ cells s, (b w : ℝ)) * b v) := by
  obtain ⟨pop', n, -, h1, h2, h3, h4, h5, h6, h7, h8⟩ := ipf_exact_fin h.toProbShape hp hr
  have hbr : NonnegTable s (realTable b) := fun v h => Rat.cast_nonneg.mpr (hb v h)
  have hne := real_ne_nil h.toProbShape
  have hd := dims_real h.toProbShape
  have hmr := meets_real.mp hm
  have hT := total_pop h hm
  have hT0 : 0 < total s t := by rw [hT]; exact_mod_cast h0
  obtain ⟨k, rfl⟩ : ∃ k, n = k + 1 := ⟨n - 1, by omega⟩
  set c := (qsweep s [p, q])^[k + 1] b with hc
  have hcr : (rsweep s (realProb [p, q]))^[k + 1] (realTable b) = realTable c := iterate_cast s [p, q] b (k + 1)
  -- the second marginal
  have hq2 : ∀ j, InRange (projSizes q.1 s) j → marginalSum s q.1 c j = q.2 j := by
    intro j hj
    obtain ⟨g1, g2⟩ := iterate_keeps hd hbr ht hmr hv k
    have hm2 := sweep_keeps ht (realProb [p, q]) hd hmr g1 g2
    have := step_margin (s := s) (ds := q.1) (m := fun j => (q.2 j : ℝ)) (hd (q.1, fun j => (q.2 j : ℝ)) (by simp [realProb]))
      (step_nonneg (hd (p.1, fun j => (p.2 j : ℝ)) (by simp [realProb])) g1 ht (hmr (p.1, fun j => (p.2 j : ℝ)) (by simp [realProb]))) ht
      (step_vanishes (hd (p.1, fun j => (p.2 j : ℝ)) (by simp [realProb])) g1 ht g2 (hmr (p.1, fun j => (p.2 j : ℝ)) (by simp [realProb])))
      (hmr (q.1, fun j => (q.2 j : ℝ)) (by simp [realProb])) hj
    have e : rscaled s q.1 (fun j => (q.2 j : ℝ)) (rscaled s p.1 (fun j => (p.2 j : ℝ)) ((rsweep s (realProb [p, q]))^[k] (realTable b))) =
        realTable c := by
      rw [← hcr, Function.iterate_succ_apply']
      rfl
    rw [e, margin_cast] at this
    exact_mod_cast this
  refine ⟨c, qmax s [p, q] c, by rw [h5], h8, hq2, ?_, ?_⟩
  · obtain ⟨q', hq', j, hj, he⟩ := (qmax_spec h.toProbShape c).2
    rw [he]
    simp only [List.mem_cons, List.not_mem_nil, or_false] at hq'
    rcases hq' with rfl | rfl
    · exact Finset.single_le_sum (f := fun j => |marginalSum s q'.1 c j - q'.2 j|) (fun _ _ => abs_nonneg _) (mem_cells.mpr hj)
    · rw [hq2 j hj, sub_self, abs_zero]
      exact Finset.sum_nonneg (fun _ _ => abs_nonneg _)
  · -- scale the seed to the total
    have hB : 0 < total s (realTable b) := (first_sweep hne hd hbr ht hmr hv hT0).1
    have hk : total s t / total s (realTable b) ≠ 0 := (div_pos hT0 hB).ne'
    set b' : List Int → ℝ := fun v => total s t / total s (realTable b) * realTable b v with hb'
    have hb'0 : NonnegTable s b' := fun v h => mul_nonneg (div_pos hT0 hB).le (hbr v h)
    have hv' : VanishesWith s t b' := fun v h h0 => hv v h ((mul_eq_zero.mp h0).resolve_left hk)
    have htot : total s b' = total s t := by
      rw [hb']
      show ∑ v ∈ cells s, total s t / total s (realTable b) * realTable b v = _
      rw [← Finset.mul_sum]
      exact div_mul_cancel₀ _ hB.ne'
    have key := two_rate (p := (p.1, fun j => (p.2 j : ℝ))) (q := (q.1, fun j => (q.2 j : ℝ))) hd hb'0 ht hv' hmr htot hT0 k
    have e1 : (rsweep s [(p.1, fun j => (p.2 j : ℝ)), (q.1, fun j => (q.2 j : ℝ))])^[k + 1] b' = realTable c := by
      rw [← hcr, Function.iterate_succ_apply, Function.iterate_succ_apply]
      congr 1
      exact rsweep_smul hne hk (realTable b)
    rw [e1, devSum_cast, hT] at key
    have h9 : 0 ≤ relEntropy s t (realTable c) := by
      obtain ⟨g1, g2⟩ := iterate_keeps hd hbr ht hmr hv (k + 1)
      have g3 := iterate_total hne hd hbr ht hmr hv (n := k + 1) (by omega)
      rw [hcr] at g1 g2 g3
      exact entropy_nonneg ht g1 g2 g3.symm
    have hpop : (0 : ℝ) < pop := by exact_mod_cast h0
    rw [h6]
    have e2 : (2 * ((k + 1 : ℕ) : ℝ) - 1) = 2 * (k : ℝ) + 1 := by push_cast; ring
    have e3 : b' = fun v => (pop : ℝ) / (∑ w ∈ cells s, (b w : ℝ)) * (b v : ℝ) := by
      rw [hb', hT]; rfl
    rw [e2, ← e3]
    refine key.trans (mul_le_mul_of_nonneg_left (by linarith) (by positivity))

/-- **C96**, calling `ipf` again with its result as the seed: the sum of the differences from the first marginal does not grow. -/
theorem C96_again (h : RatOK s [p, q] pop) (hlt : pop < 2 ^ 62) (hp : ProperProb s [p, q]) {b : List Int → ℚ}
    (hb : ∀ v, InRange s v → 0 ≤ b v) {t : List Int → ℝ} (ht : NonnegTable s t) (hm : MeetsMarginals s [p, q] t)
    (hv : VanishesWith s t (realTable b)) {r : IPF Fl} (hr : ipfExact s [p, q] b = .ok r) :
    ∃ (c c' : List Int → ℚ) (r' : IPF Fl), r.micro.array = finArr s c ∧ ipfExact s [p, q] c = .ok r' ∧
      r'.micro.array = finArr s c' ∧ sumDev s p c' ≤ sumDev s p c := by
  obtain ⟨pop', n, -, h1, -, -, -, h5, -⟩ := ipf_exact_fin h.toProbShape hp hr
  obtain ⟨r', hr'⟩ := ipf_run_ok _ _ (minOK_fl _) (ratOK_accepted h hlt) (properProb_fin hp) (fun v => .fin ((qsweep s [p, q])^[n] b v))
  obtain ⟨pop'', n', -, h1', -, -, -, h5', -⟩ := ipf_exact_fin h.toProbShape hp hr'
  refine ⟨_, _, r', by rw [h5], hr', by rw [h5'], ?_⟩
  have hbr : NonnegTable s (realTable b) := fun v h => Rat.cast_nonneg.mpr (hb v h)
  have hd := dims_real h.toProbShape
  have hmr := meets_real.mp hm
  have key := two_antitone (p := (p.1, fun j => (p.2 j : ℝ))) (q := (q.1, fun j => (q.2 j : ℝ))) hd hbr ht hv hmr
    (n := n) (m := n' + n) h1 (by omega)
  have e : ∀ m, (rsweep s [(p.1, fun j => (p.2 j : ℝ)), (q.1, fun j => (q.2 j : ℝ))])^[m] (realTable b) =
      realTable ((qsweep s [p, q])^[m] b) := fun m => iterate_cast s [p, q] b m
  rw [e, e, devSum_cast, devSum_cast] at key
  rw [← Function.iterate_add_apply]
  exact_mod_cast key

end

/-- The hypotheses are met: the example problem with the seed that is 1 in the first row and 5 in the second. -/
example : ∃ (b : List Int → ℚ) (t : List Int → ℝ) (r : IPF Fl), (∀ v, InRange [2, 3] v → 0 ≤ b v) ∧ NonnegTable [2, 3] t ∧
    MeetsMarginals [2, 3] exQ t ∧ VanishesWith [2, 3] t (realTable b) ∧ RatOK [2, 3] exQ 3 ∧ ProperProb [2, 3] exQ ∧
    ipfExact [2, 3] exQ b = .ok r := by
  obtain ⟨r, hr⟩ := exQ_run (fun v => if v.getD 0 0 = 0 then 1 else 5)
  refine ⟨fun v => if v.getD 0 0 = 0 then 1 else 5, realTable (fun v => if v.getD 0 0 = 0 then 1 / 3 else 2 / 3), r, ?_, ?_, ?_, ?_,
    exQ_ok, exQ_proper, hr⟩
  · intro v _
    dsimp only
    split_ifs <;> norm_num
  · intro v _
    apply Rat.cast_nonneg.mpr
    dsimp only
    split_ifs <;> norm_num
  · intro q hq j hj
    rw [margin_cast, Rat.cast_inj]
    have : ∀ q ∈ exQ, ∀ j ∈ cells (projSizes q.1 [2, 3]),
        marginalSum [2, 3] q.1 (fun v => if v.getD 0 0 = 0 then (1 / 3 : ℚ) else 2 / 3) j = q.2 j := by decide +kernel
    exact this q hq j (mem_cells.mpr hj)
  · intro v _ h
    have := Rat.cast_eq_zero.mp h
    dsimp only at this
    split_ifs at this <;> norm_num at this

end HL

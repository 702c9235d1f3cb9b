import Verif.Proof.EntropySweep

/-
Two marginals: the deviation from the first after a sweep never grows (for C96).
-/

namespace HL.Ent
open Real

variable {s : List Nat} {t b : List Int → ℝ}

/-- the sum of the absolute deviations of the table `b` from a marginal -/
noncomputable def devSum (s : List Nat) (q : List Nat × (List Int → ℝ)) (b : List Int → ℝ) : ℝ :=
  ∑ j ∈ cells (projSizes q.1 s), |marginalSum s q.1 b j - q.2 j|

theorem devSum_nonneg (s : List Nat) (q : List Nat × (List Int → ℝ)) (b : List Int → ℝ) : 0 ≤ devSum s q b :=
  Finset.sum_nonneg (fun _ _ => abs_nonneg _)

/-- a table that meets a marginal, and one near to it -/
theorem devSum_le {q : List Nat × (List Int → ℝ)} (hd : ∀ d ∈ q.1, d < s.length) {x y : List Int → ℝ}
    (hx : ∀ j, InRange (projSizes q.1 s) j → marginalSum s q.1 x j = q.2 j) : devSum s q y ≤ ∑ v ∈ cells s, |y v - x v| := by
  rw [sum_proj hd]
  apply Finset.sum_le_sum
  intro j hj
  rw [← hx j (mem_cells.mp hj)]
  unfold marginalSum
  rw [← Finset.sum_sub_distrib]
  exact Finset.abs_sum_le_sum_abs _ _

/-- one step: how far the table moves, and what is gained -/
theorem step_dev {q : List Nat × (List Int → ℝ)} (hd : ∀ d ∈ q.1, d < s.length) (hb : NonnegTable s b) (ht : NonnegTable s t)
    (hv : VanishesWith s t b) (hm : ∀ j, InRange (projSizes q.1 s) j → marginalSum s q.1 t j = q.2 j)
    (htot : total s b = total s t) :
    ∑ v ∈ cells s, |rscaled s q.1 q.2 b v - b v| = devSum s q b ∧
    devSum s q b ^ 2 ≤ 4 * total s t * (relEntropy s t b - relEntropy s t (rscaled s q.1 q.2 b)) ∧
    total s (rscaled s q.1 q.2 b) = total s t := by
  have h3 : ∀ j, InRange (projSizes q.1 s) j → marginalSum s q.1 (rscaled s q.1 q.2 b) j = q.2 j :=
    fun j hj => step_margin hd hb ht hv hm hj
  have h5 := step_moves hd hb ht hv hm
  have h6 := step_entropy hd hb ht hv hm
  have e : devSum s q b = ∑ j ∈ cells (projSizes q.1 s), |q.2 j - marginalSum s q.1 b j| :=
    Finset.sum_congr rfl (fun _ _ => abs_sub_comm _ _)
  refine ⟨h5.trans e.symm, ?_, total_eq hd (fun j hj => by rw [h3 j hj, hm j hj])⟩
  rw [e, show relEntropy s t b - relEntropy s t (rscaled s q.1 q.2 b) =
    ∑ j ∈ cells (projSizes q.1 s), q.2 j * log (q.2 j / marginalSum s q.1 b j) by linarith]
  apply sq_sum_abs_le
  · intro j hj; rw [← hm j (mem_cells.mp hj)]; exact margin_nonneg ht _
  · intro j hj; exact margin_nonneg hb _
  · intro j hj h0; rw [← hm j (mem_cells.mp hj)]; exact margin_zero hv hb h0
  · rw [← Finset.sum_congr rfl (fun j hj => hm j (mem_cells.mp hj)), ← sum_proj hd]; rfl
  · rw [← sum_proj hd]; exact htot

/-- one sweep over two marginals, from a table with the right total -/
theorem two_sweep {p q : List Nat × (List Int → ℝ)} (hd : DimsOK s [p, q]) (hb : NonnegTable s b) (ht : NonnegTable s t)
    (hv : VanishesWith s t b) (hm : Meets s [p, q] t) (htot : total s b = total s t) :
    (∀ j, InRange (projSizes q.1 s) j → marginalSum s q.1 (rsweep s [p, q] b) j = q.2 j) ∧
    devSum s p (rsweep s [p, q] b) ^ 2 ≤ 4 * total s t * (relEntropy s t (rscaled s p.1 p.2 b) - relEntropy s t (rsweep s [p, q] b)) ∧
    devSum s p b ^ 2 ≤ 4 * total s t * (relEntropy s t b - relEntropy s t (rscaled s p.1 p.2 b)) ∧
    ((∀ j, InRange (projSizes q.1 s) j → marginalSum s q.1 b j = q.2 j) → devSum s p (rsweep s [p, q] b) ≤ devSum s p b) := by
  have hdp := hd p (by simp)
  have hdq := hd q (by simp)
  have hmp := hm p (by simp)
  have hmq := hm q (by simp)
  have hX0 := step_nonneg hdp hb ht hmp
  have hXv := step_vanishes hdp hb ht hv hmp
  obtain ⟨a1, a2, a3⟩ := step_dev hdp hb ht hv hmp htot
  obtain ⟨b1, b2, b3⟩ := step_dev hdq hX0 ht hXv hmq a3
  have e : rsweep s [p, q] b = rscaled s q.1 q.2 (rscaled s p.1 p.2 b) := rfl
  have h1 : devSum s p (rsweep s [p, q] b) ≤ devSum s q (rscaled s p.1 p.2 b) := by
    rw [← b1]
    exact devSum_le hdp (fun j hj => step_margin hdp hb ht hv hmp hj)
  refine ⟨fun j hj => step_margin hdq hX0 ht hXv hmq hj, ?_, a2, ?_⟩
  · refine le_trans (pow_le_pow_left₀ (devSum_nonneg _ _ _) h1 2) ?_
    exact b2
  · intro hq
    refine h1.trans ?_
    rw [← a1]
    exact devSum_le hdq hq

/-- `N + 1` sweeps over two marginals -/
theorem two_rate {p q : List Nat × (List Int → ℝ)} (hd : DimsOK s [p, q]) (hb : NonnegTable s b) (ht : NonnegTable s t)
    (hv : VanishesWith s t b) (hm : Meets s [p, q] t) (htot : total s b = total s t) (hT : 0 < total s t) (N : Nat) :
    (2 * N + 1) * devSum s p ((rsweep s [p, q])^[N + 1] b) ^ 2 ≤
      4 * total s t * (relEntropy s t b - relEntropy s t ((rsweep s [p, q])^[N + 1] b)) := by
  have hne : ([p, q] : Prob ℝ) ≠ [] := by simp
  induction N with
  | zero =>
    obtain ⟨-, h1, h2, -⟩ := two_sweep hd hb ht hv hm htot
    have h3 : (0 : ℝ) ≤ devSum s p b ^ 2 := sq_nonneg _
    show (2 * ((0 : ℕ) : ℝ) + 1) * devSum s p (rsweep s [p, q] b) ^ 2 ≤ 4 * total s t * (relEntropy s t b - relEntropy s t (rsweep s [p, q] b))
    push_cast
    linarith
  | succ N ih =>
    obtain ⟨h1, h2⟩ := iterate_keeps hd hb ht hm hv (N + 1)
    have h3 := iterate_total hne hd hb ht hm hv (n := N + 1) (by omega)
    obtain ⟨-, h4, h5, h6⟩ := two_sweep hd h1 ht h2 hm h3
    have hmet : ∀ j, InRange (projSizes q.1 s) j → marginalSum s q.1 ((rsweep s [p, q])^[N + 1] b) j = q.2 j := by
      intro j hj
      rw [Function.iterate_succ_apply']
      obtain ⟨g1, g2⟩ := iterate_keeps hd hb ht hm hv N
      exact step_margin (hd q (by simp)) (step_nonneg (hd p (by simp)) g1 ht (hm p (by simp))) ht
        (step_vanishes (hd p (by simp)) g1 ht g2 (hm p (by simp))) (hm q (by simp)) hj
    have h7 := h6 hmet
    rw [← Function.iterate_succ_apply' (rsweep s [p, q])] at h4 h7
    have h8 := pow_le_pow_left₀ (devSum_nonneg s p _) h7 2
    have h9 : (0 : ℝ) ≤ 2 * N + 1 := by positivity
    have h10 := mul_le_mul_of_nonneg_left h8 h9
    push_cast
    have e : (2 * ((N : ℝ) + 1) + 1) * devSum s p ((rsweep s [p, q])^[N + 1 + 1] b) ^ 2 =
      (2 * N + 1) * devSum s p ((rsweep s [p, q])^[N + 1 + 1] b) ^ 2 + devSum s p ((rsweep s [p, q])^[N + 1 + 1] b) ^ 2 +
      devSum s p ((rsweep s [p, q])^[N + 1 + 1] b) ^ 2 := by ring
    rw [e]
    linarith

/-- further sweeps do not make the deviation larger -/
theorem two_antitone {p q : List Nat × (List Int → ℝ)} (hd : DimsOK s [p, q]) (hb : NonnegTable s b) (ht : NonnegTable s t)
    (hv : VanishesWith s t b) (hm : Meets s [p, q] t) {n m : Nat} (hn : 0 < n) (hnm : n ≤ m) :
    devSum s p ((rsweep s [p, q])^[m] b) ≤ devSum s p ((rsweep s [p, q])^[n] b) := by
  have hne : ([p, q] : Prob ℝ) ≠ [] := by simp
  induction m, hnm using Nat.le_induction with
  | base => exact le_rfl
  | succ m hmn ih =>
    refine le_trans ?_ ih
    obtain ⟨k, rfl⟩ : ∃ k, m = k + 1 := ⟨m - 1, by omega⟩
    obtain ⟨h1, h2⟩ := iterate_keeps hd hb ht hm hv (k + 1)
    have h3 := iterate_total hne hd hb ht hm hv (n := k + 1) (by omega)
    obtain ⟨-, -, -, h6⟩ := two_sweep hd h1 ht h2 hm h3
    have := h6 (by
      intro j hj
      rw [Function.iterate_succ_apply']
      obtain ⟨g1, g2⟩ := iterate_keeps hd hb ht hm hv k
      exact step_margin (hd q (by simp)) (step_nonneg (hd p (by simp)) g1 ht (hm p (by simp))) ht
        (step_vanishes (hd p (by simp)) g1 ht g2 (hm p (by simp))) (hm q (by simp)) hj)
    rwa [← Function.iterate_succ_apply' (rsweep s [p, q])] at this

end HL.Ent

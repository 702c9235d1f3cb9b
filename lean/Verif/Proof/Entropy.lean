import Verif.EntropySpec
import Verif.Proof.IPFAlgebra
import Mathlib.Analysis.SpecialFunctions.Log.Basic
import Mathlib.Analysis.SpecialFunctions.Sqrt
import Mathlib.Algebra.Order.BigOperators.Ring.Finset

/-
Relative entropy: inequalities and its behaviour under scaling to a marginal.
-/

namespace HL.Ent
open Real

/-! ### Inequalities on finite sums -/

theorem log_ge_sqrt {p r : ℝ} (hp : 0 ≤ p) (hr : 0 ≤ r) (h : r = 0 → p = 0) :
    (√p - √r) ^ 2 + p - r ≤ p * log (p / r) := by
  rcases hr.eq_or_lt with h0 | h0
  · rw [h h0.symm, ← h0]; simp
  · rcases hp.eq_or_lt with hp0 | hp0
    · rw [← hp0]; simp [Real.sq_sqrt hr]
    · have h1 : 0 < √(r / p) := Real.sqrt_pos.mpr (by positivity)
      have h2 := Real.log_le_sub_one_of_pos h1
      rw [Real.log_sqrt (by positivity), Real.sqrt_div hr] at h2
      have h3 : log (p / r) = -log (r / p) := by rw [← Real.log_inv, inv_div]
      have h4 : p * (√r / √p) = √p * √r := by
        have : p = √p * √p := (Real.mul_self_sqrt hp).symm
        have hs : √p ≠ 0 := (Real.sqrt_pos.mpr hp0).ne'
        field_simp
        rw [Real.sq_sqrt hp]
      have h5 : p * (log (r / p) / 2) ≤ p * (√r / √p - 1) := mul_le_mul_of_nonneg_left h2 hp
      rw [h3]
      have h6 := Real.sq_sqrt hp
      have h7 := Real.sq_sqrt hr
      nlinarith

variable {ι : Type}

theorem sum_log_ge (A : Finset ι) {p r : ι → ℝ} (hp : ∀ v ∈ A, 0 ≤ p v) (hr : ∀ v ∈ A, 0 ≤ r v)
    (h : ∀ v ∈ A, r v = 0 → p v = 0) :
    ∑ v ∈ A, (√(p v) - √(r v)) ^ 2 + ∑ v ∈ A, p v - ∑ v ∈ A, r v ≤ ∑ v ∈ A, p v * log (p v / r v) := by
  rw [← Finset.sum_add_distrib, ← Finset.sum_sub_distrib]
  exact Finset.sum_le_sum (fun v hv => log_ge_sqrt (hp v hv) (hr v hv) (h v hv))

/-- Gibbs' inequality -/
theorem sum_log_nonneg (A : Finset ι) {p r : ι → ℝ} (hp : ∀ v ∈ A, 0 ≤ p v) (hr : ∀ v ∈ A, 0 ≤ r v)
    (h : ∀ v ∈ A, r v = 0 → p v = 0) (hs : ∑ v ∈ A, p v = ∑ v ∈ A, r v) : 0 ≤ ∑ v ∈ A, p v * log (p v / r v) := by
  have h1 := sum_log_ge A hp hr h
  have h2 : 0 ≤ ∑ v ∈ A, (√(p v) - √(r v)) ^ 2 := Finset.sum_nonneg (fun v _ => sq_nonneg _)
  linarith

/-- a form of Pinsker's inequality -/
theorem sq_sum_abs_le (A : Finset ι) {p r : ι → ℝ} (hp : ∀ v ∈ A, 0 ≤ p v) (hr : ∀ v ∈ A, 0 ≤ r v)
    (h : ∀ v ∈ A, r v = 0 → p v = 0) {T : ℝ} (hp' : ∑ v ∈ A, p v = T) (hr' : ∑ v ∈ A, r v = T) :
    (∑ v ∈ A, |p v - r v|) ^ 2 ≤ 4 * T * ∑ v ∈ A, p v * log (p v / r v) := by
  have h1 := sum_log_ge A hp hr h
  have h2 : (∑ v ∈ A, |√(p v) - √(r v)| * (√(p v) + √(r v))) ^ 2 ≤
      (∑ v ∈ A, |√(p v) - √(r v)| ^ 2) * ∑ v ∈ A, (√(p v) + √(r v)) ^ 2 := Finset.sum_mul_sq_le_sq_mul_sq _ _ _
  have h3 : ∑ v ∈ A, |√(p v) - √(r v)| * (√(p v) + √(r v)) = ∑ v ∈ A, |p v - r v| := by
    apply Finset.sum_congr rfl
    intro v hv
    have e : p v - r v = (√(p v) - √(r v)) * (√(p v) + √(r v)) := by
      have h6 := Real.sq_sqrt (hp v hv)
      have h7 := Real.sq_sqrt (hr v hv)
      linear_combination h7 - h6
    rw [e, abs_mul, abs_of_nonneg (add_nonneg (Real.sqrt_nonneg (p v)) (Real.sqrt_nonneg (r v)))]
  have h4 : ∑ v ∈ A, (√(p v) + √(r v)) ^ 2 ≤ 4 * T := by
    calc ∑ v ∈ A, (√(p v) + √(r v)) ^ 2 ≤ ∑ v ∈ A, (2 * p v + 2 * r v) := by
          apply Finset.sum_le_sum
          intro v hv
          have h6 := Real.sq_sqrt (hp v hv)
          have h7 := Real.sq_sqrt (hr v hv)
          nlinarith [sq_nonneg (√(p v) - √(r v))]
      _ = 4 * T := by rw [Finset.sum_add_distrib, ← Finset.mul_sum, ← Finset.mul_sum, hp', hr']; ring
  have h5 : ∑ v ∈ A, |√(p v) - √(r v)| ^ 2 ≤ ∑ v ∈ A, p v * log (p v / r v) := by
    simp only [sq_abs]
    rw [hp', hr'] at h1
    linarith
  have h8 : 0 ≤ ∑ v ∈ A, |√(p v) - √(r v)| ^ 2 := Finset.sum_nonneg (fun v _ => sq_nonneg _)
  have h9 : 0 ≤ ∑ v ∈ A, (√(p v) + √(r v)) ^ 2 := Finset.sum_nonneg (fun v _ => sq_nonneg _)
  rw [h3] at h2
  calc _ ≤ _ := h2
    _ ≤ (∑ v ∈ A, p v * log (p v / r v)) * (4 * T) := mul_le_mul h5 h4 h9 (h8.trans h5)
    _ = _ := by ring

theorem eq_of_sum_log_zero (A : Finset ι) {p r : ι → ℝ} (hp : ∀ v ∈ A, 0 ≤ p v) (hr : ∀ v ∈ A, 0 ≤ r v)
    (h : ∀ v ∈ A, r v = 0 → p v = 0) (hs : ∑ v ∈ A, p v = ∑ v ∈ A, r v) (h0 : ∑ v ∈ A, p v * log (p v / r v) ≤ 0) :
    ∀ v ∈ A, p v = r v := by
  have h1 := sq_sum_abs_le A hp hr h hs rfl
  have hT : 0 ≤ ∑ v ∈ A, r v := Finset.sum_nonneg hr
  have h2 : (∑ v ∈ A, |p v - r v|) ^ 2 ≤ 0 := h1.trans (mul_nonpos_of_nonneg_of_nonpos (by positivity) h0)
  have h3 : ∑ v ∈ A, |p v - r v| = 0 := by
    have := sq_nonneg (∑ v ∈ A, |p v - r v|)
    exact pow_eq_zero_iff (two_ne_zero) |>.mp (le_antisymm h2 this)
  intro v hv
  have := (Finset.sum_eq_zero_iff_of_nonneg (fun v _ => abs_nonneg _)).mp h3 v hv
  exact sub_eq_zero.mp (abs_eq_zero.mp this)

/-! ### Tables -/

variable {s ds : List Nat} {t b c : List Int → ℝ}

theorem sum_proj (hd : ∀ d ∈ ds, d < s.length) (f : List Int → ℝ) :
    ∑ v ∈ cells s, f v = ∑ j ∈ cells (projSizes ds s), marginalSum s ds f j := by
  unfold marginalSum
  exact (Finset.sum_fiberwise_of_maps_to (fun v hv => mem_cells.mpr (inRange_proj hd (mem_cells.mp hv))) f).symm

theorem sum_mul_proj (hd : ∀ d ∈ ds, d < s.length) (f g : List Int → ℝ) :
    ∑ v ∈ cells s, f v * g (proj ds v) = ∑ j ∈ cells (projSizes ds s), marginalSum s ds f j * g j := by
  rw [sum_proj hd]
  apply Finset.sum_congr rfl
  intro j _
  unfold marginalSum
  rw [Finset.sum_mul]
  apply Finset.sum_congr rfl
  intro v hv
  show f v * g (proj ds v) = _
  rw [(Finset.mem_filter.mp hv).2]

theorem margin_nonneg (h : NonnegTable s t) (j : List Int) : 0 ≤ marginalSum s ds t j :=
  Finset.sum_nonneg (fun v hv => h v (mem_cells.mp (Finset.mem_filter.mp hv).1))

theorem le_margin (h : NonnegTable s t) {v : List Int} (hv : InRange s v) : t v ≤ marginalSum s ds t (proj ds v) :=
  Finset.single_le_sum (f := t) (fun w hw => h w (mem_cells.mp (Finset.mem_filter.mp hw).1))
    (Finset.mem_filter.mpr ⟨mem_cells.mpr hv, rfl⟩)

theorem zero_of_margin (h : NonnegTable s t) {v : List Int} (hv : InRange s v) (h0 : marginalSum s ds t (proj ds v) = 0) :
    t v = 0 := le_antisymm (h0 ▸ le_margin h hv) (h v hv)

theorem margin_zero (h : VanishesWith s t b) (hb : NonnegTable s b) {j : List Int} (h0 : marginalSum s ds b j = 0) :
    marginalSum s ds t j = 0 := by
  unfold marginalSum
  apply Finset.sum_eq_zero
  intro v hv
  obtain ⟨h1, h2⟩ := Finset.mem_filter.mp hv
  apply h v (mem_cells.mp h1)
  exact zero_of_margin (ds := ds) hb (mem_cells.mp h1) (by rw [h2]; exact h0)

/-- scaling to one marginal, in reals -/
noncomputable def rscaled (s ds : List Nat) (m : List Int → ℝ) (b : List Int → ℝ) (v : List Int) : ℝ :=
  if marginalSum s ds b (proj ds v) = 0 then 0
  else b v * (m (proj ds v) / marginalSum s ds b (proj ds v))

section step
variable {m : List Int → ℝ} (hd : ∀ d ∈ ds, d < s.length) (hb : NonnegTable s b) (ht : NonnegTable s t)
  (hv : VanishesWith s t b) (hm : ∀ j, InRange (projSizes ds s) j → marginalSum s ds t j = m j)
include hd hb ht hm

theorem step_nonneg : NonnegTable s (rscaled s ds m b) := by
  intro v h
  unfold rscaled
  split
  · exact le_rfl
  · have : 0 ≤ m (proj ds v) := by rw [← hm _ (inRange_proj hd h)]; exact margin_nonneg ht _
    exact mul_nonneg (hb v h) (div_nonneg this (margin_nonneg hb _))

include hv

theorem step_margin {j : List Int} (hj : InRange (projSizes ds s) j) : marginalSum s ds (rscaled s ds m b) j = m j := by
  have e : marginalSum s ds (rscaled s ds m b) j =
      ∑ v ∈ (cells s).filter (fun v => proj ds v = j),
        (if marginalSum s ds b j = 0 then 0 else b v * (m j / marginalSum s ds b j)) := by
    unfold marginalSum
    apply Finset.sum_congr rfl
    intro v h
    unfold rscaled
    rw [(Finset.mem_filter.mp h).2]
    rfl
  rw [e]
  by_cases h0 : marginalSum s ds b j = 0
  · simp only [h0, if_true, Finset.sum_const_zero]
    rw [← hm j hj, margin_zero hv hb h0]
  · simp only [h0, if_false]
    rw [← Finset.sum_mul]
    change marginalSum s ds b j * _ = _
    field_simp

theorem step_vanishes : VanishesWith s t (rscaled s ds m b) := by
  intro v h h0
  unfold rscaled at h0
  split at h0
  · rename_i h1
    exact hv v h (zero_of_margin hb h h1)
  · rename_i h1
    rcases mul_eq_zero.mp h0 with h2 | h2
    · exact hv v h h2
    · rcases div_eq_zero_iff.mp h2 with h2 | h2
      · exact zero_of_margin ht h (by rw [hm _ (inRange_proj hd h)]; exact h2)
      · exact absurd h2 h1

/-- how much closer scaling brings the table to `t` -/
theorem step_entropy : relEntropy s t b = relEntropy s t (rscaled s ds m b) +
    ∑ j ∈ cells (projSizes ds s), m j * log (m j / marginalSum s ds b j) := by
  have h1 : ∑ j ∈ cells (projSizes ds s), m j * log (m j / marginalSum s ds b j) =
      ∑ v ∈ cells s, t v * log (m (proj ds v) / marginalSum s ds b (proj ds v)) := by
    rw [sum_mul_proj hd t (fun j => log (m j / marginalSum s ds b j))]
    apply Finset.sum_congr rfl
    intro j hj
    rw [hm j (mem_cells.mp hj)]
  rw [h1]
  unfold relEntropy
  rw [← Finset.sum_add_distrib]
  apply Finset.sum_congr rfl
  intro v h
  rw [mem_cells] at h
  by_cases h0 : t v = 0
  · rw [h0]; ring
  · have hb0 : b v ≠ 0 := fun e => h0 (hv v h e)
    have hmb : marginalSum s ds b (proj ds v) ≠ 0 := fun e => hb0 (zero_of_margin hb h e)
    have hmt : m (proj ds v) ≠ 0 := by
      rw [← hm _ (inRange_proj hd h)]
      exact fun e => h0 (zero_of_margin ht h e)
    have e : rscaled s ds m b v = b v * (m (proj ds v) / marginalSum s ds b (proj ds v)) := by
      unfold rscaled; rw [if_neg hmb]
    rw [e, ← mul_add, ← Real.log_mul (div_ne_zero h0 (mul_ne_zero hb0 (div_ne_zero hmt hmb))) (div_ne_zero hmt hmb)]
    congr 2
    field_simp

/-- how far scaling moves the table -/
theorem step_moves : ∑ v ∈ cells s, |rscaled s ds m b v - b v| =
    ∑ j ∈ cells (projSizes ds s), |m j - marginalSum s ds b j| := by
  rw [sum_proj hd]
  apply Finset.sum_congr rfl
  intro j hj
  rw [mem_cells] at hj
  have e : marginalSum s ds (fun v => |rscaled s ds m b v - b v|) j =
      ∑ v ∈ (cells s).filter (fun v => proj ds v = j),
        (if marginalSum s ds b j = 0 then 0 else b v * (|m j - marginalSum s ds b j| / marginalSum s ds b j)) := by
    unfold marginalSum
    apply Finset.sum_congr rfl
    intro v h
    obtain ⟨h1, h2⟩ := Finset.mem_filter.mp h
    rw [mem_cells] at h1
    show |rscaled s ds m b v - b v| = _
    unfold rscaled
    rw [h2]
    change |(if marginalSum s ds b j = 0 then 0 else _) - b v| = if marginalSum s ds b j = 0 then 0 else _
    by_cases h0 : marginalSum s ds b j = 0
    · rw [if_pos h0, if_pos h0, zero_of_margin (ds := ds) hb h1 (by rw [h2]; exact h0)]; simp
    · rw [if_neg h0, if_neg h0]
      have hp : 0 < marginalSum s ds b j := lt_of_le_of_ne (margin_nonneg hb j) (Ne.symm h0)
      have : b v * (m j / marginalSum s ds b j) - b v = b v * ((m j - marginalSum s ds b j) / marginalSum s ds b j) := by
        field_simp
      rw [show (∑ v ∈ (cells s).filter (fun v => proj ds v = j), b v) = marginalSum s ds b j from rfl]
      rw [this, abs_mul, abs_div, abs_of_nonneg (hb v h1), abs_of_pos hp]
  rw [e]
  by_cases h0 : marginalSum s ds b j = 0
  · simp only [h0, if_true, Finset.sum_const_zero]
    rw [← hm j hj, margin_zero hv hb h0]
    simp
  · simp only [h0, if_false]
    rw [← Finset.sum_mul]
    change marginalSum s ds b j * _ = _
    field_simp

end step

end HL.Ent

import Mathlib.Analysis.SpecialFunctions.Log.Deriv
import Mathlib.Analysis.SpecialFunctions.ExpDeriv
import Mathlib.Analysis.Calculus.MeanValue
import Mathlib.Algebra.Order.BigOperators.Group.Finset
import Mathlib.Algebra.BigOperators.Field

/-
Weighted means under two weights with bounded cross-product ratios (for C134): how far the ratio of the means of a positive function
can be from one.
-/

namespace HL.Rate

/-- two shares with cross-product ratio at most `ρ²` -/
theorem share_diff {ρ a a' : ℝ} (hρ : 1 ≤ ρ) (ha1 : a ≤ 1) (h0 : 0 ≤ a)
    (h : a * (1 - a') ≤ ρ ^ 2 * (a' * (1 - a))) : a - a' ≤ (ρ - 1) / (ρ + 1) := by
  set D := ρ ^ 2 - (ρ ^ 2 - 1) * a with hD
  have hρ2 : 1 ≤ ρ ^ 2 := by nlinarith
  have hD1 : 1 ≤ D := by nlinarith [mul_le_mul_of_nonneg_left ha1 (sub_nonneg.mpr hρ2)]
  have h1 : a ≤ a' * D := by rw [hD]; nlinarith
  have h2 : a / D ≤ a' := by rw [div_le_iff₀ (by linarith)]; exact h1
  have h3 : a - a / D ≤ (ρ - 1) / (ρ + 1) := by
    rw [le_div_iff₀ (by linarith)]
    have e : (a - a / D) * (ρ + 1) = (a * (D - 1) * (ρ + 1)) / D := by field_simp
    rw [e, div_le_iff₀ (by linarith)]
    rcases eq_or_lt_of_le hρ with rfl | hρ'
    · have : D = 1 := by rw [hD]; ring
      rw [this]; norm_num
    · refine le_of_mul_le_mul_left ?_ (show 0 < ρ - 1 by linarith)
      have e2 : (ρ - 1) * (a * (D - 1) * (ρ + 1)) = (ρ ^ 2 - D) * (D - 1) := by rw [hD]; ring
      rw [e2]
      nlinarith [sq_nonneg (D - ρ)]
  linarith

variable {ι : Type*} {S : Finset ι} {μ ν g : ι → ℝ} {ρ L : ℝ}

/-- the difference of two means -/
theorem mean_diff (hρ : 1 ≤ ρ) (hμ : ∀ i ∈ S, 0 ≤ μ i) (hν : ∀ i ∈ S, 0 ≤ ν i) (hM : 0 < ∑ i ∈ S, μ i) (hN : 0 < ∑ i ∈ S, ν i)
    (hc : ∀ i ∈ S, ∀ j ∈ S, μ i * ν j ≤ ρ ^ 2 * (μ j * ν i)) (hg : ∀ i ∈ S, ∀ j ∈ S, g i ≤ L + g j) :
    (∑ i ∈ S, μ i * g i) / (∑ i ∈ S, μ i) - (∑ i ∈ S, ν i * g i) / (∑ i ∈ S, ν i) ≤ (ρ - 1) / (ρ + 1) * L := by
  classical
  set M := ∑ i ∈ S, μ i with hMdef
  set N := ∑ i ∈ S, ν i with hNdef
  have hne : S.Nonempty := by
    by_contra h
    rw [Finset.not_nonempty_iff_eq_empty] at h
    rw [hMdef, h] at hM
    simp at hM
  obtain ⟨i0, hi0, hmin⟩ := S.exists_min_image g hne
  set c := g i0
  have hL : 0 ≤ L := by have := hg i0 hi0 i0 hi0; linarith
  set d : ι → ℝ := fun i => μ i / M - ν i / N
  have hd0 : ∑ i ∈ S, d i = 0 := by
    simp only [d, Finset.sum_sub_distrib, ← Finset.sum_div]
    rw [← hMdef, ← hNdef, div_self hM.ne', div_self hN.ne', sub_self]
  set P := S.filter (fun i => 0 ≤ d i)
  set a := ∑ i ∈ P, μ i / M
  set a' := ∑ i ∈ P, ν i / N
  have e1 : (∑ i ∈ S, μ i * g i) / M - (∑ i ∈ S, ν i * g i) / N = ∑ i ∈ S, d i * (g i - c) := by
    have : ∑ i ∈ S, d i * (g i - c) = ∑ i ∈ S, d i * g i - (∑ i ∈ S, d i) * c := by
      rw [Finset.sum_mul, ← Finset.sum_sub_distrib]
      exact Finset.sum_congr rfl (fun i _ => by ring)
    rw [this, hd0, zero_mul, sub_zero, Finset.sum_div, Finset.sum_div, ← Finset.sum_sub_distrib]
    exact Finset.sum_congr rfl (fun i _ => by simp only [d]; ring)
  have e2 : ∑ i ∈ S, d i * (g i - c) ≤ ∑ i ∈ P, d i * L := by
    rw [← Finset.sum_filter_add_sum_filter_not S (fun i => 0 ≤ d i)]
    have h1 : ∑ i ∈ S.filter (fun i => ¬ 0 ≤ d i), d i * (g i - c) ≤ 0 := by
      refine Finset.sum_nonpos ?_
      intro i hi
      obtain ⟨hiS, hd⟩ := Finset.mem_filter.mp hi
      exact mul_nonpos_of_nonpos_of_nonneg (not_le.mp hd).le (by have := hmin i hiS; linarith)
    have h2 : ∑ i ∈ S.filter (fun i => 0 ≤ d i), d i * (g i - c) ≤ ∑ i ∈ P, d i * L := by
      refine Finset.sum_le_sum ?_
      intro i hi
      obtain ⟨hiS, hd⟩ := Finset.mem_filter.mp hi
      exact mul_le_mul_of_nonneg_left (by have := hg i hiS i0 hi0; linarith) hd
    linarith
  have e3 : ∑ i ∈ P, d i * L = (a - a') * L := by
    rw [← Finset.sum_mul, Finset.sum_sub_distrib]
  have hsplitμ : ∑ i ∈ S.filter (fun i => ¬ 0 ≤ d i), μ i / M = 1 - a := by
    have := Finset.sum_filter_add_sum_filter_not S (fun i => 0 ≤ d i) (fun i => μ i / M)
    rw [← Finset.sum_div S, ← hMdef, div_self hM.ne'] at this
    linarith
  have hsplitν : ∑ i ∈ S.filter (fun i => ¬ 0 ≤ d i), ν i / N = 1 - a' := by
    have := Finset.sum_filter_add_sum_filter_not S (fun i => 0 ≤ d i) (fun i => ν i / N)
    rw [← Finset.sum_div S, ← hNdef, div_self hN.ne'] at this
    linarith
  have ha0 : 0 ≤ a := Finset.sum_nonneg (fun i hi => div_nonneg (hμ i (Finset.mem_filter.mp hi).1) hM.le)
  have ha1 : a ≤ 1 := by
    have : 0 ≤ 1 - a := hsplitμ ▸ Finset.sum_nonneg (fun i hi => div_nonneg (hμ i (Finset.mem_filter.mp hi).1) hM.le)
    linarith
  have hcr : a * (1 - a') ≤ ρ ^ 2 * (a' * (1 - a)) := by
    rw [← hsplitν, ← hsplitμ, Finset.sum_mul_sum, Finset.sum_mul_sum, Finset.mul_sum]
    refine Finset.sum_le_sum (fun i hi => ?_)
    rw [Finset.mul_sum]
    refine Finset.sum_le_sum (fun j hj => ?_)
    have := hc i (Finset.mem_filter.mp hi).1 j (Finset.mem_filter.mp hj).1
    rw [div_mul_div_comm, div_mul_div_comm, mul_comm N M, ← mul_div_assoc]
    refine div_le_div_of_nonneg_right ?_ (mul_pos hM hN).le
    linarith [mul_comm (ν i) (μ j)]
  have := share_diff hρ ha1 ha0 hcr
  rw [e1]
  exact e2.trans (e3 ▸ mul_le_mul_of_nonneg_right this hL)

/-- the ratio of two means of a positive function -/
theorem mean_ratio (hρ : 1 ≤ ρ) (hμ : ∀ i ∈ S, 0 ≤ μ i) (hν : ∀ i ∈ S, 0 ≤ ν i) (hM : 0 < ∑ i ∈ S, μ i) (hN : 0 < ∑ i ∈ S, ν i)
    (hc : ∀ i ∈ S, ∀ j ∈ S, μ i * ν j ≤ ρ ^ 2 * (μ j * ν i)) {G : ι → ℝ} (hG0 : ∀ i ∈ S, 0 < G i)
    (hG : ∀ i ∈ S, ∀ j ∈ S, G i ≤ Real.exp L * G j) :
    (∑ i ∈ S, μ i * G i) * (∑ i ∈ S, ν i) ≤ Real.exp ((ρ - 1) / (ρ + 1) * L) * ((∑ i ∈ S, ν i * G i) * (∑ i ∈ S, μ i)) := by
  set g : ι → ℝ := fun i => Real.log (G i)
  have hg : ∀ i ∈ S, ∀ j ∈ S, g i ≤ L + g j := by
    intro i hi j hj
    have := Real.log_le_log (hG0 i hi) (hG i hi j hj)
    rwa [Real.log_mul (Real.exp_pos _).ne' (hG0 j hj).ne', Real.log_exp] at this
  have pos : ∀ {κ : ι → ℝ}, (∀ i ∈ S, 0 ≤ κ i) → 0 < ∑ i ∈ S, κ i → ∀ τ : ℝ, 0 < ∑ i ∈ S, κ i * Real.exp (τ * g i) := by
    intro κ h0 h1 τ
    obtain ⟨i, hi, hp⟩ := Finset.exists_lt_of_sum_lt (s := S) (f := fun _ => (0 : ℝ)) (g := κ) (by simpa using h1)
    exact Finset.sum_pos' (fun i hi => mul_nonneg (h0 i hi) (Real.exp_pos _).le) ⟨i, hi, mul_pos hp (Real.exp_pos _)⟩
  have der : ∀ (κ : ι → ℝ) (τ : ℝ), HasDerivAt (fun τ => ∑ i ∈ S, κ i * Real.exp (τ * g i))
      (∑ i ∈ S, κ i * Real.exp (τ * g i) * g i) τ := by
    intro κ τ
    refine HasDerivAt.fun_sum (fun i _ => ?_)
    have h1 : HasDerivAt (fun τ : ℝ => τ * g i) (g i) τ := by simpa using (hasDerivAt_id τ).mul_const (g i)
    have := (h1.exp).const_mul (κ i)
    simpa [mul_assoc] using this
  set Φ : ℝ → ℝ := fun τ => Real.log (∑ i ∈ S, μ i * Real.exp (τ * g i)) - Real.log (∑ i ∈ S, ν i * Real.exp (τ * g i)) with hΦ
  have hder : ∀ τ, HasDerivAt Φ ((∑ i ∈ S, μ i * Real.exp (τ * g i) * g i) / (∑ i ∈ S, μ i * Real.exp (τ * g i)) -
      (∑ i ∈ S, ν i * Real.exp (τ * g i) * g i) / (∑ i ∈ S, ν i * Real.exp (τ * g i))) τ := fun τ =>
    ((der μ τ).log (pos hμ hM τ).ne').sub ((der ν τ).log (pos hν hN τ).ne')
  obtain ⟨τ, -, hτ⟩ := exists_hasDerivAt_eq_slope Φ _ (show (0 : ℝ) < 1 by norm_num)
    (fun x _ => (hder x).continuousAt.continuousWithinAt) (fun x _ => hder x)
  have hle := mean_diff (μ := fun i => μ i * Real.exp (τ * g i)) (ν := fun i => ν i * Real.exp (τ * g i)) hρ
    (fun i hi => mul_nonneg (hμ i hi) (Real.exp_pos _).le) (fun i hi => mul_nonneg (hν i hi) (Real.exp_pos _).le)
    (pos hμ hM τ) (pos hν hN τ) (fun i hi j hj => by
      have := mul_le_mul_of_nonneg_right (hc i hi j hj) (mul_pos (Real.exp_pos (τ * g i)) (Real.exp_pos (τ * g j))).le
      calc _ = μ i * ν j * (Real.exp (τ * g i) * Real.exp (τ * g j)) := by ring
        _ ≤ _ := this
        _ = _ := by ring) hg
  rw [hτ] at hle
  have hexp : ∀ κ : ι → ℝ, ∑ i ∈ S, κ i * Real.exp (1 * g i) = ∑ i ∈ S, κ i * G i := fun κ =>
    Finset.sum_congr rfl (fun i hi => by rw [one_mul, Real.exp_log (hG0 i hi)])
  have hzero : ∀ κ : ι → ℝ, ∑ i ∈ S, κ i * Real.exp (0 * g i) = ∑ i ∈ S, κ i := fun κ =>
    Finset.sum_congr rfl (fun i _ => by rw [zero_mul, Real.exp_zero, mul_one])
  have p1 := hexp μ ▸ pos hμ hM 1
  have p2 := hexp ν ▸ pos hν hN 1
  simp only [hΦ, hexp, hzero, sub_zero, div_one] at hle
  rw [← Real.log_div p1.ne' p2.ne', ← Real.log_div hM.ne' hN.ne', ← Real.log_div (div_pos p1 p2).ne' (div_pos hM hN).ne'] at hle
  have h1 := (Real.log_le_iff_le_exp (div_pos (div_pos p1 p2) (div_pos hM hN))).mp hle
  rw [div_div_div_eq, div_le_iff₀ (mul_pos p2 hM)] at h1
  exact h1

/-- the same without the second condition on the function -/
theorem mean_ratio_le (hc : ∀ i ∈ S, ∀ j ∈ S, μ i * ν j ≤ ρ ^ 2 * (μ j * ν i)) {G : ι → ℝ} (hG0 : ∀ i ∈ S, 0 ≤ G i) :
    (∑ i ∈ S, μ i * G i) * (∑ i ∈ S, ν i) ≤ ρ ^ 2 * ((∑ i ∈ S, ν i * G i) * (∑ i ∈ S, μ i)) := by
  rw [Finset.sum_mul_sum, Finset.sum_mul_sum, Finset.mul_sum]
  refine Finset.sum_le_sum (fun i hi => ?_)
  rw [Finset.mul_sum]
  refine Finset.sum_le_sum (fun j hj => ?_)
  have := mul_le_mul_of_nonneg_right (hc i hi j hj) (hG0 i hi)
  calc _ = μ i * ν j * G i := by ring
    _ ≤ _ := this
    _ = _ := by ring

end HL.Rate

import Mathlib.MeasureTheory.Integral.ExpDecay
import Mathlib.Analysis.SpecialFunctions.Gamma.Basic
import Mathlib.Analysis.SpecialFunctions.Pow.Deriv
import Mathlib.Tactic.LinearCombination

/-
The incomplete gamma integrals: the power series with its remainder, and the continued fraction with its remainder.
-/

namespace HL.GammaR
open MeasureTheory Set Filter Topology Real

/-! ### moments of the upper tail -/

/-- `∫_x^∞ e^-t t^a (1 - x/t)^n dt` -/
noncomputable def mom (x a : ℝ) (n : ℕ) : ℝ := ∫ t in Ioi x, rexp (-t) * t ^ a * (1 - x / t) ^ n

theorem w_mem {x t : ℝ} (hx : 0 < x) (ht : x ≤ t) : 0 ≤ 1 - x / t ∧ 1 - x / t ≤ 1 := by
  have ht0 : 0 < t := lt_of_lt_of_le hx ht
  constructor
  · rw [sub_nonneg, div_le_one ht0]; exact ht
  · have : 0 ≤ x / t := by positivity
    linarith

theorem mom_bigO (x a : ℝ) (hx : 0 < x) (n : ℕ) :
    (fun t : ℝ => rexp (-t) * t ^ a * (1 - x / t) ^ n) =O[atTop] fun t => rexp (-(1 / 2) * t) := by
  have h1 : (fun t : ℝ => rexp (-t) * t ^ a * (1 - x / t) ^ n) =O[atTop] fun t => rexp (-t) * t ^ a := by
    refine Asymptotics.IsBigO.of_bound 1 ?_
    filter_upwards [eventually_ge_atTop x] with t ht
    obtain ⟨h0, h1⟩ := w_mem hx ht
    rw [norm_mul, one_mul]
    refine mul_le_of_le_one_right (norm_nonneg _) ?_
    rw [norm_pow, Real.norm_of_nonneg h0]
    exact pow_le_one₀ h0 h1
  refine h1.trans ?_
  have h2 : (fun t : ℝ => t ^ a) =O[atTop] fun t => rexp ((1 / 2) * t) := (isLittleO_rpow_exp_pos_mul_atTop a (by norm_num)).isBigO
  have h3 := (Asymptotics.isBigO_refl (fun t : ℝ => rexp (-t)) atTop).mul h2
  refine h3.congr_right fun t => ?_
  rw [← Real.exp_add]; congr 1; ring

theorem mom_cont (x a : ℝ) (hx : 0 < x) (n : ℕ) :
    ContinuousOn (fun t : ℝ => rexp (-t) * t ^ a * (1 - x / t) ^ n) (Ici x) := by
  have hne : ∀ t ∈ Ici x, t ≠ 0 := fun t ht => (lt_of_lt_of_le hx ht).ne'
  refine ((Continuous.continuousOn (by fun_prop)).mul (ContinuousOn.rpow_const continuousOn_id fun t ht => Or.inl (hne t ht))).mul ?_
  exact (continuousOn_const.sub (continuousOn_const.div continuousOn_id hne)).pow n

theorem mom_int (x a : ℝ) (hx : 0 < x) (n : ℕ) : IntegrableOn (fun t : ℝ => rexp (-t) * t ^ a * (1 - x / t) ^ n) (Ioi x) :=
  integrable_of_isBigO_exp_neg (by norm_num) (mom_cont x a hx n) (mom_bigO x a hx n)

theorem mom_tendsto (x a : ℝ) (hx : 0 < x) (n : ℕ) : Tendsto (fun t : ℝ => rexp (-t) * t ^ a * (1 - x / t) ^ n) atTop (𝓝 0) := by
  refine (mom_bigO x a hx n).trans_tendsto ?_
  have : Tendsto (fun t : ℝ => (1 / 2) * t) atTop atTop := tendsto_id.const_mul_atTop (by norm_num)
  refine (Real.tendsto_exp_neg_atTop_nhds_zero.comp this).congr fun t => ?_
  simp only [Function.comp]; congr 1; ring

theorem mom_pos (x a : ℝ) (hx : 0 < x) (n : ℕ) : 0 < mom x a n := by
  unfold mom
  rw [setIntegral_pos_iff_support_of_nonneg_ae]
  · refine lt_of_lt_of_le ?_ (measure_mono (?_ : Ioi x ⊆ _))
    · rw [Real.volume_Ioi]; exact ENNReal.zero_lt_top
    · intro t ht
      refine ⟨?_, ht⟩
      have ht0 : 0 < t := lt_trans hx ht
      have : 0 < 1 - x / t := by rw [sub_pos, div_lt_one ht0]; exact ht
      exact (mul_pos (mul_pos (Real.exp_pos _) (Real.rpow_pos_of_pos ht0 a)) (pow_pos this n)).ne'
  · refine (ae_restrict_iff' measurableSet_Ioi).mpr (ae_of_all _ fun t ht => ?_)
    have ht0 : 0 < t := lt_trans hx ht
    have := (w_mem hx (le_of_lt ht)).1
    show 0 ≤ _
    positivity
  · exact mom_int x a hx n

theorem mom_le (x a : ℝ) (hx : 0 < x) (n : ℕ) : mom x a (n + 1) ≤ mom x a n := by
  unfold mom
  refine setIntegral_mono_on (mom_int x a hx _) (mom_int x a hx _) measurableSet_Ioi fun t ht => ?_
  have ht0 : 0 < t := lt_trans hx ht
  obtain ⟨h0, h1⟩ := w_mem hx (le_of_lt ht)
  have : 0 ≤ rexp (-t) * t ^ a := by positivity
  exact mul_le_mul_of_nonneg_left (pow_le_pow_of_le_one h0 h1 (Nat.le_succ n)) this

/-- lowering the exponent -/
theorem mom_sub_one (x a : ℝ) (hx : 0 < x) (n : ℕ) : x * mom x (a - 1) n = mom x a n - mom x a (n + 1) := by
  unfold mom
  rw [← integral_const_mul, ← integral_sub (mom_int x a hx n) (mom_int x a hx (n + 1))]
  refine setIntegral_congr_fun measurableSet_Ioi fun t ht => ?_
  have ht0 : 0 < t := lt_trans hx ht
  show x * (rexp (-t) * t ^ (a - 1) * (1 - x / t) ^ n) = rexp (-t) * t ^ a * (1 - x / t) ^ n - rexp (-t) * t ^ a * (1 - x / t) ^ (n + 1)
  rw [Real.rpow_sub_one ht0.ne', pow_succ]
  generalize (1 - x / t) ^ n = w
  field_simp
  ring

theorem mom_parts (x a : ℝ) (hx : 0 < x) (n : ℕ) :
    -mom x a (n + 1) + a * mom x (a - 1) (n + 1) + (n + 1) * (x * mom x (a - 2) n) = 0 := by
  have hd : ∀ t ∈ Ioi x, HasDerivAt (fun t : ℝ => rexp (-t) * t ^ a * (1 - x / t) ^ (n + 1))
      (-(rexp (-t) * t ^ a * (1 - x / t) ^ (n + 1)) + a * (rexp (-t) * t ^ (a - 1) * (1 - x / t) ^ (n + 1)) +
        (n + 1) * (x * (rexp (-t) * t ^ (a - 2) * (1 - x / t) ^ n))) t := by
    intro t ht
    have ht0 : 0 < t := lt_trans hx ht
    have h1 : HasDerivAt (fun t : ℝ => rexp (-t)) (-rexp (-t)) t := by
      simpa using (hasDerivAt_neg t).exp
    have h2 : HasDerivAt (fun t : ℝ => t ^ a) (a * t ^ (a - 1)) t := Real.hasDerivAt_rpow_const (Or.inl ht0.ne')
    have h3 : HasDerivAt (fun t : ℝ => 1 - x / t) (x / t ^ 2) t := by
      have := ((hasDerivAt_inv ht0.ne').const_mul x).const_sub 1
      refine this.congr_deriv ?_
      field_simp
    refine ((h1.fun_mul h2).fun_mul (h3.fun_pow (n + 1))).congr_deriv ?_
    have e : t ^ (a - 2) = t ^ a / t ^ 2 := by
      rw [Real.rpow_sub ht0]; norm_num
    rw [e, Nat.add_sub_cancel]
    push_cast
    generalize 1 - x / t = w
    ring
  have hi1 := (mom_int x a hx (n + 1)).neg
  have hi2 := (mom_int x (a - 1) hx (n + 1)).const_mul a
  have hi3 := ((mom_int x (a - 2) hx n).const_mul x).const_mul ((n : ℝ) + 1)
  have h := integral_Ioi_of_hasDerivAt_of_tendsto ((mom_cont x a hx (n + 1)) x self_mem_Ici) hd ((hi1.add hi2).add hi3)
    (mom_tendsto x a hx (n + 1))
  have h4 := integral_add (hi1.add hi2) hi3
  have h5 := integral_add hi1 hi2
  simp only [Pi.add_apply, Pi.neg_apply] at h h4 h5
  rw [h4, h5, integral_neg, integral_const_mul, integral_const_mul, integral_const_mul] at h
  unfold mom
  rw [h]
  simp [div_self hx.ne']

theorem mom_parts_zero (x a : ℝ) (hx : 0 < x) : -mom x a 0 + a * mom x (a - 1) 0 = -(rexp (-x) * x ^ a) := by
  have hd : ∀ t ∈ Ioi x, HasDerivAt (fun t : ℝ => rexp (-t) * t ^ a * (1 - x / t) ^ 0)
      (-(rexp (-t) * t ^ a * (1 - x / t) ^ 0) + a * (rexp (-t) * t ^ (a - 1) * (1 - x / t) ^ 0)) t := by
    intro t ht
    have ht0 : 0 < t := lt_trans hx ht
    have h1 : HasDerivAt (fun t : ℝ => rexp (-t)) (-rexp (-t)) t := by
      simpa using (hasDerivAt_neg t).exp
    have h2 : HasDerivAt (fun t : ℝ => t ^ a) (a * t ^ (a - 1)) t := Real.hasDerivAt_rpow_const (Or.inl ht0.ne')
    simp only [pow_zero, mul_one]
    refine (h1.mul h2).congr_deriv ?_
    ring
  have hi1 := (mom_int x a hx 0).neg
  have hi2 := (mom_int x (a - 1) hx 0).const_mul a
  have h := integral_Ioi_of_hasDerivAt_of_tendsto ((mom_cont x a hx 0) x self_mem_Ici) hd (hi1.add hi2)
    (mom_tendsto x a hx 0)
  have h5 := integral_add hi1 hi2
  simp only [Pi.add_apply, Pi.neg_apply] at h h5
  rw [h5, integral_neg, integral_const_mul] at h
  unfold mom
  rw [h]
  simp

/-- the three term recurrence of the moments -/
theorem mom_rec (x s : ℝ) (hx : 0 < x) (n : ℕ) :
    (n + 3 - s) * mom x (s - 2) (n + 2) = (x + 2 * n + 4 - s) * mom x (s - 2) (n + 1) - (n + 1) * mom x (s - 2) n := by
  have h := mom_parts x (s - 2) hx n
  have h1 := mom_sub_one x (s - 2) hx (n + 1)
  have h2 := mom_sub_one x (s - 2) hx n
  have h3 := mom_sub_one x (s - 2 - 1) hx n
  rw [show s - 2 - 1 - 1 = s - 2 - 2 by ring] at h3
  have h4 : x * x * mom x (s - 2 - 2) n = mom x (s - 2) n - 2 * mom x (s - 2) (n + 1) + mom x (s - 2) (n + 2) := by
    have : x * (x * mom x (s - 2 - 2) n) = x * mom x (s - 2 - 1) n - x * mom x (s - 2 - 1) (n + 1) := by rw [h3]; ring
    rw [h1, h2] at this
    linarith
  linear_combination x * h - (s - 2) * h1 - ((n : ℝ) + 1) * h4

theorem mom_rec_zero (x s : ℝ) (hx : 0 < x) :
    (2 - s) * mom x (s - 2) 1 = (x + 2 - s) * mom x (s - 2) 0 - rexp (-x) * x ^ (s - 1) := by
  have h := mom_parts_zero x (s - 2) hx
  have h1 := mom_sub_one x (s - 2) hx 0
  have h2 : x * (rexp (-x) * x ^ (s - 2)) = rexp (-x) * x ^ (s - 1) := by
    have : x ^ (s - 1) = x ^ (s - 2) * x := by
      rw [← Real.rpow_add_one hx.ne']; congr 1; ring
    rw [this]; ring
  rw [← h2]
  linear_combination x * h - (s - 2) * h1

/-! ### the convergents -/

/-- numerators and denominators of the convergents -/
noncomputable def num (x s : ℝ) : ℕ → ℝ
  | 0 => 1
  | 1 => x + 1
  | n + 2 => (x + 2 * n + 4 - s) * num x s (n + 1) - (n + 1) * (n + 2 - s) * num x s n

noncomputable def den (x s : ℝ) : ℕ → ℝ
  | 0 => x
  | 1 => x * (x + 2 - s)
  | n + 2 => (x + 2 * n + 4 - s) * den x s (n + 1) - (n + 1) * (n + 2 - s) * den x s n

/-- the coefficient of the remainder -/
noncomputable def coef (s : ℝ) : ℕ → ℝ
  | 0 => s - 1
  | n + 1 => coef s n * (n + 2 - s)

theorem remainder (x s : ℝ) (hx : 0 < x) : ∀ n, mom x (s - 1) 0 * den x s n - rexp (-x) * x ^ s * num x s n = coef s n * x * mom x (s - 2) n ∧
    mom x (s - 1) 0 * den x s (n + 1) - rexp (-x) * x ^ s * num x s (n + 1) = coef s (n + 1) * x * mom x (s - 2) (n + 1)
  | 0 => by
    have h := mom_parts_zero x (s - 1) hx
    rw [show s - 1 - 1 = s - 2 by ring] at h
    have h1 := mom_rec_zero x s hx
    have e : rexp (-x) * x ^ s = x * (rexp (-x) * x ^ (s - 1)) := by
      have : x ^ s = x ^ (s - 1) * x := by
        rw [← Real.rpow_add_one hx.ne']; congr 1; ring
      rw [this]; ring
    have h0 : mom x (s - 1) 0 * den x s 0 - rexp (-x) * x ^ s * num x s 0 = coef s 0 * x * mom x (s - 2) 0 := by
      rw [e]; simp only [den, num, coef]
      linear_combination (-x) * h
    refine ⟨h0, ?_⟩
    rw [e] at h0 ⊢
    simp only [den, num, coef, zero_add, Nat.cast_zero] at h0 ⊢
    linear_combination (x + 2 - s) * h0 - (s - 1) * x * h1
  | n + 1 => by
    obtain ⟨ha, hb⟩ := remainder x s hx n
    refine ⟨hb, ?_⟩
    have h := mom_rec x s hx n
    simp only [den, num, coef] at ha hb ⊢
    push_cast at ha hb ⊢
    linear_combination (x + 2 * n + 4 - s) * hb - (n + 1) * (n + 2 - s) * ha - coef s n * (n + 2 - s) * x * h

end HL.GammaR

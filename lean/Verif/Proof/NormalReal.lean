import Verif.NormalSpec
import Mathlib.MeasureTheory.Integral.IntegralEqImproper
import Mathlib.Analysis.Calculus.MeanValue
import Mathlib.Analysis.SpecialFunctions.ExpDeriv

/-
Elementary facts about the normal distribution function: derivative, symmetry, the tail, the relation to the error function.
-/

namespace HL.Normal
open Real MeasureTheory Filter Topology

theorem s2pi_pos : 0 < √(2 * π) := by positivity

theorem density_pos (x : ℝ) : 0 < density x := by unfold density; positivity

theorem density_continuous : Continuous density := by unfold density; fun_prop

theorem density_integrable : Integrable density := by
  have h := (integrable_exp_neg_mul_sq (b := 1 / 2) (by norm_num)).div_const (√(2 * π))
  refine h.congr (Eventually.of_forall fun x => ?_)
  show _ = _ / _
  congr 2
  ring

theorem density_neg (x : ℝ) : density (-x) = density x := by unfold density; rw [neg_sq]

theorem cdf_hasDerivAt (x : ℝ) : HasDerivAt cdf (density x) x := by
  have hi : ∀ a, IntegrableOn density (Set.Iic a) := fun a => density_integrable.integrableOn
  have h1 : ∀ y, cdf y = (∫ t in (0 : ℝ)..y, density t) + cdf 0 := by
    intro y
    have := intervalIntegral.integral_Iic_sub_Iic (hi 0) (hi y)
    unfold cdf
    rw [← this]; ring
  have h2 : HasDerivAt (fun y => (∫ t in (0 : ℝ)..y, density t) + cdf 0) (density x) x :=
    (intervalIntegral.integral_hasDerivAt_right (density_continuous.intervalIntegrable _ _)
      (density_continuous.stronglyMeasurableAtFilter _ _) density_continuous.continuousAt).add_const _
  exact h2.congr_of_eventuallyEq (Eventually.of_forall h1)

theorem cdf_continuous : Continuous cdf := continuous_iff_continuousAt.mpr fun x => (cdf_hasDerivAt x).continuousAt

theorem cdf_zero : cdf 0 = 1 / 2 := by
  unfold cdf density
  rw [integral_div]
  have h1 : ∫ t in Set.Iic (0 : ℝ), exp (-(t ^ 2) / 2) = ∫ t in Set.Ioi (0 : ℝ), exp (-(1 / 2) * t ^ 2) := by
    rw [← neg_zero, ← integral_comp_neg_Iic]
    rw [neg_zero]
    refine setIntegral_congr_fun measurableSet_Iic fun t _ => ?_
    show exp _ = exp _
    congr 1; ring
  rw [h1, integral_gaussian_Ioi]
  have : √(π / (1 / 2)) = √(2 * π) := by congr 1; ring
  rw [this]
  have := s2pi_pos
  field_simp

theorem cdf_strictMono : StrictMono cdf :=
  strictMono_of_hasDerivAt_pos cdf_hasDerivAt density_pos

theorem cdf_add_neg (x : ℝ) : cdf x + cdf (-x) = 1 := by
  have h : ∀ x, HasDerivAt (fun x => cdf x + cdf (-x)) 0 x := by
    intro x
    have h1 := (cdf_hasDerivAt (-x)).comp x (hasDerivAt_neg x)
    have h2 := (cdf_hasDerivAt x).add h1
    rw [density_neg] at h2
    exact h2.congr_deriv (by ring)
  have := is_const_of_deriv_eq_zero (f := fun x => cdf x + cdf (-x)) (fun x => (h x).differentiableAt) (fun x => (h x).deriv) x 0
  simp only [neg_zero] at this
  rw [this, cdf_zero]; norm_num

theorem cdf_pos (x : ℝ) : 0 < cdf x := by
  have h : 0 ≤ cdf (x - 1) := by
    unfold cdf
    exact setIntegral_nonneg measurableSet_Iic fun t _ => (density_pos t).le
  exact lt_of_le_of_lt h (cdf_strictMono (by linarith))

theorem cdf_lt_one (x : ℝ) : cdf x < 1 := by
  have := cdf_add_neg x
  have := cdf_pos (-x)
  linarith

/-- the tail, up to `-1` -/
theorem cdf_tail {x : ℝ} (hx : x ≤ -1) : cdf x ≤ density x := by
  have hd : ∀ t : ℝ, HasDerivAt density (-t * density t) t := by
    intro t
    have h1 : HasDerivAt (fun t : ℝ => -(t ^ 2) / 2) (-t) t := by
      have := ((hasDerivAt_pow 2 t).neg).div_const 2
      exact this.congr_deriv (by norm_num; ring)
    have h2 := (h1.exp).div_const (√(2 * π))
    exact h2.congr_deriv (by unfold density; ring)
  have hlim : Tendsto density atBot (𝓝 0) := by
    have h1 : Tendsto (fun t : ℝ => -(t ^ 2) / 2) atBot atBot := by
      have : Tendsto (fun t : ℝ => t ^ 2) atBot atTop := by
        have := (tendsto_pow_atTop (α := ℝ) (n := 2) (by norm_num)).comp tendsto_neg_atBot_atTop
        refine this.congr fun t => ?_
        simp
      have h2 := (tendsto_neg_atTop_atBot.comp this).atBot_div_const (r := 2) (by norm_num)
      exact h2
    have h2 := (tendsto_exp_atBot.comp h1).div_const (√(2 * π))
    rw [zero_div] at h2
    exact h2
  have hint : IntegrableOn (fun t => -t * density t) (Set.Iic x) := by
    have h1 := (integrable_mul_exp_neg_mul_sq (b := 1 / 2) (by norm_num)).neg.div_const (√(2 * π))
    refine Integrable.integrableOn (h1.congr (Eventually.of_forall fun t => ?_))
    show -(t * exp _) / _ = _
    unfold density
    rw [show -(1 / 2 : ℝ) * t ^ 2 = -(t ^ 2) / 2 by ring]
    ring
  have heq := integral_Iic_of_hasDerivAt_of_tendsto' (a := x) (fun t _ => hd t) hint hlim
  rw [sub_zero] at heq
  rw [← heq]
  unfold cdf
  refine setIntegral_mono_on density_integrable.integrableOn hint measurableSet_Iic fun t ht => ?_
  have ht : t ≤ x := ht
  have := density_pos t
  nlinarith

/-- The distribution function and the error function. -/
theorem cdf_erf (x : ℝ) : cdf x = 1 / 2 * (erfR (x / √2) + 1) := by
  have h2 : (0 : ℝ) < √2 := by positivity
  have h : ∀ x, HasDerivAt (fun x => cdf x - 1 / 2 * (erfR (x / √2) + 1)) 0 x := by
    intro x
    have hc : Continuous fun t : ℝ => exp (-t ^ 2) := by fun_prop
    have h1 : HasDerivAt erfR (2 / √π * exp (-(x / √2) ^ 2)) (x / √2) :=
      (intervalIntegral.integral_hasDerivAt_right (hc.intervalIntegrable _ _) (hc.stronglyMeasurableAtFilter _ _) hc.continuousAt).const_mul _
    have h3 := ((h1.comp x ((hasDerivAt_id x).div_const (√2))).add_const 1).const_mul (1 / 2)
    have h4 := (cdf_hasDerivAt x).sub h3
    refine h4.congr_deriv ?_
    unfold density
    rw [div_pow, sq_sqrt (by norm_num), Real.sqrt_mul (by norm_num), show -(x ^ 2) / 2 = -(x ^ 2 / 2) by ring]
    have : (0 : ℝ) < √π := by positivity
    field_simp
    rw [sub_self, mul_zero, mul_zero]
  have := is_const_of_deriv_eq_zero (f := fun x => cdf x - 1 / 2 * (erfR (x / √2) + 1)) (fun x => (h x).differentiableAt)
    (fun x => (h x).deriv) x 0
  simp only [cdf_zero, zero_div] at this
  have e0 : erfR 0 = 0 := by simp [erfR]
  rw [e0] at this
  linarith

/-- The quadratic expansion of the distribution function about `z`, with the density as unit. -/
theorem cdf_step {z w : ℝ} (hw : |z * w| + w ^ 2 / 2 ≤ 1) :
    |cdf (z - w) - cdf z + density z * (w + z * w ^ 2 / 2)| ≤ density z * (((|z| + |w| / 2) ^ 2 + 1 / 2) * |w| ^ 3) := by
  set C := density z * (((|z| + |w| / 2) ^ 2 + 1 / 2) * |w| ^ 2) with hC
  have hd : ∀ s : ℝ, HasDerivAt (fun s => cdf (z - s) - cdf z + density z * (s + z * s ^ 2 / 2))
      (-density (z - s) + density z * (1 + z * s)) s := by
    intro s
    have h1 := (cdf_hasDerivAt (z - s)).comp s ((hasDerivAt_id s).const_sub z)
    have h2 : HasDerivAt (fun s : ℝ => s + z * s ^ 2 / 2) (1 + z * s) s := by
      have := (hasDerivAt_id s).add (((hasDerivAt_pow 2 s).const_mul z).div_const 2)
      exact this.congr_deriv (by norm_num; ring)
    exact ((h1.sub_const (cdf z)).add (h2.const_mul (density z))).congr_deriv (by ring)
  have hb : ∀ s ∈ Set.Icc (-|w|) |w|, ‖-density (z - s) + density z * (1 + z * s)‖ ≤ C := by
    intro s hs
    have hsw : |s| ≤ |w| := abs_le.mpr hs
    have e1 : density (z - s) = density z * exp (z * s - s ^ 2 / 2) := by
      unfold density
      rw [div_mul_eq_mul_div, ← exp_add]
      congr 2; ring
    have hss : s ^ 2 ≤ w ^ 2 := sq_le_sq.mpr hsw
    have hy : |z * s - s ^ 2 / 2| ≤ (|z| + |w| / 2) * |s| := by
      calc |z * s - s ^ 2 / 2| ≤ |z * s| + |s ^ 2 / 2| := abs_sub _ _
        _ = |z| * |s| + |s| * |s| / 2 := by rw [abs_mul, abs_div, abs_pow, abs_two]; ring
        _ ≤ _ := by nlinarith [abs_nonneg s]
    have hy1 : |z * s - s ^ 2 / 2| ≤ 1 := by
      refine (hy.trans ?_).trans hw
      rw [abs_mul, ← sq_abs w]
      nlinarith [abs_nonneg z, abs_nonneg w, abs_nonneg s, mul_nonneg (abs_nonneg z) (sub_nonneg.mpr hsw), mul_nonneg (abs_nonneg w) (sub_nonneg.mpr hsw)]
    have he := abs_exp_sub_one_sub_id_le hy1
    have hy2 : (z * s - s ^ 2 / 2) ^ 2 ≤ (|z| + |w| / 2) ^ 2 * w ^ 2 := by
      rw [← sq_abs (z * s - _), ← sq_abs w, ← mul_pow]
      refine pow_le_pow_left₀ (abs_nonneg _) (hy.trans ?_) 2
      exact mul_le_mul_of_nonneg_left hsw (by positivity)
    rw [e1, Real.norm_eq_abs, show -(density z * exp (z * s - s ^ 2 / 2)) + density z * (1 + z * s) =
      density z * (s ^ 2 / 2 - (exp (z * s - s ^ 2 / 2) - 1 - (z * s - s ^ 2 / 2))) by ring, abs_mul,
      abs_of_pos (density_pos z), hC, sq_abs]
    refine mul_le_mul_of_nonneg_left ?_ (density_pos z).le
    refine (abs_sub _ _).trans ?_
    rw [abs_of_nonneg (by positivity : (0 : ℝ) ≤ s ^ 2 / 2)]
    linarith
  have hm := (convex_Icc (-|w|) |w|).norm_image_sub_le_of_norm_hasDerivWithin_le (fun s _ => (hd s).hasDerivWithinAt) hb
    (x := 0) (y := w) ⟨by simp, by simp⟩ ⟨neg_abs_le w, le_abs_self w⟩
  simp only [sub_zero, Real.norm_eq_abs] at hm
  have e0 : cdf z - cdf z + density z * (0 + z * 0 ^ 2 / 2) = 0 := by ring
  rw [e0, sub_zero] at hm
  refine hm.trans (le_of_eq ?_)
  rw [hC]; ring

end HL.Normal

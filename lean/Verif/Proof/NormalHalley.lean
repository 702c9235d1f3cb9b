import Verif.Proof.NearCalc
import Verif.Proof.NormalReal
import Mathlib.Analysis.Real.Pi.Bounds
import Mathlib.Analysis.Complex.ExponentialBounds

/-
`cumNorm` and the step of Halley's method (StatFuncs.cpp:285-310) with rounding.
-/

namespace HL
namespace Normal
open Real

variable {fp : FP} {lm : Libm} {atan1 : Fl}

theorem s2pi_bounds : 25066 / 10000 ≤ √(2 * π) ∧ √(2 * π) ≤ 25067 / 10000 := by
  constructor
  · refine le_sqrt_of_sq_le ?_
    have := pi_gt_d6
    norm_num at this ⊢
    linarith
  · refine sqrt_le_iff.mpr ⟨by norm_num, ?_⟩
    have := pi_lt_d6
    norm_num at this ⊢
    linarith

theorem density_le (x : ℝ) : density x ≤ 4 / 10 := by
  unfold density
  rw [div_le_iff₀ s2pi_pos]
  have h1 : exp (-(x ^ 2) / 2) ≤ 1 := exp_le_one_iff.mpr (by nlinarith [sq_nonneg x])
  have := s2pi_bounds.1
  linarith

theorem cdf_lip (x y : ℝ) : |cdf x - cdf y| ≤ 4 / 10 * |x - y| := by
  have hm := (convex_univ (𝕜 := ℝ) (E := ℝ)).norm_image_sub_le_of_norm_hasDerivWithin_le (f := cdf) (C := 4 / 10)
    (fun s _ => (cdf_hasDerivAt s).hasDerivWithinAt)
    (fun s _ => by rw [norm_eq_abs, abs_of_pos (density_pos s)]; exact density_le s) (x := y) (y := x) trivial trivial
  exact hm

theorem erf_cdf (x : ℝ) : erfR x = 2 * cdf (x * √2) - 1 := by
  rw [cdf_erf, mul_div_assoc, div_self (by positivity), mul_one]; ring

theorem sqrt2_bounds : 1414 / 1000 ≤ √2 ∧ √2 ≤ 1415 / 1000 := by
  constructor
  · exact le_sqrt_of_sq_le (by norm_num)
  · exact sqrt_le_iff.mpr ⟨by norm_num, by norm_num⟩

theorem sqrt2_near (hl : Accurate fp lm atan1) : Near (sqrt2 fp) (√2) (15 / 10 ^ 15) := by
  obtain ⟨y, hy, he⟩ := hl.sqrt 2 (by norm_num) (by norm_num)
  refine ⟨y, hy, ?_⟩
  push_cast at he
  have := sqrt2_bounds
  refine he.trans ?_
  norm_num
  linarith

theorem rsqrt2_near (hfp : fp.Good) (hl : Accurate fp lm atan1) : Near (rsqrt2 fp) (1 / √2) (12 / 10 ^ 15) := by
  have h := sqrt2_near hl
  have hb := sqrt2_bounds
  have hs : 0 < √2 := by positivity
  have h1 := near_self 1
  rw [Rat.cast_one] at h1
  refine near_div hfp (Q := 708 / 1000) (b := 1413 / 1000) (g := 76 / 10 ^ 16) (M := 1) h1 h ?_ ?_ (by norm_num) (by norm_num) (by norm_num)
    (by norm_num) (by norm_num)
  · rw [abs_of_pos (by positivity), div_le_iff₀ hs]; nlinarith
  · rw [abs_of_pos hs]; norm_num; linarith

/-- `cumNorm` is the distribution function, up to `10^-13`. -/
theorem cumNorm_near (hfp : fp.Good) (hl : Accurate fp lm atan1) {z : ℚ} (hz : |z| ≤ 15) :
    Near (cumNorm fp lm (.fin z)) (cdf z) (13 / 10 ^ 14) := by
  have hz' : |(z : ℝ)| ≤ 15 := by exact_mod_cast hz
  have hb := sqrt2_bounds
  have hs : 0 < √2 := by positivity
  obtain ⟨y, hy, hye⟩ := near_mul hfp (near_self z) (rsqrt2_near hfp hl) hz' (B := 1) (M := 16) (f := 2 / 10 ^ 13)
    (by rw [abs_of_pos (by positivity), div_le_iff₀ hs]; linarith) (by norm_num) (by norm_num) (by norm_num)
  have ey : (z : ℝ) * (1 / √2) * √2 = z := by field_simp
  generalize (z : ℝ) * (1 / √2) = y0 at hye ey
  obtain ⟨w, hw, hwe⟩ := hl.erf y
  have he : |erfR y - erfR y0| ≤ 24 / 10 ^ 14 := by
    rw [erf_cdf, erf_cdf, show (2 * cdf ((y : ℝ) * √2) - 1) - (2 * cdf (y0 * √2) - 1) = 2 * (cdf ((y : ℝ) * √2) - cdf (y0 * √2)) by ring,
      abs_mul, abs_two]
    have := cdf_lip ((y : ℝ) * √2) (y0 * √2)
    rw [← sub_mul, abs_mul, abs_of_pos hs] at this
    have h2 : |(y : ℝ) - y0| * √2 ≤ 2 / 10 ^ 13 * (1415 / 1000) := mul_le_mul hye hb.2 hs.le (by norm_num)
    linarith
  have hE : |erfR y0| ≤ 1 := by
    rw [erf_cdf, abs_le]
    have h1 := cdf_pos (y0 * √2)
    have h2 := cdf_lt_one (y0 * √2)
    constructor <;> linarith
  have hw' : Near (lm.erf (.fin y)) (erfR y0) (25 / 10 ^ 14) :=
    Near.to ⟨w, hw, hwe⟩ (by linarith)
  have h1 := near_self 1
  rw [Rat.cast_one] at h1
  have hE1 : |erfR y0 + 1| ≤ 2 := by
    have := abs_add_le (erfR y0) 1; rw [abs_one] at this; linarith
  have ha := near_add hfp hw' h1 (M := 3) (f := 254 / 10 ^ 15) (by linarith) (by norm_num) (by norm_num)
  have hh := near_self (1 / 2)
  have hm := near_mul hfp hh ha (A := 1 / 2) (B := 2) (M := 2) (f := 13 / 10 ^ 14) (by push_cast; norm_num)
    hE1 (by norm_num) (by norm_num) (by norm_num)
  unfold cumNorm
  rw [hy]
  have e1 : ((1 / 2 : ℚ) : ℝ) * (erfR y0 + 1) = cdf z := by
    rw [← ey, erf_cdf]; push_cast; ring
  rw [e1] at hm
  exact hm

theorem sqrtPi_near (hfp : fp.Good) (hl : Accurate fp lm atan1) : Near (sqrtPi fp atan1) (√π) (6 / 10 ^ 14) := by
  obtain ⟨a, ha, hae⟩ := hl.atan
  have hpi := pi_gt_three
  have hpi' := pi_lt_four
  have h4 := near_self 4
  obtain ⟨b, hb, hbe⟩ := near_mul hfp (⟨a, ha, hae⟩ : Near atan1 (π / 4) (1 / 10 ^ 14)) h4 (A := 1) (B := 4) (M := 5) (f := 46 / 10 ^ 15)
    (by rw [abs_of_pos (by positivity)]; linarith) (by push_cast; norm_num) (by norm_num) (by norm_num) (by norm_num)
  rw [show π / 4 * ((4 : ℚ) : ℝ) = π by push_cast; ring] at hbe
  have hb' := abs_le.mp hbe
  have hb0 : (2 : ℝ) ≤ b := by linarith
  have hb1 : (b : ℝ) ≤ 5 := by linarith
  obtain ⟨c, hc, hce⟩ := hl.sqrt b (by have : (0 : ℝ) ≤ b := by linarith
                                       exact_mod_cast this) (by have : (b : ℝ) ≤ 100 := by linarith
                                                                exact_mod_cast this)
  refine Near.to (y := √(b : ℝ)) (e := 3 / 10 ^ 14) ⟨c, by unfold sqrtPi; rw [hb, hc], hce.trans ?_⟩ ?_
  · have : √(b : ℝ) ≤ 3 := sqrt_le_iff.mpr ⟨by norm_num, by linarith⟩
    linarith
  · have h1 : 1 ≤ √(b : ℝ) := le_sqrt_of_sq_le (by linarith)
    have h2 : 1 ≤ √π := le_sqrt_of_sq_le (by linarith)
    have h3 : |√(b : ℝ) - √π| * (√(b : ℝ) + √π) = |(b : ℝ) - π| := by
      rw [← abs_of_pos (by linarith : 0 < √(b : ℝ) + √π), ← abs_mul]
      congr 1
      have e1 := mul_self_sqrt (by linarith : (0 : ℝ) ≤ b)
      have e2 := mul_self_sqrt pi_pos.le
      linear_combination e1 - e2
    have h4 := abs_nonneg (√(b : ℝ) - √π)
    nlinarith

/-- `exp(0.5 * z * z)` -/
theorem expHalf_near (hfp : fp.Good) (hl : Accurate fp lm atan1) {z : ℚ} (hz : |z| ≤ 7) :
    Near (lm.exp (fp.mul (fp.mul (.fin (1 / 2)) (.fin z)) (.fin z))) (exp ((z : ℝ) ^ 2 / 2)) (3 / 10 ^ 13 * exp ((z : ℝ) ^ 2 / 2)) := by
  have hz' : |(z : ℝ)| ≤ 7 := by exact_mod_cast hz
  have h1 := near_mul hfp (near_self (1 / 2)) (near_self z) (A := 1 / 2) (B := 7) (M := 4) (f := 5 / 10 ^ 15) (by push_cast; norm_num)
    hz' (by norm_num) (by norm_num) (by norm_num)
  obtain ⟨q, hq, hqe⟩ := near_mul hfp h1 (near_self z) (A := 4) (B := 7) (M := 30) (f := 1 / 10 ^ 13)
    (by push_cast; rw [abs_mul]; norm_num; linarith) hz' (by norm_num) (by norm_num) (by norm_num)
  rw [show ((1 / 2 : ℚ) : ℝ) * z * z = (z : ℝ) ^ 2 / 2 by push_cast; ring] at hqe
  have hsq : (z : ℝ) ^ 2 ≤ 49 := by
    rw [← sq_abs]; nlinarith [abs_nonneg (z : ℝ)]
  have hq' := abs_le.mp hqe
  have hqa : |(q : ℝ)| ≤ 100 := by
    rw [abs_le]; constructor <;> nlinarith [sq_nonneg (z : ℝ)]
  obtain ⟨y, hy, hye⟩ := hl.exp q (by exact_mod_cast hqa)
  have hE := exp_pos ((z : ℝ) ^ 2 / 2)
  have hd := abs_exp_sub_one_le (x := (q : ℝ) - z ^ 2 / 2) (hqe.trans (by norm_num))
  have hx : |exp (q : ℝ) - exp ((z : ℝ) ^ 2 / 2)| ≤ 2 / 10 ^ 13 * exp ((z : ℝ) ^ 2 / 2) := by
    have : exp (q : ℝ) - exp ((z : ℝ) ^ 2 / 2) = (exp ((q : ℝ) - z ^ 2 / 2) - 1) * exp ((z : ℝ) ^ 2 / 2) := by
      rw [sub_mul, one_mul, ← exp_add]; congr 2; ring
    rw [this, abs_mul, abs_of_pos hE]
    gcongr
    linarith
  rw [hq]
  refine Near.to ⟨y, hy, hye⟩ ?_
  have h5 := abs_le.mp hx
  have : exp (q : ℝ) ≤ 2 * exp ((z : ℝ) ^ 2 / 2) := by linarith
  linarith

/-- The variable `r` of the refinement step: the error at the start over the density. -/
theorem ratio_near (hfp : fp.Good) (hl : Accurate fp lm atan1) {z p : ℚ} (hz : |z| ≤ 7) {d : ℝ} (hd0 : 0 ≤ d) (hd : d ≤ 1 / 1000)
    (h : |cdf z - p| ≤ d) :
    ∃ u : ℚ, fp.mul (fp.mul (fp.mul (fp.sub (cumNorm fp lm (.fin z)) (.fin p)) (sqrt2 fp)) (sqrtPi fp atan1))
      (lm.exp (fp.mul (fp.mul (.fin (1 / 2)) (.fin z)) (.fin z))) = .fin u ∧
      |density z * u - (cdf z - p)| ≤ 2 / 10 ^ 13 + d / 10 ^ 11 := by
  have hz' : |(z : ℝ)| ≤ 7 := by exact_mod_cast hz
  have h2 := sqrt2_bounds
  have hsq : (z : ℝ) ^ 2 ≤ 49 := by
    rw [← sq_abs]; nlinarith [abs_nonneg (z : ℝ)]
  have s1 := near_sub hfp (cumNorm_near hfp hl (by linarith : |z| ≤ 15)) (near_self p) (M := 1) (f := 14 / 10 ^ 14) (by linarith)
    (by norm_num) (by norm_num)
  have s2 := near_mul hfp s1 (sqrt2_near hl) (A := d) (B := 1415 / 1000) (M := 1) (f := 20 / 10 ^ 14 + d / 10 ^ 12) h
    (by rw [abs_of_pos (by positivity)]; exact h2.2) (by linarith) (by norm_num) (by linarith)
  have hpi : √π ≤ 1773 / 1000 := by
    refine sqrt_le_iff.mpr ⟨by norm_num, ?_⟩
    have := pi_lt_d4
    norm_num at this ⊢
    linarith
  have hpi0 : 0 < √π := by positivity
  have h2p : 0 < √2 := by positivity
  have a2 : |(cdf z - p) * √2| ≤ d * (1415 / 1000) := by
    rw [abs_mul, abs_of_pos h2p]; exact mul_le_mul h h2.2 h2p.le hd0
  have s3 := near_mul hfp s2 (sqrtPi_near hfp hl) (A := d * (1415 / 1000)) (B := 1773 / 1000) (M := 1) (f := 36 / 10 ^ 14 + 2 * d / 10 ^ 12)
    a2 (by rw [abs_of_pos hpi0]; exact hpi) (by linarith) (by norm_num) (by linarith)
  have a3 : |(cdf z - p) * √2 * √π| ≤ d * (251 / 100) := by
    rw [abs_mul, abs_of_pos hpi0]
    calc _ ≤ d * (1415 / 1000) * (1773 / 1000) := mul_le_mul a2 hpi hpi0.le (by positivity)
      _ ≤ _ := by linarith
  have hE0 : 1 ≤ exp ((z : ℝ) ^ 2 / 2) := one_le_exp (by positivity)
  have hE1 : exp ((z : ℝ) ^ 2 / 2) ≤ 10 ^ 13 := by
    have h3 : exp 1 ≤ 3 := by have := exp_one_lt_d9; linarith
    calc exp ((z : ℝ) ^ 2 / 2) ≤ exp 25 := exp_le_exp.mpr (by linarith)
      _ = exp 1 ^ 25 := by rw [← exp_nat_mul]; norm_num
      _ ≤ 3 ^ 25 := pow_le_pow_left₀ (exp_pos 1).le h3 25
      _ ≤ _ := by norm_num
  have hden : density z * exp ((z : ℝ) ^ 2 / 2) = 1 / √(2 * π) := by
    unfold density
    rw [div_mul_eq_mul_div, ← exp_add]
    congr 1
    rw [exp_eq_one_iff]; ring
  have hsx := expHalf_near hfp hl hz
  set E := exp ((z : ℝ) ^ 2 / 2) with hE
  have hdE : 0 ≤ d * E := by positivity
  have hdE1 : d * E ≤ 1 / 1000 * E := by gcongr
  obtain ⟨u, hu, hue⟩ := near_mul hfp s3 hsx (A := d * (251 / 100)) (B := E) (M := E) (f := (38 / 10 ^ 14 + 3 * d / 10 ^ 12) * E) a3
    (by rw [abs_of_pos (by linarith)]) (by linarith) (by linarith) (by linarith)
  refine ⟨u, hu, ?_⟩
  have hs := s2pi_pos
  have hse : √2 * √π = √(2 * π) := (sqrt_mul (by norm_num) _).symm
  have e1 : density z * u - (cdf z - p) = density z * (u - (cdf z - p) * √2 * √π * E) := by
    rw [mul_sub, show density z * ((cdf z - p) * √2 * √π * E) = (cdf z - p) * (√2 * √π) * (density z * E) by ring, hden, hse]
    field_simp
  rw [e1, abs_mul, abs_of_pos (density_pos _)]
  calc density z * |(u : ℝ) - (cdf z - p) * √2 * √π * E| ≤ density z * ((38 / 10 ^ 14 + 3 * d / 10 ^ 12) * E) :=
        mul_le_mul_of_nonneg_left hue (density_pos _).le
    _ = (38 / 10 ^ 14 + 3 * d / 10 ^ 12) / √(2 * π) := by rw [mul_left_comm, hden]; ring
    _ ≤ (38 / 10 ^ 14 + 3 * d / 10 ^ 12) / 2 := by
        have := s2pi_bounds.1
        exact div_le_div_of_nonneg_left (by positivity) (by norm_num) (by linarith)
    _ ≤ _ := by linarith

/-- One step of Halley's method: cubic convergence. -/
theorem halley_step {z u v : ℝ} (hz : |z| ≤ 7) (hu : |u| ≤ 1 / 1000) :
    |cdf (z - u / (1 + z * u / 2)) - (cdf z - v)| ≤ |density z * u - v| + density z * |u| ^ 3 * (2 * z ^ 2 + 1) := by
  have hzu : |z * u / 2| ≤ 7 / 2000 := by
    rw [abs_div, abs_mul, abs_two]
    nlinarith [abs_nonneg z, abs_nonneg u]
  have hzu' := abs_le.mp hzu
  have hpos : 0 < 1 + z * u / 2 := by linarith
  set w := u / (1 + z * u / 2) with hw
  have hwu : |w| ≤ 1004 / 1000 * |u| := by
    rw [hw, abs_div, abs_of_pos hpos, div_le_iff₀ hpos]
    nlinarith [abs_nonneg u]
  have hw1 : |w| ≤ 11 / 10000 := by linarith
  have hcond : |z * w| + w ^ 2 / 2 ≤ 1 := by
    rw [abs_mul, ← sq_abs w]
    nlinarith [abs_nonneg z, abs_nonneg w]
  have hs := cdf_step (z := z) hcond
  have hφ := density_pos z
  have e1 : w + z * w ^ 2 / 2 - u = -(u * (z * u / 2) ^ 2 / (1 + z * u / 2) ^ 2) := by
    have hne := hpos.ne'
    have e2 : w * (1 + z * u / 2) = u := div_mul_cancel₀ u hne
    rw [eq_neg_iff_add_eq_zero, ← eq_neg_iff_add_eq_zero, ← neg_div, eq_div_iff (pow_ne_zero 2 hne)]
    linear_combination (1 + z * u / 2 + z / 2 * (w * (1 + z * u / 2) + u)) * e2
  have b1 : |w + z * w ^ 2 / 2 - u| ≤ |u| ^ 3 * (z ^ 2 * (26 / 100)) := by
    rw [e1, abs_neg, abs_div, abs_mul, abs_of_nonneg (sq_nonneg (z * u / 2)), abs_of_pos (pow_pos hpos 2), div_le_iff₀ (pow_pos hpos 2)]
    have e2 : |u| * (z * u / 2) ^ 2 = |u| ^ 3 * (z ^ 2 / 4) := by
      rw [pow_succ |u| 2, sq_abs]; ring
    rw [e2]
    have h3 : (99 / 100 : ℝ) ≤ (1 + z * u / 2) ^ 2 := by nlinarith
    have h4 : 0 ≤ |u| ^ 3 * z ^ 2 := by positivity
    nlinarith
  have b2 : ((|z| + |w| / 2) ^ 2 + 1 / 2) * |w| ^ 3 ≤ |u| ^ 3 * (z ^ 2 * (104 / 100) + 6 / 10) := by
    have h3 : |w| ^ 3 ≤ (1004 / 1000 * |u|) ^ 3 := pow_le_pow_left₀ (abs_nonneg w) hwu 3
    have h4 : (|z| + |w| / 2) ^ 2 ≤ z ^ 2 * (101 / 100) + 1 / 100 := by
      rw [← sq_abs z]
      nlinarith [abs_nonneg z, abs_nonneg w, sq_nonneg (|z| / 10 - 1)]
    calc ((|z| + |w| / 2) ^ 2 + 1 / 2) * |w| ^ 3 ≤ (z ^ 2 * (101 / 100) + 1 / 100 + 1 / 2) * (1004 / 1000 * |u|) ^ 3 :=
          mul_le_mul (by linarith) h3 (by positivity) (by positivity)
      _ = |u| ^ 3 * ((z ^ 2 * (101 / 100) + 51 / 100) * (1004 / 1000) ^ 3) := by ring
      _ ≤ _ := by
        refine mul_le_mul_of_nonneg_left ?_ (by positivity)
        nlinarith [sq_nonneg z]
  have key : cdf (z - w) - (cdf z - v) = (cdf (z - w) - cdf z + density z * (w + z * w ^ 2 / 2)) - (density z * u - v)
      - density z * (w + z * w ^ 2 / 2 - u) := by ring
  rw [key]
  have t1 := abs_sub ((cdf (z - w) - cdf z + density z * (w + z * w ^ 2 / 2)) - (density z * u - v)) (density z * (w + z * w ^ 2 / 2 - u))
  have t2 := abs_sub (cdf (z - w) - cdf z + density z * (w + z * w ^ 2 / 2)) (density z * u - v)
  rw [abs_mul (density z), abs_of_pos hφ] at t1
  have c1 := mul_le_mul_of_nonneg_left b1 hφ.le
  have c2 := mul_le_mul_of_nonneg_left b2 hφ.le
  have c3 : 0 ≤ density z * |u| ^ 3 * z ^ 2 := by positivity
  have c4 : 0 ≤ density z * |u| ^ 3 := by positivity
  nlinarith

/-- The refinement step with rounding. -/
theorem refine_near (hfp : fp.Good) (hl : Accurate fp lm atan1) {z p : ℚ} (hz : |z| ≤ 7) {d : ℝ} (hd0 : 0 ≤ d) (hd : d ≤ 1 / 1000)
    (h : |cdf z - p| ≤ d) (hφ : 2 / 10 ^ 13 + d * (1 + 1 / 10 ^ 11) ≤ density z / 1000) :
    ∃ n : ℚ, refine fp lm atan1 (.fin p) (.fin z) = .fin n ∧ |(n : ℝ) - z| ≤ 2 / 1000 ∧
      |cdf n - p| ≤ 21 / 10 ^ 14 + d / 10 ^ 11 + (2 / 10 ^ 13 + d * (1 + 1 / 10 ^ 11)) ^ 3 / density z ^ 2 * (2 * (z : ℝ) ^ 2 + 1) := by
  have hz' : |(z : ℝ)| ≤ 7 := by exact_mod_cast hz
  obtain ⟨u, hu, hue⟩ := ratio_near hfp hl hz hd0 hd h
  have hφ0 := density_pos z
  have hφu : density z * |(u : ℝ)| ≤ 2 / 10 ^ 13 + d * (1 + 1 / 10 ^ 11) := by
    rw [← abs_of_pos hφ0, ← abs_mul]
    calc |density z * (u : ℝ)| = |(density z * u - (cdf z - p)) + (cdf z - p)| := by ring_nf
      _ ≤ _ := (abs_add_le _ _).trans (by linarith)
  have hu1 : |(u : ℝ)| ≤ 1 / 1000 := by
    by_contra hc
    push Not at hc
    have := mul_lt_mul_of_pos_left hc hφ0
    linarith
  have hzu : |(z : ℝ) * u / 2| ≤ 7 / 2000 := by
    rw [abs_div, abs_mul, abs_two]
    nlinarith [abs_nonneg (z : ℝ), abs_nonneg (u : ℝ)]
  have hzu' := abs_le.mp hzu
  have hpos : 0 < 1 + (z : ℝ) * u / 2 := by linarith
  have h1 := near_mul hfp (near_self (1 / 2)) (near_self z) (A := 1 / 2) (B := 7) (M := 4) (f := 5 / 10 ^ 15) (by push_cast; norm_num)
    hz' (by norm_num) (by norm_num) (by norm_num)
  have h2 := near_mul hfp h1 (near_self u) (A := 4) (B := 1 / 1000) (M := 1 / 10) (f := 1 / 10 ^ 15)
    (by push_cast; rw [abs_mul]; norm_num; linarith) hu1 (by norm_num) (by norm_num) (by norm_num)
  rw [show ((1 / 2 : ℚ) : ℝ) * z * u = (z : ℝ) * u / 2 by push_cast; ring] at h2
  have h3 := near_self 1
  rw [Rat.cast_one] at h3
  have h4 := near_add hfp h3 h2 (M := 2) (f := 4 / 10 ^ 15) (by
    have := abs_add_le 1 ((z : ℝ) * u / 2)
    rw [abs_one] at this; linarith) (by norm_num) (by norm_num)
  have hQ : |(u : ℝ) / (1 + z * u / 2)| ≤ 11 / 10000 := by
    rw [abs_div, abs_of_pos hpos, div_le_iff₀ hpos]; linarith
  have h5 := near_div hfp (near_self u) h4 (Q := 11 / 10000) (b := 1 / 2) (g := 1 / 10 ^ 16) (M := 1) (f := 2 / 10 ^ 15) hQ
    (by rw [abs_of_pos hpos]; linarith) (by norm_num) (by norm_num) (by norm_num) (by norm_num) (by norm_num)
  have h6 := near_sub hfp (near_self z) h5 (M := 8) (f := 11 / 10 ^ 15) (by
    have := abs_sub (z : ℝ) ((u : ℝ) / (1 + z * u / 2))
    linarith) (by norm_num) (by norm_num)
  obtain ⟨n, hn, hne⟩ := h6
  refine ⟨n, ?_, ?_, ?_⟩
  · unfold refine
    simp only
    rw [hu]
    exact hn
  · have : (n : ℝ) - z = (n - (z - (u : ℝ) / (1 + z * u / 2))) - (u : ℝ) / (1 + z * u / 2) := by ring
    rw [this]
    refine (abs_sub _ _).trans ?_
    linarith
  have hs := halley_step (v := cdf z - p) hz' hu1
  rw [sub_sub_cancel] at hs
  have hlip := cdf_lip n ((z : ℝ) - u / (1 + z * u / 2))
  have hcube : density z * |(u : ℝ)| ^ 3 ≤ (2 / 10 ^ 13 + d * (1 + 1 / 10 ^ 11)) ^ 3 / density z ^ 2 := by
    rw [le_div_iff₀ (by positivity)]
    calc density z * |(u : ℝ)| ^ 3 * density z ^ 2 = (density z * |(u : ℝ)|) ^ 3 := by ring
      _ ≤ _ := pow_le_pow_left₀ (by positivity) hφu 3
  have hcube' := mul_le_mul_of_nonneg_right hcube (by positivity : 0 ≤ 2 * (z : ℝ) ^ 2 + 1)
  have tri : |cdf n - p| ≤ |cdf n - cdf ((z : ℝ) - u / (1 + z * u / 2))| + |cdf ((z : ℝ) - u / (1 + z * u / 2)) - p| := by
    have := abs_add_le (cdf n - cdf ((z : ℝ) - u / (1 + z * u / 2))) (cdf ((z : ℝ) - u / (1 + z * u / 2)) - p)
    rwa [sub_add_sub_cancel] at this
  linarith

end Normal
end HL

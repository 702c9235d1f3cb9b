import Verif.Proof.NormalInverse

/-
`Cholesky::operator()` (StatFuncs.cpp:323-332): the conversion of a probability to 32 bits, and the range of the second variate.
-/

namespace HL
namespace Normal
open Real PolyCert

variable {fp : FP} {lm : Libm} {atan1 : Fl}

theorem scale_cast : ((scale : ℚ) : ℝ) = 1 / 2 ^ 32 := by unfold scale; push_cast; rfl

/-- a probability within `2e-12` of a multiple of `2^-32`, converted -/
theorem convert_near (hfp : fp.Good) {x : Fl} {u : ℕ} (h1 : 1 ≤ u) (h2 : u < 2 ^ 32) (hx : Near x ((u : ℝ) / 2 ^ 32) (2 / 10 ^ 12)) :
    ∃ a, toUint32 (fp.div x (.fin scale)) = .ok a ∧ (a = u ∨ a + 1 = u) := by
  have hu : (u : ℝ) ≤ 2 ^ 32 := by exact_mod_cast h2.le
  have hs := near_self scale
  rw [scale_cast] at hs
  have e1 : (u : ℝ) / 2 ^ 32 / (1 / 2 ^ 32) = u := by field_simp
  obtain ⟨q, hq, hqe⟩ := near_div hfp hx hs (Q := 2 ^ 32) (b := 1 / 2 ^ 32) (g := 1 / 100) (M := 2 ^ 33) (f := 2 / 100)
    (by rw [e1, abs_of_nonneg (by positivity)]; exact hu) (by rw [abs_of_pos (by positivity)]; linarith) (by positivity) (by norm_num)
    (by norm_num) (by norm_num) (by norm_num)
  rw [e1] at hqe
  have hq' := abs_le.mp hqe
  have q1 : (u : ℚ) - 1 ≤ q := by
    have : (u : ℝ) - 1 ≤ q := by linarith
    exact_mod_cast this
  have q2 : q < (u : ℚ) + 1 := by
    have : (q : ℝ) < u + 1 := by linarith
    exact_mod_cast this
  have hu1 : (1 : ℚ) ≤ u := by exact_mod_cast h1
  have ht : FP.truncQ q = ⌊q⌋ := by unfold FP.truncQ; rw [if_pos (by linarith)]
  have f1 : (u : ℤ) - 1 ≤ ⌊q⌋ := Int.le_floor.mpr (by push_cast; exact q1)
  have f2 : ⌊q⌋ < (u : ℤ) + 1 := Int.floor_lt.mpr (by push_cast; exact q2)
  rw [hq]
  refine ⟨(FP.truncQ q).toNat, ?_, ?_⟩
  · refine if_pos ?_
    rw [ht]
    constructor <;> omega
  · rw [ht]; omega

/-- a probability away from the ends can be converted -/
theorem convert_inner (hfp : fp.Good) {x : Fl} {y : ℝ} (h1 : 1 / 10 ^ 11 ≤ y) (h2 : y ≤ 1 - 1 / 10 ^ 11) (hx : Near x y (1 / 10 ^ 12)) :
    ∃ a, toUint32 (fp.div x (.fin scale)) = .ok a ∧ |(a : ℝ) / 2 ^ 32 - y| ≤ 3 / 10 ^ 10 := by
  have hs := near_self scale
  rw [scale_cast] at hs
  have e1 : y / (1 / 2 ^ 32) = y * 2 ^ 32 := by field_simp
  obtain ⟨q, hq, hqe⟩ := near_div hfp hx hs (Q := 2 ^ 32) (b := 1 / 2 ^ 32) (g := 5 / 1000) (M := 2 ^ 33) (f := 6 / 1000)
    (by rw [e1, abs_of_nonneg (by positivity)]; nlinarith) (by rw [abs_of_pos (by positivity)]; linarith) (by positivity) (by norm_num)
    (by norm_num) (by norm_num) (by norm_num)
  rw [e1] at hqe
  have hq' := abs_le.mp hqe
  have q1 : (0 : ℚ) ≤ q := by
    have : (0 : ℝ) ≤ q := by norm_num at hq' h1; linarith
    exact_mod_cast this
  have q2 : q < (2 : ℚ) ^ 32 := by
    have : (q : ℝ) < 2 ^ 32 := by norm_num at hq' h2 ⊢; linarith
    exact_mod_cast this
  have ht : FP.truncQ q = ⌊q⌋ := by unfold FP.truncQ; rw [if_pos q1]
  rw [hq]
  have f0 := Int.floor_nonneg.mpr q1
  refine ⟨(FP.truncQ q).toNat, ?_, ?_⟩
  · refine if_pos ?_
    rw [ht]
    exact ⟨f0, Int.floor_lt.mpr (by push_cast; exact q2)⟩
  · have e2 : (((FP.truncQ q).toNat : ℕ) : ℝ) = ((⌊q⌋ : ℚ) : ℝ) := by
      rw [ht]
      have : ((⌊q⌋.toNat : ℕ) : ℤ) = ⌊q⌋ := Int.toNat_of_nonneg f0
      exact_mod_cast this
    have f1 : ((⌊q⌋ : ℚ) : ℝ) ≤ q := by exact_mod_cast Int.floor_le q
    have f2 : (q : ℝ) < ((⌊q⌋ : ℚ) : ℝ) + 1 := by exact_mod_cast Int.lt_floor_add_one q
    rw [e2]
    generalize ((⌊q⌋ : ℚ) : ℝ) = k at *
    rw [abs_le]
    constructor
    · rw [le_sub_iff_add_le, le_div_iff₀ (by positivity)]; norm_num at hq' ⊢; linarith
    · rw [sub_le_iff_le_add, div_le_iff₀ (by positivity)]; norm_num at hq' ⊢; linarith

theorem exp_neg_25 : 1 / 10 ^ 11 ≤ exp (-25) := by
  have h : exp 25 ≤ 10 ^ 11 := by
    calc exp 25 = exp 1 ^ 25 := by rw [← exp_nat_mul]; norm_num
      _ ≤ (2.7182818286 : ℝ) ^ 25 := pow_le_pow_left₀ (exp_pos 1).le exp_one_lt_d9.le 25
      _ ≤ _ := by norm_num
  rw [exp_neg, ← one_div]
  exact one_div_le_one_div_of_le (exp_pos _) h

theorem exp_neg_22 : 2780 / 10 ^ 13 ≤ exp (-22) := by
  have h : exp 22 ≤ 10 ^ 13 / 2780 := by
    calc exp 22 = exp 1 ^ 22 := by rw [← exp_nat_mul]; norm_num
      _ ≤ (2.7182818286 : ℝ) ^ 22 := pow_le_pow_left₀ (exp_pos 1).le exp_one_lt_d9.le 22
      _ ≤ _ := by norm_num
  rw [exp_neg, le_inv_comm₀ (by norm_num) (exp_pos _)]
  refine h.trans ?_
  norm_num

/-- inside `±6.52` the probability is away from 0 and 1 -/
theorem cdf_inner {x : ℝ} (hx : |x| ≤ 652 / 100) : 1 / 10 ^ 11 ≤ cdf x ∧ cdf x ≤ 1 - 1 / 10 ^ 11 := by
  have hx' := abs_le.mp hx
  have ht : tailF 7 ≤ -(658 / 100) := by simp only [tailF, ev, tC, tD]; norm_num
  have h1 : 1 / 10 ^ 11 ≤ cdf (tailF 7) := by
    have h := (abs_le.mp (tail_near (t := 7) (by norm_num) (by norm_num))).1
    have h2 := exp_neg_25
    have e3 : exp (-(7 ^ 2) / 2) = exp (-25) * exp (1 / 2) := by rw [← exp_add]; norm_num
    have h4 : 3 / 2 ≤ exp (1 / 2 : ℝ) := by have := add_one_le_exp (1 / 2 : ℝ); linarith
    have h5 := mul_le_mul_of_nonneg_left h4 (exp_pos (-25)).le
    rw [← e3] at h5
    norm_num at h h2 h5 ⊢
    linarith
  constructor
  · exact h1.trans (cdf_strictMono.monotone (by linarith))
  · have h2 := cdf_strictMono.monotone (by linarith : tailF 7 ≤ -x)
    have := cdf_add_neg x
    linarith

/-- a probability of `2^-16` or more on both sides is met inside `±4.6` -/
theorem quantile_inner {n p : ℝ} (h0 : 1 / 2 ^ 16 ≤ p) (h1 : p ≤ 1 - 1 / 2 ^ 16) (h : |cdf n - p| ≤ 1 / 10 ^ 12) : |n| ≤ 46 / 10 := by
  have hb : cdf (-(46 / 10)) ≤ 12 / 10 ^ 6 := by
    refine (cdf_tail (by norm_num)).trans ?_
    unfold density
    rw [div_le_iff₀ s2pi_pos]
    have hs := s2pi_bounds.1
    have h2 : exp (-((-(46 / 10 : ℝ)) ^ 2) / 2) ≤ 28 / 10 ^ 6 := by
      have h3 : exp (-((-(46 / 10 : ℝ)) ^ 2) / 2) ≤ exp (-(21 / 2)) := exp_le_exp.mpr (by norm_num)
      refine h3.trans ?_
      rw [exp_neg, inv_le_comm₀ (exp_pos _) (by norm_num)]
      have e1 : exp (21 / 2 : ℝ) = exp 1 ^ 10 * exp (1 / 2) := by rw [← exp_nat_mul, ← exp_add]; norm_num
      have h4 : (2.7182818283 : ℝ) ^ 10 ≤ exp 1 ^ 10 := pow_le_pow_left₀ (by norm_num) exp_one_gt_d9.le 10
      have h5 : (1648 / 1000 : ℝ) ≤ exp (1 / 2) := by
        have := quadratic_le_exp_of_nonneg (x := 1 / 2) (by norm_num)
        have h6 : exp (1 / 2 : ℝ) ^ 2 = exp 1 := by rw [← exp_nat_mul]; norm_num
        have h7 := exp_one_gt_d9
        by_contra hc
        push Not at hc
        have : exp (1 / 2 : ℝ) ^ 2 < (1648 / 1000) ^ 2 := pow_lt_pow_left₀ hc (exp_pos _).le (by norm_num)
        norm_num at this h7
        linarith
      rw [e1]
      calc (28 / 10 ^ 6 : ℝ)⁻¹ ≤ 2.7182818283 ^ 10 * (1648 / 1000) := by norm_num
        _ ≤ _ := mul_le_mul h4 h5 (by norm_num) (by positivity)
    linarith
  have h' := abs_le.mp h
  norm_num at h0 h1 h' hb
  rw [abs_le]
  constructor
  · by_contra hc
    push Not at hc
    have := cdf_strictMono hc
    norm_num at this
    linarith
  · by_contra hc
    push Not at hc
    have h2 := cdf_strictMono (by linarith : -n < -(46 / 10))
    have h3 := cdf_add_neg n
    norm_num at h2
    linarith

/-- the last 32-bit number corresponds to a variate above 6.16 -/
theorem quantile_last {n : ℝ} (h : |cdf n - (1 - 1 / 2 ^ 32)| ≤ 1 / 10 ^ 12) : 616 / 100 ≤ n := by
  have ht : -(617 / 100) ≤ tailF (66 / 10) ∧ tailF (66 / 10) ≤ -(616 / 100) := by
    simp only [tailF, ev, tC, tD]; norm_num
  have h1 := (abs_le.mp (tail_near (t := 66 / 10) (by norm_num) (by norm_num))).1
  have h2 : exp (-22) ≤ exp (-((66 / 10) ^ 2) / 2) := exp_le_exp.mpr (by norm_num)
  have h3 := exp_neg_22
  by_contra hc
  push Not at hc
  have h4 := cdf_strictMono (by linarith : tailF (66 / 10) < -n)
  have h5 := cdf_add_neg n
  have h6 := abs_le.mp h
  generalize exp (-((66 / 10) ^ 2) / 2) = E at h1 h2
  norm_num at h6
  linarith

end Normal
end HL

import Verif.Proof.NormalStart

/-
`invCumNorm` (StatFuncs.cpp:291-313) inverts the normal distribution function, with rounding.
-/

namespace HL
namespace Normal
open Real PolyCert

variable {fp : FP} {lm : Libm} {atan1 : Fl}

theorem inverse_central (hfp : fp.Good) (hl : Accurate fp lm atan1) {p z : ℚ} {q : ℝ} (hq : q = p - 1 / 2) (hq2 : q ^ 2 ≤ 226339 / 1000000)
    (hz : |(z : ℝ) - central q| ≤ 3 / 10 ^ 8) :
    ∃ n : ℚ, refine fp lm atan1 (.fin p) (.fin z) = .fin n ∧ |(n : ℝ)| ≤ 7 ∧ |cdf n - p| ≤ 1 / 10 ^ 12 := by
  have hc := central_abs hq2
  have hz1 : |(z : ℝ)| ≤ 2 + 3 / 10 ^ 8 := by
    calc |(z : ℝ)| = |((z : ℝ) - central q) + central q| := by ring_nf
      _ ≤ _ := (abs_add_le _ _).trans (by linarith)
  have hz7 : |z| ≤ 7 := by
    have : |(z : ℝ)| ≤ 7 := by linarith
    exact_mod_cast this
  have hqa : |q| ≤ 47576 / 100000 := by
    refine abs_le_of_sq_le_sq (hq2.trans (by norm_num)) (by norm_num)
  have hd : |cdf z - p| ≤ 53 / 10 ^ 7 := by
    have h1 := central_near hq2
    have h2 := cdf_lip z (central q)
    have h3 : cdf z - p = (cdf z - cdf (central q)) + (cdf (central q) - (1 / 2 + q)) := by rw [hq]; ring
    rw [h3]
    refine (abs_add_le _ _).trans ?_
    linarith
  have hz2 : (z : ℝ) ^ 2 ≤ 40001 / 10000 := by
    rw [← sq_abs]
    calc |(z : ℝ)| ^ 2 ≤ (2 + 3 / 10 ^ 8) ^ 2 := pow_le_pow_left₀ (abs_nonneg _) hz1 2
      _ ≤ _ := by norm_num
  have hφ : 1 / 19 ≤ density z := by
    unfold density
    rw [le_div_iff₀ s2pi_pos]
    have h1 : exp (-(20001 / 10000)) ≤ exp (-((z : ℝ) ^ 2) / 2) := exp_le_exp.mpr (by linarith)
    have h2 : (135 / 1000 : ℝ) ≤ exp (-(20001 / 10000)) := by
      rw [exp_neg, le_inv_comm₀ (by norm_num) (exp_pos _)]
      have e1 : exp (20001 / 10000 : ℝ) = exp 1 ^ 2 * exp (1 / 10000) := by
        rw [← exp_nat_mul, ← exp_add]; norm_num
      have h3 : exp 1 ^ 2 ≤ 73891 / 10000 := by
        calc exp 1 ^ 2 ≤ (2.7182818286 : ℝ) ^ 2 := pow_le_pow_left₀ (exp_pos 1).le exp_one_lt_d9.le 2
          _ ≤ _ := by norm_num
      have h4 : exp (1 / 10000 : ℝ) ≤ 10002 / 10000 := by
        have := abs_le.mp (abs_exp_sub_one_sub_id_le (x := 1 / 10000) (by norm_num [abs_of_pos]))
        norm_num at this ⊢
        linarith
      rw [e1]
      calc _ ≤ (73891 / 10000 : ℝ) * (10002 / 10000) := mul_le_mul h3 h4 (exp_pos _).le (by norm_num)
        _ ≤ _ := by norm_num
    have := s2pi_bounds.2
    linarith
  obtain ⟨n, hn, hnz, hne⟩ := refine_near hfp hl hz7 (d := 53 / 10 ^ 7) (by norm_num) (by norm_num) hd (by norm_num at hφ ⊢; linarith)
  refine ⟨n, hn, ?_, hne.trans ?_⟩
  · calc |(n : ℝ)| = |((n : ℝ) - z) + z| := by ring_nf
      _ ≤ _ := (abs_add_le _ _).trans (by linarith)
  have hφ2 : (1 / 19 : ℝ) ^ 2 ≤ density z ^ 2 := pow_le_pow_left₀ (by norm_num) hφ 2
  have h5 : (2 / 10 ^ 13 + 53 / 10 ^ 7 * (1 + 1 / 10 ^ 11)) ^ 3 / density z ^ 2 ≤ (2 / 10 ^ 13 + 53 / 10 ^ 7 * (1 + 1 / 10 ^ 11)) ^ 3 / (1 / 19 : ℝ) ^ 2 :=
    div_le_div_of_nonneg_left (by positivity) (by norm_num) hφ2
  have h6 := mul_le_mul h5 (by linarith : 2 * (z : ℝ) ^ 2 + 1 ≤ 91 / 10) (by positivity) (by positivity)
  refine (add_le_add_right h6 _).trans ?_
  norm_num

/-- the tails: `w` stands for the start value below, and its negation above, the median -/
theorem tail_start {t w P : ℝ} (h0 : 27 / 10 ≤ t) (h1 : t ≤ 68 / 10) (hP : 1 / 2 ^ 33 ≤ exp (-(t ^ 2) / 2))
    (hw : |w - tailF t| ≤ 6 / 10 ^ 8) (hPt : |exp (-(t ^ 2) / 2) - P| ≤ 1 / 10 ^ 16) (hP0 : 1 / 2 ^ 32 ≤ P) :
    |cdf w - P| ≤ 16 / 10 ^ 6 * density w ∧ 2327 / 10 ^ 13 ≤ density w := by
  obtain ⟨r1, r2⟩ := tailF_range h0 (by linarith)
  have ht := tail_near h0 (by linarith)
  set p := exp (-(t ^ 2) / 2) with hp
  have hw' := abs_le.mp hw
  have hwa : |w| ≤ 7 := by rw [abs_le]; constructor <;> linarith
  have hs := cdf_step (z := w) (w := w - tailF t) (by
    rw [abs_mul, ← sq_abs (w - tailF t)]
    nlinarith [abs_nonneg w, abs_nonneg (w - tailF t)])
  rw [sub_sub_cancel] at hs
  have hφ := density_pos w
  have hstep : |cdf (tailF t) - cdf w| ≤ density w * (7 / 10 ^ 8) := by
    set e := w - tailF t with he
    have h3 : |density w * (e + w * e ^ 2 / 2)| ≤ density w * (65 / 10 ^ 9) := by
      rw [abs_mul, abs_of_pos hφ]
      refine mul_le_mul_of_nonneg_left ?_ hφ.le
      refine (abs_add_le _ _).trans ?_
      rw [abs_div, abs_mul, abs_two, abs_pow]
      have h4 : |e| ^ 2 ≤ (6 / 10 ^ 8) ^ 2 := pow_le_pow_left₀ (abs_nonneg _) hw 2
      nlinarith [abs_nonneg w, abs_nonneg e, sq_nonneg |e|]
    have h5 : density w * (((|w| + |e| / 2) ^ 2 + 1 / 2) * |e| ^ 3) ≤ density w * (1 / 10 ^ 10) := by
      refine mul_le_mul_of_nonneg_left ?_ hφ.le
      have h4 : |e| ^ 3 ≤ (6 / 10 ^ 8) ^ 3 := pow_le_pow_left₀ (abs_nonneg _) hw 3
      have h6 : (|w| + |e| / 2) ^ 2 ≤ 8 ^ 2 := pow_le_pow_left₀ (by positivity) (by linarith) 2
      calc ((|w| + |e| / 2) ^ 2 + 1 / 2) * |e| ^ 3 ≤ (8 ^ 2 + 1 / 2) * (6 / 10 ^ 8) ^ 3 :=
            mul_le_mul (by linarith) h4 (by positivity) (by norm_num)
        _ ≤ _ := by norm_num
    have h7 : cdf (tailF t) - cdf w = (cdf (tailF t) - cdf w + density w * (e + w * e ^ 2 / 2)) - density w * (e + w * e ^ 2 / 2) := by ring
    rw [h7]
    refine (abs_sub _ _).trans ?_
    linarith
  have htl : cdf w ≤ density w := cdf_tail (by linarith)
  have a1 := abs_le.mp ht
  have a2 := abs_le.mp hstep
  have a3 := abs_le.mp hPt
  norm_num at hP hP0 a1 a2 a3
  have hpφ : p ≤ 100002 / 100000 * density w := by linarith
  constructor
  · rw [abs_le]; constructor <;> linarith
  · linarith

theorem inverse_tail (hfp : fp.Good) (hl : Accurate fp lm atan1) {p z : ℚ} (hz7 : |(z : ℝ)| ≤ 69 / 10)
    (hd : |cdf z - p| ≤ 16 / 10 ^ 6 * density z) (hφ : 2327 / 10 ^ 13 ≤ density z) :
    ∃ n : ℚ, refine fp lm atan1 (.fin p) (.fin z) = .fin n ∧ |(n : ℝ)| ≤ 7 ∧ |cdf n - p| ≤ 1 / 10 ^ 12 := by
  have hφ4 := density_le z
  obtain ⟨n, hn, hnz, hne⟩ := refine_near hfp hl (by
      have : |(z : ℝ)| ≤ 7 := by linarith
      exact_mod_cast this) (d := 16 / 10 ^ 6 * density z) (by have := density_pos z; positivity) (by linarith) hd (by linarith)
  refine ⟨n, hn, ?_, hne.trans ?_⟩
  · calc |(n : ℝ)| = |((n : ℝ) - z) + z| := by ring_nf
      _ ≤ _ := (abs_add_le _ _).trans (by linarith)
  have hz2 : (z : ℝ) ^ 2 ≤ 476 / 10 + 1 / 10 := by
    rw [← sq_abs]
    calc |(z : ℝ)| ^ 2 ≤ (69 / 10) ^ 2 := pow_le_pow_left₀ (abs_nonneg _) hz7 2
      _ ≤ _ := by norm_num
  have hφ0 := density_pos z
  set f := density z with hf
  have h5 : (2 / 10 ^ 13 + 16 / 10 ^ 6 * f * (1 + 1 / 10 ^ 11)) ^ 3 / f ^ 2 ≤ 1 / 10 ^ 16 + 20 / 10 ^ 15 * f := by
    rw [div_le_iff₀ (by positivity)]
    have e1 : 0 ≤ f - 2327 / 10 ^ 13 := by linarith
    have e2 : (2 / 10 ^ 13 + 16 / 10 ^ 6 * f * (1 + 1 / 10 ^ 11)) ^ 3 ≤ 4 * ((2 / 10 ^ 13) ^ 3 + (17 / 10 ^ 6 * f) ^ 3) := by
      set b := 16 / 10 ^ 6 * f * (1 + 1 / 10 ^ 11) with hb
      have hb0 : 0 ≤ b := by positivity
      have hb1 : b ≤ 17 / 10 ^ 6 * f := by rw [hb]; linarith
      have hb3 : b ^ 3 ≤ (17 / 10 ^ 6 * f) ^ 3 := pow_le_pow_left₀ hb0 hb1 3
      have e3 : (2 / 10 ^ 13 + b) ^ 3 ≤ 4 * ((2 / 10 ^ 13) ^ 3 + b ^ 3) := by
        have : 0 ≤ (2 / 10 ^ 13 + b) * (2 / 10 ^ 13 - b) ^ 2 := by positivity
        nlinarith
      linarith
    refine e2.trans ?_
    have e4 : (2327 / 10 ^ 13) ^ 2 ≤ f ^ 2 := pow_le_pow_left₀ (by norm_num) hφ 2
    have e5 : 0 ≤ f ^ 3 := by positivity
    have e6 : 4 * ((2 / 10 ^ 13 : ℝ) ^ 3 + (17 / 10 ^ 6 * f) ^ 3) = 32 / 10 ^ 39 + 4 * (17 / 10 ^ 6) ^ 3 * f ^ 3 := by ring
    have e7 : (1 / 10 ^ 16 + 20 / 10 ^ 15 * f) * f ^ 2 = 1 / 10 ^ 16 * f ^ 2 + 20 / 10 ^ 15 * f ^ 3 := by ring
    rw [e6, e7]
    norm_num at e4 ⊢
    linarith
  have h6 := mul_le_mul h5 (by linarith : 2 * (z : ℝ) ^ 2 + 1 ≤ 97) (by positivity) (by positivity)
  refine (add_le_add_right h6 _).trans ?_
  norm_num
  linarith

/-- `invCumNorm` inverts the normal distribution function up to `10^-12`, on the numbers it is meant for. -/
theorem invCumNorm_near (hfp : fp.Good) (hl : Accurate fp lm atan1) {p : ℚ} (h0 : 1 / 2 ^ 32 ≤ p) (h1 : p ≤ 1 - 1 / 2 ^ 32) :
    ∃ n : ℚ, invCumNorm fp lm atan1 (.fin p) = .ok (.fin n) ∧ |(n : ℝ)| ≤ 7 ∧ |cdf n - p| ≤ 1 / 10 ^ 12 := by
  obtain ⟨lo, hlo, hloe⟩ := xLow_near hfp
  obtain ⟨hi, hhi, hhie⟩ := xHigh_near hfp
  have hlo' := abs_le.mp hloe
  have hhi' := abs_le.mp hhie
  have h0' : (1 / 2 ^ 32 : ℝ) ≤ p := by
    have := (Rat.cast_le (K := ℝ)).mpr h0
    push_cast at this; exact this
  have h1' : (p : ℝ) ≤ 1 - 1 / 2 ^ 32 := by
    have := (Rat.cast_le (K := ℝ)).mpr h1
    push_cast at this; exact this
  have hp0 : ¬ (FP.le (.fin p) (.fin 0) || FP.le (.fin 1) (.fin p)) = true := by
    simp only [FP.le, Bool.or_eq_true, decide_eq_true_eq, not_or, not_le]
    constructor
    · exact lt_of_lt_of_le (by norm_num) h0
    · exact lt_of_le_of_lt h1 (by norm_num)
  have run : ∀ {z : ℚ} {n : ℚ}, approx fp lm (.fin p) = .ok (.fin z) → refine fp lm atan1 (.fin p) (.fin z) = .fin n →
      invCumNorm fp lm atan1 (.fin p) = .ok (.fin n) := by
    intro z n ha hn
    unfold invCumNorm
    rw [ha]
    show Out.ok _ = _
    rw [hn]
  by_cases c1 : p < lo
  · have hp1 : (p : ℝ) ≤ 243 / 10000 := by
      have : (p : ℝ) < lo := by exact_mod_cast c1
      linarith
    have hp33 : (1 / 2 ^ 33 : ℝ) ≤ p := le_trans (by norm_num) h0'
    obtain ⟨f1, f2, f3⟩ := tOf_facts hp33 hp1
    obtain ⟨z, hz, hze⟩ := (start_tail hfp hl hp33 hp1).1
    obtain ⟨r1, r2⟩ := tailF_range f1 (by linarith)
    obtain ⟨t1, t2⟩ := tail_start (P := p) f1 f2 (by rw [f3]; exact hp33) hze (by rw [f3, sub_self, abs_zero]; norm_num) h0'
    have hz' := abs_le.mp hze
    obtain ⟨n, hn, hn7, hne⟩ := inverse_tail hfp hl (by rw [abs_le]; constructor <;> linarith) t1 t2
    refine ⟨n, run ?_ hn, hn7, hne⟩
    have hlt : FP.lt (.fin p) (xLow fp) = true := by rw [hlo]; simpa [FP.lt] using c1
    unfold approx
    rw [if_pos (by rw [hlt]; rfl)]
    unfold tailValue
    rw [if_neg hp0, if_pos hlt]
    exact congrArg Out.ok hz
  by_cases c2 : hi < p
  · have hp1 : (1 - p : ℝ) ≤ 2425 / 10 ^ 5 + 3 / 10 ^ 15 := by
      have : (hi : ℝ) < p := by exact_mod_cast c2
      linarith
    have hP0 : (1 / 2 ^ 32 : ℝ) ≤ 1 - p := by linarith
    have ho := near_self 1
    rw [Rat.cast_one] at ho
    obtain ⟨p', hp', hpe⟩ := near_sub hfp ho (near_self p) (M := 3 / 100) (f := 1 / 10 ^ 16)
      (by rw [abs_of_pos (by linarith [show (0 : ℝ) < 1 / 2 ^ 32 by positivity])]; linarith) (by norm_num) (by norm_num)
    have hpe' := abs_le.mp hpe
    have q1 : (p' : ℝ) ≤ 243 / 10000 := by linarith
    have q33 : (1 / 2 ^ 33 : ℝ) ≤ p' := by
      have : (1 / 2 ^ 33 : ℝ) ≤ 1 / 2 ^ 32 - 1 / 10 ^ 16 := by norm_num
      linarith
    obtain ⟨f1, f2, f3⟩ := tOf_facts q33 q1
    obtain ⟨z, hz, hze⟩ := (start_tail hfp hl q33 q1).2
    obtain ⟨r1, r2⟩ := tailF_range f1 (by linarith)
    have hze2 : |-(z : ℝ) - tailF (tOf p')| ≤ 6 / 10 ^ 8 := by
      rw [← abs_neg]
      convert hze using 2
      ring
    obtain ⟨t1, t2⟩ := tail_start (P := 1 - p) f1 f2 (by rw [f3]; exact q33) hze2 (by rw [f3]; exact hpe) hP0
    have hz' := abs_le.mp hze
    rw [density_neg] at t1 t2
    have t3 : |cdf z - p| ≤ 16 / 10 ^ 6 * density z := by
      have := cdf_add_neg z
      rw [← abs_neg]
      convert t1 using 2
      linarith
    obtain ⟨n, hn, hn7, hne⟩ := inverse_tail hfp hl (by rw [abs_le]; constructor <;> linarith) t3 t2
    refine ⟨n, run ?_ hn, hn7, hne⟩
    have hlt : FP.lt (xHigh fp) (.fin p) = true := by rw [hhi]; simpa [FP.lt] using c2
    have hnlt : ¬ FP.lt (.fin p) (xLow fp) = true := by rw [hlo]; simpa [FP.lt] using c1
    unfold approx
    rw [if_pos (by rw [hlt, Bool.or_true])]
    unfold tailValue
    rw [if_neg hp0, if_neg hnlt, hp']
    exact congrArg Out.ok hz
  · push Not at c1 c2
    obtain ⟨⟨z, hz, hze⟩, hq2⟩ := start_central hfp hlo hhi c1 c2
    obtain ⟨n, hn, hn7, hne⟩ := inverse_central hfp hl rfl hq2 hze
    refine ⟨n, run ?_ hn, hn7, hne⟩
    have hnlt : ¬ (FP.lt (.fin p) (xLow fp) || FP.lt (xHigh fp) (.fin p)) = true := by
      rw [hlo, hhi]; simp only [FP.lt, Bool.or_eq_true, decide_eq_true_eq, not_or, not_lt]; exact ⟨c1, c2⟩
    unfold approx
    rw [if_neg hnlt]
    exact congrArg Out.ok hz

end Normal
end HL

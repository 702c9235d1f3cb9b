import Verif.Proof.FracLoop
import Mathlib.Analysis.Complex.ExponentialBounds

/-
C65 in rounded arithmetic, for statistics at least the number of degrees of freedom.
-/

namespace HL
open MeasureTheory Set Real GammaR HL.Integerise
variable {fp : FP}

/-- the fraction branch of `gamain` in rounded arithmetic -/
theorem gamain_high {lm : Libm} {x p : ℚ} (hx : 1 < x) (hp : 0 < p) (h : p ≤ x) :
    gamain fp lm (.fin x) (.fin p) =
      if FP.lt (fp.sub (fp.sub (fp.mul (.fin p) (lm.log (.fin x))) (.fin x)) (lm.lgamma (.fin p))) (Gamain.loguflo fp lm) then (.fin 0, 3)
      else match Gamain.fraction fp (lm.exp (fp.sub (fp.sub (fp.mul (.fin p) (lm.log (.fin x))) (.fin x)) (lm.lgamma (.fin p)))) 10000
          (Gamain.fracStart fp (.fin x) (.fin p)) with
        | some v => (v, 0)
        | none => (.fin 0, 6) := by
  have hx0 : 0 < x := by linarith
  have e1 : FP.le (.fin p) (.fin 0) = false := decide_eq_false (not_le.mpr hp)
  have e2 : FP.lt (.fin x) (.fin 0) = false := decide_eq_false (not_lt.mpr hx0.le)
  have e3 : FP.feq (.fin x) (.fin 0) = false := by unfold FP.feq; simp [hx0.ne']
  have e7 : (FP.le (.fin x) (.fin 1) || FP.lt (.fin x) (.fin p)) = false := by
    rw [Bool.or_eq_false_iff]
    exact ⟨decide_eq_false (not_le.mpr hx), decide_eq_false (not_lt.mpr h)⟩
  unfold gamain
  rw [e1, e2, e3]
  simp only [Bool.false_eq_true, if_false, e7, show Gamain.maxIters = 10000 from rfl]
  rfl

theorem cvg_cast (x s : ℚ) (n : ℕ) : ((cvg x s n : ℚ) : ℝ) = num x s n / den x s n := by
  unfold cvg
  push_cast
  rw [numQ_cast, denQ_cast]

/-- a rounded convergent, times the factor, against the tail -/
theorem high_real {x p F ε a r r' : ℝ} (hx : 1 < x) (hp : p ≤ x) (hp0 : 1 / 2 ≤ p) {m : ℕ} (hm : m ≤ 10000) (hr : r = num x p m / den x p m)
    (hr' : r' = num x p (m + 1) / den x p (m + 1)) (hr0 : 0 < r) (hr0' : 0 < r') (hd : |r - r'| ≤ 11 / 10 ^ 9 * r') (ha : |a - r| ≤ 7 / 10 ^ 8 * r)
    (hacc : |F - rexp (-x) * x ^ p / Real.Gamma p| ≤ ε * (rexp (-x) * x ^ p / Real.Gamma p)) :
    |F * a - mom x (p - 1) 0 / Real.Gamma p| ≤ (2 * ε + 99 / 10 ^ 7) * (mom x (p - 1) 0 / Real.Gamma p) ∧
    rexp (-x) * x ^ p / Real.Gamma p * a ≤ 2 * (mom x (p - 1) 0 / Real.Gamma p) ∧ 0 ≤ ε ∧ 0 ≤ a := by
  obtain ⟨hE1, hE2⟩ := cerr_bound' hx hp hp0 hm
  have hx0 : 0 < x := by linarith
  have hG := Real.Gamma_pos_of_pos (show 0 < p by linarith)
  have hU := mom_pos x (p - 1) hx0 0
  unfold cerr at hE1 hE2
  rw [← hr, ← hr'] at hE1 hE2
  have hf : 0 < rexp (-x) * x ^ p := by positivity
  generalize mom x (p - 1) 0 = U at *
  generalize rexp (-x) * x ^ p = f at *
  generalize Real.Gamma p = G at *
  have hD : |U - f * r - (U - f * r')| = f * |r - r'| := by
    rw [show U - f * r - (U - f * r') = -(f * (r - r')) by ring, abs_neg, abs_mul, abs_of_pos hf]
  rw [hD] at hE1 hE2
  have hM : 804 * (f * |r - r'|) ≤ 8844 / 10 ^ 9 * (f * r') := by
    have := mul_le_mul_of_nonneg_left hd hf.le
    calc 804 * (f * |r - r'|) ≤ 804 * (f * (11 / 10 ^ 9 * r')) := by linarith
      _ = _ := by ring
  have hfr0 : 0 < f * r := by positivity
  have hfr0' : 0 < f * r' := by positivity
  have hrU : f * r' ≤ 10001 / 10000 * U := by
    have := (abs_le.mp (hE2.trans hM)).1
    norm_num at *
    linarith
  have hUr : |U - f * r| ≤ 8846 / 10 ^ 9 * U := by
    refine (hE1.trans hM).trans ?_
    norm_num at *
    linarith
  have hfa : |f * r - f * a| ≤ 7 / 10 ^ 8 * (f * r) := by
    rw [← mul_sub, abs_mul, abs_of_pos hf, abs_sub_comm]
    have := mul_le_mul_of_nonneg_left ha hf.le
    linarith
  have hfrU : f * r ≤ 10001 / 10000 * U := by
    have := (abs_le.mp hUr).1
    norm_num at *
    linarith
  have hUa : |U - f * a| ≤ 99 / 10 ^ 7 * U := by
    have := abs_sub_le U (f * r) (f * a)
    norm_num at *
    linarith
  have ha0 : 0 ≤ a := by
    have := (abs_le.mp ha).1
    norm_num at *
    linarith
  have hfa2 : f * a ≤ 2 * U := by
    have := (abs_le.mp hUa).1
    norm_num at *
    linarith
  have hε : 0 ≤ ε := by
    have h1 := le_trans (abs_nonneg _) hacc
    have h2 : 0 < f / G := by positivity
    by_contra hneg
    have := mul_neg_of_neg_of_pos (not_le.mp hneg) h2
    linarith
  refine ⟨?_, ?_, hε, ha0⟩
  · have e : F * a - U / G = (F - f / G) * a + -((U - f * a) / G) := by field_simp; ring
    rw [e]
    calc _ ≤ |(F - f / G) * a| + |-((U - f * a) / G)| := abs_add_le _ _
      _ = |F - f / G| * a + |U - f * a| / G := by rw [abs_mul, abs_neg, abs_div, abs_of_pos hG, abs_of_nonneg ha0]
      _ ≤ ε * (f / G) * a + 99 / 10 ^ 7 * U / G := by gcongr
      _ = ε * (f * a) / G + 99 / 10 ^ 7 * U / G := by ring
      _ ≤ ε * (2 * U) / G + 99 / 10 ^ 7 * U / G := by gcongr
      _ = _ := by ring
  · calc f / G * a = f * a / G := by ring
      _ ≤ 2 * U / G := by gcongr
      _ = _ := by ring

/-- what `pValue` returns in rounded arithmetic above the number of degrees of freedom -/
theorem high_core (hfp : fp.Good) (h2 : AddTwo fp) {lm : Libm} {k : ℕ} (hk : 0 < k) {c : ℚ} (hc : 2 < c) (hb : k ≤ c)
    (hc' : c ≤ 10 ^ 6) (hr : fp.rnd (c / 2) = .fin (c / 2)) {ε : ℝ} (hε1 : ε ≤ 1)
    (hlm : FactorComputed fp lm (c / 2) ((k : ℚ) / 2) ε) {v : Fl} (h : pValue fp lm k (.fin c) = (v, true)) :
    ∃ F a : ℚ, v = fp.sub (.fin 1) (fp.sub (.fin 1) (fp.mul (.fin F) (.fin a))) ∧
      |(F : ℝ) * a - chiSqTail k c| ≤ (2 * ε + 99 / 10 ^ 7) * chiSqTail k c ∧ 0 ≤ F * a ∧ F * a ≤ 4 ∧ 0 ≤ chiSqTail k c := by
  obtain ⟨F, hF, hacc⟩ := hlm
  have hk' : (1 : ℚ) ≤ k := by exact_mod_cast hk
  have hp : (0 : ℚ) < (k : ℚ) / 2 := by positivity
  have hx1 : (1 : ℚ) < c / 2 := by linarith
  have hps : (k : ℚ) / 2 ≤ c / 2 := by linarith
  have hxb : c / 2 ≤ 500000 := by linarith
  have hk2 : k < 2 ^ 32 := by
    have : (k : ℚ) < 2 ^ 32 := lt_of_le_of_lt (hb.trans hc') (by norm_num)
    exact_mod_cast this
  rw [pValue_round hfp hk2 hr, gamain_high hx1 hp hps] at h
  split at h
  · simp at h
  rw [hF] at h
  rcases fraction_round hfp h2 hx1 hps hp hxb rfl (.fin F) 10000 0 _ (by norm_num) (start_round hfp hx1 hps hp hxb rfl) with
    ⟨m, t, hm1, hm2, hfr, ht, hd⟩ | ⟨hfr, -⟩
  swap
  · rw [hfr] at h; simp at h
  rw [hfr] at h
  simp only [decide_true, Prod.mk.injEq, and_true] at h
  obtain ⟨b1, b1'⟩ := cvg_bounds hx1 hps hp hxb m
  obtain ⟨b2, b2'⟩ := cvg_bounds hx1 hps hp hxb (m + 1)
  have hc1 : 0 < cvg (c / 2) ((k : ℚ) / 2) m := lt_of_lt_of_le (by norm_num) b1
  have hc2 : 0 < cvg (c / 2) ((k : ℚ) / 2) (m + 1) := lt_of_lt_of_le (by norm_num) b2
  -- over the reals
  have hxr : (1 : ℝ) < ((c / 2 : ℚ) : ℝ) := by exact_mod_cast hx1
  have hpr : ((k / 2 : ℚ) : ℝ) ≤ ((c / 2 : ℚ) : ℝ) := by exact_mod_cast hps
  have hpr1 : (1 / 2 : ℝ) ≤ ((k / 2 : ℚ) : ℝ) := by
    have : (1 : ℝ) ≤ k := by exact_mod_cast hk
    push_cast; linarith
  obtain ⟨hreal, hfa, hε0, ha0⟩ := high_real (a := ((cvg (c / 2) ((k : ℚ) / 2) m * t : ℚ) : ℝ)) hxr hpr hpr1 (m := m) (by omega)
    (cvg_cast (c / 2) ((k : ℚ) / 2) m) (cvg_cast (c / 2) ((k : ℚ) / 2) (m + 1)) (by exact_mod_cast hc1) (by exact_mod_cast hc2)
    (by
      have := (Rat.cast_le (K := ℝ)).mpr hd
      push_cast at this ⊢
      exact this)
    (by
      have h1 : |cvg (c / 2) ((k : ℚ) / 2) m * t - cvg (c / 2) ((k : ℚ) / 2) m| ≤ 7 / 10 ^ 8 * cvg (c / 2) ((k : ℚ) / 2) m := by
        rw [show cvg (c / 2) ((k : ℚ) / 2) m * t - cvg (c / 2) ((k : ℚ) / 2) m = (t - 1) * cvg (c / 2) ((k : ℚ) / 2) m by ring, abs_mul, abs_of_pos hc1]
        exact mul_le_mul_of_nonneg_right ht hc1.le
      have := (Rat.cast_le (K := ℝ)).mpr h1
      push_cast at this ⊢
      exact this) hacc
  have hc0 : (0 : ℝ) < c := by exact_mod_cast (by linarith : (0 : ℚ) < c)
  have htail := chiSqTail_eq hk (c := c) hc0
  have ec : (c : ℝ) / 2 = ((c / 2 : ℚ) : ℝ) := by push_cast; ring
  have ek : (k : ℝ) / 2 = ((k / 2 : ℚ) : ℝ) := by push_cast; ring
  rw [ec, ek] at htail
  have hG := Real.Gamma_pos_of_pos (show (0 : ℝ) < ((k / 2 : ℚ) : ℝ) by linarith)
  have hU1 : chiSqTail k c ≤ 1 := by
    rw [htail, div_le_one hG, ← low_add (show (0 : ℝ) < ((c / 2 : ℚ) : ℝ) by linarith) (show (0 : ℝ) < ((k / 2 : ℚ) : ℝ) by linarith)]
    have := low_nonneg (x := ((c / 2 : ℚ) : ℝ)) (s := ((k / 2 : ℚ) : ℝ))
    linarith
  rw [← htail] at hreal hfa
  have hff : 0 < rexp (-((c / 2 : ℚ) : ℝ)) * ((c / 2 : ℚ) : ℝ) ^ ((k / 2 : ℚ) : ℝ) / Real.Gamma ((k / 2 : ℚ) : ℝ) := by
    have : (0 : ℝ) < ((c / 2 : ℚ) : ℝ) := by linarith
    positivity
  have hgap := abs_le.mp hacc
  generalize rexp (-((c / 2 : ℚ) : ℝ)) * ((c / 2 : ℚ) : ℝ) ^ ((k / 2 : ℚ) : ℝ) / Real.Gamma ((k / 2 : ℚ) : ℝ) = φ at *
  generalize cvg (c / 2) ((k : ℚ) / 2) m * t = a at *
  have hF0r : (0 : ℝ) ≤ F := by nlinarith
  have hF2r : (F : ℝ) ≤ 2 * φ := by nlinarith
  have hFar : (F : ℝ) * a ≤ 4 := by
    have : (F : ℝ) * a ≤ 2 * φ * a := mul_le_mul_of_nonneg_right hF2r ha0
    linarith
  exact ⟨F, a, h.symm, hreal, by exact_mod_cast mul_nonneg hF0r ha0, by exact_mod_cast hFar, by nlinarith⟩

/-- **C65** in binary64 (or any arithmetic `fp.Good` in which adding two is exact between powers of two), statistics at
least the number of degrees of freedom, above 2 and up to a million: a p-value whose flag is set differs from the upper
tail of the chi-squared distribution, relative to that tail, by at most twice the relative error of the computed factor
`x^p e^-x / Γ(p)` plus 1e-5, and by 1e-14 absolutely (the code subtracts from one twice).  `hr`: half the statistic is a
double.  Partial: the accuracy of the mathematics library is a hypothesis. -/
theorem C65_high_rounded_partial (hfp : fp.Good) (h2 : AddTwo fp) {lm : Libm} {k : ℕ} (hk : 0 < k) {c : ℚ} (hc : 2 < c) (hb : k ≤ c)
    (hc' : c ≤ 10 ^ 6) (hr : fp.rnd (c / 2) = .fin (c / 2)) {ε : ℝ} (hε1 : ε ≤ 1)
    (hlm : FactorComputed fp lm (c / 2) ((k : ℚ) / 2) ε) {v : Fl} (h : pValue fp lm k (.fin c) = (v, true)) :
    ∃ q : ℚ, v = .fin q ∧ |(q : ℝ) - chiSqTail k c| ≤ (2 * ε + 1 / 10 ^ 5) * chiSqTail k c + 1 / 10 ^ 14 := by
  obtain ⟨F, a, rfl, hreal, hFa0, hFa4, hT0⟩ := high_core hfp h2 hk hc hb hc' hr hε1 hlm h
  -- the last three roundings
  have hhuge := hugeQ_100
  have htiny := tinyQ_30
  obtain ⟨y, hy, hye⟩ := rnd_abs hfp (q := F * a) (M := 4) (by rw [abs_of_nonneg hFa0]; exact hFa4) (le_trans (by norm_num) hhuge)
  have e16 : ∀ {z : ℚ}, z ≤ 6 / 2 ^ 53 + 3 * tinyQ → z ≤ 1 / 10 ^ 15 := fun {z} hz => by
    have : (6 : ℚ) / 2 ^ 53 + 3 * (1 / 10 ^ 30) ≤ 1 / 10 ^ 15 := by norm_num
    linarith
  have e46 : (4 : ℚ) / 2 ^ 53 ≤ 6 / 2 ^ 53 := by norm_num
  have e56 : (5 : ℚ) / 2 ^ 53 ≤ 6 / 2 ^ 53 := by norm_num
  have hye' := e16 (hye.trans (by linarith))
  have hyl := abs_le.mp hye'
  have e15 : (1 : ℚ) / 10 ^ 15 ≤ 1 / 10 := by norm_num
  obtain ⟨w, hw, hwe⟩ := rnd_abs hfp (q := 1 - y) (M := 5) (by rw [abs_le]; constructor <;> linarith) (le_trans (by norm_num) hhuge)
  have hwe' := e16 (hwe.trans (by linarith))
  have hwl := abs_le.mp hwe'
  obtain ⟨q, hq, hqe⟩ := rnd_abs hfp (q := 1 - w) (M := 6) (by rw [abs_le]; constructor <;> linarith) (le_trans (by norm_num) hhuge)
  have hqe' := e16 hqe
  refine ⟨q, ?_, ?_⟩
  · have e1 : fp.mul (.fin F) (.fin a) = .fin y := hy
    have e2 : fp.sub (.fin 1) (.fin y) = .fin w := by
      show fp.rnd (1 + -y) = _
      rw [← sub_eq_add_neg, hw]
    rw [e1, e2]
    show fp.rnd (1 + -w) = _
    rw [← sub_eq_add_neg, hq]
  · have hall : |q - F * a| ≤ 1 / 10 ^ 14 := by
      have e : q - F * a = (q - (1 - w)) + -(w - (1 - y)) + (y - F * a) := by ring
      rw [e]
      have s1 := abs_add_le ((q - (1 - w)) + -(w - (1 - y))) (y - F * a)
      have s2 := abs_add_le (q - (1 - w)) (-(w - (1 - y)))
      rw [abs_neg] at s2
      have : (3 : ℚ) * (1 / 10 ^ 15) ≤ 1 / 10 ^ 14 := by norm_num
      linarith
    have hallr : |(q : ℝ) - F * a| ≤ 1 / 10 ^ 14 := by
      have := (Rat.cast_le (K := ℝ)).mpr hall
      push_cast at this ⊢
      exact this
    have s := abs_sub_le (q : ℝ) (F * a) (chiSqTail k c)
    have : (2 * ε + 99 / 10 ^ 7) * chiSqTail k c ≤ (2 * ε + 1 / 10 ^ 5) * chiSqTail k c := mul_le_mul_of_nonneg_right (by norm_num) hT0
    linarith

theorem rnd_one_sub (sqrt : Fl → Fl) {y : ℚ} (h0 : 0 ≤ y) (h1 : y < 1 / 2 ^ 54) : (FP.ieee sqrt).rnd (1 - y) = .fin 1 := by
  rcases h0.eq_or_lt with rfl | h0
  · simpa using (FP.ieee_good sqrt).dyadic 1 0 (by norm_num) (by norm_num)
  have e54 : (1 : ℚ) / 2 ^ 54 ≤ 1 / 2 := by norm_num
  have hq : 0 < 1 - y := by linarith
  obtain ⟨w, hw⟩ := FP.rndIeee_finite_pos hq (le_trans (show 1 - y ≤ 1 by linarith) (one_le_pow₀ (by norm_num)))
  obtain ⟨hz, -⟩ := FP.fin_pos_bounds hq hw
  have hlog : FP.ilog2 (1 - y) = -1 := FP.ilog2_unique (by norm_num; linarith) (by norm_num; linarith)
  have hulp : FP.ulp (1 - y) = 1 / 2 ^ 53 := by
    unfold FP.ulp
    rw [hlog]
    norm_num
  rw [hulp] at hz
  have hr := FP.rne_abs_sub ((1 - y) / (1 / 2 ^ 53))
  have hrz : FP.rne ((1 - y) / (1 / 2 ^ 53)) = 2 ^ 53 := by
    have h2 := abs_le.mp hr
    have e : (1 - y) / (1 / 2 ^ 53) = 2 ^ 53 - y * 2 ^ 53 := by field_simp
    rw [e] at h2 ⊢
    have h3 : y * 2 ^ 53 < 1 / 2 := by
      have := mul_lt_mul_of_pos_right h1 (show (0 : ℚ) < 2 ^ 53 by positivity)
      have e2 : (1 : ℚ) / 2 ^ 54 * 2 ^ 53 = 1 / 2 := by norm_num
      linarith
    have h4 : 0 < y * 2 ^ 53 := by positivity
    generalize FP.rne (2 ^ 53 - y * 2 ^ 53) = z at *
    obtain ⟨h2a, h2b⟩ := h2
    have e3 : ((2 ^ 53 : ℤ) : ℚ) = (2 : ℚ) ^ 53 := by push_cast; rfl
    generalize y * 2 ^ 53 = d at *
    rw [← e3] at h2a h2b
    generalize (2 ^ 53 : ℤ) = W at *
    have h5 : ((W - 1 : ℤ) : ℚ) < (z : ℚ) := by push_cast; linarith
    have h6 : (z : ℚ) < ((W + 1 : ℤ) : ℚ) := by push_cast; linarith
    have h7 := Int.cast_lt.mp h5
    have h8 := Int.cast_lt.mp h6
    omega
  rw [hrz] at hz
  have : w = 1 := by rw [hz]; push_cast; norm_num
  rw [this] at hw
  exact hw

/-- **C65** is false of small p-values in relative terms: in binary64 every tail probability below 1e-17 is reported as
exactly 0, with the flag set, although the evaluation goes on down to 1e-37, because the code subtracts its result from one
twice. -/
theorem C65_small_is_zero (sqrt : Fl → Fl) {lm : Libm} {k : ℕ} (hk : 0 < k) {c : ℚ} (hc : 2 < c) (hb : k ≤ c)
    (hc' : c ≤ 10 ^ 6) (hr : (FP.ieee sqrt).rnd (c / 2) = .fin (c / 2)) {ε : ℝ} (hε1 : ε ≤ 1)
    (hlm : FactorComputed (FP.ieee sqrt) lm (c / 2) ((k : ℚ) / 2) ε) (hT : chiSqTail k c ≤ 1 / 10 ^ 17)
    {v : Fl} (h : pValue (FP.ieee sqrt) lm k (.fin c) = (v, true)) : v = .fin 0 := by
  have hfp := FP.ieee_good sqrt
  obtain ⟨F, a, rfl, hreal, hFa0, hFa4, hT0⟩ := high_core hfp (addTwo_ieee sqrt) hk hc hb hc' hr hε1 hlm h
  have hsmall : F * a ≤ 4 / 10 ^ 17 := by
    have h1 := (abs_le.mp hreal).2
    have h2 : (2 * ε + 99 / 10 ^ 7) * chiSqTail k c ≤ 3 * chiSqTail k c := mul_le_mul_of_nonneg_right (by norm_num; linarith) hT0
    have h3 : ((F * a : ℚ) : ℝ) ≤ ((4 / 10 ^ 17 : ℚ) : ℝ) := by
      push_cast
      have : (4 : ℝ) / 10 ^ 17 = 4 * (1 / 10 ^ 17) := by norm_num
      rw [this]; linarith
    exact Rat.cast_le.mp h3
  obtain ⟨y, hy, hye⟩ := rnd_abs hfp (q := F * a) (M := 4 / 10 ^ 17) (by rw [abs_of_nonneg hFa0]; exact hsmall) (le_trans (by norm_num) hugeQ_100)
  have hy0 : 0 ≤ y := hfp.mono 0 (F * a) 0 y hFa0 (by simpa using hfp.dyadic 0 0 (by norm_num) (by norm_num)) hy
  have hy1 : y < 1 / 2 ^ 54 := by
    have h1 := (abs_le.mp hye).2
    have h2 := tinyQ_30
    have : (4 : ℚ) / 10 ^ 17 + 4 / 10 ^ 17 / 2 ^ 53 + 3 * (1 / 10 ^ 30) < 1 / 2 ^ 54 := by norm_num
    linarith
  have e1 : (FP.ieee sqrt).mul (.fin F) (.fin a) = .fin y := hy
  have e2 : (FP.ieee sqrt).sub (.fin 1) (.fin y) = .fin 1 := by
    show (FP.ieee sqrt).rnd (1 + -y) = _
    rw [← sub_eq_add_neg, rnd_one_sub sqrt hy0 hy1]
  rw [e1, e2]
  show (FP.ieee sqrt).rnd (1 + -1) = _
  rw [add_neg_cancel]
  simpa using hfp.dyadic 0 0 (by norm_num) (by norm_num)

/-- **C65** in binary64: at or above the number of degrees of freedom the continued fraction meets its stopping criterion
within the 10000 iterations for every statistic up to a million, so the evaluation sets its flag, unless the logarithm of the
factor is computed below that of 1e-37.  Partial: see `C65_high_rounded_partial`. -/
theorem C65_high_succeeds_rounded_partial (hfp : fp.Good) (h2 : AddTwo fp) {lm : Libm} {k : ℕ} (hk : 0 < k) {c : ℚ} (hc : 2 < c) (hb : k ≤ c)
    (hc' : c ≤ 10 ^ 6) (hr : fp.rnd (c / 2) = .fin (c / 2))
    (hu : FP.lt (fp.sub (fp.sub (fp.mul (.fin ((k : ℚ) / 2)) (lm.log (.fin (c / 2)))) (.fin (c / 2))) (lm.lgamma (.fin ((k : ℚ) / 2))))
      (lm.log (fp.rnd (1 / 10 ^ 37))) = false) : (pValue fp lm k (.fin c)).2 = true := by
  have hk' : (1 : ℚ) ≤ k := by exact_mod_cast hk
  have hp : (0 : ℚ) < (k : ℚ) / 2 := by positivity
  have hx1 : (1 : ℚ) < c / 2 := by linarith
  have hps : (k : ℚ) / 2 ≤ c / 2 := by linarith
  have hxb : c / 2 ≤ 500000 := by linarith
  have hk2 : k < 2 ^ 32 := by
    have : (k : ℚ) < 2 ^ 32 := lt_of_le_of_lt (hb.trans hc') (by norm_num)
    exact_mod_cast this
  rw [pValue_round hfp hk2 hr, gamain_high hx1 hp hps, if_neg (by rw [show Gamain.loguflo fp lm = lm.log (fp.rnd (1 / 10 ^ 37)) from rfl, hu]; simp)]
  rcases fraction_round hfp h2 hx1 hps hp hxb rfl (lm.exp (fp.sub (fp.sub (fp.mul (.fin ((k : ℚ) / 2)) (lm.log (.fin (c / 2)))) (.fin (c / 2)))
      (lm.lgamma (.fin ((k : ℚ) / 2))))) 10000 0 _ (by norm_num) (start_round hfp hx1 hps hp hxb rfl) with
    ⟨m, t, -, -, hfr, -⟩ | ⟨hfr, hfar⟩
  · rw [hfr]; simp
  · exfalso
    have hxr : (1 : ℝ) < ((c / 2 : ℚ) : ℝ) := by exact_mod_cast hx1
    have hpr : ((k / 2 : ℚ) : ℝ) ≤ ((c / 2 : ℚ) : ℝ) := by exact_mod_cast hps
    have hpr0 : (0 : ℝ) < ((k / 2 : ℚ) : ℝ) := by exact_mod_cast hp
    have hxbr : ((c / 2 : ℚ) : ℝ) ≤ 500000 := by exact_mod_cast hxb
    obtain ⟨m, m1, m2, m3⟩ := cdiff_small hxr hpr hpr0 hxbr
    have h1 := hfar m (by omega) (by omega)
    unfold cdiff at m3
    rw [← cvg_cast, ← cvg_cast, abs_sub_comm] at m3
    have h3 : ((|cvg (c / 2) ((k : ℚ) / 2) m - cvg (c / 2) ((k : ℚ) / 2) (m + 1)| : ℚ) : ℝ) ≤ ((1 / 10 ^ 16 : ℚ) : ℝ) := by
      push_cast at m3 ⊢; exact m3
    have h4 := Rat.cast_le.mp h3
    linarith

/-! ### the hypotheses are met -/

/-- The hypotheses of `C65_high_rounded_partial` and `C65_high_succeeds_rounded_partial` are met, in binary64: 3 degrees of
freedom, statistic 4, library accurate to 1e-12. -/
example (sqrt : Fl → Fl) : ∃ lm v, FactorComputed (FP.ieee sqrt) lm (4 / 2) (((3 : ℕ) : ℚ) / 2) (1 / 10 ^ 12) ∧ AddTwo (FP.ieee sqrt) ∧
    (FP.ieee sqrt).rnd (4 / 2) = .fin (4 / 2) ∧ pValue (FP.ieee sqrt) lm 3 (.fin 4) = (v, true) := by
  have hg : (FP.ieee sqrt).Good := FP.ieee_good sqrt
  obtain ⟨F, hF⟩ := exists_factor (4 / 2) (((3 : ℕ) : ℚ) / 2) (by norm_num) (by norm_num) (ε := 1 / 10 ^ 12) (by norm_num)
  have d1 : (FP.ieee sqrt).rnd (4 / 2) = .fin (4 / 2) := by
    have := hg.dyadic 2 0 (by norm_num) (by norm_num)
    norm_num at this ⊢
    exact this
  refine ⟨libmAt (4 / 2) F, _, ⟨F, rfl, hF⟩, addTwo_ieee sqrt, d1, Prod.ext rfl (C65_high_succeeds_rounded_partial hg (addTwo_ieee sqrt) (k := 3) (by norm_num) (c := 4)
    (by norm_num) (by norm_num) (by norm_num) d1 ?_)⟩
  obtain ⟨a, ha, hae⟩ := rnd_abs hg (q := 1 / 10 ^ 37) (M := 1 / 10) (by rw [abs_of_nonneg (by norm_num)]; norm_num) (le_trans (by norm_num) hugeQ_100)
  have ha1 : a ≠ 4 / 2 := by
    rintro rfl
    have h1 := (abs_le.mp hae).2
    have h2 : (1 : ℚ) / 10 / 2 ^ 53 ≤ 1 / 10 := by norm_num
    have h3 : (1 : ℚ) / 10 ^ 37 ≤ 1 / 10 := by norm_num
    have h4 : (3 : ℚ) * (1 / 10 ^ 30) ≤ 1 / 10 := by norm_num
    have := tinyQ_30
    linarith
  have e1 : (libmAt (4 / 2) F).log ((FP.ieee sqrt).rnd (1 / 10 ^ 37)) = .fin (-85) := by
    rw [ha]
    exact if_neg (fun h => ha1 (Fl.fin.inj h))
  have e2 : (libmAt (4 / 2) F).log (.fin (4 / 2)) = .fin 0 := if_pos rfl
  have e3 : (libmAt (4 / 2) F).lgamma (.fin (((3 : ℕ) : ℚ) / 2)) = .fin 0 := rfl
  have z : (FP.ieee sqrt).rnd 0 = .fin 0 := by simpa using hg.dyadic 0 0 (by norm_num) (by norm_num)
  have n1 : (FP.ieee sqrt).rnd (-2) = .fin (-2) := by simpa using hg.dyadic (-2) 0 (by norm_num) (by norm_num)
  have e4 : (FP.ieee sqrt).mul (.fin (((3 : ℕ) : ℚ) / 2)) (.fin 0) = .fin 0 := by
    show (FP.ieee sqrt).rnd _ = _
    rw [mul_zero, z]
  have e5 : (FP.ieee sqrt).sub (.fin 0) (.fin (4 / 2)) = .fin (-2) := by
    show (FP.ieee sqrt).rnd (0 + -(4 / 2)) = _
    rw [← n1]; norm_num
  have e6 : (FP.ieee sqrt).sub (.fin (-2)) (.fin 0) = .fin (-2) := by
    show (FP.ieee sqrt).rnd (-2 + -0) = _
    rw [← n1]; norm_num
  rw [e1, e2, e3, e4, e5, e6]
  show decide ((-2 : ℚ) < -85) = false
  norm_num

/-- The hypotheses of `C65_small_is_zero` are met: 2 degrees of freedom, statistic 80, whose tail probability `e^-40` is
about 4e-18. -/
example (sqrt : Fl → Fl) : ∃ lm v, FactorComputed (FP.ieee sqrt) lm (80 / 2) (((2 : ℕ) : ℚ) / 2) (1 / 10 ^ 12) ∧
    (FP.ieee sqrt).rnd (80 / 2) = .fin (80 / 2) ∧ chiSqTail 2 ((80 : ℚ) : ℝ) ≤ 1 / 10 ^ 17 ∧ pValue (FP.ieee sqrt) lm 2 (.fin 80) = (v, true) := by
  have hg : (FP.ieee sqrt).Good := FP.ieee_good sqrt
  obtain ⟨F, hF⟩ := exists_factor (80 / 2) (((2 : ℕ) : ℚ) / 2) (by norm_num) (by norm_num) (ε := 1 / 10 ^ 12) (by norm_num)
  have d1 : (FP.ieee sqrt).rnd (80 / 2) = .fin (80 / 2) := by
    have := hg.dyadic 40 0 (by norm_num) (by norm_num)
    norm_num at this ⊢
    exact this
  have hT : chiSqTail 2 ((80 : ℚ) : ℝ) ≤ 1 / 10 ^ 17 := by
    rw [chiSqTail_eq (by norm_num) (by norm_num)]
    have h1 := mom_parts_zero (80 / 2 : ℝ) 0 (by norm_num)
    rw [show (((2 : ℕ) : ℝ) / 2 - 1) = 0 by norm_num, show (((2 : ℕ) : ℝ) / 2) = 1 by norm_num, Real.Gamma_one, div_one]
    push_cast
    rw [zero_mul, add_zero, neg_inj, Real.rpow_zero, mul_one] at h1
    rw [h1, show (-(80 / 2) : ℝ) = -(((40 : ℕ) : ℝ) * 1) by norm_num, Real.exp_neg, Real.exp_nat_mul, one_div]
    refine inv_anti₀ (by norm_num) ?_
    have := Real.exp_one_gt_d9
    calc (10 : ℝ) ^ 17 ≤ 2.7182818283 ^ 40 := by norm_num
      _ ≤ rexp 1 ^ 40 := pow_le_pow_left₀ (by norm_num) this.le 40
  refine ⟨libmAt (80 / 2) F, _, ⟨F, rfl, hF⟩, d1, hT, Prod.ext rfl (C65_high_succeeds_rounded_partial hg (addTwo_ieee sqrt) (k := 2) (by norm_num) (c := 80)
    (by norm_num) (by norm_num) (by norm_num) d1 ?_)⟩
  obtain ⟨a, ha, hae⟩ := rnd_abs hg (q := 1 / 10 ^ 37) (M := 1 / 10) (by rw [abs_of_nonneg (by norm_num)]; norm_num) (le_trans (by norm_num) hugeQ_100)
  have ha1 : a ≠ 80 / 2 := by
    rintro rfl
    have h1 := (abs_le.mp hae).2
    have h2 : (1 : ℚ) / 10 / 2 ^ 53 ≤ 1 / 10 := by norm_num
    have h3 : (1 : ℚ) / 10 ^ 37 ≤ 1 / 10 := by norm_num
    have h4 : (3 : ℚ) * (1 / 10 ^ 30) ≤ 1 / 10 := by norm_num
    have := tinyQ_30
    linarith
  have e1 : (libmAt (80 / 2) F).log ((FP.ieee sqrt).rnd (1 / 10 ^ 37)) = .fin (-85) := by
    rw [ha]
    exact if_neg (fun h => ha1 (Fl.fin.inj h))
  have e2 : (libmAt (80 / 2) F).log (.fin (80 / 2)) = .fin 0 := if_pos rfl
  have e3 : (libmAt (80 / 2) F).lgamma (.fin (((2 : ℕ) : ℚ) / 2)) = .fin 0 := rfl
  have z : (FP.ieee sqrt).rnd 0 = .fin 0 := by simpa using hg.dyadic 0 0 (by norm_num) (by norm_num)
  have n1 : (FP.ieee sqrt).rnd (-40) = .fin (-40) := by simpa using hg.dyadic (-40) 0 (by norm_num) (by norm_num)
  have e4 : (FP.ieee sqrt).mul (.fin (((2 : ℕ) : ℚ) / 2)) (.fin 0) = .fin 0 := by
    show (FP.ieee sqrt).rnd _ = _
    rw [mul_zero, z]
  have e5 : (FP.ieee sqrt).sub (.fin 0) (.fin (80 / 2)) = .fin (-40) := by
    show (FP.ieee sqrt).rnd (0 + -(80 / 2)) = _
    rw [← n1]; norm_num
  have e6 : (FP.ieee sqrt).sub (.fin (-40)) (.fin 0) = .fin (-40) := by
    show (FP.ieee sqrt).rnd (-40 + -0) = _
    rw [← n1]; norm_num
  rw [e1, e2, e3, e4, e5, e6]
  show decide ((-40 : ℚ) < -85) = false
  norm_num

end HL

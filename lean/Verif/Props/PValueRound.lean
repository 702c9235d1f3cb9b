import Verif.Props.PValue
import Verif.Proof.PValueRound

/-
C65 in rounded arithmetic, for statistics below the number of degrees of freedom.
-/

namespace HL
open MeasureTheory Set Real GammaR HL.Integerise
variable {fp : FP}

/-- The factor `x^p e^-x / Γ(p)` as the code computes it, in the arithmetic `fp` and with the mathematics library `lm`, is
accurate to within a relative error of `ε`. -/
def FactorComputed (fp : FP) (lm : Libm) (x p : ℚ) (ε : ℝ) : Prop :=
  ∃ F : ℚ, lm.exp (fp.sub (fp.sub (fp.mul (.fin p) (lm.log (.fin x))) (.fin x)) (lm.lgamma (.fin p))) = .fin F ∧
    |(F : ℝ) - rexp (-x) * (x : ℝ) ^ (p : ℝ) / Real.Gamma p| ≤ ε * (rexp (-x) * (x : ℝ) ^ (p : ℝ) / Real.Gamma p)

/-- the partial sums of the series against the tail -/
theorem low_real {x p F ε τ : ℝ} (hx : 0 < x) (hp : 0 < p) (h : x ≤ 1 ∨ x < p) {m : ℕ} (hm : 1 ≤ m) (hτ : serTerm x p m ≤ τ)
    (hacc : |F - rexp (-x) * x ^ p / Real.Gamma p| ≤ ε * (rexp (-x) * x ^ p / Real.Gamma p)) :
    |1 - (∑ i ∈ Finset.range (m + 1), serTerm x p i) * F / p - mom x (p - 1) 0 / Real.Gamma p| ≤ ε + x * τ ∧
    (∑ i ∈ Finset.range (m + 1), serTerm x p i) * (rexp (-x) * x ^ p / Real.Gamma p) / p ≤ 1 ∧ 0 ≤ ε ∧
    0 < rexp (-x) * x ^ p / Real.Gamma p := by
  obtain ⟨hb1, hb2⟩ := series_bound hx hp m h hm
  have hadd := low_add hx hp
  have hG := Real.Gamma_pos_of_pos hp
  have hmom := mom_pos x (p - 1) hx 0
  have hS1 : 1 ≤ ∑ i ∈ Finset.range (m + 1), serTerm x p i := by
    rw [Finset.sum_range_succ']
    have : 0 ≤ ∑ i ∈ Finset.range m, serTerm x p (i + 1) := Finset.sum_nonneg fun i _ => (serTerm_pos hx hp _).le
    rw [show serTerm x p 0 = 1 from rfl]; linarith
  have ht0 := serTerm_pos hx hp m
  generalize ∑ i ∈ Finset.range (m + 1), serTerm x p i = S at *
  generalize mom x (p - 1) 0 = U at *
  generalize low x p = L at *
  have hf : 0 < rexp (-x) * x ^ p := by positivity
  generalize rexp (-x) * x ^ p = f at *
  generalize Real.Gamma p = G at *
  have hfS : f / p * S ≤ G := by linarith
  have ht : x * serTerm x p m ≤ x * τ := mul_le_mul_of_nonneg_left hτ hx.le
  have hxt : 0 ≤ x * τ := le_trans (by positivity) ht
  have hfp : f / p ≤ G := by
    have : 0 ≤ f / p := by positivity
    nlinarith
  have key1 : |L / G - f / G / p * S| ≤ x * τ := by
    have e : L / G - f / G / p * S = (L - f / p * S) / G := by field_simp
    rw [e, abs_of_nonneg (by positivity), div_le_iff₀ hG]
    calc L - f / p * S ≤ f / p * (x * serTerm x p m) := hb2
      _ ≤ f / p * (x * τ) := mul_le_mul_of_nonneg_left ht (by positivity)
      _ ≤ G * (x * τ) := mul_le_mul_of_nonneg_right hfp hxt
      _ = _ := by ring
  have h2 : 0 < f / G := by positivity
  have hε : 0 ≤ ε := by
    have := le_trans (abs_nonneg _) hacc
    by_contra hneg
    have := mul_neg_of_neg_of_pos (not_le.mp hneg) h2
    linarith
  have key2 : |f / G / p * S - S * F / p| ≤ ε := by
    have e : f / G / p * S - S * F / p = -((F - f / G) * (S / p)) := by field_simp; ring
    rw [e, abs_neg, abs_mul, abs_of_pos (show 0 < S / p by positivity)]
    calc |F - f / G| * (S / p) ≤ ε * (f / G) * (S / p) := mul_le_mul_of_nonneg_right hacc (by positivity)
      _ = ε * (f / p * S / G) := by field_simp
      _ ≤ ε * 1 := mul_le_mul_of_nonneg_left ((div_le_one hG).mpr hfS) hε
      _ = ε := mul_one ε
  refine ⟨?_, ?_, hε, h2⟩
  · have hU : U / G = 1 - L / G := by field_simp; linarith
    rw [hU]
    have : 1 - S * F / p - (1 - L / G) = (L / G - f / G / p * S) + (f / G / p * S - S * F / p) := by ring
    rw [this]
    calc _ ≤ _ := abs_add_le _ _
      _ ≤ x * τ + ε := add_le_add key1 key2
      _ = _ := by ring
  · rw [show S * (f / G) / p = f / p * S / G by field_simp]
    exact (div_le_one hG).mpr hfS

/-- rounding, with its absolute error -/
theorem rnd_abs (hfp : fp.Good) {q M : ℚ} (h : |q| ≤ M) (hM : M ≤ hugeQ) : ∃ a, fp.rnd q = .fin a ∧ |a - q| ≤ M / 2 ^ 53 + 3 * tinyQ := by
  have ht := tinyQ_pos
  have hM0 : 0 ≤ M := le_trans (abs_nonneg q) h
  by_cases hq : tinyQ ≤ |q|
  · obtain ⟨a, ha, hb⟩ := near' hfp q hq (by linarith)
    refine ⟨a, ha, hb.trans ?_⟩
    have : |q| / 2 ^ 53 ≤ M / 2 ^ 53 := by gcongr
    linarith
  · push Not at hq
    obtain ⟨a, ha, -, -⟩ := relA_rnd hfp (h.trans hM)
    have h1 := rnd_small hfp hq.le ha
    refine ⟨a, ha, ?_⟩
    have h2 := abs_sub a q
    have : 0 ≤ M / 2 ^ 53 := by positivity
    linarith

/-- what agrees up to `k` roundings and a small absolute error agrees absolutely -/
theorem RelA.abs {k : ℕ} {e x y : ℚ} (h : RelA k e x y) (hk : k ≤ 2 ^ 50) (hx : 0 ≤ x) (hy : 0 ≤ y) (he : 0 ≤ e) :
    |x - y| ≤ (k : ℚ) / 2 ^ 53 * (2 * y) + 2 * e := by
  have hu := uu_pow_ge k
  have hkq : (k : ℚ) ≤ 2 ^ 50 := by exact_mod_cast hk
  have hk0 : (0 : ℚ) ≤ k := Nat.cast_nonneg k
  have hδ : (k : ℚ) / 2 ^ 53 ≤ 1 / 8 := by
    rw [div_le_div_iff₀ (by positivity) (by norm_num)]
    calc (k : ℚ) * 8 ≤ 2 ^ 50 * 8 := by linarith
      _ = 1 * 2 ^ 53 := by norm_num
  have hδ0 : 0 ≤ (k : ℚ) / 2 ^ 53 := by positivity
  have h1 := mul_le_mul_of_nonneg_right hu hy
  have h2 := mul_le_mul_of_nonneg_right hu hx
  obtain ⟨h3, h4⟩ := h
  generalize (k : ℚ) / 2 ^ 53 = δ at *
  generalize uu ^ k = u at *
  have h5 : (1 - δ) * x ≤ y + e := by linarith
  rw [abs_le]
  constructor
  · nlinarith [mul_nonneg hδ0 hy]
  · have hx2 : x ≤ 8 / 7 * (y + e) := by nlinarith
    have : δ * x ≤ δ * (8 / 7 * (y + e)) := mul_le_mul_of_nonneg_left hx2 hδ0
    nlinarith [mul_nonneg hδ0 hy, mul_nonneg hδ0 he]

/-- what `pValue` passes to `gamain` in rounded arithmetic -/
theorem pValue_round (hfp : fp.Good) {lm : Libm} {k : ℕ} (hk2 : k < 2 ^ 32) {c : ℚ} (hr : fp.rnd (c / 2) = .fin (c / 2)) :
    pValue fp lm k (.fin c) = (fp.sub (.fin 1) (gamain fp lm (.fin (c / 2)) (.fin ((k : ℚ) / 2))).1,
      decide ((gamain fp lm (.fin (c / 2)) (.fin ((k : ℚ) / 2))).2 = 0)) := by
  have e1 : fp.div (.fin c) (.fin 2) = .fin (c / 2) := by
    unfold FP.div; simp [hr]
  have hkz : |(k : ℤ)| ≤ 2 ^ 53 := by
    rw [abs_of_nonneg (by positivity)]
    have : (k : ℤ) < 2 ^ 32 := by exact_mod_cast hk2
    exact this.le.trans (by norm_num)
  have e0 : fp.ofInt (k : ℤ) = .fin k := by
    have := hfp.dyadic (k : ℤ) 0 hkz (by norm_num)
    simpa [FP.ofInt] using this
  have e2 : fp.mul (fp.ofInt (k : ℤ)) (.fin (1 / 2)) = .fin ((k : ℚ) / 2) := by
    rw [e0]
    show fp.rnd ((k : ℚ) * (1 / 2)) = _
    have := hfp.dyadic (k : ℤ) 1 hkz (by norm_num)
    rw [show (k : ℚ) * (1 / 2) = ((k : ℤ) : ℚ) / 2 ^ 1 by push_cast; ring, this]
    push_cast; ring_nf
  unfold pValue
  rw [e1, e2]

/-- the series branch of `gamain` in rounded arithmetic -/
theorem gamain_low {lm : Libm} {x p : ℚ} (hx : 0 < x) (hp : 0 < p) (h : x ≤ 1 ∨ x < p) :
    gamain fp lm (.fin x) (.fin p) =
      if FP.lt (fp.sub (fp.sub (fp.mul (.fin p) (lm.log (.fin x))) (.fin x)) (lm.lgamma (.fin p))) (Gamain.loguflo fp lm) then (.fin 0, 3)
      else (fp.div (fp.mul (Gamain.series fp (.fin x) 10000 (.fin p) (.fin 1) (.fin 1)).1
        (lm.exp (fp.sub (fp.sub (fp.mul (.fin p) (lm.log (.fin x))) (.fin x)) (lm.lgamma (.fin p))))) (.fin p),
        if (Gamain.series fp (.fin x) 10000 (.fin p) (.fin 1) (.fin 1)).2 then 0 else 5) := by
  have e1 : FP.le (.fin p) (.fin 0) = false := decide_eq_false (not_le.mpr hp)
  have e2 : FP.lt (.fin x) (.fin 0) = false := decide_eq_false (not_lt.mpr hx.le)
  have e3 : FP.feq (.fin x) (.fin 0) = false := by unfold FP.feq; simp [hx.ne']
  have e7 : (FP.le (.fin x) (.fin 1) || FP.lt (.fin x) (.fin p)) = true := by
    rw [Bool.or_eq_true]
    exact h.imp decide_eq_true decide_eq_true
  unfold gamain
  rw [e1, e2, e3]
  simp only [Bool.false_eq_true, if_false, e7, if_true, show Gamain.maxIters = 10000 from rfl]

/-- **C65** in binary64 (or any arithmetic `fp.Good`), statistics below the number of degrees of freedom (or at most 2): a
p-value whose flag is set differs from the upper tail of the chi-squared distribution by at most the relative error of the
computed factor `x^p e^-x / Γ(p)`, plus 1e-8 times half the statistic, plus 1e-11 times two more than the statistic.
`hr`: half the statistic is a double, as it is for every double that is not the smallest.  Partial: statistics above the
number of degrees of freedom are in `C65_high_rounded_partial`. -/
theorem C65_low_rounded_partial (hfp : fp.Good) {lm : Libm} {k : ℕ} (hk : 0 < k) (hk2 : k < 2 ^ 32) {c : ℚ} (hc : 1 / 2 ^ 599 ≤ c)
    (hb : c ≤ 2 ∨ c < k) (hr : fp.rnd (c / 2) = .fin (c / 2)) {ε : ℝ} (hε1 : ε ≤ 1)
    (hlm : FactorComputed fp lm (c / 2) ((k : ℚ) / 2) ε) {v : Fl} (h : pValue fp lm k (.fin c) = (v, true)) :
    ∃ q : ℚ, v = .fin q ∧ |(q : ℝ) - chiSqTail k c| ≤ ε + c / 2 / 10 ^ 8 + (2 + c) / 10 ^ 11 := by
  obtain ⟨F, hF, hacc⟩ := hlm
  have hc0 : 0 < c := lt_of_lt_of_le (by positivity) hc
  have hk' : (0 : ℚ) < k := by exact_mod_cast hk
  have hp : (0 : ℚ) < (k : ℚ) / 2 := by positivity
  have hx : (0 : ℚ) < c / 2 := by positivity
  have hcase : c / 2 ≤ 1 ∨ c / 2 < (k : ℚ) / 2 := hb.imp (fun h => by linarith) (fun h => by linarith)
  have hx1 : 1 / 2 ^ 600 ≤ c / 2 := by
    rw [show (600 : ℕ) = 599 + 1 from rfl, pow_succ]
    calc (1 : ℚ) / (2 ^ 599 * 2) = 1 / 2 ^ 599 / 2 := by rw [div_div]
      _ ≤ c / 2 := by gcongr
  rw [pValue_round hfp hk2 hr, gamain_low hx hp hcase] at h
  obtain ⟨m, S', b, hs, -, hm, hrel, htrue, -⟩ := series_round hfp (p := (k : ℚ) / 2) rfl hk hk2 hx1 hcase 10000 0 1 1 (by norm_num)
    (by simpa [serQ] using Rel.refl 1) (by norm_num) (by simpa [sumQ, serQ] using Rel.refl 1)
  simp only [Nat.cast_zero, add_zero] at hs
  rw [hs, hF] at h
  split at h
  · simp at h
  cases b
  · simp at h
  obtain ⟨hm1, hterm⟩ := htrue rfl
  simp only [if_true, decide_true, Prod.mk.injEq, and_true] at h
  -- over the reals
  have hxr : (0 : ℝ) < ((c / 2 : ℚ) : ℝ) := by exact_mod_cast hx
  have hpr : (0 : ℝ) < ((k / 2 : ℚ) : ℝ) := by exact_mod_cast hp
  have hcr : ((c / 2 : ℚ) : ℝ) ≤ 1 ∨ ((c / 2 : ℚ) : ℝ) < ((k / 2 : ℚ) : ℝ) := hcase.imp (fun h => by exact_mod_cast h) (fun h => by exact_mod_cast h)
  have htr : serTerm ((c / 2 : ℚ) : ℝ) ((k / 2 : ℚ) : ℝ) m ≤ 1 / 10 ^ 8 * (1 + 3 / 10 ^ 10) := by
    rw [← serQ_cast]
    have := (Rat.cast_le (K := ℝ)).mpr hterm
    push_cast at this ⊢
    exact this
  obtain ⟨hreal, hone, hε0, hpos⟩ := low_real hxr hpr hcr hm1 htr hacc
  have htail := chiSqTail_eq hk (c := c) (by exact_mod_cast hc0)
  have ec : (c : ℝ) / 2 = ((c / 2 : ℚ) : ℝ) := by push_cast; ring
  have ek : (k : ℝ) / 2 = ((k / 2 : ℚ) : ℝ) := by push_cast; ring
  rw [ec, ek] at htail
  rw [← htail, ← sumQ_cast] at hreal
  rw [← sumQ_cast] at hone
  -- the size of the factor and of the product
  have hF0r : (0 : ℝ) ≤ F := by
    have := (abs_le.mp hacc).1
    nlinarith
  have hF2r : (F : ℝ) ≤ 2 * (rexp (-((c / 2 : ℚ) : ℝ)) * ((c / 2 : ℚ) : ℝ) ^ ((k / 2 : ℚ) : ℝ) / Real.Gamma ((k / 2 : ℚ) : ℝ)) := by
    have := (abs_le.mp hacc).2
    nlinarith
  have hF0 : 0 ≤ F := by exact_mod_cast hF0r
  obtain ⟨hS1, hS2⟩ := sumQ_bounds hx hp hcase m
  have hy2r : ((sumQ (c / 2) (k / 2) m * F / ((k : ℚ) / 2) : ℚ) : ℝ) ≤ 2 := by
    have hS0 : (0 : ℝ) ≤ ((sumQ (c / 2) (k / 2) m : ℚ) : ℝ) := by exact_mod_cast (by linarith : (0 : ℚ) ≤ sumQ (c / 2) (k / 2) m)
    have e : ((sumQ (c / 2) (k / 2) m * F / ((k : ℚ) / 2) : ℚ) : ℝ) = ((sumQ (c / 2) (k / 2) m : ℚ) : ℝ) * F / ((k / 2 : ℚ) : ℝ) := by push_cast; rfl
    rw [e]
    calc _ ≤ ((sumQ (c / 2) (k / 2) m : ℚ) : ℝ) * (2 * (rexp (-((c / 2 : ℚ) : ℝ)) * ((c / 2 : ℚ) : ℝ) ^ ((k / 2 : ℚ) : ℝ) / Real.Gamma ((k / 2 : ℚ) : ℝ))) / ((k / 2 : ℚ) : ℝ) := by
          gcongr
      _ = 2 * (((sumQ (c / 2) (k / 2) m : ℚ) : ℝ) * (rexp (-((c / 2 : ℚ) : ℝ)) * ((c / 2 : ℚ) : ℝ) ^ ((k / 2 : ℚ) : ℝ) / Real.Gamma ((k / 2 : ℚ) : ℝ)) / ((k / 2 : ℚ) : ℝ)) := by ring
      _ ≤ 2 := by linarith
  have hy2 : sumQ (c / 2) (k / 2) m * F / ((k : ℚ) / 2) ≤ 2 := by exact_mod_cast hy2r
  have hy0 : 0 ≤ sumQ (c / 2) (k / 2) m * F / ((k : ℚ) / 2) := by
    have : 0 ≤ sumQ (c / 2) (k / 2) m := by linarith
    positivity
  have hkb : (k : ℚ) / 2 ≤ 2 ^ 31 := by
    have : (k : ℚ) ≤ 2 ^ 32 := by exact_mod_cast hk2.le
    rw [show (2 : ℚ) ^ 31 = 2 ^ 32 / 2 by norm_num]
    gcongr
  have hSF : sumQ (c / 2) (k / 2) m * F ≤ 2 ^ 32 := by
    rw [div_le_iff₀ hp] at hy2
    calc _ ≤ 2 * ((k : ℚ) / 2) := hy2
      _ ≤ 2 * 2 ^ 31 := by gcongr
      _ = 2 ^ 32 := by norm_num
  have hS'0 : 0 ≤ S' := hrel.nonneg (by linarith)
  have hS'u := hrel.upper (by omega) hS'0
  have hSF' : S' * F ≤ 2 ^ 33 := by
    calc S' * F ≤ 2 * sumQ (c / 2) (k / 2) m * F := mul_le_mul_of_nonneg_right hS'u hF0
      _ = 2 * (sumQ (c / 2) (k / 2) m * F) := by ring
      _ ≤ 2 * 2 ^ 32 := by gcongr
      _ = 2 ^ 33 := by norm_num
  have hhuge := hugeQ_100
  have htiny := tinyQ_pos
  have htiny2 : tinyQ ≤ 1 / 10 ^ 16 := tinyQ_700.trans (one_div_le_one_div_of_le (by norm_num) (by
    calc (10 : ℚ) ^ 16 ≤ 2 ^ 100 := by norm_num
      _ ≤ _ := pow_le_pow_right₀ (by norm_num) (by norm_num)))
  obtain ⟨a, ha, hra, hap⟩ := relA_rnd hfp (q := S' * F) (by
    rw [abs_of_nonneg (by positivity)]
    exact hSF'.trans (le_trans (by norm_num) hhuge))
  have ha0 := hap (by positivity)
  rw [abs_of_nonneg ha0, abs_of_nonneg (by positivity : (0 : ℚ) ≤ S' * F)] at hra
  have hk1 : (1 : ℚ) ≤ k := by exact_mod_cast hk
  have hpinv : ((k : ℚ) / 2)⁻¹ ≤ 2 := by
    rw [inv_le_comm₀ hp (by norm_num)]
    linarith
  have hpinv0 : 0 ≤ ((k : ℚ) / 2)⁻¹ := by positivity
  have r1 : RelA 1 (2 * tinyQ * ((k : ℚ) / 2)⁻¹) (a * ((k : ℚ) / 2)⁻¹) (S' * F * ((k : ℚ) / 2)⁻¹) := hra.scale hpinv0
  have r2 : RelA (3 * m) 0 (S' * F * ((k : ℚ) / 2)⁻¹) (sumQ (c / 2) (k / 2) m * F * ((k : ℚ) / 2)⁻¹) := by
    have hr0 : RelA (3 * m) 0 S' (sumQ (c / 2) (k / 2) m) := ⟨by linarith [hrel.1], by linarith [hrel.2]⟩
    have := (hr0.scale hF0).scale hpinv0
    simpa using this
  have hapu : a / ((k : ℚ) / 2) ≤ 2 ^ 40 := by
    have h1 : a ≤ 2 ^ 35 := by
      have h2 := hra.2
      have h3 := uu_half (k := 1) (by norm_num)
      have h4 := mul_le_mul_of_nonneg_right h3 ha0
      have : (2 : ℚ) ^ 35 = 2 * (2 * 2 ^ 33) := by norm_num
      have : (1 : ℚ) / 10 ^ 16 ≤ 2 ^ 30 := by norm_num
      have : (2 : ℚ) ^ 30 ≤ 2 ^ 33 := by norm_num
      have : (2 : ℚ) ^ 30 = 1073741824 := by norm_num
      have : (2 : ℚ) ^ 33 = 8589934592 := by norm_num
      linarith
    rw [div_eq_mul_inv]
    calc a * ((k : ℚ) / 2)⁻¹ ≤ 2 ^ 35 * 2 := mul_le_mul h1 hpinv hpinv0 (by positivity)
      _ ≤ 2 ^ 40 := by norm_num
  obtain ⟨w, hw, hrw, hwp⟩ := relA_rnd hfp (q := a / ((k : ℚ) / 2)) (by
    rw [abs_of_nonneg (by positivity)]
    exact hapu.trans (le_trans (by norm_num) hhuge))
  have hw0 := hwp (by positivity)
  rw [abs_of_nonneg hw0, abs_of_nonneg (by positivity : (0 : ℚ) ≤ a / ((k : ℚ) / 2)), div_eq_mul_inv] at hrw
  have r3 := hrw.trans (r1.trans r2 (by positivity) le_rfl) (by positivity) (by positivity)
  rw [← div_eq_mul_inv (sumQ (c / 2) (k / 2) m * F)] at r3
  have habs := r3.abs (by omega) hw0 hy0 (by positivity)
  have he : 2 * tinyQ + (2 * tinyQ * ((k : ℚ) / 2)⁻¹ + 0) ≤ 6 * tinyQ := by nlinarith
  have hkm : ((1 + (1 + 3 * m) : ℕ) : ℚ) ≤ 30002 := by
    have : 1 + (1 + 3 * m) ≤ 30002 := by omega
    exact_mod_cast this
  have hwerr : |w - sumQ (c / 2) (k / 2) m * F / ((k : ℚ) / 2)| ≤ 7 / 10 ^ 12 * 2 := by
    refine habs.trans ?_
    have h1 : ((1 + (1 + 3 * m) : ℕ) : ℚ) / 2 ^ 53 ≤ 30002 / 2 ^ 53 := by gcongr
    have h2 : (30002 : ℚ) / 2 ^ 53 ≤ 34 / 10 ^ 13 := by norm_num
    have h3 : ((1 + (1 + 3 * m) : ℕ) : ℚ) / 2 ^ 53 * (2 * (sumQ (c / 2) (k / 2) m * F / ((k : ℚ) / 2))) ≤ 34 / 10 ^ 13 * (2 * 2) :=
      mul_le_mul (h1.trans h2) (by linarith) (by positivity) (by norm_num)
    have h4 : (12 : ℚ) * (1 / 10 ^ 16) ≤ 4 / 10 ^ 13 := by norm_num
    linarith
  have hwle : |1 - w| ≤ 3 := by
    have := abs_le.mp hwerr
    rw [abs_le]
    constructor
    · have h1 : (7 : ℚ) / 10 ^ 12 * 2 ≤ 1 := by norm_num
      linarith [this.2]
    · linarith
  obtain ⟨q, hq, hqe⟩ := rnd_abs hfp hwle (le_trans (by norm_num) hhuge)
  refine ⟨q, ?_, ?_⟩
  · rw [← h]
    have e1 : fp.mul (.fin S') (.fin F) = .fin a := ha
    have e2 : fp.div (.fin a) (.fin ((k : ℚ) / 2)) = .fin w := by
      unfold FP.div; simp [hk'.ne', hw]
    rw [e1, e2]
    show fp.rnd (1 + -w) = _
    rw [← sub_eq_add_neg, hq]
  · have hqe' : |q - (1 - w)| ≤ 1 / 10 ^ 15 := by
      refine hqe.trans ?_
      have : (3 : ℚ) / 2 ^ 53 ≤ 5 / 10 ^ 16 := by norm_num
      have : (3 : ℚ) * (1 / 10 ^ 16) = 3 / 10 ^ 16 := by norm_num
      linarith
    have hall : |q - (1 - sumQ (c / 2) (k / 2) m * F / ((k : ℚ) / 2))| ≤ 15 / 10 ^ 12 := by
      have e : q - (1 - sumQ (c / 2) (k / 2) m * F / ((k : ℚ) / 2)) = (q - (1 - w)) + -(w - sumQ (c / 2) (k / 2) m * F / ((k : ℚ) / 2)) := by ring
      rw [e]
      refine (abs_add_le _ _).trans ?_
      rw [abs_neg]
      have : (1 : ℚ) / 10 ^ 15 + 7 / 10 ^ 12 * 2 ≤ 15 / 10 ^ 12 := by norm_num
      linarith
    have hallr : |(q : ℝ) - (1 - ((sumQ (c / 2) (k / 2) m : ℚ) : ℝ) * F / ((k / 2 : ℚ) : ℝ))| ≤ 15 / 10 ^ 12 := by
      have := (Rat.cast_le (K := ℝ)).mpr hall
      push_cast at this ⊢
      exact this
    have e : (q : ℝ) - chiSqTail k c = ((q : ℝ) - (1 - ((sumQ (c / 2) (k / 2) m : ℚ) : ℝ) * F / ((k / 2 : ℚ) : ℝ))) +
        (1 - ((sumQ (c / 2) (k / 2) m : ℚ) : ℝ) * F / ((k / 2 : ℚ) : ℝ) - chiSqTail k c) := by ring
    rw [e]
    refine (abs_add_le _ _).trans ?_
    have hcr0 : (0 : ℝ) < c := by exact_mod_cast hc0
    rw [← ec] at hreal
    have h9 := add_le_add hallr hreal
    refine h9.trans ?_
    have e5 : (c : ℝ) / 2 * (1 / 10 ^ 8 * (1 + 3 / 10 ^ 10)) = c / 2 / 10 ^ 8 + c * (3 / (2 * 10 ^ 18)) := by ring
    rw [e5]
    have : (c : ℝ) * (3 / (2 * 10 ^ 18)) ≤ c * (1 / 10 ^ 11) := mul_le_mul_of_nonneg_left (by norm_num) hcr0.le
    have e6 : (2 + (c : ℝ)) / 10 ^ 11 = 2 / 10 ^ 11 + c * (1 / 10 ^ 11) := by ring
    rw [e6]
    have : (15 : ℝ) / 10 ^ 12 ≤ 2 / 10 ^ 11 := by norm_num
    linarith

/-- **C65** in binary64: below the number of degrees of freedom (or below 2) the evaluation sets its flag for every statistic up
to a million, unless the logarithm of the factor is computed below that of 1e-37.  Partial: see `C65_low_rounded_partial`. -/
theorem C65_low_succeeds_rounded_partial (hfp : fp.Good) {lm : Libm} {k : ℕ} (hk : 0 < k) (hk2 : k < 2 ^ 32) {c : ℚ}
    (hc : 1 / 2 ^ 599 ≤ c) (hb : c ≤ 2 ∨ c < k) (hc' : c ≤ 10 ^ 6) (hr : fp.rnd (c / 2) = .fin (c / 2))
    (hu : FP.lt (fp.sub (fp.sub (fp.mul (.fin ((k : ℚ) / 2)) (lm.log (.fin (c / 2)))) (.fin (c / 2))) (lm.lgamma (.fin ((k : ℚ) / 2))))
      (lm.log (fp.rnd (1 / 10 ^ 37))) = false) : (pValue fp lm k (.fin c)).2 = true := by
  have hc0 : 0 < c := lt_of_lt_of_le (by positivity) hc
  have hk' : (0 : ℚ) < k := by exact_mod_cast hk
  have hp : (0 : ℚ) < (k : ℚ) / 2 := by positivity
  have hx : (0 : ℚ) < c / 2 := by positivity
  have hcase : c / 2 ≤ 1 ∨ c / 2 < (k : ℚ) / 2 := hb.imp (fun h => by linarith) (fun h => by linarith)
  have hx1 : 1 / 2 ^ 600 ≤ c / 2 := by
    rw [show (600 : ℕ) = 599 + 1 from rfl, pow_succ]
    calc (1 : ℚ) / (2 ^ 599 * 2) = 1 / 2 ^ 599 / 2 := by rw [div_div]
      _ ≤ c / 2 := by gcongr
  obtain ⟨m, S', b, hs, -, hm, -, -, hfalse⟩ := series_round hfp (p := (k : ℚ) / 2) rfl hk hk2 hx1 hcase 10000 0 1 1 (by norm_num)
    (by simpa [serQ] using Rel.refl 1) (by norm_num) (by simpa [sumQ, serQ] using Rel.refl 1)
  simp only [Nat.cast_zero, add_zero] at hs
  rw [pValue_round hfp hk2 hr, gamain_low hx hp hcase, if_neg (by rw [show Gamain.loguflo fp lm = lm.log (fp.rnd (1 / 10 ^ 37)) from rfl, hu]; simp), hs]
  cases b
  · exfalso
    obtain ⟨rfl, hbig⟩ := hfalse rfl
    have hxr : (0 : ℝ) < ((c / 2 : ℚ) : ℝ) := by exact_mod_cast hx
    have hpr : (0 : ℝ) < ((k / 2 : ℚ) : ℝ) := by exact_mod_cast hp
    have hcr : ((c / 2 : ℚ) : ℝ) ≤ 1 ∨ ((c / 2 : ℚ) : ℝ) < ((k / 2 : ℚ) : ℝ) := hcase.imp (fun h => by exact_mod_cast h) (fun h => by exact_mod_cast h)
    have hxb : ((c / 2 : ℚ) : ℝ) ≤ 500000 := by
      have : (c / 2 : ℚ) ≤ 500000 := by linarith
      exact_mod_cast this
    have h1 := serTerm_small hxr hpr hcr hxb
    rw [← serQ_cast] at h1
    have h2 : serQ (c / 2) (k / 2) 10000 ≤ 1 / 10 ^ 9 := by
      have : ((serQ (c / 2) (k / 2) 10000 : ℚ) : ℝ) ≤ ((1 / 10 ^ 9 : ℚ) : ℝ) := h1.trans (by norm_num)
      exact Rat.cast_le.mp this
    have h3 : (1 : ℚ) / 10 ^ 9 < 1 / 10 ^ 8 * (1 - 2 / 10 ^ 10) := by norm_num
    linarith
  · simp

/-! ### the hypotheses are met -/

/-- The hypotheses of `C65_low_rounded_partial` and `C65_low_succeeds_rounded_partial` are met, in binary64: 3 degrees of
freedom, statistic 2, library accurate to 1e-12. -/
example (sqrt : Fl → Fl) : ∃ lm v, FactorComputed (FP.ieee sqrt) lm (2 / 2) (((3 : ℕ) : ℚ) / 2) (1 / 10 ^ 12) ∧
    (FP.ieee sqrt).rnd (2 / 2) = .fin (2 / 2) ∧ pValue (FP.ieee sqrt) lm 3 (.fin 2) = (v, true) := by
  have hg : (FP.ieee sqrt).Good := FP.ieee_good sqrt
  obtain ⟨F, hF⟩ := exists_factor (2 / 2) (((3 : ℕ) : ℚ) / 2) (by norm_num) (by norm_num) (ε := 1 / 10 ^ 12) (by norm_num)
  have d1 : (FP.ieee sqrt).rnd (2 / 2) = .fin (2 / 2) := by
    have := hg.dyadic 1 0 (by norm_num) (by norm_num)
    norm_num at this ⊢
    exact this
  refine ⟨libmAt (2 / 2) F, _, ⟨F, rfl, hF⟩, d1, Prod.ext rfl (C65_low_succeeds_rounded_partial hg (k := 3) (by norm_num) (by norm_num) (c := 2)
    (le_trans (div_le_one_of_le₀ (one_le_pow₀ (by norm_num)) (by positivity)) (by norm_num)) (by norm_num) (by norm_num) d1 ?_)⟩
  obtain ⟨a, ha, hae⟩ := rnd_abs hg (q := 1 / 10 ^ 37) (M := 1 / 10) (by rw [abs_of_nonneg (by norm_num)]; norm_num) (le_trans (by norm_num) hugeQ_100)
  have htiny2 : tinyQ ≤ 1 / 10 ^ 16 := tinyQ_700.trans (one_div_le_one_div_of_le (by norm_num) (by
    calc (10 : ℚ) ^ 16 ≤ 2 ^ 100 := by norm_num
      _ ≤ _ := pow_le_pow_right₀ (by norm_num) (by norm_num)))
  have ha1 : a ≠ 2 / 2 := by
    rintro rfl
    have h1 := (abs_le.mp hae).2
    have h2 : (1 : ℚ) / 10 / 2 ^ 53 ≤ 1 / 10 := by norm_num
    have h3 : (1 : ℚ) / 10 ^ 37 ≤ 1 / 10 := by norm_num
    have h4 : (3 : ℚ) * (1 / 10 ^ 16) ≤ 1 / 10 := by norm_num
    linarith
  have e1 : (libmAt (2 / 2) F).log ((FP.ieee sqrt).rnd (1 / 10 ^ 37)) = .fin (-85) := by
    rw [ha]
    exact if_neg (fun h => ha1 (Fl.fin.inj h))
  have e2 : (libmAt (2 / 2) F).log (.fin (2 / 2)) = .fin 0 := if_pos rfl
  have e3 : (libmAt (2 / 2) F).lgamma (.fin (((3 : ℕ) : ℚ) / 2)) = .fin 0 := rfl
  have z : (FP.ieee sqrt).rnd 0 = .fin 0 := by simpa using hg.dyadic 0 0 (by norm_num) (by norm_num)
  have n1 : (FP.ieee sqrt).rnd (-1) = .fin (-1) := by simpa using hg.dyadic (-1) 0 (by norm_num) (by norm_num)
  have e4 : (FP.ieee sqrt).mul (.fin (((3 : ℕ) : ℚ) / 2)) (.fin 0) = .fin 0 := by
    show (FP.ieee sqrt).rnd _ = _
    rw [mul_zero, z]
  have e5 : (FP.ieee sqrt).sub (.fin 0) (.fin (2 / 2)) = .fin (-1) := by
    show (FP.ieee sqrt).rnd (0 + -(2 / 2)) = _
    rw [← n1]; norm_num
  have e6 : (FP.ieee sqrt).sub (.fin (-1)) (.fin 0) = .fin (-1) := by
    show (FP.ieee sqrt).rnd (-1 + -0) = _
    rw [← n1]; norm_num
  rw [e1, e2, e3, e4, e5, e6]
  show decide ((-1 : ℚ) < -85) = false
  norm_num

end HL

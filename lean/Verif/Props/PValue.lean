import Verif.Proof.PValueLemmas
import Verif.Proof.FracErr

/-
C65: the p-value is the upper tail of the chi-squared distribution.
-/

namespace HL
open MeasureTheory Set Real

/-- The probability that a chi-squared variable with `k` degrees of freedom exceeds `c`: the integral of its density
`t^(k/2-1) e^(-t/2) / (2^(k/2) Γ(k/2))`. -/
noncomputable def chiSqTail (k : ℕ) (c : ℝ) : ℝ :=
  ∫ t in Ioi c, t ^ ((k : ℝ) / 2 - 1) * rexp (-t / 2) / (2 ^ ((k : ℝ) / 2) * Real.Gamma ((k : ℝ) / 2))

/-- The mathematics library is accurate at one point: `exp (p log x - x - lgamma p)` is `x^p e^-x / Γ(p)` to within a
relative error of `ε`. -/
def FactorWithin (lm : Libm) (x p : ℚ) (ε : ℝ) : Prop :=
  ∃ l g F : ℚ, lm.log (.fin x) = .fin l ∧ lm.lgamma (.fin p) = .fin g ∧ lm.exp (.fin (p * l - x - g)) = .fin F ∧
    |(F : ℝ) - rexp (-x) * (x : ℝ) ^ (p : ℝ) / Real.Gamma p| ≤ ε * (rexp (-x) * (x : ℝ) ^ (p : ℝ) / Real.Gamma p)

open GammaR

theorem chiSqTail_eq {k : ℕ} (hk : 0 < k) {c : ℝ} (hc : 0 < c) :
    chiSqTail k c = mom (c / 2) ((k : ℝ) / 2 - 1) 0 / Real.Gamma ((k : ℝ) / 2) := by
  have hs : (0 : ℝ) < (k : ℝ) / 2 := by positivity
  have h := integral_comp_mul_left_Ioi (fun t : ℝ => t ^ ((k : ℝ) / 2 - 1) * rexp (-t / 2) / (2 ^ ((k : ℝ) / 2) * Real.Gamma ((k : ℝ) / 2)))
    (c / 2) (b := 2) (by norm_num)
  rw [mul_div_cancel₀ c (by norm_num : (2 : ℝ) ≠ 0)] at h
  have h' : chiSqTail k c = 2 * ∫ t in Ioi (c / 2), (2 * t) ^ ((k : ℝ) / 2 - 1) * rexp (-(2 * t) / 2) / (2 ^ ((k : ℝ) / 2) * Real.Gamma ((k : ℝ) / 2)) := by
    rw [h, smul_eq_mul]; unfold chiSqTail; ring
  rw [h']
  unfold mom
  rw [← integral_const_mul, ← integral_div]
  refine setIntegral_congr_fun measurableSet_Ioi fun t ht => ?_
  have ht0 : 0 < t := lt_trans (by positivity) ht
  show 2 * ((2 * t) ^ ((k : ℝ) / 2 - 1) * rexp (-(2 * t) / 2) / (2 ^ ((k : ℝ) / 2) * Real.Gamma ((k : ℝ) / 2))) = rexp (-t) * t ^ ((k : ℝ) / 2 - 1) * (1 - c / 2 / t) ^ 0 / Real.Gamma ((k : ℝ) / 2)
  have hg := Real.Gamma_pos_of_pos hs
  have e1 : (2 : ℝ) ^ ((k : ℝ) / 2) = 2 ^ ((k : ℝ) / 2 - 1) * 2 := by
    rw [← Real.rpow_add_one (by norm_num)]; congr 1; ring
  have hp : (0 : ℝ) < 2 ^ ((k : ℝ) / 2 - 1) := by positivity
  rw [Real.mul_rpow (by norm_num) ht0.le, e1, show -(2 * t) / 2 = -t by ring, pow_zero, mul_one]
  field_simp

/-- The branches of `gamain` at a positive argument. -/
theorem gamain_cases {lm : Libm} {x p l g F : ℚ} (hx : 0 < x) (hp : 0 < p) (hl : lm.log (.fin x) = .fin l) (hg : lm.lgamma (.fin p) = .fin g)
    (hF : lm.exp (.fin (p * l - x - g)) = .fin F) {v : Fl} (h : gamain FP.exact lm (.fin x) (.fin p) = (v, 0)) :
    ((x ≤ 1 ∨ x < p) ∧ ∃ u, Gamain.series FP.exact (.fin x) 10000 (.fin p) (.fin 1) (.fin 1) = (u, true) ∧
      v = FP.exact.div (FP.exact.mul u (.fin F)) (.fin p)) ∨
    (1 < x ∧ p ≤ x ∧ Gamain.fraction FP.exact (.fin F) 10000 (Gamain.fracStart FP.exact (.fin x) (.fin p)) = some v) := by
  unfold gamain at h
  have e1 : FP.le (.fin p) (.fin 0) = false := decide_eq_false (not_le.mpr hp)
  have e2 : FP.lt (.fin x) (.fin 0) = false := decide_eq_false (not_lt.mpr hx.le)
  have e3 : FP.feq (.fin x) (.fin 0) = false := by unfold FP.feq; simp [hx.ne']
  have e4 : FP.exact.sub (FP.exact.sub (FP.exact.mul (.fin p) (.fin l)) (.fin x)) (.fin g) = .fin (p * l - x - g) := by
    show Fl.fin _ = Fl.fin _
    congr 1; ring
  rw [e1, e2, e3] at h
  simp only [Bool.false_eq_true, if_false, hl, hg, e4, hF] at h
  split at h
  · simp at h
  · split at h
    · rename_i hc
      left
      refine ⟨?_, ?_⟩
      · rw [Bool.or_eq_true] at hc
        exact hc.imp of_decide_eq_true of_decide_eq_true
      · obtain ⟨u, b, hu⟩ : ∃ u b, Gamain.series FP.exact (.fin x) 10000 (.fin p) (.fin 1) (.fin 1) = (u, b) := ⟨_, _, rfl⟩
        rw [show Gamain.maxIters = 10000 from rfl, hu] at h
        cases b
        · simp at h
        · exact ⟨u, hu, by simpa using h.symm⟩
    · rename_i hc
      right
      rw [Bool.or_eq_true, not_or] at hc
      have h1 : ¬ x ≤ 1 := fun hh => hc.1 (decide_eq_true hh)
      have h2 : ¬ x < p := fun hh => hc.2 (decide_eq_true hh)
      refine ⟨not_le.mp h1, not_lt.mp h2, ?_⟩
      rw [show Gamain.maxIters = 10000 from rfl] at h
      split at h
      · rename_i w hw
        simp only [Prod.mk.injEq, and_true] at h
        rw [← h, hw]
      · simp at h

/-- what `pValue` passes to `gamain` in exact arithmetic -/
theorem pValue_exact {lm : Libm} {k : ℕ} {c : ℚ} {v : Fl} (h : pValue FP.exact lm k (.fin c) = (v, true)) :
    ∃ w, gamain FP.exact lm (.fin (c / 2)) (.fin ((k : ℚ) / 2)) = (w, 0) ∧ v = FP.exact.sub (.fin 1) w := by
  unfold pValue at h
  have e1 : FP.exact.div (.fin c) (.fin 2) = .fin (c / 2) := div_exact (by norm_num)
  have e2 : FP.exact.mul (FP.exact.ofInt (k : ℤ)) (.fin (1 / 2)) = .fin ((k : ℚ) / 2) := by
    show Fl.fin _ = Fl.fin _
    congr 1; push_cast; ring
  rw [e1, e2] at h
  obtain ⟨w, b, hw⟩ : ∃ w b, gamain FP.exact lm (.fin (c / 2)) (.fin ((k : ℚ) / 2)) = (w, b) := ⟨_, _, rfl⟩
  rw [hw] at h ⊢
  simp only [Prod.mk.injEq, decide_eq_true_eq] at h
  refine ⟨w, by rw [h.2], h.1.symm⟩

/-- **C65**, statistics below the number of degrees of freedom (or below 2): a p-value whose flag is set differs from the
upper tail of the chi-squared distribution by at most the relative error of the mathematics library, plus 1e-8 times half
the statistic.  Partial: rounding of the arithmetic operations is not accounted for. -/
theorem C65_low_partial {lm : Libm} {k : ℕ} (hk : 0 < k) {c : ℚ} (hc : 0 < c) (hb : c ≤ 2 ∨ c < k) {ε : ℝ}
    (hlm : FactorWithin lm (c / 2) ((k : ℚ) / 2) ε) {v : Fl} (h : pValue FP.exact lm k (.fin c) = (v, true)) :
    ∃ q : ℚ, v = .fin q ∧ |(q : ℝ) - chiSqTail k c| ≤ ε + c / 2 / 10 ^ 8 := by
  obtain ⟨w, hw, rfl⟩ := pValue_exact h
  obtain ⟨l, g, F, hl, hg, hF, hacc⟩ := hlm
  have hk' : (0 : ℚ) < k := by exact_mod_cast hk
  have hp : (0 : ℚ) < (k : ℚ) / 2 := by positivity
  have hx : (0 : ℚ) < c / 2 := by positivity
  have hcase : c / 2 ≤ 1 ∨ c / 2 < (k : ℚ) / 2 := hb.imp (fun h => by linarith) (fun h => by linarith)
  rcases gamain_cases hx hp hl hg hF hw with ⟨-, u, hu, rfl⟩ | ⟨h1, h2, -⟩
  swap
  · rcases hcase with h | h <;> linarith
  obtain ⟨m, hm1, -, hterm, S, rfl, hS⟩ := series_exact hp 10000 0 ((k : ℚ) / 2) 1 1 u (by simp) (by simp [serTerm]) (by simp [serTerm]) hu
  have hxr : (0 : ℝ) < ((c / 2 : ℚ) : ℝ) := by exact_mod_cast hx
  have hpr : (0 : ℝ) < ((k / 2 : ℚ) : ℝ) := by exact_mod_cast hp
  have hcr : ((c / 2 : ℚ) : ℝ) ≤ 1 ∨ ((c / 2 : ℚ) : ℝ) < ((k / 2 : ℚ) : ℝ) := hcase.imp (fun h => by exact_mod_cast h) (fun h => by exact_mod_cast h)
  obtain ⟨hb1, hb2⟩ := series_bound hxr hpr m hcr (by omega)
  rw [← hS] at hb1 hb2
  have hadd := low_add hxr hpr
  have hG := Real.Gamma_pos_of_pos hpr
  have hmom := mom_pos ((c / 2 : ℚ) : ℝ) (((k / 2 : ℚ) : ℝ) - 1) hxr 0
  have htail := chiSqTail_eq hk (c := c) (by exact_mod_cast hc)
  have ec : (c : ℝ) / 2 = ((c / 2 : ℚ) : ℝ) := by push_cast; ring
  have ek : (k : ℝ) / 2 = ((k / 2 : ℚ) : ℝ) := by push_cast; ring
  rw [ec, ek] at htail
  have hS0 : (0 : ℝ) < S := by
    rw [hS]
    exact Finset.sum_pos (fun i _ => serTerm_pos hxr hpr i) ⟨0, by simp⟩
  refine ⟨1 - S * F / ((k : ℚ) / 2), ?_, ?_⟩
  · have e1 : FP.exact.mul (.fin S) (.fin F) = .fin (S * F) := rfl
    rw [e1, div_exact hp.ne']
    show Fl.fin _ = Fl.fin _
    congr 1
    ring
  rw [htail, ec]
  have eq1 : ((1 - S * F / ((k : ℚ) / 2) : ℚ) : ℝ) = 1 - S * F / ((k / 2 : ℚ) : ℝ) := by push_cast; ring
  rw [eq1]
  generalize ((c / 2 : ℚ) : ℝ) = x at *
  generalize ((k / 2 : ℚ) : ℝ) = p at *
  generalize (S : ℝ) = S' at *
  generalize (F : ℝ) = F' at *
  generalize mom x (p - 1) 0 = U at *
  generalize low x p = L at *
  have hf : 0 < rexp (-x) * x ^ p := by positivity
  generalize rexp (-x) * x ^ p = f at *
  generalize Real.Gamma p = G at *
  have hfS : f / p * S' ≤ G := by linarith
  have ht : x * serTerm x p m ≤ x / 10 ^ 8 := by
    have := mul_le_mul_of_nonneg_left hterm hxr.le
    calc x * serTerm x p m ≤ x * (1 / 10 ^ 8) := this
      _ = x / 10 ^ 8 := by ring
  have hfp : f / p ≤ G := by
    have hS1 : 1 ≤ S' := by
      rw [hS, Finset.sum_range_succ']
      have : 0 ≤ ∑ i ∈ Finset.range m, serTerm x p (i + 1) := Finset.sum_nonneg fun i _ => (serTerm_pos hxr hpr _).le
      rw [show serTerm x p 0 = 1 from rfl]; linarith
    have : 0 ≤ f / p := by positivity
    nlinarith
  have key1 : |L / G - f / G / p * S'| ≤ x / 10 ^ 8 := by
    have e : L / G - f / G / p * S' = (L - f / p * S') / G := by field_simp
    rw [e, abs_of_nonneg (by positivity), div_le_iff₀ hG]
    calc L - f / p * S' ≤ f / p * (x * serTerm x p m) := hb2
      _ ≤ f / p * (x / 10 ^ 8) := mul_le_mul_of_nonneg_left ht (by positivity)
      _ ≤ G * (x / 10 ^ 8) := mul_le_mul_of_nonneg_right hfp (by positivity)
      _ = _ := by ring
  have hε : 0 ≤ ε := by
    have := le_trans (abs_nonneg _) hacc
    have h2 : 0 < f / G := by positivity
    by_contra hneg
    have := mul_neg_of_neg_of_pos (not_le.mp hneg) h2
    linarith
  have key2 : |f / G / p * S' - S' * F' / p| ≤ ε := by
    have e : f / G / p * S' - S' * F' / p = -((F' - f / G) * (S' / p)) := by field_simp; ring
    rw [e, abs_neg, abs_mul, abs_of_pos (show 0 < S' / p by positivity)]
    calc |F' - f / G| * (S' / p) ≤ ε * (f / G) * (S' / p) := mul_le_mul_of_nonneg_right hacc (by positivity)
      _ = ε * (f / p * S' / G) := by field_simp
      _ ≤ ε * 1 := mul_le_mul_of_nonneg_left ((div_le_one hG).mpr hfS) hε
      _ = ε := mul_one ε
  have hU : U / G = 1 - L / G := by field_simp; linarith
  rw [hU]
  have : 1 - S' * F' / p - (1 - L / G) = (L / G - f / G / p * S') + (f / G / p * S' - S' * F' / p) := by ring
  rw [this]
  calc _ ≤ _ := abs_add_le _ _
    _ ≤ x / 10 ^ 8 + ε := add_le_add key1 key2
    _ = _ := by ring

/-- **C65**, statistics at least the number of degrees of freedom (and above 2): a p-value whose flag is set has, relative
to the upper tail of the chi-squared distribution, an error of at most twice that of the mathematics library plus 1e-5 (the
code stops when two successive approximations agree to 1e-8, or after 10000).  Partial: rounding of the arithmetic
operations is not accounted for. -/
theorem C65_high_partial {lm : Libm} {k : ℕ} (hk : 0 < k) {c : ℚ} (hc : 2 < c) (hb : k ≤ c) {ε : ℝ}
    (hlm : FactorWithin lm (c / 2) ((k : ℚ) / 2) ε) {v : Fl} (h : pValue FP.exact lm k (.fin c) = (v, true)) :
    ∃ q : ℚ, v = .fin q ∧ |(q : ℝ) - chiSqTail k c| ≤ (2 * ε + 1 / 10 ^ 5) * chiSqTail k c := by
  obtain ⟨w, hw, rfl⟩ := pValue_exact h
  obtain ⟨l, g, F, hl, hg, hF, hacc⟩ := hlm
  have hk' : (1 : ℚ) ≤ k := by exact_mod_cast hk
  have hp : (0 : ℚ) < (k : ℚ) / 2 := by positivity
  have hx : (0 : ℚ) < c / 2 := by linarith
  rcases gamain_cases hx hp hl hg hF hw with ⟨h1, -⟩ | ⟨h1, h2, hfr⟩
  · rcases h1 with h1 | h1 <;> linarith
  have hxr : (1 : ℝ) < ((c / 2 : ℚ) : ℝ) := by exact_mod_cast h1
  have hpr : ((k / 2 : ℚ) : ℝ) ≤ ((c / 2 : ℚ) : ℝ) := by exact_mod_cast h2
  have hpr0 : (0 : ℝ) < ((k / 2 : ℚ) : ℝ) := by exact_mod_cast hp
  have hpr1 : (1 / 2 : ℝ) ≤ ((k / 2 : ℚ) : ℝ) := by
    have : (1 : ℝ) ≤ k := by exact_mod_cast hk
    push_cast; linarith
  have hx0 : (0 : ℝ) < ((c / 2 : ℚ) : ℝ) := by linarith
  have hden1 := (den_bounds hxr hpr 1).1
  have hd1 : (c / 2 * (1 - k / 2 + c / 2 + 1) : ℚ) ≠ 0 := by
    have : (0 : ℚ) < 1 - k / 2 + c / 2 + 1 := by linarith
    positivity
  have hstart : Gamain.fracStart FP.exact (.fin (c / 2)) (.fin ((k : ℚ) / 2)) =
      ⟨.fin (((0 : ℕ) : ℚ) + 1 - (k : ℚ) / 2), .fin (c / 2 + 2 * ((0 : ℕ) : ℚ) + 2 - (k : ℚ) / 2), .fin ((0 : ℕ) : ℚ),
        .fin ((c / 2 + 1) / (c / 2 * (1 - k / 2 + c / 2 + 1))), .fin 1, .fin (c / 2), .fin (c / 2 + 1), .fin (c / 2 * (1 - k / 2 + c / 2 + 1))⟩ := by
    unfold Gamain.fracStart
    have ea : FP.exact.sub (.fin 1) (.fin ((k : ℚ) / 2)) = .fin (1 - (k : ℚ) / 2) := by
      show Fl.fin _ = Fl.fin _
      congr 1; ring
    have eb : FP.exact.add (FP.exact.add (.fin (1 - (k : ℚ) / 2)) (.fin (c / 2))) (.fin 1) = .fin (1 - k / 2 + c / 2 + 1) := rfl
    have e2 : FP.exact.add (.fin (c / 2)) (.fin 1) = .fin (c / 2 + 1) := rfl
    have e3 : FP.exact.mul (.fin (c / 2)) (.fin (1 - k / 2 + c / 2 + 1)) = .fin (c / 2 * (1 - k / 2 + c / 2 + 1)) := rfl
    simp only [ea, eb, e2, e3, div_exact hd1, Nat.cast_zero]
    rw [show (0 : ℚ) + 1 - k / 2 = 1 - k / 2 by ring, show c / 2 + 2 * (0 : ℚ) + 2 - k / 2 = 1 - k / 2 + c / 2 + 1 by ring]
  rw [hstart] at hfr
  obtain ⟨m, hm1, hm2, G', R, rfl, hG', hR, hdif1, hdif2⟩ := fraction_exact h1 h2 10000 0 1 _ _ _ _ _ w one_pos
    (by simp [num]) (by simp [den]) (by simp [num])
    (by simp only [den, zero_add]; push_cast; ring) (by simp only [den, num, zero_add]; push_cast; ring_nf) hfr
  obtain ⟨hE1, hE2⟩ := cerr_bound' hxr hpr hpr1 (n := m) (by omega)
  have hG := Real.Gamma_pos_of_pos hpr0
  have hmom := mom_pos ((c / 2 : ℚ) : ℝ) (((k / 2 : ℚ) : ℝ) - 1) hx0 0
  have htail := chiSqTail_eq hk (c := c) (by exact_mod_cast (by linarith : (0 : ℚ) < c))
  have ec : (c : ℝ) / 2 = ((c / 2 : ℚ) : ℝ) := by push_cast; ring
  have ek : (k : ℝ) / 2 = ((k / 2 : ℚ) : ℝ) := by push_cast; ring
  rw [ec, ek] at htail
  refine ⟨F * G', ?_, ?_⟩
  · show Fl.fin _ = Fl.fin _
    congr 1
    ring
  rw [htail]
  unfold cerr at hE1 hE2
  rw [← hG', ← hR] at hE1
  rw [← hG', ← hR] at hE2
  have hdif1' : |(G' : ℝ) - R| ≤ 1 / 10 ^ 8 := by
    have := (Rat.cast_le (K := ℝ)).mpr hdif1
    push_cast at this; exact this
  have hdif2' : |(G' : ℝ) - R| ≤ 1 / 10 ^ 8 * R := by
    have := (Rat.cast_le (K := ℝ)).mpr hdif2
    push_cast at this; exact this
  rw [show ((F * G' : ℚ) : ℝ) = (F : ℝ) * G' by push_cast; ring]
  have hf : 0 < rexp (-((c / 2 : ℚ) : ℝ)) * ((c / 2 : ℚ) : ℝ) ^ ((k / 2 : ℚ) : ℝ) := by positivity
  generalize mom ((c / 2 : ℚ) : ℝ) (((k / 2 : ℚ) : ℝ) - 1) 0 = U at *
  generalize rexp (-((c / 2 : ℚ) : ℝ)) * ((c / 2 : ℚ) : ℝ) ^ ((k / 2 : ℚ) : ℝ) = f at *
  generalize Real.Gamma ((k / 2 : ℚ) : ℝ) = G at *
  generalize (G' : ℝ) = a at *
  generalize (R : ℝ) = r at *
  generalize (F : ℝ) = F' at *
  -- the distance of successive convergents, scaled
  have hD : |U - f * a - (U - f * r)| = f * |a - r| := by
    rw [show U - f * a - (U - f * r) = -(f * (a - r)) by ring, abs_neg, abs_mul, abs_of_pos hf]
  rw [hD] at hE1 hE2
  have hd0 := abs_nonneg (a - r)
  have hr0 : 0 ≤ r := by
    have : (0 : ℝ) ≤ 1 / 10 ^ 8 * r := le_trans hd0 hdif2'
    linarith
  have hfr0 : 0 ≤ f * r := by positivity
  have hfd : f * |a - r| ≤ 1 / 10 ^ 8 * (f * r) := by
    calc f * |a - r| ≤ f * (1 / 10 ^ 8 * r) := mul_le_mul_of_nonneg_left hdif2' hf.le
      _ = _ := by ring
  have hM : 804 * (f * |a - r|) ≤ 804 / 10 ^ 8 * (f * r) := by linarith
  have hrU : f * r ≤ 10003 / 10000 * U := by
    have := (abs_le.mp (le_trans hE2 hM)).1
    linarith
  have hUa : |U - f * a| ≤ 9 / 10 ^ 6 * U := by
    refine le_trans (le_trans hE1 hM) ?_
    linarith
  have hfa : f * |a| ≤ 2 * U := by
    have h1 := abs_le.mp hUa
    rw [← abs_of_pos hf, ← abs_mul, abs_le]
    constructor <;> linarith
  have hε : 0 ≤ ε := by
    have := le_trans (abs_nonneg _) hacc
    have h2 : 0 < f / G := by positivity
    by_contra hneg
    have := mul_neg_of_neg_of_pos (not_le.mp hneg) h2
    linarith
  have e : F' * a - U / G = (F' - f / G) * a + -((U - f * a) / G) := by field_simp; ring
  rw [e]
  calc _ ≤ |(F' - f / G) * a| + |-((U - f * a) / G)| := abs_add_le _ _
    _ = |F' - f / G| * |a| + |U - f * a| / G := by rw [abs_mul, abs_neg, abs_div, abs_of_pos hG]
    _ ≤ ε * (f / G) * |a| + 9 / 10 ^ 6 * U / G := by gcongr
    _ = ε * (f * |a|) / G + 9 / 10 ^ 6 * U / G := by ring
    _ ≤ ε * (2 * U) / G + 1 / 10 ^ 5 * U / G := by
      have h1 : ε * (f * |a|) / G ≤ ε * (2 * U) / G := by gcongr
      have h2 : 0 < U / G := by positivity
      rw [mul_div_assoc (9 / 10 ^ 6), mul_div_assoc (1 / 10 ^ 5)]
      linarith
    _ = _ := by ring

/-- the terms of the series are small after 10000 iterations -/
theorem serTerm_small {x s : ℝ} (hx : 0 < x) (hs : 0 < s) (h : x ≤ 1 ∨ x < s) (hx' : x ≤ 500000) : serTerm x s 10000 ≤ 1 / 10 ^ 9 := by
  have hle : ∀ n, serTerm x s (n + 1) ≤ serTerm x s n * (x / (s + (n + 1))) := fun n => le_of_eq (mul_div_assoc _ _ _)
  have h1 : ∀ n, serTerm x s n ≤ 1 := by
    intro n
    induction n with
    | zero => exact le_refl _
    | succ n ih =>
      refine le_trans (hle n) ?_
      have hn : (0 : ℝ) ≤ n := Nat.cast_nonneg n
      refine mul_le_one₀ ih (by positivity) ?_
      rw [div_le_one (by positivity)]
      rcases h with h | h <;> linarith
  have h2 : ∀ n, serTerm x s (5000 + n) ≤ (100 / 101 : ℝ) ^ n := by
    intro n
    induction n with
    | zero => simpa using h1 5000
    | succ n ih =>
      refine le_trans (hle (5000 + n)) ?_
      rw [pow_succ]
      have hn : (0 : ℝ) ≤ n := Nat.cast_nonneg n
      refine mul_le_mul ih ?_ (by positivity) (by positivity)
      rw [div_le_div_iff₀ (by positivity) (by norm_num)]
      push_cast
      rcases h with h | h <;> nlinarith
  refine le_trans (h2 5000) ?_
  calc (100 / 101 : ℝ) ^ 5000 = ((100 / 101) ^ 100) ^ 50 := by rw [← pow_mul]
    _ ≤ (1 / 2) ^ 50 := by
      refine pow_le_pow_left₀ (by positivity) ?_ 50
      have := one_add_mul_le_pow (a := (1 / 100 : ℝ)) (by norm_num) 100
      rw [show (100 / 101 : ℝ) = (1 + 1 / 100)⁻¹ by norm_num, inv_pow]
      rw [inv_le_comm₀ (by positivity) (by norm_num)]
      refine le_trans ?_ this
      norm_num
    _ ≤ 1 / 10 ^ 9 := by norm_num

theorem series_succeeds {x p : ℚ} (hp : 0 < p) : ∀ (k n : ℕ) (r t g : ℚ), r = p + n → (t : ℝ) = serTerm x p n →
    (∃ m, n + 1 ≤ m ∧ m ≤ n + k ∧ serTerm x p m ≤ 1 / 10 ^ 8) →
    ∃ g' : ℚ, Gamain.series FP.exact (.fin x) k (.fin r) (.fin t) (.fin g) = (.fin g', true) := by
  intro k
  induction k with
  | zero => rintro n r t g _ _ ⟨m, h1, h2, -⟩; omega
  | succ k ih =>
    rintro n r t g hr ht ⟨m, hm1, hm2, hm3⟩
    have hr1 : (r + 1 : ℚ) ≠ 0 := by
      have : (0 : ℚ) ≤ n := Nat.cast_nonneg n
      rw [hr]; positivity
    unfold Gamain.series
    have e1 : FP.exact.add (.fin r) (.fin 1) = .fin (r + 1) := rfl
    have e2 : FP.exact.mul (.fin t) (.fin x) = .fin (t * x) := rfl
    have e4 : FP.exact.add (.fin g) (.fin (t * x / (r + 1))) = .fin (g + t * x / (r + 1)) := rfl
    have e5 : Gamain.acu FP.exact = .fin (1 / 10 ^ 8) := rfl
    simp only [e1, e2, div_exact hr1, e4, e5, le_fin]
    have ht' : ((t * x / (r + 1) : ℚ) : ℝ) = serTerm x p (n + 1) := by
      unfold serTerm
      push_cast
      rw [ht, hr]
      push_cast
      congr 1; ring
    by_cases hc : (t * x / (r + 1) : ℚ) ≤ 1 / 10 ^ 8
    · rw [if_pos (decide_eq_true hc)]
      exact ⟨_, rfl⟩
    · rw [if_neg (by simpa using hc)]
      refine ih (n + 1) (r + 1) _ _ (by rw [hr]; push_cast; ring) ht' ⟨m, ?_, by omega, hm3⟩
      rcases Nat.lt_or_ge (n + 1) m with h | h
      · exact h
      · exfalso
        have : m = n + 1 := by omega
        rw [this, ← ht'] at hm3
        apply hc
        have h2 : ((t * x / (r + 1) : ℚ) : ℝ) ≤ ((1 / 10 ^ 8 : ℚ) : ℝ) := le_trans hm3 (le_of_eq (by norm_num))
        exact Rat.cast_le.mp h2

/-- **C65**: below the number of degrees of freedom (or below 2) the evaluation never fails for statistics up to a million,
unless the factor `x^p e^-x / Γ(p)` is below 1e-37.  Partial: exact arithmetic; above the number of degrees of freedom see
`C65_high_succeeds_partial`. -/
theorem C65_low_succeeds_partial {lm : Libm} {k : ℕ} (hk : 0 < k) {c : ℚ} (hc : 0 < c) (hb : c ≤ 2 ∨ c < k) (hc' : c ≤ 10 ^ 6)
    {l g F u : ℚ} (hl : lm.log (.fin (c / 2)) = .fin l) (hg : lm.lgamma (.fin ((k : ℚ) / 2)) = .fin g)
    (hF : lm.exp (.fin ((k : ℚ) / 2 * l - c / 2 - g)) = .fin F) (hu : lm.log (.fin (1 / 10 ^ 37)) = .fin u)
    (hu' : u ≤ (k : ℚ) / 2 * l - c / 2 - g) : ∃ q : ℚ, pValue FP.exact lm k (.fin c) = (.fin q, true) := by
  have hk' : (0 : ℚ) < k := by exact_mod_cast hk
  have hp : (0 : ℚ) < (k : ℚ) / 2 := by positivity
  have hx : (0 : ℚ) < c / 2 := by positivity
  have hcase : c / 2 ≤ 1 ∨ c / 2 < (k : ℚ) / 2 := hb.imp (fun h => by linarith) (fun h => by linarith)
  have hxr : (0 : ℝ) < ((c / 2 : ℚ) : ℝ) := by exact_mod_cast hx
  have hpr : (0 : ℝ) < ((k / 2 : ℚ) : ℝ) := by exact_mod_cast hp
  have hcr : ((c / 2 : ℚ) : ℝ) ≤ 1 ∨ ((c / 2 : ℚ) : ℝ) < ((k / 2 : ℚ) : ℝ) := hcase.imp (fun h => by exact_mod_cast h) (fun h => by exact_mod_cast h)
  have hxb : ((c / 2 : ℚ) : ℝ) ≤ 500000 := by
    have : (c / 2 : ℚ) ≤ 500000 := by linarith
    exact_mod_cast this
  obtain ⟨S, hS⟩ := series_succeeds (x := c / 2) hp 10000 0 ((k : ℚ) / 2) 1 1 (by simp) (by simp [serTerm])
    ⟨10000, by norm_num, by norm_num, (serTerm_small hxr hpr hcr hxb).trans (by norm_num)⟩
  have hgam : gamain FP.exact lm (.fin (c / 2)) (.fin ((k : ℚ) / 2)) = (.fin (S * F / ((k : ℚ) / 2)), 0) := by
    unfold gamain
    have e1 : FP.le (.fin ((k : ℚ) / 2)) (.fin 0) = false := decide_eq_false (not_le.mpr hp)
    have e2 : FP.lt (.fin (c / 2)) (.fin 0) = false := decide_eq_false (not_lt.mpr hx.le)
    have e3 : FP.feq (.fin (c / 2)) (.fin 0) = false := by unfold FP.feq; simp [hx.ne']
    have e4 : FP.exact.sub (FP.exact.sub (FP.exact.mul (.fin ((k : ℚ) / 2)) (.fin l)) (.fin (c / 2))) (.fin g) = .fin ((k : ℚ) / 2 * l - c / 2 - g) := by
      show Fl.fin _ = Fl.fin _
      congr 1; ring
    have e5 : Gamain.loguflo FP.exact lm = .fin u := hu
    have e6 : FP.lt (.fin ((k : ℚ) / 2 * l - c / 2 - g)) (.fin u) = false := decide_eq_false (not_lt.mpr hu')
    have e7 : (FP.le (.fin (c / 2)) (.fin 1) || FP.lt (.fin (c / 2)) (.fin ((k : ℚ) / 2))) = true := by
      rw [Bool.or_eq_true]
      exact hcase.imp decide_eq_true decide_eq_true
    have e8 : FP.exact.mul (.fin S) (.fin F) = .fin (S * F) := rfl
    rw [e1, e2, e3]
    simp only [Bool.false_eq_true, if_false, hl, hg, e4, hF, e5, e6, e7, if_true, show Gamain.maxIters = 10000 from rfl, hS, e8, div_exact hp.ne']
  unfold pValue
  have e1 : FP.exact.div (.fin c) (.fin 2) = .fin (c / 2) := div_exact (by norm_num)
  have e2 : FP.exact.mul (FP.exact.ofInt (k : ℤ)) (.fin (1 / 2)) = .fin ((k : ℚ) / 2) := by
    show Fl.fin _ = Fl.fin _
    congr 1; push_cast; ring
  rw [e1, e2, hgam]
  exact ⟨_, rfl⟩

/-- the continued fraction in exact arithmetic stops when two successive convergents are close enough -/
theorem fraction_succeeds {x p : ℚ} (F : Fl) (hx : 1 < x) (hp : p ≤ x) : ∀ (k n : ℕ) (l g p0 p1 p2 p3 : ℚ), 0 < l →
    (p0 : ℝ) = l * num x p n → (p1 : ℝ) = l * den x p n → (p2 : ℝ) = l * num x p (n + 1) → (p3 : ℝ) = l * den x p (n + 1) →
    (g : ℝ) = num x p (n + 1) / den x p (n + 1) →
    (∃ m, n + 1 ≤ m ∧ m ≤ n + k ∧ |(num x p m / den x p m - num x p (m + 1) / den x p (m + 1) : ℝ)| ≤ 1 / 10 ^ 8 ∧
      |(num x p m / den x p m - num x p (m + 1) / den x p (m + 1) : ℝ)| ≤ 1 / 10 ^ 8 * (num x p (m + 1) / den x p (m + 1))) →
    ∃ v, Gamain.fraction FP.exact F k ⟨.fin (n + 1 - p), .fin (x + 2 * n + 2 - p), .fin n, .fin g, .fin p0, .fin p1, .fin p2, .fin p3⟩ = some v := by
  have hx' : (1 : ℝ) < x := by exact_mod_cast hx
  have hp' : (p : ℝ) ≤ x := by exact_mod_cast hp
  intro k
  induction k with
  | zero => rintro n l g p0 p1 p2 p3 _ _ _ _ _ _ ⟨m, h1, h2, -⟩; omega
  | succ k ih =>
    rintro n l g p0 p1 p2 p3 hl h0 h1 h2 h3 hg ⟨m, hm1, hm2, hm3, hm4⟩
    unfold Gamain.fraction
    have e1 : Gamain.nextFrac FP.exact ⟨.fin (n + 1 - p), .fin (x + 2 * n + 2 - p), .fin n, .fin g, .fin p0, .fin p1, .fin p2, .fin p3⟩ =
        ⟨.fin (n + 1 - p + 1), .fin (x + 2 * n + 2 - p + 2), .fin (n + 1), .fin g, .fin p0, .fin p1, .fin p2, .fin p3⟩ := rfl
    rw [e1]
    have e2 : ∀ hi lo : ℚ, Gamain.newPn FP.exact ⟨.fin (n + 1 - p + 1), .fin (x + 2 * n + 2 - p + 2), .fin (n + 1), .fin g, .fin p0, .fin p1, .fin p2, .fin p3⟩
        (.fin hi) (.fin lo) = .fin ((x + 2 * n + 2 - p + 2) * hi - (n + 1 - p + 1) * (n + 1) * lo) := by
      intro hi lo
      show Fl.fin _ = Fl.fin _
      congr 1; ring
    simp only [e2]
    set p4 : ℚ := (x + 2 * n + 2 - p + 2) * p2 - (n + 1 - p + 1) * (n + 1) * p0 with hp4
    set p5 : ℚ := (x + 2 * n + 2 - p + 2) * p3 - (n + 1 - p + 1) * (n + 1) * p1 with hp5
    have h4 : (p4 : ℝ) = l * num x p (n + 1 + 1) := by
      rw [hp4]; simp only [num]; push_cast; rw [h2, h0]; ring
    have h5 : (p5 : ℝ) = l * den x p (n + 1 + 1) := by
      rw [hp5]; simp only [den]; push_cast; rw [h3, h1]; ring
    have hl' : (0 : ℝ) < l := by exact_mod_cast hl
    have hd := (den_bounds hx' hp' (n + 1 + 1)).1
    have hp50 : p5 ≠ 0 := by
      intro hc
      rw [hc, Rat.cast_zero] at h5
      have := mul_pos hl' hd
      linarith
    have e3 : FP.feq (.fin p5) (.fin 0) = false := by unfold FP.feq; simp [hp50]
    have hr : ((p4 / p5 : ℚ) : ℝ) = num x p (n + 1 + 1) / den x p (n + 1 + 1) := by
      push_cast
      rw [h4, h5, mul_div_mul_left _ _ hl'.ne']
    have e4 : FP.abs (FP.exact.sub (.fin g) (.fin (p4 / p5))) = .fin |g - p4 / p5| := by
      show Fl.fin _ = Fl.fin _
      congr 1
      rw [sub_eq_add_neg]
    have e5 : Gamain.acu FP.exact = .fin (1 / 10 ^ 8) := rfl
    have e6 : FP.exact.mul (.fin (1 / 10 ^ 8)) (.fin (p4 / p5)) = .fin (1 / 10 ^ 8 * (p4 / p5)) := rfl
    simp only [e3, Bool.not_false, if_true, div_exact hp50, e4, e5, e6, le_fin]
    split
    · exact ⟨_, rfl⟩
    · rename_i hc
      have hm : n + 1 + 1 ≤ m := by
        rcases Nat.lt_or_ge (n + 1) m with h | h
        · exact h
        exfalso
        apply hc
        obtain rfl : m = n + 1 := by omega
        rw [← hg, ← hr] at hm3 hm4
        rw [Bool.and_eq_true]
        refine ⟨decide_eq_true ?_, decide_eq_true ?_⟩
        · have h2 : ((|g - p4 / p5| : ℚ) : ℝ) ≤ ((1 / 10 ^ 8 : ℚ) : ℝ) := by push_cast at hm3 ⊢; exact hm3
          exact Rat.cast_le.mp h2
        · have h2 : ((|g - p4 / p5| : ℚ) : ℝ) ≤ ((1 / 10 ^ 8 * (p4 / p5) : ℚ) : ℝ) := by push_cast at hm4 ⊢; exact hm4
          exact Rat.cast_le.mp h2
      have ea : (n + 1 - p + 1 : ℚ) = ((n + 1 : ℕ) : ℚ) + 1 - p := by push_cast; ring
      have eb : (x + 2 * n + 2 - p + 2 : ℚ) = x + 2 * ((n + 1 : ℕ) : ℚ) + 2 - p := by push_cast; ring
      have ec : (n + 1 : ℚ) = ((n + 1 : ℕ) : ℚ) := by push_cast; ring
      rw [ea, eb, ec]
      have eo : Gamain.oflo FP.exact = .fin (10 ^ 37) := rfl
      have ho : (10 ^ 37 : ℚ) ≠ 0 := by norm_num
      unfold Gamain.shiftPn
      rw [eo]
      simp only [div_exact ho]
      have hdiv : ∀ (q : ℚ) (z : ℝ), (q : ℝ) = l * z → ((q / 10 ^ 37 : ℚ) : ℝ) = ((l / 10 ^ 37 : ℚ) : ℝ) * z := by
        intro q z hq
        push_cast
        rw [hq]; ring
      split
      · exact ih (n + 1) (l / 10 ^ 37) (p4 / p5) _ _ _ _ (by positivity) (hdiv _ _ h2) (hdiv _ _ h3) (hdiv _ _ h4) (hdiv _ _ h5) hr
          ⟨m, by omega, by omega, hm3, hm4⟩
      · exact ih (n + 1) l (p4 / p5) _ _ _ _ hl h2 h3 h4 h5 hr ⟨m, by omega, by omega, hm3, hm4⟩

/-- **C65**: above the number of degrees of freedom the continued fraction meets its stopping criterion within the 10000
iterations for every statistic up to a million, so the evaluation never fails, unless the factor `x^p e^-x / Γ(p)` is below
1e-37.  Partial: exact arithmetic. -/
theorem C65_high_succeeds_partial {lm : Libm} {k : ℕ} (hk : 0 < k) {c : ℚ} (hc : 2 < c) (hb : k ≤ c) (hc' : c ≤ 10 ^ 6)
    (hu : FP.lt (FP.exact.sub (FP.exact.sub (FP.exact.mul (.fin ((k : ℚ) / 2)) (lm.log (.fin (c / 2)))) (.fin (c / 2)))
      (lm.lgamma (.fin ((k : ℚ) / 2)))) (lm.log (.fin (1 / 10 ^ 37))) = false) : (pValue FP.exact lm k (.fin c)).2 = true := by
  have hk' : (1 : ℚ) ≤ k := by exact_mod_cast hk
  have hp : (0 : ℚ) < (k : ℚ) / 2 := by positivity
  have hx1 : (1 : ℚ) < c / 2 := by linarith
  have hx : (0 : ℚ) < c / 2 := by linarith
  have hps : (k : ℚ) / 2 ≤ c / 2 := by linarith
  have hxr : (1 : ℝ) < ((c / 2 : ℚ) : ℝ) := by exact_mod_cast hx1
  have hpr : ((k / 2 : ℚ) : ℝ) ≤ ((c / 2 : ℚ) : ℝ) := by exact_mod_cast hps
  have hpr1 : (1 / 2 : ℝ) ≤ ((k / 2 : ℚ) : ℝ) := by
    have : (1 : ℝ) ≤ k := by exact_mod_cast hk
    push_cast; linarith
  have hxb : ((c / 2 : ℚ) : ℝ) ≤ 500000 := by
    have : (c / 2 : ℚ) ≤ 500000 := by linarith
    exact_mod_cast this
  have hd1 : (c / 2 * (1 - k / 2 + c / 2 + 1) : ℚ) ≠ 0 := by
    have : (0 : ℚ) < 1 - k / 2 + c / 2 + 1 := by linarith
    positivity
  have hstart : Gamain.fracStart FP.exact (.fin (c / 2)) (.fin ((k : ℚ) / 2)) =
      ⟨.fin (((0 : ℕ) : ℚ) + 1 - (k : ℚ) / 2), .fin (c / 2 + 2 * ((0 : ℕ) : ℚ) + 2 - (k : ℚ) / 2), .fin ((0 : ℕ) : ℚ),
        .fin ((c / 2 + 1) / (c / 2 * (1 - k / 2 + c / 2 + 1))), .fin 1, .fin (c / 2), .fin (c / 2 + 1), .fin (c / 2 * (1 - k / 2 + c / 2 + 1))⟩ := by
    unfold Gamain.fracStart
    have ea : FP.exact.sub (.fin 1) (.fin ((k : ℚ) / 2)) = .fin (1 - (k : ℚ) / 2) := by
      show Fl.fin _ = Fl.fin _
      congr 1; ring
    have eb : FP.exact.add (FP.exact.add (.fin (1 - (k : ℚ) / 2)) (.fin (c / 2))) (.fin 1) = .fin (1 - k / 2 + c / 2 + 1) := rfl
    have e2 : FP.exact.add (.fin (c / 2)) (.fin 1) = .fin (c / 2 + 1) := rfl
    have e3 : FP.exact.mul (.fin (c / 2)) (.fin (1 - k / 2 + c / 2 + 1)) = .fin (c / 2 * (1 - k / 2 + c / 2 + 1)) := rfl
    simp only [ea, eb, e2, e3, div_exact hd1, Nat.cast_zero]
    rw [show (0 : ℚ) + 1 - k / 2 = 1 - k / 2 by ring, show c / 2 + 2 * (0 : ℚ) + 2 - k / 2 = 1 - k / 2 + c / 2 + 1 by ring]
  obtain ⟨m, m1, m2, m3, m4⟩ := stop_met hxr hpr hpr1 hxb
  obtain ⟨v, hv⟩ := fraction_succeeds (lm.exp (FP.exact.sub (FP.exact.sub (FP.exact.mul (.fin ((k : ℚ) / 2)) (lm.log (.fin (c / 2)))) (.fin (c / 2)))
      (lm.lgamma (.fin ((k : ℚ) / 2))))) hx1 hps 10000 0 1 ((c / 2 + 1) / (c / 2 * (1 - k / 2 + c / 2 + 1))) 1 (c / 2) (c / 2 + 1)
      (c / 2 * (1 - k / 2 + c / 2 + 1)) one_pos
    (by simp [num]) (by simp [den]) (by simp [num])
    (by simp only [den, zero_add]; push_cast; ring) (by simp only [den, num, zero_add]; push_cast; ring_nf)
    ⟨m, by omega, by omega, m3, m4⟩
  rw [← hstart] at hv
  have e1 : FP.exact.div (.fin c) (.fin 2) = .fin (c / 2) := div_exact (by norm_num)
  have e2 : FP.exact.mul (FP.exact.ofInt (k : ℤ)) (.fin (1 / 2)) = .fin ((k : ℚ) / 2) := by
    show Fl.fin _ = Fl.fin _
    congr 1; push_cast; ring
  have f1 : FP.le (.fin ((k : ℚ) / 2)) (.fin 0) = false := decide_eq_false (not_le.mpr hp)
  have f2 : FP.lt (.fin (c / 2)) (.fin 0) = false := decide_eq_false (not_lt.mpr hx.le)
  have f3 : FP.feq (.fin (c / 2)) (.fin 0) = false := by unfold FP.feq; simp [(by linarith : c ≠ 0)]
  have f7 : (FP.le (.fin (c / 2)) (.fin 1) || FP.lt (.fin (c / 2)) (.fin ((k : ℚ) / 2))) = false := by
    rw [Bool.or_eq_false_iff]
    exact ⟨decide_eq_false (not_le.mpr hx1), decide_eq_false (not_lt.mpr hps)⟩
  unfold pValue
  rw [e1, e2]
  unfold gamain
  rw [f1, f2, f3]
  simp only [Bool.false_eq_true, if_false, show Gamain.loguflo FP.exact lm = lm.log (.fin (1 / 10 ^ 37)) from rfl, hu, f7,
    show Gamain.maxIters = 10000 from rfl, hv, decide_true]

/-! ### the hypotheses are met -/

/-- A mathematics library accurate at one point: the factor is approximated by a rational number. -/
theorem exists_factor (x p : ℚ) (hx : 0 < x) (hp : 0 < p) {ε : ℝ} (hε : 0 < ε) :
    ∃ F : ℚ, |(F : ℝ) - rexp (-x) * (x : ℝ) ^ (p : ℝ) / Real.Gamma p| ≤ ε * (rexp (-x) * (x : ℝ) ^ (p : ℝ) / Real.Gamma p) := by
  have hxr : (0 : ℝ) < x := by exact_mod_cast hx
  have hG := Real.Gamma_pos_of_pos (show (0 : ℝ) < p by exact_mod_cast hp)
  have hpos : 0 < rexp (-x) * (x : ℝ) ^ (p : ℝ) / Real.Gamma p := by positivity
  generalize rexp (-x) * (x : ℝ) ^ (p : ℝ) / Real.Gamma p = f at *
  obtain ⟨F, h1, h2⟩ := exists_rat_btwn (show f < f + ε * f by nlinarith)
  refine ⟨F, ?_⟩
  rw [abs_of_pos (by linarith)]
  linarith

noncomputable def libmAt (x : ℚ) (F : ℚ) : Libm :=
  ⟨fun _ => .fin 0, fun _ => .fin 0, fun y => if y = .fin x then .fin 0 else .fin (-85), fun _ => .fin F, fun _ => .fin 0⟩

theorem libmAt_within {x p F : ℚ} {ε : ℝ}
    (hF : |(F : ℝ) - rexp (-x) * (x : ℝ) ^ (p : ℝ) / Real.Gamma p| ≤ ε * (rexp (-x) * (x : ℝ) ^ (p : ℝ) / Real.Gamma p)) :
    FactorWithin (libmAt x F) x p ε := ⟨0, 0, F, if_pos rfl, rfl, rfl, hF⟩

/-- The hypotheses of `C65_low_partial` and `C65_low_succeeds_partial` are met: 3 degrees of freedom, statistic 2, library
accurate to 1e-12. -/
example : ∃ lm v, FactorWithin lm (2 / 2) (((3 : ℕ) : ℚ) / 2) (1 / 10 ^ 12) ∧ pValue FP.exact lm 3 (.fin 2) = (v, true) := by
  obtain ⟨F, hF⟩ := exists_factor (2 / 2) (((3 : ℕ) : ℚ) / 2) (by norm_num) (by norm_num) (ε := 1 / 10 ^ 12) (by norm_num)
  have h := libmAt_within hF
  obtain ⟨q, hq⟩ := C65_low_succeeds_partial (lm := libmAt (2 / 2) F) (k := 3) (by norm_num) (c := 2) (by norm_num) (by norm_num) (by norm_num)
    (l := 0) (g := 0) (F := F) (u := -85) (if_pos rfl) rfl rfl (if_neg (by norm_num)) (by norm_num)
  exact ⟨_, _, h, hq⟩

/-- The hypotheses of `C65_high_partial` are met: 2 degrees of freedom, statistic 4, library accurate to 1e-12. -/
example : ∃ lm v, FactorWithin lm (4 / 2) (((2 : ℕ) : ℚ) / 2) (1 / 10 ^ 12) ∧ pValue FP.exact lm 2 (.fin 4) = (v, true) := by
  obtain ⟨F, hF⟩ := exists_factor (4 / 2) (((2 : ℕ) : ℚ) / 2) (by norm_num) (by norm_num) (ε := 1 / 10 ^ 12) (by norm_num)
  refine ⟨libmAt (4 / 2) F, .fin (1 - (1 - F * (1 / 2))), libmAt_within hF, ?_⟩
  have hfr : Gamain.fraction FP.exact (.fin F) 10000 (Gamain.fracStart FP.exact (.fin (4 / 2)) (.fin 1)) = some (.fin (1 - F * (1 / 2))) := by
    have ea : ∀ a b : ℚ, FP.exact.add (.fin a) (.fin b) = .fin (a + b) := fun _ _ => rfl
    have es : ∀ a b : ℚ, FP.exact.sub (.fin a) (.fin b) = .fin (a - b) := fun a b => by
      show Fl.fin (a + -b) = _
      rw [sub_eq_add_neg]
    have em : ∀ a b : ℚ, FP.exact.mul (.fin a) (.fin b) = .fin (a * b) := fun _ _ => rfl
    have hs : Gamain.fracStart FP.exact (.fin (4 / 2)) (.fin 1) = ⟨.fin 0, .fin 3, .fin 0, .fin (1 / 2), .fin 1, .fin 2, .fin 3, .fin 6⟩ := by
      simp only [Gamain.fracStart, ea, es, em]
      rw [div_exact (by norm_num)]
      norm_num
    have eab : FP.abs (.fin 0) = .fin 0 := rfl
    have e0 : FP.le (.fin 0) (Gamain.acu FP.exact) = true := by
      show decide ((0 : ℚ) ≤ 1 / 10 ^ 8) = true
      norm_num
    have e1 : FP.le (.fin 0) (FP.exact.mul (Gamain.acu FP.exact) (.fin (1 / 2))) = true := by
      show decide ((0 : ℚ) ≤ 1 / 10 ^ 8 * (1 / 2)) = true
      norm_num
    rw [hs, show (10000 : ℕ) = 9999 + 1 from rfl]
    unfold Gamain.fraction
    simp only [Gamain.nextFrac, Gamain.newPn, ea, es, em]
    norm_num only
    simp only [show FP.feq (.fin 28) (.fin 0) = false from by unfold FP.feq; norm_num, Bool.not_false, if_true]
    rw [div_exact (by norm_num), show (14 / 28 : ℚ) = 1 / 2 by norm_num, es, sub_self, eab, e0, e1]
    rfl
  have hgam : gamain FP.exact (libmAt (4 / 2) F) (.fin (4 / 2)) (.fin 1) = (.fin (1 - F * (1 / 2)), 0) := by
    unfold gamain
    have e1 : FP.le (.fin 1) (.fin 0) = false := by decide
    have e2 : FP.lt (.fin (4 / 2)) (.fin 0) = false := decide_eq_false (by norm_num)
    have e3 : FP.feq (.fin (4 / 2)) (.fin 0) = false := by unfold FP.feq; norm_num
    have e4 : FP.exact.sub (FP.exact.sub (FP.exact.mul (.fin 1) (.fin 0)) (.fin (4 / 2))) (.fin 0) = .fin (-2) := by
      show Fl.fin _ = Fl.fin _
      congr 1; norm_num
    have e5 : Gamain.loguflo FP.exact (libmAt (4 / 2) F) = .fin (-85) := by
      show (libmAt (4 / 2) F).log (.fin (1 / 10 ^ 37)) = _
      exact if_neg (by norm_num)
    have e6 : FP.lt (.fin (-2)) (.fin (-85)) = false := by
      show decide ((-2 : ℚ) < -85) = false
      norm_num
    have e7 : (FP.le (.fin (4 / 2)) (.fin 1) || FP.lt (.fin (4 / 2)) (.fin 1)) = false := by
      rw [Bool.or_eq_false_iff]
      exact ⟨decide_eq_false (by norm_num), decide_eq_false (by norm_num)⟩
    have hlog : (libmAt (4 / 2) F).log (.fin (4 / 2)) = .fin 0 := if_pos rfl
    rw [e1, e2, e3]
    simp only [Bool.false_eq_true, if_false, hlog, show (libmAt (4 / 2) F).lgamma (.fin 1) = .fin 0 from rfl, e4, e5, e6, e7,
      show (libmAt (4 / 2) F).exp (.fin (-2)) = .fin F from rfl, show Gamain.maxIters = 10000 from rfl, hfr]
  unfold pValue
  have e1 : FP.exact.div (.fin 4) (.fin 2) = .fin (4 / 2) := div_exact (by norm_num)
  have e2 : FP.exact.mul (FP.exact.ofInt ((2 : ℕ) : ℤ)) (.fin (1 / 2)) = .fin 1 := by
    show Fl.fin _ = Fl.fin _
    congr 1; norm_num
  rw [e1, e2, hgam]
  have : FP.exact.sub (.fin 1) (.fin (1 - F * (1 / 2))) = .fin (1 - (1 - F * (1 / 2))) := by
    show Fl.fin (1 + -(1 - F * (1 / 2))) = _
    congr 1; ring
  simp only [this, decide_true]

/-- The hypotheses of `C65_high_succeeds_partial` are met: 2 degrees of freedom, statistic 4. -/
example : (pValue FP.exact (libmAt (4 / 2) 1) 2 (.fin 4)).2 = true := by
  refine C65_high_succeeds_partial (by norm_num) (by norm_num) (by norm_num) (by norm_num) ?_
  have e1 : (libmAt (4 / 2) 1).log (.fin (4 / 2)) = .fin 0 := if_pos rfl
  have e2 : (libmAt (4 / 2) 1).log (.fin (1 / 10 ^ 37)) = .fin (-85) := if_neg (by norm_num)
  rw [e1, e2]
  show decide _ = false
  norm_num

end HL

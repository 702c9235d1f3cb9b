import Verif.Proof.GammaReal

/-
Error bounds for the power series and the convergents of the incomplete gamma function.
-/

namespace HL.GammaR
open MeasureTheory Set Filter Topology Real

theorem den_bounds {x s : ℝ} (hx : 1 < x) (hs : s ≤ x) : ∀ n : ℕ, 0 < den x s n ∧ (n + 1) * den x s n ≤ den x s (n + 1) ∧
    (0 ≤ n + 1 - s → (x + n + 1) * den x s n ≤ den x s (n + 1)) ∧ (n + 1 - s ≤ 0 → (x + 2 * n + 2 - s) * den x s n ≤ den x s (n + 1))
  | 0 => by
    have h0 : (0 : ℝ) < x := by linarith
    simp only [den, Nat.cast_zero]
    refine ⟨h0, by nlinarith, fun h => by nlinarith, fun h => by nlinarith⟩
  | n + 1 => by
    obtain ⟨h0, h1, -, -⟩ := den_bounds hx hs n
    have hn : (0 : ℝ) ≤ n := Nat.cast_nonneg n
    have hp : 0 < den x s (n + 1) := lt_of_lt_of_le (by positivity) h1
    have e : den x s (n + 1 + 1) = (x + 2 * n + 4 - s) * den x s (n + 1) - (n + 1) * (n + 2 - s) * den x s n := rfl
    have hA : 0 ≤ (n : ℝ) + 2 - s → (x + n + 2) * den x s (n + 1) ≤ den x s (n + 1 + 1) := by
      intro h
      rw [e]
      nlinarith [mul_le_mul_of_nonneg_left h1 h]
    have hB : (n : ℝ) + 2 - s ≤ 0 → (x + 2 * n + 4 - s) * den x s (n + 1) ≤ den x s (n + 1 + 1) := by
      intro h
      rw [e]
      have : 0 ≤ (n + 1) * (s - n - 2) * den x s n := by
        have : 0 ≤ s - n - 2 := by linarith
        positivity
      linarith
    push_cast
    refine ⟨hp, ?_, ?_, ?_⟩
    · rcases le_total 0 ((n : ℝ) + 2 - s) with h | h
      · refine le_trans ?_ (hA h)
        exact mul_le_mul_of_nonneg_right (by linarith) hp.le
      · refine le_trans ?_ (hB h)
        exact mul_le_mul_of_nonneg_right (by linarith) hp.le
    · intro h
      refine le_trans (le_of_eq ?_) (hA (by linarith))
      ring
    · intro h
      refine le_trans (le_of_eq ?_) (hB (by linarith))
      ring

/-- the error of a convergent -/
noncomputable def cerr (x s : ℝ) (n : ℕ) : ℝ := mom x (s - 1) 0 - rexp (-x) * x ^ s * (num x s n / den x s n)

theorem cerr_eq {x s : ℝ} (hx : 1 < x) (hs : s ≤ x) (n : ℕ) : cerr x s n = coef s n * (x * mom x (s - 2) n / den x s n) := by
  have h := (remainder x s (by linarith) n).1
  have h0 := (den_bounds hx hs n).1
  unfold cerr
  field_simp
  linarith

theorem cerr_bound {x s : ℝ} (hx : 1 < x) (hs : s ≤ x) (hs0 : 1 / 2 ≤ s) (n : ℕ) :
    |cerr x s n| ≤ (2 * n + 4) * |cerr x s n - cerr x s (n + 1)| ∧ |cerr x s (n + 1)| ≤ (2 * n + 4) * |cerr x s n - cerr x s (n + 1)| := by
  have hx0 : 0 < x := by linarith
  have hn : (0 : ℝ) ≤ n := Nat.cast_nonneg n
  have e1 := cerr_eq hx hs n
  have e2 : cerr x s (n + 1) = coef s n * ((n + 2 - s) * (x * mom x (s - 2) (n + 1) / den x s (n + 1))) := by
    rw [cerr_eq hx hs (n + 1)]; simp only [coef]; ring
  obtain ⟨hd, -, hA, hB⟩ := den_bounds hx hs n
  have hd' := (den_bounds hx hs (n + 1)).1
  have hm := mom_pos x (s - 2) hx0 n
  have hm' := mom_pos x (s - 2) hx0 (n + 1)
  have hle := mom_le x (s - 2) hx0 n
  have ha0 : 0 < x * mom x (s - 2) n / den x s n := by positivity
  have hb0 : 0 < x * mom x (s - 2) (n + 1) / den x s (n + 1) := by positivity
  have hq : ∀ q : ℝ, q * den x s n ≤ den x s (n + 1) → q * (x * mom x (s - 2) (n + 1) / den x s (n + 1)) ≤ x * mom x (s - 2) n / den x s n := by
    intro q hq
    rw [le_div_iff₀ hd]
    calc q * (x * mom x (s - 2) (n + 1) / den x s (n + 1)) * den x s n
        = (q * den x s n) * (x * mom x (s - 2) (n + 1) / den x s (n + 1)) := by ring
      _ ≤ den x s (n + 1) * (x * mom x (s - 2) (n + 1) / den x s (n + 1)) := mul_le_mul_of_nonneg_right hq hb0.le
      _ = x * mom x (s - 2) (n + 1) := by field_simp
      _ ≤ x * mom x (s - 2) n := mul_le_mul_of_nonneg_left hle hx0.le
  rw [e1, e2]
  generalize x * mom x (s - 2) n / den x s n = α at *
  generalize x * mom x (s - 2) (n + 1) / den x s (n + 1) = β at *
  rw [← mul_sub, abs_mul, abs_mul, abs_mul]
  have hc := abs_nonneg (coef s n)
  generalize |coef s n| = c at *
  rw [abs_of_pos ha0]
  have key : α ≤ (2 * n + 4) * |α - (n + 2 - s) * β| ∧ |(n + 2 - s) * β| ≤ (2 * n + 4) * |α - (n + 2 - s) * β| := by
    rcases le_total ((n : ℝ) + 2 - s) 0 with h | h
    · have hneg : (n + 2 - s) * β ≤ 0 := mul_nonpos_of_nonpos_of_nonneg h hb0.le
      rw [abs_of_nonpos hneg, abs_of_nonneg (by linarith)]
      have h4 : (1 : ℝ) ≤ 2 * n + 4 := by linarith
      have := mul_le_mul_of_nonneg_right h4 (show 0 ≤ α - (n + 2 - s) * β by linarith)
      constructor <;> linarith
    · have h1 : (2 * n + 4) * ((n + 2 - s) * β) ≤ (2 * n + 3) * α := by
        rcases le_total 0 ((n : ℝ) + 1 - s) with h2 | h2
        · have h3 := hq _ (hA h2)
          have h5 : (2 * n + 4) * ((n : ℝ) + 2 - s) ≤ (2 * n + 3) * (x + n + 1) := by nlinarith
          nlinarith [mul_le_mul_of_nonneg_right h5 hb0.le]
        · have h3 := hq _ (hB h2)
          have h5 : (2 * n + 4) * ((n : ℝ) + 2 - s) ≤ (2 * n + 3) * (x + 2 * n + 2 - s) := by nlinarith
          nlinarith [mul_le_mul_of_nonneg_right h5 hb0.le]
      have hpos : 0 ≤ (n + 2 - s) * β := mul_nonneg h hb0.le
      have h6 : (n + 2 - s) * β ≤ α := by nlinarith
      rw [abs_of_nonneg hpos, abs_of_nonneg (by linarith)]
      constructor <;> nlinarith
  constructor
  · calc c * α ≤ c * ((2 * n + 4) * |α - (n + 2 - s) * β|) := mul_le_mul_of_nonneg_left key.1 hc
      _ = _ := by ring
  · calc c * |(n + 2 - s) * β| ≤ c * ((2 * n + 4) * |α - (n + 2 - s) * β|) := mul_le_mul_of_nonneg_left key.2 hc
      _ = _ := by ring

/-! ### the lower part -/

/-- `∫_0^x e^-t t^(s-1) dt` -/
noncomputable def low (x s : ℝ) : ℝ := ∫ t in Ioc 0 x, rexp (-t) * t ^ (s - 1)

theorem gamma_int {s : ℝ} (hs : 0 < s) : IntegrableOn (fun t : ℝ => rexp (-t) * t ^ (s - 1)) (Ioi 0) := Real.GammaIntegral_convergent hs

theorem low_add {x s : ℝ} (hx : 0 < x) (hs : 0 < s) : low x s + mom x (s - 1) 0 = Real.Gamma s := by
  rw [Real.Gamma_eq_integral hs, ← Ioc_union_Ioi_eq_Ioi hx.le,
    setIntegral_union (Ioc_disjoint_Ioi le_rfl) measurableSet_Ioi ((gamma_int hs).mono_set Ioc_subset_Ioi_self)
      ((gamma_int hs).mono_set (Ioi_subset_Ioi hx.le))]
  simp [low, mom]

theorem low_nonneg {x s : ℝ} : 0 ≤ low x s := by
  unfold low
  refine setIntegral_nonneg measurableSet_Ioc fun t ht => ?_
  have : 0 < t := ht.1
  positivity

theorem low_succ {x s : ℝ} (hx : 0 < x) (hs : 0 < s) : s * low x s = low x (s + 1) + rexp (-x) * x ^ s := by
  have h1 := low_add hx hs
  have h2 := low_add hx (show 0 < s + 1 by linarith)
  have h3 := mom_parts_zero x s hx
  rw [Real.Gamma_add_one hs.ne', ← h1, add_sub_cancel_right] at h2
  linarith

theorem low_succ_le {x s : ℝ} (hx : 0 < x) (hs : 0 < s) : low x (s + 1) ≤ x * low x s := by
  unfold low
  rw [← integral_const_mul]
  refine setIntegral_mono_on ((gamma_int (by linarith)).mono_set Ioc_subset_Ioi_self)
    (((gamma_int hs).mono_set Ioc_subset_Ioi_self).const_mul x) measurableSet_Ioc fun t ht => ?_
  have ht0 : 0 < t := ht.1
  have e : t ^ (s + 1 - 1) = t ^ (s - 1) * t := by
    rw [← Real.rpow_add_one ht0.ne']; congr 1; ring
  rw [e]
  have : 0 ≤ rexp (-t) * t ^ (s - 1) := by positivity
  nlinarith [ht.2, mul_le_mul_of_nonneg_left ht.2 this]

theorem low_le {x s : ℝ} (hx : 0 < x) (hs : 0 < s) : (s - x) * low x s ≤ rexp (-x) * x ^ s := by
  have h1 := low_succ hx hs
  have h2 := low_succ_le hx hs
  linarith

/-- the terms of the series -/
noncomputable def serTerm (x s : ℝ) : ℕ → ℝ
  | 0 => 1
  | n + 1 => serTerm x s n * x / (s + (n + 1))

theorem serTerm_pos {x s : ℝ} (hx : 0 < x) (hs : 0 < s) : ∀ n, 0 < serTerm x s n
  | 0 => one_pos
  | n + 1 => by
    have := serTerm_pos hx hs n
    unfold serTerm
    positivity

/-- the series with its remainder -/
theorem low_series {x s : ℝ} (hx : 0 < x) (hs : 0 < s) (n : ℕ) :
    s * low x s * x ^ s * x ^ n = x ^ s * x ^ n * (rexp (-x) * x ^ s * ∑ i ∈ Finset.range (n + 1), serTerm x s i) +
      x ^ s * serTerm x s n * low x (s + n + 1) := by
  induction n with
  | zero =>
    have h := low_succ hx hs
    simp [serTerm]
    linear_combination x ^ s * h
  | succ n ih =>
    have hn : 0 < s + n + 1 := by positivity
    have h := low_succ hx hn
    rw [Finset.sum_range_succ]
    have e1 : x ^ (s + n + 1) = x ^ s * x ^ n * x := by
      rw [Real.rpow_add hx, Real.rpow_add hx, Real.rpow_natCast, Real.rpow_one]
    rw [e1] at h
    have e2 : serTerm x s (n + 1) = serTerm x s n * x / (s + n + 1) := by
      show _ / (s + (n + 1)) = _
      rw [add_assoc]
    rw [show s + ((n + 1 : ℕ) : ℝ) + 1 = s + n + 1 + 1 by push_cast; ring, e2]
    have h' : low x (s + n + 1 + 1) = (s + n + 1) * low x (s + n + 1) - rexp (-x) * (x ^ s * x ^ n * x) := by linarith
    rw [h', pow_succ]
    have e3 : serTerm x s n * x / (s + n + 1) * ((s + n + 1) * low x (s + n + 1)) = serTerm x s n * x * low x (s + n + 1) := by
      field_simp
    linear_combination x * ih - x ^ s * e3

/-- the sum up to a small term is close to the integral -/
theorem series_bound {x s : ℝ} (hx : 0 < x) (hs : 0 < s) (n : ℕ) (h : x ≤ 1 ∨ x < s) (hn : 1 ≤ n) :
    0 ≤ low x s - rexp (-x) * x ^ s / s * ∑ i ∈ Finset.range (n + 1), serTerm x s i ∧
    low x s - rexp (-x) * x ^ s / s * ∑ i ∈ Finset.range (n + 1), serTerm x s i ≤ rexp (-x) * x ^ s / s * (x * serTerm x s n) := by
  have hser := low_series hx hs n
  have ht := serTerm_pos hx hs n
  have hlow := low_nonneg (x := x) (s := s + n + 1)
  have hb := low_le hx (show 0 < s + n + 1 by positivity)
  have hn1 : (1 : ℝ) ≤ n := by exact_mod_cast hn
  have hge : 1 ≤ s + n + 1 - x := by rcases h with h | h <;> linarith
  have hlow2 : low x (s + n + 1) ≤ rexp (-x) * x ^ (s + n + 1) := le_trans (by nlinarith) hb
  have e1 : x ^ (s + n + 1) = x ^ s * x ^ n * x := by
    rw [Real.rpow_add hx, Real.rpow_add hx, Real.rpow_natCast, Real.rpow_one]
  rw [e1] at hlow2
  have hxs : 0 < x ^ s := Real.rpow_pos_of_pos hx s
  have hxn : 0 < x ^ n := by positivity
  generalize (∑ i ∈ Finset.range (n + 1), serTerm x s i) = S at *
  have key : low x s - rexp (-x) * x ^ s / s * S = serTerm x s n * low x (s + n + 1) / (s * x ^ n) := by
    have hd : s * x ^ s * x ^ n ≠ 0 := by positivity
    field_simp
    apply mul_left_cancel₀ hxs.ne'
    linear_combination hser
  rw [key]
  refine ⟨by positivity, ?_⟩
  rw [div_le_iff₀ (by positivity)]
  calc serTerm x s n * low x (s + n + 1) ≤ serTerm x s n * (rexp (-x) * (x ^ s * x ^ n * x)) := mul_le_mul_of_nonneg_left hlow2 ht.le
    _ = _ := by field_simp

end HL.GammaR

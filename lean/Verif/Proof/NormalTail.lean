import Verif.Proof.PolyCert
import Verif.Proof.NormalReal
import Mathlib.Analysis.Real.Pi.Bounds
import Mathlib.Analysis.Complex.ExponentialBounds
import Mathlib.Analysis.SpecialFunctions.Log.Deriv

/-
The rational function of the tails of `invCumNorm` (StatFuncs.cpp:265-277), over the real numbers: as a function of
`t = sqrt(-2 log p)` the normal distribution function takes it to `p`, up to about one part in a hundred thousand.
-/

namespace HL.Normal
open Real PolyCert

/-- StatFuncs.cpp:227-232 times `10^18`, constant term first -/
def tC : List ℤ := [2938163982698783000, 4374664141464968000, -2549732539343734000, -2400758277161838000, -322396458041136500, -7784894002430293]

/-- StatFuncs.cpp:234-237 and the constant term 1, times `10^18`, constant term first -/
def tD : List ℤ := [1000000000000000000, 3754408661907416000, 2445134137142996000, 322467129070039800, 7784695709041462]

def tM : List ℤ := add (mul tC (der tD)) (smul (-1) (mul (der tC) tD))

def tD3 : List ℤ := mul tD (mul tD tD)

def tK : List ℤ := mul [0, 1] (mul tM tD3)

def tT : List ℤ :=
  add (add (mul [0, 1] (mul tC (mul tM tM))) (mul [0, 0, 1] (mul tM tD3)))
    (add (mul [0, 1] (mul (der tM) tD3)) (add (smul (-2) (mul [0, 1] (mul (der tD) (mul (mul tD tD) tM)))) (smul (-1) (mul tM tD3))))

theorem tD_pos {t : ℝ} (h0 : 27 / 10 ≤ t) (h1 : t ≤ 10) : 0 < ev tD t :=
  posOn_spec (a := 26999) (b := 100000) (d := 10000) (by decide +kernel) (by norm_num) (by push_cast; linarith) (by push_cast; linarith)

theorem tM_pos {t : ℝ} (h0 : 27 / 10 ≤ t) (h1 : t ≤ 10) : 0 < ev tM t :=
  posOn_spec (a := 26999) (b := 100000) (d := 10000) (by decide +kernel) (by norm_num) (by push_cast; linarith) (by push_cast; linarith)

theorem tT_le {t : ℝ} (h0 : 27 / 10 ≤ t) (h1 : t ≤ 10) : |ev tT t / ev tK t| ≤ 2 / 10 ^ 6 := by
  have hK : 0 < ev tK t := by
    simp only [tK, tD3, ev_mul, ev]
    have := tD_pos h0 h1
    have := tM_pos h0 h1
    push_cast
    have : 0 < t := by linarith
    positivity
  have e1 := posOn_spec (a := 26999) (b := 100000) (d := 10000) (p := add (smul 2 tK) (smul (-1000000) tT)) (by decide +kernel)
    (by norm_num) (x := t) (by push_cast; linarith) (by push_cast; linarith)
  have e2 := posOn_spec (a := 26999) (b := 100000) (d := 10000) (p := add (smul 2 tK) (smul 1000000 tT)) (by decide +kernel)
    (by norm_num) (x := t) (by push_cast; linarith) (by push_cast; linarith)
  rw [ev_add, ev_smul, ev_smul] at e1 e2
  push_cast at e1 e2
  rw [abs_div, abs_of_pos hK, div_le_iff₀ hK, abs_le]
  constructor <;> linarith

/-- the rational function of the tails -/
noncomputable def tailF (t : ℝ) : ℝ := ev tC t / ev tD t

theorem tailF_deriv {t : ℝ} (h0 : 27 / 10 ≤ t) (h1 : t ≤ 10) : HasDerivAt tailF (-(ev tM t / ev tD t ^ 2)) t := by
  have hD := tD_pos h0 h1
  refine ((ev_der tC t).div (ev_der tD t) hD.ne').congr_deriv ?_
  simp only [tM, ev_add, ev_smul, ev_mul]
  push_cast
  rw [← neg_div]
  congr 1
  ring

noncomputable def tH (t : ℝ) : ℝ := log (ev tM t) - 2 * log (ev tD t) - log t + (t ^ 2 - tailF t ^ 2) / 2

theorem tH_deriv {t : ℝ} (h0 : 27 / 10 ≤ t) (h1 : t ≤ 10) : HasDerivAt tH (ev tT t / ev tK t) t := by
  have hD := tD_pos h0 h1
  have hM := tM_pos h0 h1
  have ht : 0 < t := by linarith
  have d1 := (ev_der tM t).log hM.ne'
  have d2 := ((ev_der tD t).log hD.ne').const_mul 2
  have d3 := hasDerivAt_log ht.ne'
  have d4 := (((hasDerivAt_id t).pow 2).sub ((tailF_deriv h0 h1).pow 2)).div_const 2
  refine (((d1.sub d2).sub d3).add d4).congr_deriv ?_
  simp only [tT, tK, tD3, ev_add, ev_smul, ev_mul, ev, id, tailF]
  push_cast
  field_simp
  ring

theorem tH_anchor : |tH (330953 / 100000) - log (√(2 * π))| ≤ 1 / 10 ^ 7 := by
  have hs := s2pi_pos
  set t : ℝ := 330953 / 100000 with ht
  have h0 : 27 / 10 ≤ t := by norm_num [ht]
  have h1 : t ≤ 10 := by norm_num [ht]
  have hD := tD_pos h0 h1
  have hM := tM_pos h0 h1
  have eM : tM = [6656404165283734057884161874728000000, 19467875187929102797050532347736000000,
      30314037306289782138145147960162200000, 22229302796891224044219200128431784000, 8820286008095952344659441378396448000,
      1653818080483301245025042197121336000, 142378417826353538517128255639028000, 5020744838156536050580428471322800,
      60603030936061714763841501808366, 0] := by decide +kernel
  have hR : (33923484506 / 10 ^ 11 : ℝ) ≤ ev tM t / (ev tD t ^ 2 * t) ∧ ev tM t / (ev tD t ^ 2 * t) ≤ 33923484507 / 10 ^ 11 := by
    rw [eM, ht]
    simp only [ev, tD]
    norm_num
  have hY : (11 / 10 ^ 7 : ℝ) ≤ (t ^ 2 - tailF t ^ 2) / 2 - 2 ∧ (t ^ 2 - tailF t ^ 2) / 2 - 2 ≤ 12 / 10 ^ 7 := by
    rw [tailF, ht]
    simp only [ev, tD, tC]
    norm_num
  have hl : (2506628274 / 10 ^ 9 : ℝ) ≤ √(2 * π) := by
    refine le_sqrt_of_sq_le ?_
    have := pi_gt_d20
    norm_num at this ⊢
    linarith
  have hu : √(2 * π) ≤ (2506628275 / 10 ^ 9 : ℝ) := by
    refine sqrt_le_iff.mpr ⟨by norm_num, ?_⟩
    have := pi_lt_d20
    norm_num at this ⊢
    linarith
  have e1 := exp_one_gt_d9
  have e2 := exp_one_lt_d9
  set R := ev tM t / (ev tD t ^ 2 * t) with hRd
  have htp : 0 < t := lt_of_lt_of_le (by norm_num) h0
  have hRp : 0 < R := by positivity
  have el : log R = log (ev tM t) - 2 * log (ev tD t) - log t := by
    rw [hRd, log_div hM.ne' (by positivity), log_mul (by positivity) htp.ne', log_pow]
    push_cast; ring
  have f1 : (exp 1) ^ 2 ≤ 7389056101 / 10 ^ 9 := by
    calc (exp 1) ^ 2 ≤ 2.7182818286 ^ 2 := pow_le_pow_left₀ (exp_pos 1).le e2.le 2
      _ ≤ _ := by norm_num
  have f2 : 7389056096 / 10 ^ 9 ≤ (exp 1) ^ 2 := by
    calc (7389056096 / 10 ^ 9 : ℝ) ≤ 2.7182818283 ^ 2 := by norm_num
      _ ≤ (exp 1) ^ 2 := pow_le_pow_left₀ (by norm_num) e1.le 2
  have f3 := sq_nonneg (exp 1)
  set E := (exp 1) ^ 2 with hE
  have hEp : 0 < E := by positivity
  have lE : log E = 2 := by rw [hE, log_pow, log_exp]; norm_num
  have g1 : R * E / √(2 * π) ≤ 1 - 118 / 10 ^ 8 := by
    rw [div_le_iff₀ hs]
    calc R * E ≤ 33923484507 / 10 ^ 11 * (7389056101 / 10 ^ 9) := mul_le_mul hR.2 f1 hEp.le (by norm_num)
      _ ≤ (1 - 118 / 10 ^ 8) * (2506628274 / 10 ^ 9) := by norm_num
      _ ≤ _ := by gcongr
  have g2 : √(2 * π) / (R * E) ≤ 1 + 120 / 10 ^ 8 := by
    rw [div_le_iff₀ (by positivity)]
    calc √(2 * π) ≤ 2506628275 / 10 ^ 9 := hu
      _ ≤ (1 + 120 / 10 ^ 8) * (33923484506 / 10 ^ 11 * (7389056096 / 10 ^ 9)) := by norm_num
      _ ≤ _ := by gcongr; exact hR.1
  have a1 := log_le_sub_one_of_pos (x := R * E / √(2 * π)) (by positivity)
  have a2 := log_le_sub_one_of_pos (x := √(2 * π) / (R * E)) (by positivity)
  rw [log_div (by positivity) hs.ne', log_mul hRp.ne' hEp.ne', lE] at a1
  rw [log_div hs.ne' (by positivity), log_mul hRp.ne' hEp.ne', lE] at a2
  unfold tH
  rw [← el, abs_le]
  norm_num at hY a1 a2 g1 g2 ⊢
  constructor <;> linarith

theorem tH_near {t : ℝ} (h0 : 27 / 10 ≤ t) (h1 : t ≤ 10) : |tH t - log (√(2 * π))| ≤ 14 / 10 ^ 6 := by
  have hm := (convex_Icc (27 / 10 : ℝ) 10).norm_image_sub_le_of_norm_hasDerivWithin_le (f := tH) (C := 2 / 10 ^ 6)
    (fun s h => (tH_deriv h.1 h.2).hasDerivWithinAt) (fun s h => by rw [norm_eq_abs]; exact tT_le h.1 h.2)
    (x := 330953 / 100000) (y := t) ⟨by norm_num, by norm_num⟩ ⟨h0, h1⟩
  rw [norm_eq_abs, norm_eq_abs] at hm
  have h2 : |t - 330953 / 100000| ≤ 67 / 10 := by rw [abs_le]; constructor <;> linarith
  have h3 := abs_le.mp (hm.trans (mul_le_mul_of_nonneg_left h2 (by norm_num)))
  have h4 := abs_le.mp tH_anchor
  rw [abs_le]
  norm_num at h3 h4 ⊢
  constructor <;> linarith

theorem tail_rate {t : ℝ} (h0 : 27 / 10 ≤ t) (h1 : t ≤ 10) :
    |density (tailF t) * (ev tM t / ev tD t ^ 2) - t * exp (-(t ^ 2) / 2)| ≤ 15 / 10 ^ 6 * (t * exp (-(t ^ 2) / 2)) := by
  have hD := tD_pos h0 h1
  have hM := tM_pos h0 h1
  have ht : 0 < t := by linarith
  have e : density (tailF t) * (ev tM t / ev tD t ^ 2) = t * exp (-(t ^ 2) / 2) * exp (tH t - log (√(2 * π))) := by
    unfold tH density
    rw [exp_sub, exp_log s2pi_pos, show (t ^ 2 - tailF t ^ 2) / 2 = -(tailF t ^ 2) / 2 - -(t ^ 2) / 2 by ring, exp_add, exp_sub,
      exp_log ht, exp_sub, exp_log hM, exp_sub, two_mul (log _), exp_add, exp_log hD]
    have := s2pi_pos
    have := exp_pos (-(t ^ 2) / 2)
    field_simp
  have hn := tH_near h0 h1
  have b1 := abs_exp_sub_one_sub_id_le (hn.trans (by norm_num))
  have b2 : (tH t - log (√(2 * π))) ^ 2 ≤ (14 / 10 ^ 6) ^ 2 := by
    rw [← sq_abs]; exact pow_le_pow_left₀ (abs_nonneg _) hn 2
  have b3 := abs_le.mp b1
  have b4 := abs_le.mp hn
  have hp : 0 < t * exp (-(t ^ 2) / 2) := by positivity
  rw [e, ← mul_sub_one, abs_mul, abs_of_pos hp, mul_comm]
  refine mul_le_mul_of_nonneg_right ?_ hp.le
  rw [abs_le]
  norm_num at b2 b3 b4 ⊢
  constructor <;> linarith

theorem exp_neg_half_deriv (t : ℝ) : HasDerivAt (fun t : ℝ => exp (-(t ^ 2) / 2)) (-(t * exp (-(t ^ 2) / 2))) t := by
  have h1 : HasDerivAt (fun t : ℝ => -(t ^ 2) / 2) (-t) t :=
    (((hasDerivAt_pow 2 t).neg).div_const 2).congr_deriv (by norm_num; ring)
  exact h1.exp.congr_deriv (by ring)

theorem exp_neg_forty : exp (-40) ≤ 1 / 10 ^ 17 := by
  have h : (27 / 10 : ℝ) ≤ exp 1 := by have := exp_one_gt_d9; norm_num at this ⊢; linarith
  have h2 : (10 : ℝ) ^ 17 ≤ exp 40 := by
    calc (10 : ℝ) ^ 17 ≤ (27 / 10) ^ 40 := by norm_num
      _ ≤ exp 1 ^ 40 := pow_le_pow_left₀ (by norm_num) h 40
      _ = exp 40 := by rw [← exp_nat_mul]; norm_num
  rw [exp_neg, ← one_div]
  exact one_div_le_one_div_of_le (by norm_num) h2

theorem tail_end : |cdf (tailF 10) - exp (-(10 ^ 2) / 2)| ≤ 1 / 10 ^ 17 := by
  have hx : tailF 10 ≤ -9 := by simp only [tailF, ev, tC, tD]; norm_num
  have h1 := cdf_tail (x := tailF 10) (by linarith)
  have h2 := cdf_pos (tailF 10)
  have h3 : density (tailF 10) ≤ exp (-40) := by
    unfold density
    have hs : 1 ≤ √(2 * π) := by
      refine le_sqrt_of_sq_le ?_
      have := pi_gt_three
      linarith
    rw [div_le_iff₀ s2pi_pos]
    calc exp (-(tailF 10 ^ 2) / 2) ≤ exp (-40) := exp_le_exp.mpr (by nlinarith)
      _ ≤ exp (-40) * √(2 * π) := le_mul_of_one_le_right (exp_pos _).le hs
  have h4 : exp (-(10 ^ 2) / 2) ≤ exp (-40) := exp_le_exp.mpr (by norm_num)
  have h5 := exp_pos (-(10 ^ 2) / 2 : ℝ)
  have h6 := exp_neg_forty
  rw [abs_le]
  constructor <;> linarith

/-- The approximation in the tail: relative error, and an absolute term far below the smallest probability in use. -/
theorem tail_near {t : ℝ} (h0 : 27 / 10 ≤ t) (h1 : t ≤ 10) :
    |cdf (tailF t) - exp (-(t ^ 2) / 2)| ≤ 15 / 10 ^ 6 * exp (-(t ^ 2) / 2) + 1 / 10 ^ 17 := by
  have hs : ∀ s ∈ interior (Set.Icc t 10), 27 / 10 ≤ s ∧ s ≤ 10 := by
    intro s h
    have := interior_subset h
    exact ⟨h0.trans this.1, this.2⟩
  have hd : ∀ (k : ℝ), ∀ s, 27 / 10 ≤ s → s ≤ 10 → HasDerivAt (fun s => cdf (tailF s) - exp (-(s ^ 2) / 2) + k * exp (-(s ^ 2) / 2))
      (-(density (tailF s) * (ev tM s / ev tD s ^ 2) - s * exp (-(s ^ 2) / 2)) - k * (s * exp (-(s ^ 2) / 2))) s := by
    intro k s a b
    have d1 := (cdf_hasDerivAt (tailF s)).comp s (tailF_deriv a b)
    exact ((d1.sub (exp_neg_half_deriv s)).add ((exp_neg_half_deriv s).const_mul k)).congr_deriv (by ring)
  have hc : ∀ k : ℝ, ContinuousOn (fun s => cdf (tailF s) - exp (-(s ^ 2) / 2) + k * exp (-(s ^ 2) / 2)) (Set.Icc t 10) := fun k s h =>
    (hd k s (h0.trans h.1) h.2).continuousAt.continuousWithinAt
  have m1 := antitoneOn_of_deriv_nonpos (convex_Icc t 10) (hc (15 / 10 ^ 6))
    (fun s h => (hd _ s (hs s h).1 (hs s h).2).differentiableAt.differentiableWithinAt)
    (fun s h => by
      rw [(hd _ s (hs s h).1 (hs s h).2).deriv]
      have := abs_le.mp (tail_rate (hs s h).1 (hs s h).2)
      linarith) ⟨le_rfl, h1⟩ ⟨h1, le_rfl⟩ h1
  have m2 := monotoneOn_of_deriv_nonneg (convex_Icc t 10) (hc (-(15 / 10 ^ 6)))
    (fun s h => (hd _ s (hs s h).1 (hs s h).2).differentiableAt.differentiableWithinAt)
    (fun s h => by
      rw [(hd _ s (hs s h).1 (hs s h).2).deriv]
      have := abs_le.mp (tail_rate (hs s h).1 (hs s h).2)
      linarith) ⟨le_rfl, h1⟩ ⟨h1, le_rfl⟩ h1
  simp only at m1 m2
  have h2 := abs_le.mp tail_end
  have h3 := exp_pos (-(10 ^ 2) / 2 : ℝ)
  rw [abs_le]
  constructor
  · linarith [mul_pos (by norm_num : (0 : ℝ) < 15 / 10 ^ 6) h3]
  · linarith [mul_pos (by norm_num : (0 : ℝ) < 15 / 10 ^ 6) h3]

theorem tailF_range {t : ℝ} (h0 : 27 / 10 ≤ t) (h1 : t ≤ 10) : -t ≤ tailF t ∧ tailF t ≤ -(19 / 10) := by
  have hD := tD_pos h0 h1
  have e1 := posOn_spec (a := 26999) (b := 100000) (d := 10000) (p := add tC (mul [0, 1] tD)) (by decide +kernel)
    (by norm_num) (x := t) (by push_cast; linarith) (by push_cast; linarith)
  have e2 := posOn_spec (a := 26999) (b := 100000) (d := 10000) (p := add (smul (-10) tC) (smul (-19) tD)) (by decide +kernel)
    (by norm_num) (x := t) (by push_cast; linarith) (by push_cast; linarith)
  simp only [ev_add, ev_mul, ev_smul] at e1 e2
  simp only [show ev [0, 1] t = t by simp [ev]] at e1
  push_cast at e2
  unfold tailF
  rw [le_div_iff₀ hD, div_le_iff₀ hD]
  constructor <;> linarith

end HL.Normal

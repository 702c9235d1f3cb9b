import Verif.Proof.PolyCert
import Verif.Proof.NormalReal
import Mathlib.Analysis.Real.Pi.Bounds
import Mathlib.Analysis.SpecialFunctions.Log.Deriv

/-
The rational function of the central region of `invCumNorm` (StatFuncs.cpp:293-301), over the real numbers: the normal
distribution function undoes it up to a few millionths.
-/

namespace HL.Normal
open Real PolyCert

/-- StatFuncs.cpp:214-219 times `10^15`, constant term first -/
def cA : List ℤ := [2506628277459239, -30664798066147160, 138357751867269000, -275928510446968700, 220946098424520500, -39696830286653760]

/-- StatFuncs.cpp:221-225 and the constant term 1, times `10^15`, constant term first -/
def cB : List ℤ := [1000000000000000, -13280681552885720, 66801311887719720, -155698979859886600, 161585836858040900, -54476098798224060]

def cN : List ℤ := add (mul cA cB) (mul [0, 2] (add (mul (der cA) cB) (smul (-1) (mul cA (der cB)))))

def cI : List ℤ := add (mul (add (mul cA cA) (mul [0, 2] (mul cA (der cA)))) cB) (smul (-1) (mul [0, 2] (mul (mul cA cA) (der cB))))

def cT : List ℤ := add (add (smul 2 (mul (der cN) (mul cB (mul cB cB)))) (smul (-4) (mul (mul (der cB) (mul cB cB)) cN))) (smul (-1) (mul cN cI))

def cK : List ℤ := mul cN (mul cB (mul cB cB))

theorem cB_pos {r : ℝ} (h0 : 0 ≤ r) (h1 : r ≤ 226339 / 1000000) : 0 < ev cB r :=
  posOn_spec (a := -1000) (b := 226339) (d := 1000000) (by decide +kernel) (by norm_num) (by push_cast; linarith) (by push_cast; linarith)

theorem cN_pos {r : ℝ} (h0 : 0 ≤ r) (h1 : r ≤ 226339 / 1000000) : 0 < ev cN r :=
  posOn_spec (a := -1000) (b := 226339) (d := 1000000) (by decide +kernel) (by norm_num) (by push_cast; linarith) (by push_cast; linarith)

theorem cT_le {a b m k : ℤ} (hp : posOn a b 1000000 (add (smul (2 * m) cK) (smul (-k) cT)) = true)
    (hn : posOn a b 1000000 (add (smul (2 * m) cK) (smul k cT)) = true) (hk : 0 < k) {r : ℝ} (h1 : (a : ℝ) / 1000000 < r)
    (h2 : r ≤ (b : ℝ) / 1000000) (hr0 : 0 ≤ r) (hr1 : r ≤ 226339 / 1000000) :
    |ev cT r / (2 * ev cK r)| ≤ m / k := by
  have hk' : (0 : ℝ) < k := by exact_mod_cast hk
  have hK : 0 < ev cK r := by
    unfold cK
    rw [ev_mul, ev_mul, ev_mul]
    have := cB_pos hr0 hr1
    have := cN_pos hr0 hr1
    positivity
  have e1 := posOn_spec hp (by norm_num) (x := r) (by push_cast; exact h1) (by push_cast; exact h2)
  have e2 := posOn_spec hn (by norm_num) (x := r) (by push_cast; exact h1) (by push_cast; exact h2)
  rw [ev_add, ev_smul, ev_smul] at e1 e2
  push_cast at e1 e2
  rw [abs_div, abs_of_pos (by linarith : 0 < 2 * ev cK r), div_le_div_iff₀ (by linarith) hk', ← abs_of_pos hk', ← abs_mul, abs_le]
  constructor <;> nlinarith

/-- the logarithm of the derivative of the approximation times the density, as a function of `r = q²` -/
noncomputable def cH (r : ℝ) : ℝ := log (ev cN r) - 2 * log (ev cB r) - r * ev cA r ^ 2 / (2 * ev cB r ^ 2)

theorem cH_deriv {r : ℝ} (h0 : 0 ≤ r) (h1 : r ≤ 226339 / 1000000) : HasDerivAt cH (ev cT r / (2 * ev cK r)) r := by
  have hB := cB_pos h0 h1
  have hN := cN_pos h0 h1
  have d1 := (ev_der cN r).log hN.ne'
  have d2 := ((ev_der cB r).log hB.ne').const_mul 2
  have d3 := ((hasDerivAt_id r).mul ((ev_der cA r).pow 2)).div (((ev_der cB r).pow 2).const_mul 2) (by simp only [Pi.pow_apply]; positivity)
  refine ((d1.sub d2).sub d3).congr_deriv ?_
  simp only [cT, cI, cK, ev_add, ev_smul, ev_mul, ev, id, Pi.pow_apply, Pi.mul_apply]
  push_cast
  field_simp
  ring

theorem cH_zero : |cH 0 - log (√(2 * π))| ≤ 1 / 10 ^ 8 := by
  have e : cH 0 = log (2506628277459239 / 1000000000000000) := by
    have hN : ev cN 0 = 2506628277459239 * 1000000000000000 := by
      simp only [cN, ev_add, ev_mul, ev_smul, ev, cA, cB]; push_cast; ring
    have hB : ev cB 0 = 1000000000000000 := by simp only [ev, cB]; push_cast; ring
    unfold cH
    rw [hN, hB, log_mul (by norm_num) (by norm_num), log_div (by norm_num) (by norm_num)]
    ring
  have hs : 0 < √(2 * π) := s2pi_pos
  have hl : (2506628274 / 10 ^ 9 : ℝ) ≤ √(2 * π) := by
    refine le_sqrt_of_sq_le ?_
    have := pi_gt_d20
    norm_num at this ⊢
    linarith
  have hu : √(2 * π) ≤ (2506628275 / 10 ^ 9 : ℝ) := by
    refine sqrt_le_iff.mpr ⟨by norm_num, ?_⟩
    have := pi_lt_d20
    norm_num at this ⊢
    linarith
  rw [e]
  have a1 := log_le_sub_one_of_pos (x := 2506628277459239 / 1000000000000000 / √(2 * π)) (by positivity)
  have a2 := log_le_sub_one_of_pos (x := √(2 * π) / (2506628277459239 / 1000000000000000)) (by positivity)
  rw [log_div (by norm_num) hs.ne'] at a1
  rw [log_div hs.ne' (by norm_num)] at a2
  have b1 : (2506628277459239 / 1000000000000000 : ℝ) / √(2 * π) ≤ 1 + 1 / 10 ^ 8 := by
    rw [div_le_iff₀ hs]; norm_num at hl ⊢; linarith
  have b2 : √(2 * π) / (2506628277459239 / 1000000000000000 : ℝ) ≤ 1 + 1 / 10 ^ 8 := by
    rw [div_le_iff₀ (by norm_num)]; norm_num at hu ⊢; linarith
  rw [abs_le]; constructor <;> linarith

theorem cH_piece {a b m k : ℤ} (hp : posOn (a - 1) b 1000000 (add (smul (2 * m) cK) (smul (-k) cT)) = true)
    (hn : posOn (a - 1) b 1000000 (add (smul (2 * m) cK) (smul k cT)) = true) (hk : 0 < k) (ha : 0 ≤ a) (hb : b ≤ 226339)
    {r : ℝ} (h1 : (a : ℝ) / 1000000 ≤ r) (h2 : r ≤ (b : ℝ) / 1000000) :
    |cH r - cH ((a : ℝ) / 1000000)| ≤ m / k * (r - (a : ℝ) / 1000000) := by
  have ha' : (0 : ℝ) ≤ a := by exact_mod_cast ha
  have hb' : (b : ℝ) ≤ 226339 := by exact_mod_cast hb
  have hs : ∀ s ∈ Set.Icc ((a : ℝ) / 1000000) r, 0 ≤ s ∧ s ≤ 226339 / 1000000 ∧ s ≤ (b : ℝ) / 1000000 ∧ ((a - 1 : ℤ) : ℝ) / 1000000 < s := by
    intro s hs
    have : 0 ≤ (a : ℝ) / 1000000 := by positivity
    have h3 := hs.1; have h4 := hs.2
    refine ⟨by linarith, by linarith, by linarith, ?_⟩
    push_cast; linarith
  have hm := (convex_Icc ((a : ℝ) / 1000000) r).norm_image_sub_le_of_norm_hasDerivWithin_le (f := cH) (C := (m : ℝ) / k)
    (fun s h => (cH_deriv (hs s h).1 (hs s h).2.1).hasDerivWithinAt)
    (fun s h => by rw [norm_eq_abs]; exact cT_le hp hn hk (hs s h).2.2.2 (hs s h).2.2.1 (hs s h).1 (hs s h).2.1)
    (x := (a : ℝ) / 1000000) (y := r) ⟨le_rfl, h1⟩ ⟨h1, le_rfl⟩
  rw [norm_eq_abs, norm_eq_abs, abs_of_nonneg (sub_nonneg.mpr h1)] at hm
  exact hm

theorem cH_near {r : ℝ} (h0 : 0 ≤ r) (h1 : r ≤ 226339 / 1000000) : |cH r - log (√(2 * π))| ≤ 11 / 10 ^ 6 := by
  have z := abs_le.mp cH_zero
  have p1 : ∀ r : ℝ, 0 ≤ r → r ≤ 200000 / 1000000 → |cH r - cH 0| ≤ 1 / 100000 * r := by
    intro r h0 h1
    have := cH_piece (a := 0) (b := 200000) (m := 1) (k := 100000) (by decide +kernel) (by decide +kernel) (by norm_num)
      (by norm_num) (by norm_num) (r := r) (by push_cast; linarith) (by push_cast; linarith)
    push_cast at this
    rw [zero_div, sub_zero] at this
    exact this
  have p2 : ∀ r : ℝ, 200000 / 1000000 ≤ r → r ≤ 215000 / 1000000 → |cH r - cH (200000 / 1000000)| ≤ 2 / 100000 * (r - 200000 / 1000000) := by
    intro r h0 h1
    have := cH_piece (a := 200000) (b := 215000) (m := 2) (k := 100000) (by decide +kernel) (by decide +kernel) (by norm_num)
      (by norm_num) (by norm_num) (r := r) (by push_cast; linarith) (by push_cast; linarith)
    push_cast at this
    exact this
  have p3 : ∀ r : ℝ, 215000 / 1000000 ≤ r → r ≤ 226339 / 1000000 → |cH r - cH (215000 / 1000000)| ≤ 7 / 10000 * (r - 215000 / 1000000) := by
    intro r h0 h1
    have := cH_piece (a := 215000) (b := 226339) (m := 7) (k := 10000) (by decide +kernel) (by decide +kernel) (by norm_num)
      (by norm_num) (by norm_num) (r := r) (by push_cast; linarith) (by push_cast; linarith)
    push_cast at this
    exact this
  rcases le_or_gt r (200000 / 1000000) with c1 | c1
  · have := abs_le.mp (p1 r h0 c1)
    rw [abs_le]; constructor <;> linarith
  have q1 := abs_le.mp (p1 (200000 / 1000000) (by norm_num) le_rfl)
  rcases le_or_gt r (215000 / 1000000) with c2 | c2
  · have := abs_le.mp (p2 r c1.le c2)
    rw [abs_le]; constructor <;> linarith
  have q2 := abs_le.mp (p2 (215000 / 1000000) (by norm_num) le_rfl)
  have := abs_le.mp (p3 r c2.le h1)
  rw [abs_le]; constructor <;> linarith

/-- the rational function of the central region -/
noncomputable def central (q : ℝ) : ℝ := ev cA (q ^ 2) * q / ev cB (q ^ 2)

theorem central_deriv {q : ℝ} (h : q ^ 2 ≤ 226339 / 1000000) :
    HasDerivAt central (ev cN (q ^ 2) / ev cB (q ^ 2) ^ 2) q := by
  have hB := cB_pos (sq_nonneg q) h
  have hsq : HasDerivAt (fun q : ℝ => q ^ 2) (2 * q) q := (hasDerivAt_pow 2 q).congr_deriv (by norm_num)
  have dA := (ev_der cA (q ^ 2)).comp q hsq
  have dB := (ev_der cB (q ^ 2)).comp q hsq
  refine ((dA.mul (hasDerivAt_id q)).div dB hB.ne').congr_deriv ?_
  simp only [cN, ev_add, ev_smul, ev_mul, ev, id, Function.comp, Pi.mul_apply]
  push_cast
  congr 1
  ring

theorem central_rate {q : ℝ} (h : q ^ 2 ≤ 226339 / 1000000) :
    |density (central q) * (ev cN (q ^ 2) / ev cB (q ^ 2) ^ 2) - 1| ≤ 111 / 10 ^ 7 := by
  have hB := cB_pos (sq_nonneg q) h
  have hN := cN_pos (sq_nonneg q) h
  have e : density (central q) * (ev cN (q ^ 2) / ev cB (q ^ 2) ^ 2) = exp (cH (q ^ 2) - log (√(2 * π))) := by
    unfold cH density central
    rw [exp_sub, exp_log s2pi_pos, sub_sub, exp_sub, exp_log hN, exp_add, two_mul (log _), exp_add, exp_log hB,
      show -((ev cA (q ^ 2) * q / ev cB (q ^ 2)) ^ 2) / 2 = -(q ^ 2 * ev cA (q ^ 2) ^ 2 / (2 * ev cB (q ^ 2) ^ 2)) by
        rw [div_pow]; field_simp, exp_neg]
    have := s2pi_pos
    field_simp
  rw [e]
  have hn := cH_near (sq_nonneg q) h
  have h1 := abs_exp_sub_one_sub_id_le (hn.trans (by norm_num))
  have h2 : (cH (q ^ 2) - log (√(2 * π))) ^ 2 ≤ (11 / 10 ^ 6) ^ 2 := by
    rw [← sq_abs]; exact pow_le_pow_left₀ (abs_nonneg _) hn 2
  have h3 := abs_le.mp h1
  have h4 := abs_le.mp hn
  rw [abs_le]
  norm_num at h2 h3 h4 ⊢
  constructor <;> linarith

/-- The central approximation is right up to about five millionths. -/
theorem central_near {q : ℝ} (h : q ^ 2 ≤ 226339 / 1000000) : |cdf (central q) - (1 / 2 + q)| ≤ 111 / 10 ^ 7 * |q| := by
  have hs : ∀ s ∈ Set.Icc (-|q|) |q|, s ^ 2 ≤ 226339 / 1000000 := by
    intro s hs
    have : |s| ≤ |q| := abs_le.mpr hs
    exact (sq_le_sq.mpr this).trans h
  have hm := (convex_Icc (-|q|) |q|).norm_image_sub_le_of_norm_hasDerivWithin_le (f := fun s => cdf (central s) - s) (C := 111 / 10 ^ 7)
    (fun s h => (((cdf_hasDerivAt (central s)).comp s (central_deriv (hs s h))).sub (hasDerivAt_id s)).hasDerivWithinAt)
    (fun s h => by rw [norm_eq_abs]; exact central_rate (hs s h))
    (x := 0) (y := q) ⟨by simp, by simp⟩ ⟨neg_abs_le q, le_abs_self q⟩
  have e0 : central 0 = 0 := by simp [central]
  simp only [norm_eq_abs, e0, cdf_zero, sub_zero] at hm
  rw [show cdf (central q) - (1 / 2 + q) = cdf (central q) - q - 1 / 2 by ring]
  exact hm

theorem central_abs {q : ℝ} (h : q ^ 2 ≤ 226339 / 1000000) : |central q| ≤ 2 := by
  have hB := cB_pos (sq_nonneg q) h
  have hp := posOn_spec (a := -1000) (b := 226339) (d := 1000000) (p := add (smul 4 (mul cB cB)) (smul (-1) (mul [0, 1] (mul cA cA))))
    (by decide +kernel) (by norm_num) (x := q ^ 2) (by push_cast; nlinarith [sq_nonneg q]) (by push_cast; linarith)
  simp only [ev_add, ev_smul, ev_mul, ev] at hp
  push_cast at hp
  unfold central
  rw [abs_div, abs_of_pos hB, div_le_iff₀ hB]
  refine abs_le_of_sq_le_sq ?_ (by positivity)
  nlinarith

end HL.Normal

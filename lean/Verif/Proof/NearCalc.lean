import Verif.Proof.SumRound
import Verif.Proof.RelErr
import Mathlib.Data.Real.Sqrt

/-
Floating-point results against real numbers: `Near x y e` says that `x` is a finite number within `e` of `y`.
-/

namespace HL
namespace Normal
open Integerise

/-- `x` is a finite number within `e` of the real number `y` -/
def Near (x : Fl) (y e : ℝ) : Prop := ∃ q : ℚ, x = .fin q ∧ |(q : ℝ) - y| ≤ e

variable {fp : FP}

theorem near_self (q : ℚ) : Near (.fin q) (q : ℝ) 0 := ⟨q, rfl, by simp⟩

theorem Near.mono {x : Fl} {y e f : ℝ} (h : Near x y e) (hf : e ≤ f) : Near x y f := by
  obtain ⟨q, hq, h⟩ := h
  exact ⟨q, hq, h.trans hf⟩

theorem Near.to {x : Fl} {y y' e f : ℝ} (h : Near x y e) (hf : e + |y - y'| ≤ f) : Near x y' f := by
  obtain ⟨q, hq, h⟩ := h
  refine ⟨q, hq, le_trans ?_ hf⟩
  calc |(q : ℝ) - y'| = |((q : ℝ) - y) + (y - y')| := by ring_nf
    _ ≤ _ := (abs_add_le _ _).trans (by linarith)

theorem rnd_err (hfp : fp.Good) {q : ℚ} (h : |q| ≤ 10 ^ 30) : ∃ a, fp.rnd q = .fin a ∧ |a - q| ≤ (|q| + 1 / 10 ^ 40) / 10 ^ 15 := by
  have hbig : |q| ≤ 2 ^ 1023 := by
    refine h.trans ?_
    calc (10 : ℚ) ^ 30 ≤ 2 ^ 100 := by norm_num
      _ ≤ 2 ^ 1023 := pow_le_pow_right₀ (by norm_num) (by norm_num)
  rcases le_or_gt ((2 : ℚ) ^ (-1022 : ℤ)) |q| with h1 | h1
  · obtain ⟨a, ha, he⟩ := hfp.near q h1 hbig
    refine ⟨a, ha, he.trans ?_⟩
    have := abs_nonneg q
    rw [div_le_div_iff₀ (by positivity) (by positivity)]
    nlinarith
  · obtain ⟨a, ha⟩ := hfp.finite q hbig
    refine ⟨a, ha, ?_⟩
    have ht : tinyQ = (2 : ℚ) ^ (-1022 : ℤ) := tinyQ_eq
    have hs := rnd_small hfp (by rw [ht]; exact h1.le) ha
    have ht2 := tinyQ_le'
    have h3 : |a - q| ≤ 3 * tinyQ := by
      calc |a - q| ≤ |a| + |q| := abs_sub _ _
        _ ≤ 3 * tinyQ := by rw [ht] at hs ⊢; linarith
    have h4 := abs_nonneg q
    calc |a - q| ≤ 3 * (1 / 2 ^ 200) := by linarith
      _ ≤ (0 + 1 / 10 ^ 40) / 10 ^ 15 := by norm_num
      _ ≤ _ := by gcongr

theorem near_rnd (hfp : fp.Good) {q : ℚ} {y e M f : ℝ} (h : |(q : ℝ) - y| ≤ e) (hM : |y| + e ≤ M) (hM30 : M ≤ 10 ^ 30)
    (hf : e + (M + 1 / 10 ^ 40) / 10 ^ 15 ≤ f) : Near (fp.rnd q) y f := by
  have hq : |(q : ℝ)| ≤ M := by
    calc |(q : ℝ)| = |((q : ℝ) - y) + y| := by ring_nf
      _ ≤ |(q : ℝ) - y| + |y| := abs_add_le _ _
      _ ≤ M := by linarith
  have hq' : |q| ≤ 10 ^ 30 := by
    have : |(q : ℝ)| ≤ 10 ^ 30 := hq.trans hM30
    exact_mod_cast this
  obtain ⟨a, ha, he⟩ := rnd_err hfp hq'
  refine ⟨a, ha, ?_⟩
  have he' : |(a : ℝ) - q| ≤ (|(q : ℝ)| + 1 / 10 ^ 40) / 10 ^ 15 := by
    have := (Rat.cast_le (K := ℝ)).mpr he
    push_cast at this
    exact this
  calc |(a : ℝ) - y| = |((a : ℝ) - q) + (q - y)| := by ring_nf
    _ ≤ |(a : ℝ) - q| + |(q : ℝ) - y| := abs_add_le _ _
    _ ≤ (M + 1 / 10 ^ 40) / 10 ^ 15 + e := add_le_add (he'.trans (by gcongr)) h
    _ ≤ f := by linarith

theorem near_add (hfp : fp.Good) {x x' : Fl} {y y' e e' M f : ℝ} (h : Near x y e) (h' : Near x' y' e')
    (hM : |y + y'| + (e + e') ≤ M) (hM30 : M ≤ 10 ^ 30) (hf : e + e' + (M + 1 / 10 ^ 40) / 10 ^ 15 ≤ f) :
    Near (fp.add x x') (y + y') f := by
  obtain ⟨q, rfl, h⟩ := h
  obtain ⟨q', rfl, h'⟩ := h'
  show Near (fp.rnd (q + q')) _ _
  refine near_rnd hfp (e := e + e') ?_ hM hM30 hf
  push_cast
  calc |(q : ℝ) + q' - (y + y')| = |((q : ℝ) - y) + (q' - y')| := by ring_nf
    _ ≤ _ := (abs_add_le _ _).trans (add_le_add h h')

theorem near_neg {x : Fl} {y e : ℝ} (h : Near x y e) : Near (FP.neg x) (-y) e := by
  obtain ⟨q, rfl, h⟩ := h
  refine ⟨-q, rfl, ?_⟩
  push_cast
  rw [neg_sub_neg, abs_sub_comm]; exact h

theorem near_sub (hfp : fp.Good) {x x' : Fl} {y y' e e' M f : ℝ} (h : Near x y e) (h' : Near x' y' e')
    (hM : |y - y'| + (e + e') ≤ M) (hM30 : M ≤ 10 ^ 30) (hf : e + e' + (M + 1 / 10 ^ 40) / 10 ^ 15 ≤ f) :
    Near (fp.sub x x') (y - y') f := by
  rw [sub_eq_add_neg] at hM ⊢
  exact near_add hfp h (near_neg h') hM hM30 hf

theorem near_mul (hfp : fp.Good) {x x' : Fl} {y y' e e' A B M f : ℝ} (h : Near x y e) (h' : Near x' y' e') (hA : |y| ≤ A) (hB : |y'| ≤ B)
    (hM : A * B + (e * B + A * e' + e * e') ≤ M) (hM30 : M ≤ 10 ^ 30)
    (hf : e * B + A * e' + e * e' + (M + 1 / 10 ^ 40) / 10 ^ 15 ≤ f) : Near (fp.mul x x') (y * y') f := by
  obtain ⟨q, rfl, h⟩ := h
  obtain ⟨q', rfl, h'⟩ := h'
  have he := (abs_nonneg _).trans h
  have he' := (abs_nonneg _).trans h'
  have hA0 := (abs_nonneg _).trans hA
  show Near (fp.rnd (q * q')) _ _
  refine near_rnd hfp (e := e * B + A * e' + e * e') ?_ (le_trans ?_ hM) hM30 hf
  · push_cast
    calc |(q : ℝ) * q' - y * y'| = |((q : ℝ) - y) * y' + y * (q' - y') + ((q : ℝ) - y) * (q' - y')| := by ring_nf
      _ ≤ |((q : ℝ) - y) * y'| + |y * (q' - y')| + |((q : ℝ) - y) * (q' - y')| := abs_add_three _ _ _
      _ ≤ _ := by
        rw [abs_mul, abs_mul, abs_mul]
        gcongr
  · rw [abs_mul]
    gcongr

theorem near_div (hfp : fp.Good) {x x' : Fl} {y y' e e' Q b M f g : ℝ} (h : Near x y e) (h' : Near x' y' e') (hQ : |y / y'| ≤ Q)
    (hb : e' + b ≤ |y'|) (hb0 : 0 < b) (hg : (e + Q * e') / b ≤ g) (hM : Q + g ≤ M) (hM30 : M ≤ 10 ^ 30)
    (hf : g + (M + 1 / 10 ^ 40) / 10 ^ 15 ≤ f) : Near (fp.div x x') (y / y') f := by
  obtain ⟨q, rfl, h⟩ := h
  obtain ⟨q', rfl, h'⟩ := h'
  have he' := (abs_nonneg _).trans h'
  have hq' : b ≤ |(q' : ℝ)| := by
    have : |y'| ≤ |(q' : ℝ)| + |(q' : ℝ) - y'| := by
      calc |y'| = |(q' : ℝ) - (q' - y')| := by ring_nf
        _ ≤ _ := abs_sub _ _
    linarith
  have hq0 : (q' : ℝ) ≠ 0 := abs_pos.mp (lt_of_lt_of_le hb0 hq')
  have hq0' : q' ≠ 0 := by exact_mod_cast hq0
  have hy0 : y' ≠ 0 := abs_pos.mp (by linarith)
  have e1 : fp.div (.fin q) (.fin q') = fp.rnd (q / q') := by
    simp only [FP.div, if_neg hq0']
  rw [e1]
  refine near_rnd hfp (e := g) (le_trans ?_ hg) (by linarith) hM30 hf
  push_cast
  have hq1 : 0 < |(q' : ℝ)| := lt_of_lt_of_le hb0 hq'
  rw [show (q : ℝ) / q' - y / y' = (((q : ℝ) - y) - y / y' * (q' - y')) / q' by field_simp; ring, abs_div]
  have hn : |((q : ℝ) - y) - y / y' * (q' - y')| ≤ e + Q * e' := by
    refine (abs_sub _ _).trans ?_
    rw [abs_mul]
    gcongr
    exact (abs_nonneg _).trans hQ
  have : 0 ≤ e + Q * e' := (abs_nonneg _).trans hn
  exact div_le_div₀ this hn hb0 hq'

end Normal
end HL

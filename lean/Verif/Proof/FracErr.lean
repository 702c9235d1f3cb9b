import Verif.Proof.FracSol

/-
The error of a convergent against the step to the next one, for the 10000 steps the code takes.
-/

namespace HL.GammaR
open MeasureTheory Set Filter Topology Real

theorem cerr_bound' {x s : ℝ} (hx : 1 < x) (hs : s ≤ x) (hs0 : 1 / 2 ≤ s) {n : ℕ} (hn : n ≤ 10000) :
    |cerr x s n| ≤ 804 * |cerr x s n - cerr x s (n + 1)| ∧ |cerr x s (n + 1)| ≤ 804 * |cerr x s n - cerr x s (n + 1)| := by
  rcases Nat.lt_or_ge 400 n with hbig | hsmall
  swap
  · have h := cerr_bound hx hs hs0 n
    have hc : (2 * n + 4 : ℝ) ≤ 804 := by
      have : (n : ℝ) ≤ 400 := by exact_mod_cast hsmall
      linarith
    have := mul_le_mul_of_nonneg_right hc (abs_nonneg (cerr x s n - cerr x s (n + 1)))
    exact ⟨h.1.trans this, h.2.trans this⟩
  have hnr : (400 : ℝ) ≤ n := by exact_mod_cast hbig.le
  have hx0 : 0 < x := by linarith
  have e1 := cerr_eq hx hs n
  have e2 : cerr x s (n + 1) = coef s n * ((n + 2 - s) * (x * mom x (s - 2) (n + 1) / den x s (n + 1))) := by
    rw [cerr_eq hx hs (n + 1)]; simp only [coef]; ring
  have hd := (den_bounds hx hs n).1
  have hd' := (den_bounds hx hs (n + 1)).1
  have hm := mom_pos x (s - 2) hx0 n
  have hm' := mom_pos x (s - 2) hx0 (n + 1)
  have hle := mom_le x (s - 2) hx0 n
  have ha0 : 0 < x * mom x (s - 2) n / den x s n := by positivity
  have hb0 : 0 < x * mom x (s - 2) (n + 1) / den x s (n + 1) := by positivity
  have hq : ∀ q : ℝ, q * den x s n ≤ den x s (n + 1) → q * (x * mom x (s - 2) (n + 1) / den x s (n + 1)) ≤ x * mom x (s - 2) n / den x s n := by
    intro q hq
    rw [le_div_iff₀ hd]
    calc q * (x * mom x (s - 2) (n + 1) / den x s (n + 1)) * den x s n
        = (q * den x s n) * (x * mom x (s - 2) (n + 1) / den x s (n + 1)) := by ring
      _ ≤ den x s (n + 1) * (x * mom x (s - 2) (n + 1) / den x s (n + 1)) := mul_le_mul_of_nonneg_right hq hb0.le
      _ = x * mom x (s - 2) (n + 1) := by field_simp
      _ ≤ x * mom x (s - 2) n := mul_le_mul_of_nonneg_left hle hx0.le
  have hg : 0 ≤ (n : ℝ) + 2 - s → 203 / 202 * (n + 1) * (x * mom x (s - 2) (n + 1) / den x s (n + 1)) ≤ x * mom x (s - 2) n / den x s n :=
    fun h => hq _ ((den_sol hx).grow hx hs n hn h)
  rw [e1, e2]
  generalize x * mom x (s - 2) n / den x s n = α at *
  generalize x * mom x (s - 2) (n + 1) / den x s (n + 1) = β at *
  rw [← mul_sub, abs_mul, abs_mul, abs_mul]
  have hc := abs_nonneg (coef s n)
  generalize |coef s n| = c at *
  rw [abs_of_pos ha0]
  have key : α ≤ 804 * |α - (n + 2 - s) * β| ∧ |(n + 2 - s) * β| ≤ 804 * |α - (n + 2 - s) * β| := by
    rcases le_total ((n : ℝ) + 2 - s) 0 with h | h
    · have hneg : (n + 2 - s) * β ≤ 0 := mul_nonpos_of_nonpos_of_nonneg h hb0.le
      rw [abs_of_nonpos hneg, abs_of_nonneg (by linarith)]
      constructor <;> linarith
    · have h3 := hg h
      have hpos : 0 ≤ (n + 2 - s) * β := mul_nonneg h hb0.le
      have h5 : 804 * ((n : ℝ) + 2 - s) ≤ 803 * (203 / 202 * (n + 1)) := by linarith
      have h6 := mul_le_mul_of_nonneg_right h5 hb0.le
      have h7 : 804 * ((n + 2 - s) * β) ≤ 803 * α := by linarith
      rw [abs_of_nonneg hpos, abs_of_nonneg (by linarith)]
      constructor <;> linarith
  constructor
  · calc c * α ≤ c * (804 * |α - (n + 2 - s) * β|) := mul_le_mul_of_nonneg_left key.1 hc
      _ = _ := by ring
  · calc c * |(n + 2 - s) * β| ≤ c * (804 * |α - (n + 2 - s) * β|) := mul_le_mul_of_nonneg_left key.2 hc
      _ = _ := by ring

end HL.GammaR

import Verif.Proof.FracRound
import Verif.Props.PValueRound

/-
The continued fraction of `gamain` in rounded arithmetic: when the loop stops and what it returns.
-/

namespace HL.GammaR
open HL HL.Integerise FP
variable {fp : FP}

theorem tinyQ_30 : tinyQ ≤ 1 / 10 ^ 30 := tinyQ_700.trans (one_div_le_one_div_of_le (by norm_num) (by
  calc (10 : ℚ) ^ 30 ≤ 2 ^ 100 := by norm_num
    _ ≤ _ := pow_le_pow_right₀ (by norm_num) (by norm_num)))

/-- the stopping criterion in rounded arithmetic -/
theorem stop_round (hfp : fp.Good) {c1 c2 t1 t2 : ℚ} (b1 : 1 / 10 ^ 6 ≤ c1) (b1' : c1 ≤ 1) (b2 : 1 / 10 ^ 6 ≤ c2) (b2' : c2 ≤ 1) (h1 : |t1 - 1| ≤ 7 / 10 ^ 8)
    (h2 : |t2 - 1| ≤ 7 / 10 ^ 8) (h3 : |t1 - t2| ≤ 8 / 10 ^ 10) :
    (((FP.le (FP.abs (fp.sub (.fin (c1 * t1)) (.fin (c2 * t2)))) (Gamain.acu fp) &&
      FP.le (FP.abs (fp.sub (.fin (c1 * t1)) (.fin (c2 * t2)))) (fp.mul (Gamain.acu fp) (.fin (c2 * t2)))) = true) → |c1 - c2| ≤ 11 / 10 ^ 9 * c2) ∧
    (|c1 - c2| ≤ 1 / 10 ^ 16 → (FP.le (FP.abs (fp.sub (.fin (c1 * t1)) (.fin (c2 * t2)))) (Gamain.acu fp) &&
      FP.le (FP.abs (fp.sub (.fin (c1 * t1)) (.fin (c2 * t2)))) (fp.mul (Gamain.acu fp) (.fin (c2 * t2)))) = true) := by
  have e7 : (7 : ℚ) / 10 ^ 8 ≤ 1 / 10000 := by norm_num
  have g1 := abs_le.mp (h1.trans e7)
  have g2 := abs_le.mp (h2.trans e7)
  have hc1 : 0 < c1 := lt_of_lt_of_le (by norm_num) b1
  have hc2 : 0 < c2 := lt_of_lt_of_le (by norm_num) b2
  have p1 : 0 < c1 * t1 := mul_pos hc1 (by linarith)
  have p2 : 0 < c2 * t2 := mul_pos hc2 (by linarith)
  have u1 : c1 * t1 ≤ 2 := by nlinarith
  have u2 : c2 * t2 ≤ 2 := by nlinarith
  obtain ⟨a, ha, hae⟩ := rnd_abs hfp (q := c1 * t1 - c2 * t2) le_rfl (by
    refine le_trans ?_ hugeQ_100
    refine le_trans (show _ ≤ (2 : ℚ) from ?_) (by norm_num)
    rw [abs_le]; constructor <;> linarith)
  obtain ⟨a0, ha0, ha0e⟩ := rnd_wide hfp (q := 1 / 10 ^ 8) (Or.inr (by
    rw [abs_of_pos (by positivity)]
    exact ⟨pow_700 (by norm_num), pow_400 (by norm_num)⟩))
  rw [abs_of_pos (show (0 : ℚ) < 1 / 10 ^ 8 by norm_num)] at ha0e
  have e53 : (1 : ℚ) / 10 ^ 8 / 2 ^ 53 ≤ 1 / 10 ^ 8 * (1 / 10000) := by norm_num
  have ga := abs_le.mp (ha0e.trans e53)
  have hl2 : c2 * (1 - 1 / 10000) ≤ c2 * t2 := mul_le_mul_of_nonneg_left (by linarith) hc2.le
  have hu2 : c2 * t2 ≤ c2 * (1 + 1 / 10000) := mul_le_mul_of_nonneg_left (by linarith) hc2.le
  have ha0p : 0 < a0 := by
    have : (0 : ℚ) < 1 / 10 ^ 8 - 1 / 10 ^ 8 * (1 / 10000) := by norm_num
    linarith
  have a0l : 1 / 10 ^ 8 * (1 - 1 / 10000) ≤ a0 := by linarith
  have a0u : a0 ≤ 1 / 10 ^ 8 * (1 + 1 / 10000) := by linarith
  obtain ⟨e, he, hee⟩ := rnd_wide hfp (q := a0 * (c2 * t2)) (Or.inr (by
    rw [abs_of_pos (by positivity)]
    refine ⟨pow_700 ?_, pow_400 ?_⟩
    · refine le_trans (show (1 : ℚ) / 2 ^ 100 ≤ 1 / 10 ^ 8 * (1 - 1 / 10000) * (1 / 10 ^ 6 * (1 - 1 / 10000)) by norm_num) ?_
      exact mul_le_mul a0l (le_trans (mul_le_mul_of_nonneg_right b2 (by norm_num)) hl2) (by norm_num) ha0p.le
    · refine le_trans (mul_le_mul a0u u2 p2.le (by norm_num)) (by norm_num)))
  rw [abs_of_pos (show 0 < a0 * (c2 * t2) by positivity)] at hee
  have et := tinyQ_30
  have e53' : a0 * (c2 * t2) / 2 ^ 53 ≤ a0 * (c2 * t2) * (1 / 10000) := by
    rw [div_eq_mul_one_div]
    exact mul_le_mul_of_nonneg_left (by norm_num) (by positivity)
  have ge := abs_le.mp (hee.trans e53')
  have q1 : a0 * (c2 * t2) ≤ 1 / 10 ^ 8 * (1 + 1 / 10000) * (c2 * (1 + 1 / 10000)) := mul_le_mul a0u hu2 p2.le (by norm_num)
  have q2 : 1 / 10 ^ 8 * (1 - 1 / 10000) * (c2 * (1 - 1 / 10000)) ≤ a0 * (c2 * t2) := mul_le_mul a0l hl2 (mul_nonneg hc2.le (by norm_num)) ha0p.le
  have hadd : |c1 * t1 - c2 * t2| / 2 ^ 53 ≤ |c1 * t1 - c2 * t2| * (1 / 10000) := by
    rw [div_eq_mul_one_div]
    exact mul_le_mul_of_nonneg_left (by norm_num) (abs_nonneg _)
  have hab1 : |a| ≤ |c1 * t1 - c2 * t2| + |a - (c1 * t1 - c2 * t2)| := by
    have := abs_add_le (c1 * t1 - c2 * t2) (a - (c1 * t1 - c2 * t2))
    rwa [add_sub_cancel] at this
  have hab2 : |c1 * t1 - c2 * t2| ≤ |a| + |a - (c1 * t1 - c2 * t2)| := by
    have := abs_sub_le (c1 * t1 - c2 * t2) a 0
    rw [sub_zero, sub_zero, abs_sub_comm _ a] at this
    linarith
  have t30 : 3 * tinyQ ≤ c2 * (1 / 10 ^ 20) := by
    have : 1 / 10 ^ 6 * (1 / 10 ^ 20) ≤ c2 * (1 / 10 ^ 20) := mul_le_mul_of_nonneg_right b2 (by norm_num)
    have : (3 : ℚ) * (1 / 10 ^ 30) ≤ 1 / 10 ^ 6 * (1 / 10 ^ 20) := by norm_num
    linarith
  have ed : fp.sub (.fin (c1 * t1)) (.fin (c2 * t2)) = .fin a := by
    show fp.rnd (c1 * t1 + -(c2 * t2)) = _
    rw [← sub_eq_add_neg, ha]
  have em : fp.mul (.fin a0) (.fin (c2 * t2)) = .fin e := he
  have eac : Gamain.acu fp = .fin a0 := ha0
  rw [ed, eac, em]
  simp only [FP.abs, FP.le, Bool.and_eq_true, decide_eq_true_eq]
  have d1 : (c1 - c2) * t1 = (c1 * t1 - c2 * t2) - c2 * (t1 - t2) := by ring
  have d2 : |c2 * (t1 - t2)| ≤ c2 * (8 / 10 ^ 10) := by
    rw [abs_mul, abs_of_pos hc2]; exact mul_le_mul_of_nonneg_left h3 hc2.le
  have d3 : |(c1 - c2) * t1| = |c1 - c2| * t1 := by rw [abs_mul, abs_of_pos (show 0 < t1 by linarith)]
  have hnn := abs_nonneg (c1 - c2)
  constructor
  · rintro ⟨-, hle⟩
    have s1 := abs_sub (c1 * t1 - c2 * t2) (c2 * (t1 - t2))
    rw [← d1, d3] at s1
    have s2 : |c1 - c2| * (1 - 1 / 10000) ≤ |c1 - c2| * t1 := mul_le_mul_of_nonneg_left (by linarith) hnn
    norm_num at *
    linarith
  · intro hle
    have s1 := abs_add_le ((c1 - c2) * t1) (c2 * (t1 - t2))
    rw [d3, show (c1 - c2) * t1 + c2 * (t1 - t2) = c1 * t1 - c2 * t2 by ring] at s1
    have s2 : |c1 - c2| * t1 ≤ 1 / 10 ^ 16 * (1 + 1 / 10000) := mul_le_mul hle (by linarith) (by linarith) (by norm_num)
    have s3 : (1 : ℚ) / 10 ^ 16 * (1 + 1 / 10000) ≤ c2 * (2 / 10 ^ 10) := by
      have : 1 / 10 ^ 6 * (2 / 10 ^ 10) ≤ c2 * (2 / 10 ^ 10) := mul_le_mul_of_nonneg_right b2 (by norm_num)
      have : (1 : ℚ) / 10 ^ 16 * (1 + 1 / 10000) ≤ 1 / 10 ^ 6 * (2 / 10 ^ 10) := by norm_num
      linarith
    constructor
    · norm_num at *
      linarith
    · norm_num at *
      linarith

/-- the loop in rounded arithmetic -/
theorem fraction_round (hfp : fp.Good) (ht : AddTwo fp) {x s : ℚ} (hx : 1 < x) (hs : s ≤ x) (hs0 : 0 < s) (hxb : x ≤ 500000) {j : ℕ} (hsj : s = (j : ℚ) / 2)
    (F : Fl) : ∀ (k n : ℕ) (st : Gamain.Frac), n + k ≤ 10000 → FInv fp x s n st →
    (∃ (m : ℕ) (t : ℚ), n + 1 ≤ m ∧ m ≤ n + k ∧ Gamain.fraction fp F k st = some (fp.sub (.fin 1) (fp.mul F (.fin (cvg x s m * t)))) ∧
      |t - 1| ≤ 7 / 10 ^ 8 ∧ |cvg x s m - cvg x s (m + 1)| ≤ 11 / 10 ^ 9 * cvg x s (m + 1)) ∨
    (Gamain.fraction fp F k st = none ∧ ∀ m, n + 1 ≤ m → m ≤ n + k → 1 / 10 ^ 16 < |cvg x s m - cvg x s (m + 1)|) := by
  intro k
  induction k with
  | zero => intro n st _ _; exact Or.inr ⟨rfl, fun m h1 h2 => by omega⟩
  | succ k ih =>
    intro n st hn hst
    obtain ⟨p4, p5, t1, t2, eg, e4, e5, h5, er, hinv, c1, c2, c3⟩ := frac_step hfp ht hx hs hs0 hxb hsj (by omega) hst
    obtain ⟨b1, b1'⟩ := cvg_bounds hx hs hs0 hxb (n + 1)
    obtain ⟨b2, b2'⟩ := cvg_bounds hx hs hs0 hxb (n + 2)
    obtain ⟨st1, st2⟩ := stop_round hfp b1 b1' b2 b2' c1 c2 c3
    have ef : FP.feq (.fin p5) (.fin 0) = false := by unfold FP.feq; simp [h5]
    unfold Gamain.fraction
    simp only [e4, e5, ef, er, eg, Bool.not_false, if_true]
    split
    · rename_i hc
      exact Or.inl ⟨n + 1, t1, le_rfl, by omega, rfl, c1, st1 hc⟩
    · rename_i hc
      have hfar : 1 / 10 ^ 16 < |cvg x s (n + 1) - cvg x s (n + 2)| := not_le.mp fun h => hc (st2 h)
      rcases ih (n + 1) _ (by omega) hinv with ⟨m, t, h1, h2, h3⟩ | ⟨h1, h2⟩
      · exact Or.inl ⟨m, t, by omega, by omega, h3⟩
      · refine Or.inr ⟨h1, fun m hm1 hm2 => ?_⟩
        rcases Nat.lt_or_ge (n + 1) m with h | h
        · exact h2 m (by omega) (by omega)
        · obtain rfl : m = n + 1 := by omega
          exact hfar

/-- the state in which the loop starts -/
theorem start_round (hfp : fp.Good) {x s : ℚ} (hx : 1 < x) (hs : s ≤ x) (hs0 : 0 < s) (hxb : x ≤ 500000) {j : ℕ} (hsj : s = (j : ℚ) / 2) :
    FInv fp x s 0 (Gamain.fracStart fp (.fin x) (.fin s)) := by
  obtain ⟨b, ea, eb, hB⟩ := BHat.zero hfp hsj hs hs0 hxb
  obtain ⟨hb2, hb21, hrel⟩ := hB.range hs hs0 hxb (by norm_num)
  have hx0 : 0 < x := by linarith
  have sN := numQ_sol x s
  have sD := denQ_sol hx hs
  have hN1 := sN.pos hx hs 1
  have hD1 := sD.pos hx hs 1
  have n1 : numQ x s 1 = x + 1 := rfl
  have d1 : denQ x s 1 = x * (x + 2 - s) := rfl
  obtain ⟨p2, hp2, he2⟩ := rnd_wide hfp (q := x + 1) (Or.inr (by
    rw [abs_of_pos (by linarith)]
    exact ⟨pow_700 (le_trans (by norm_num) (show (1 : ℚ) ≤ x + 1 by linarith)), pow_400 (le_trans (show x + 1 ≤ 500001 by linarith) (by norm_num))⟩))
  rw [abs_of_pos (show 0 < x + 1 by linarith)] at he2
  have hxb1 : 1 ≤ x * b := by nlinarith
  obtain ⟨p3, hp3, he3⟩ := rnd_wide hfp (q := x * b) (Or.inr (by
    rw [abs_of_pos (by linarith)]
    refine ⟨pow_700 (le_trans (by norm_num) hxb1), pow_400 ?_⟩
    calc x * b ≤ 500000 * 2 ^ 21 := mul_le_mul hxb hb21 (by linarith) (by norm_num)
      _ ≤ 2 ^ 250 := by norm_num))
  rw [abs_of_pos (show 0 < x * b by linarith)] at he3
  -- relative errors of the first numerator and denominator
  have hh : |p2 / (x + 1) - 1| ≤ 50 / 2 ^ 53 := by
    have e : p2 / (x + 1) - 1 = (p2 - (x + 1)) / (x + 1) := by field_simp
    rw [e, abs_div, abs_of_pos (show 0 < x + 1 by linarith), div_le_iff₀ (by linarith)]
    refine he2.trans ?_
    rw [div_eq_mul_one_div, mul_comm]
    exact mul_le_mul_of_nonneg_right (by norm_num) (by linarith)
  have hbabs := rel_absle hrel (by norm_num) (by linarith) (by push_cast; linarith)
  push_cast at hbabs
  have hβ : 0 < x + 2 - s := by linarith
  have hk : |p3 / (x * (x + 2 - s)) - 1| ≤ 50 / 2 ^ 53 := by
    have hD : 0 < x * (x + 2 - s) := by positivity
    have e : p3 / (x * (x + 2 - s)) - 1 = (p3 - x * (x + 2 - s)) / (x * (x + 2 - s)) := by field_simp
    rw [e, abs_div, abs_of_pos hD, div_le_iff₀ hD]
    have t := abs_sub_le p3 (x * b) (x * (x + 2 - s))
    rw [← mul_sub, abs_mul, abs_of_pos hx0] at t
    have hb' : |b - (x + 2 - s)| ≤ 23 / 2 ^ 53 * (x + 2 - s) := by
      have e : x + 2 * 0 + 2 - s = x + 2 - s := by ring
      rw [e] at hbabs
      refine hbabs.trans (le_of_eq ?_)
      norm_num
    have t2 := mul_le_mul_of_nonneg_left hb' hx0.le
    have hbu : b ≤ 2 * (x + 2 - s) := by
      have := (abs_le.mp hb').2
      have : 23 / 2 ^ 53 * (x + 2 - s) ≤ 1 * (x + 2 - s) := mul_le_mul_of_nonneg_right (by norm_num) hβ.le
      linarith
    have t3 : x * b / 2 ^ 53 ≤ x * (2 * (x + 2 - s)) / 2 ^ 53 := by gcongr
    have e3 : x * (2 * (x + 2 - s)) / 2 ^ 53 = 2 / 2 ^ 53 * (x * (x + 2 - s)) := by ring
    have e4 : x * (23 / 2 ^ 53 * (x + 2 - s)) = 23 / 2 ^ 53 * (x * (x + 2 - s)) := by ring
    have t4 : 2 / 2 ^ 53 * (x * (x + 2 - s)) + 23 / 2 ^ 53 * (x * (x + 2 - s)) ≤ 50 / 2 ^ 53 * (x * (x + 2 - s)) := by
      rw [← add_mul]; exact mul_le_mul_of_nonneg_right (by norm_num) hD.le
    linarith
  have einv : ∀ h : ℚ, |h - 1| ≤ 50 / 2 ^ 53 → EInv s 0 1 h := by
    intro h hh
    unfold EInv
    rw [sub_self, abs_zero]
    push_cast
    have a1 : (50 : ℚ) / 2 ^ 53 + 101 * (50 / 2 ^ 53) ≤ 203 * (100 / 2 ^ 53) * (0 + 1) := by norm_num
    have a2 : (50 : ℚ) / 2 ^ 53 ≤ 100 / 2 ^ 53 * (2 * 0 + 102) := by norm_num
    have a3 : (50 : ℚ) / 2 ^ 53 ≤ 100 / 2 ^ 53 * (0 + 1) := by norm_num
    exact ⟨by linarith, by linarith, fun _ => ⟨by norm_num, by linarith⟩⟩
  obtain ⟨rb1, rb2⟩ := cvg_bounds hx hs hs0 hxb 1
  have e100 : (50 : ℚ) / 2 ^ 53 ≤ 1 / 100 := by norm_num
  obtain ⟨t, hrn, ht⟩ := quot_round hfp one_pos hN1 hD1 (r := cvg x s 1) rfl (le_trans (by norm_num) rb1) rb2 (hh.trans e100) (hk.trans e100)
  rw [n1, d1, one_mul, one_mul, mul_div_cancel₀ _ (show x + 1 ≠ 0 by linarith), mul_div_cancel₀ _ (show x * (x + 2 - s) ≠ 0 by positivity)] at hrn
  refine ⟨b, 1, 1, p2 / (x + 1), 1, p3 / (x * (x + 2 - s)), t, ?_, hB, one_pos, ?_, ?_, einv _ hh, einv _ hk, ht.trans (by norm_num)⟩
  · have m2 : fp.add (.fin x) (.fin 1) = .fin p2 := hp2
    have m3 : fp.mul (.fin x) (.fin b) = .fin p3 := hp3
    unfold Gamain.fracStart
    simp only [ea, eb, m2, m3, hrn, zero_add, n1, d1, one_mul, mul_div_cancel₀ _ (show x + 1 ≠ 0 by linarith), mul_div_cancel₀ _ (show x * (x + 2 - s) ≠ 0 by positivity)]
    simp [numQ, denQ]
  · rw [zero_add, n1]; linarith
  · rw [zero_add, n1]; refine le_trans (show 1 * (x + 1) ≤ 500001 by linarith) (by norm_num)

end HL.GammaR

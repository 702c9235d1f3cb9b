import Verif.Proof.PValueLemmas
import Verif.Proof.RelErr

/-
The series of `gamain` in rounded arithmetic: every operation is on positive numbers, so relative errors add up.
-/

namespace HL.GammaR
open HL Real HL.Integerise
variable {fp : FP}

/-- the terms of the series, as rational numbers -/
def serQ (x p : ℚ) : ℕ → ℚ
  | 0 => 1
  | n + 1 => serQ x p n * x / (p + (n + 1))

/-- its partial sums -/
def sumQ (x p : ℚ) (n : ℕ) : ℚ := ∑ i ∈ Finset.range (n + 1), serQ x p i

theorem serQ_cast (x p : ℚ) (n : ℕ) : ((serQ x p n : ℚ) : ℝ) = serTerm x p n := by
  induction n with
  | zero => simp [serQ, serTerm]
  | succ n ih => simp only [serQ, serTerm]; push_cast; rw [ih]

theorem sumQ_cast (x p : ℚ) (n : ℕ) : ((sumQ x p n : ℚ) : ℝ) = ∑ i ∈ Finset.range (n + 1), serTerm x p i := by
  unfold sumQ
  push_cast
  exact Finset.sum_congr rfl fun i _ => serQ_cast x p i

theorem serQ_pos {x p : ℚ} (hx : 0 < x) (hp : 0 < p) : ∀ n, 0 < serQ x p n
  | 0 => one_pos
  | n + 1 => by
    have := serQ_pos hx hp n
    simp only [serQ]
    positivity

theorem serQ_le {x p : ℚ} (hx : 0 < x) (hp : 0 < p) (h : x ≤ 1 ∨ x < p) : ∀ n, serQ x p n ≤ 1
  | 0 => le_rfl
  | n + 1 => by
    have h1 := serQ_le hx hp h n
    have h0 := serQ_pos hx hp n
    have hn : (0 : ℚ) ≤ n := Nat.cast_nonneg n
    simp only [serQ]
    rw [div_le_one (by positivity)]
    have : serQ x p n * x ≤ 1 * x := mul_le_mul_of_nonneg_right h1 hx.le
    rcases h with h | h <;> linarith

theorem sumQ_succ (x p : ℚ) (n : ℕ) : sumQ x p (n + 1) = sumQ x p n + serQ x p (n + 1) := Finset.sum_range_succ _ _

theorem sumQ_bounds {x p : ℚ} (hx : 0 < x) (hp : 0 < p) (h : x ≤ 1 ∨ x < p) (n : ℕ) : 1 ≤ sumQ x p n ∧ sumQ x p n ≤ n + 1 := by
  induction n with
  | zero => simp [sumQ, serQ]
  | succ n ih =>
    rw [sumQ_succ]
    have := serQ_pos hx hp (n + 1)
    have := serQ_le hx hp h (n + 1)
    push_cast
    constructor <;> linarith [ih.1, ih.2]

theorem tinyQ_700 : tinyQ ≤ 1 / 2 ^ 700 := by
  unfold tinyQ
  rw [show (-1022 : ℤ) = -((1022 : ℕ) : ℤ) by norm_num, zpow_neg, zpow_natCast, ← one_div]
  exact one_div_le_one_div_of_le (by positivity) (pow_le_pow_right₀ (by norm_num) (by norm_num))

theorem hugeQ_100 : 2 ^ 100 ≤ hugeQ := by
  unfold hugeQ
  exact pow_le_pow_right₀ (by norm_num) (by norm_num)

/-- a result in a moderate range is rounded with a relative error -/
theorem rnd_mid (hfp : fp.Good) {q : ℚ} (h1 : (1 : ℚ) / 2 ^ 700 ≤ q) (h2 : q ≤ 2 ^ 100) : ∃ a, fp.rnd q = .fin a ∧ Rel 1 a q :=
  rel_rnd hfp (Or.inr ⟨tinyQ_700.trans h1, h2.trans hugeQ_100⟩)

theorem uu_20000 {k : ℕ} (hk : k ≤ 20000) : 1 - 1 / 10 ^ 10 ≤ uu ^ k := by
  refine le_trans ?_ (uu_pow_ge k)
  have : (k : ℚ) ≤ 20000 := by exact_mod_cast hk
  have : (k : ℚ) / 2 ^ 53 ≤ 20000 / 2 ^ 53 := by gcongr
  have : (20000 : ℚ) / 2 ^ 53 ≤ 1 / 10 ^ 10 := by norm_num
  linarith

theorem acu_rnd (hfp : fp.Good) : ∃ a, Gamain.acu fp = .fin a ∧ Rel 1 a (1 / 10 ^ 8) :=
  rnd_mid hfp (by
    refine (one_div_le_one_div_of_le (by norm_num) ?_)
    calc (10 : ℚ) ^ 8 ≤ 2 ^ 100 := by norm_num
      _ ≤ _ := pow_le_pow_right₀ (by norm_num) (by norm_num)) (by norm_num)

/-- One iteration of the series. -/
theorem series_step (hfp : fp.Good) {x p : ℚ} {j n : ℕ} (hp : p = (j : ℚ) / 2) (hj1 : 1 ≤ j) (hj2 : j < 2 ^ 32) (hx1 : 1 / 2 ^ 600 ≤ x)
    (h : x ≤ 1 ∨ x < p) (hn : n < 10000) {t g : ℚ} (ht : Rel (2 * n) t (serQ x p n)) (htb : 1 / 10 ^ 9 ≤ t)
    (hg : Rel (3 * n) g (sumQ x p n)) :
    ∃ t' g' : ℚ, fp.add (.fin (p + n)) (.fin 1) = .fin (p + (n + 1 : ℕ)) ∧
      fp.div (fp.mul (.fin t) (.fin x)) (.fin (p + (n + 1 : ℕ))) = .fin t' ∧ fp.add (.fin g) (.fin t') = .fin g' ∧
      Rel (2 * (n + 1)) t' (serQ x p (n + 1)) ∧ Rel (3 * (n + 1)) g' (sumQ x p (n + 1)) := by
  have hj : (1 : ℚ) ≤ j := by exact_mod_cast hj1
  have hj' : (j : ℚ) ≤ 2 ^ 32 := by exact_mod_cast hj2.le
  have hp0 : 0 < p := by rw [hp]; positivity
  have hpu : p ≤ 2 ^ 31 := by
    rw [hp]
    have : (2 : ℚ) ^ 31 = 2 ^ 32 / 2 := by norm_num
    rw [this]; gcongr
  have hx0 : 0 < x := lt_of_lt_of_le (by positivity) hx1
  have hxu : x ≤ 2 ^ 31 := by
    rcases h with h | h
    · exact h.trans (by norm_num)
    · exact h.le.trans hpu
  have hnq : (n : ℚ) ≤ 10000 := by exact_mod_cast hn.le
  have hn0 : (0 : ℚ) ≤ n := Nat.cast_nonneg n
  have hs0 := serQ_pos hx0 hp0 n
  have hs1 := serQ_le hx0 hp0 h n
  have ht0 : 0 < t := lt_of_lt_of_le (by positivity) htb
  have htu : t ≤ 2 := by
    have := ht.upper (by omega) ht0.le
    linarith
  -- the counter
  have e1 : fp.add (.fin (p + n)) (.fin 1) = .fin (p + (n + 1 : ℕ)) := by
    show fp.rnd (p + n + 1) = _
    have := hfp.dyadic ((j : ℤ) + 2 * n + 2) 1 (by
      rw [abs_of_nonneg (by positivity)]
      have h1 : (j : ℤ) < 2 ^ 32 := by exact_mod_cast hj2
      have h2 : (n : ℤ) < 10000 := by exact_mod_cast hn
      have : (2 : ℤ) ^ 53 = 9007199254740992 := by norm_num
      have : (2 : ℤ) ^ 32 = 4294967296 := by norm_num
      omega) (by norm_num)
    have e : (((j : ℤ) + 2 * n + 2 : ℤ) : ℚ) / 2 ^ 1 = p + n + 1 := by rw [hp]; push_cast; ring
    rw [e] at this
    rw [this]
    push_cast
    congr 1; ring
  have hr0 : 0 < p + ((n + 1 : ℕ) : ℚ) := by positivity
  have hr1 : 1 ≤ p + ((n + 1 : ℕ) : ℚ) := by push_cast; linarith
  have hru : p + ((n + 1 : ℕ) : ℚ) ≤ 2 ^ 32 := by
    push_cast
    have : (2 : ℚ) ^ 31 + (10000 + 1) ≤ 2 ^ 32 := by norm_num
    linarith
  -- the product
  have hm1 : 1 / 2 ^ 640 ≤ t * x := by
    calc (1 : ℚ) / 2 ^ 640 = 1 / 2 ^ 40 * (1 / 2 ^ 600) := by rw [show (640 : ℕ) = 40 + 600 from rfl, pow_add]; field_simp
      _ ≤ t * x := mul_le_mul (le_trans (by norm_num) htb) hx1 (by positivity) ht0.le
  have hm2 : t * x ≤ 2 ^ 32 := by
    calc t * x ≤ 2 * 2 ^ 31 := mul_le_mul htu hxu hx0.le (by norm_num)
      _ = 2 ^ 32 := by norm_num
  obtain ⟨a, ha, hra⟩ := rnd_mid hfp (q := t * x)
    (le_trans (one_div_le_one_div_of_le (by positivity) (pow_le_pow_right₀ (by norm_num) (by norm_num))) hm1) (hm2.trans (by norm_num))
  have hal := hra.lower (by norm_num) (by positivity)
  have ha0 : 0 < a := lt_of_lt_of_le (by positivity) hal
  have hau := hra.upper (by norm_num) ha0.le
  -- the quotient
  have hq1 : 1 / 2 ^ 700 ≤ a / (p + ((n + 1 : ℕ) : ℚ)) := by
    rw [le_div_iff₀ hr0]
    calc 1 / 2 ^ 700 * (p + ((n + 1 : ℕ) : ℚ)) ≤ 1 / 2 ^ 700 * 2 ^ 32 := mul_le_mul_of_nonneg_left hru (by positivity)
      _ ≤ 1 / 2 ^ 641 := by
        rw [show (700 : ℕ) = 641 + 59 from rfl, pow_add, show (1 : ℚ) / (2 ^ 641 * 2 ^ 59) * 2 ^ 32 = 1 / 2 ^ 641 * (2 ^ 32 / 2 ^ 59) by field_simp]
        exact mul_le_of_le_one_right (by positivity) (by norm_num)
      _ = 1 / 2 ^ 640 / 2 := by rw [show (641 : ℕ) = 640 + 1 from rfl, pow_succ]; field_simp
      _ ≤ a := by linarith
  have hq2 : a / (p + ((n + 1 : ℕ) : ℚ)) ≤ 2 ^ 33 := by
    rw [div_le_iff₀ hr0]
    calc a ≤ 2 * 2 ^ 32 := by linarith
      _ = 2 ^ 33 * 1 := by norm_num
      _ ≤ _ := mul_le_mul_of_nonneg_left hr1 (by positivity)
  obtain ⟨t', ht', hrt⟩ := rnd_mid hfp hq1 (hq2.trans (by norm_num))
  have hq0 : 0 < a / (p + ((n + 1 : ℕ) : ℚ)) := by positivity
  have ht'0 : 0 < t' := lt_of_lt_of_le (by positivity) (hrt.lower (by norm_num) hq0.le)
  have hrel : Rel (2 * (n + 1)) t' (serQ x p (n + 1)) := by
    have r1 : Rel (2 * n + 0) (t * x) (serQ x p n * x) := ht.mul (Rel.refl x) ht0.le hs0.le hx0.le hx0.le
    have r2 := (hra.trans r1).div (Rel.refl (p + ((n + 1 : ℕ) : ℚ))) ha0.le (by positivity) hr0 hr0
    have r3 := hrt.trans r2
    have e : serQ x p n * x / (p + ((n + 1 : ℕ) : ℚ)) = serQ x p (n + 1) := by simp only [serQ]; push_cast; rfl
    rw [e] at r3
    have e' : 1 + (1 + (2 * n + 0) + 0) = 2 * (n + 1) := by ring
    rwa [e'] at r3
  have hs0' := serQ_pos hx0 hp0 (n + 1)
  obtain ⟨hb1, hb2⟩ := sumQ_bounds hx0 hp0 h n
  have hg0 : 0 < g := lt_of_lt_of_le (by linarith) (hg.lower (by omega) (by linarith))
  have hgu := hg.upper (by omega) hg0.le
  have hgl := hg.lower (by omega) (by linarith)
  have htu' := hrel.upper (by omega) ht'0.le
  have hs1' := serQ_le hx0 hp0 h (n + 1)
  obtain ⟨g', hg', hrg⟩ := rnd_mid hfp (q := g + t')
    (le_trans (show (1 : ℚ) / 2 ^ 700 ≤ 1 / 2 from one_div_le_one_div_of_le (by norm_num) (by
      calc (2 : ℚ) = 2 ^ 1 := by norm_num
        _ ≤ _ := pow_le_pow_right₀ (by norm_num) (by norm_num))) (by linarith))
    (le_trans (show g + t' ≤ 30000 by linarith) (by norm_num))
  refine ⟨t', g', e1, ?_, hg', hrel, ?_⟩
  · have e2 : fp.mul (.fin t) (.fin x) = .fin a := ha
    rw [e2]
    show (if p + ((n + 1 : ℕ) : ℚ) = 0 then _ else _) = _
    rw [if_neg hr0.ne', ht']
  · have r1 : Rel (3 * n + 2) g (sumQ x p n) := hg.mono hg0.le (by linarith) (by omega)
    have r2 : Rel (3 * n + 2) t' (serQ x p (n + 1)) := hrel.mono ht'0.le hs0'.le (by omega)
    have r3 := hrg.trans (r1.add r2)
    rw [← sumQ_succ] at r3
    have e' : 1 + (3 * n + 2) = 3 * (n + 1) := by ring
    rwa [e'] at r3

/-- The series with any number of iterations left. -/
theorem series_round (hfp : fp.Good) {x p : ℚ} {j : ℕ} (hp : p = (j : ℚ) / 2) (hj1 : 1 ≤ j) (hj2 : j < 2 ^ 32) (hx1 : 1 / 2 ^ 600 ≤ x)
    (h : x ≤ 1 ∨ x < p) : ∀ (k n : ℕ) (t g : ℚ), n + k = 10000 → Rel (2 * n) t (serQ x p n) → 1 / 10 ^ 8 * (1 - 1 / 10 ^ 10) ≤ t →
    Rel (3 * n) g (sumQ x p n) →
    ∃ (m : ℕ) (g' : ℚ) (b : Bool), Gamain.series fp (.fin x) k (.fin (p + n)) (.fin t) (.fin g) = (.fin g', b) ∧ n ≤ m ∧ m ≤ 10000 ∧
      Rel (3 * m) g' (sumQ x p m) ∧ (b = true → 1 ≤ m ∧ serQ x p m ≤ 1 / 10 ^ 8 * (1 + 3 / 10 ^ 10)) ∧
      (b = false → m = 10000 ∧ 1 / 10 ^ 8 * (1 - 2 / 10 ^ 10) ≤ serQ x p m) := by
  intro k
  have hj : (1 : ℚ) ≤ j := by exact_mod_cast hj1
  have hp0 : 0 < p := by rw [hp]; positivity
  have hx0 : 0 < x := lt_of_lt_of_le (by positivity) hx1
  obtain ⟨ac, hac, hrac⟩ := acu_rnd hfp
  have hac0 : 0 < ac := lt_of_lt_of_le (by norm_num) (hrac.lower (by norm_num) (by norm_num))
  have u1 : (1 : ℚ) - 1 / 10 ^ 10 ≤ uu ^ 1 := uu_20000 (by norm_num)
  have hacl : 1 / 10 ^ 8 * (1 - 1 / 10 ^ 10) ≤ ac := by
    have := hrac.1
    have := mul_le_mul_of_nonneg_right u1 (show (0 : ℚ) ≤ 1 / 10 ^ 8 by norm_num)
    linarith
  have hacu : (1 - 1 / 10 ^ 10) * ac ≤ 1 / 10 ^ 8 := le_trans (mul_le_mul_of_nonneg_right u1 hac0.le) hrac.2
  induction k with
  | zero =>
    intro n t g hk ht htb hg
    refine ⟨n, g, false, rfl, le_rfl, by omega, hg, fun hb => (Bool.noConfusion hb), fun _ => ⟨by omega, ?_⟩⟩
    have u := uu_20000 (k := 2 * n) (by omega)
    have ht0 : 0 < t := lt_of_lt_of_le (by norm_num) htb
    refine le_trans ?_ ht.2
    calc (1 : ℚ) / 10 ^ 8 * (1 - 2 / 10 ^ 10) ≤ (1 - 1 / 10 ^ 10) * (1 / 10 ^ 8 * (1 - 1 / 10 ^ 10)) := by norm_num
      _ ≤ uu ^ (2 * n) * t := mul_le_mul u htb (by norm_num) (uu_pow_pos _).le
  | succ k ih =>
    intro n t g hk ht htb hg
    obtain ⟨t', g', e1, e2, e3, r1, r2⟩ := series_step hfp hp hj1 hj2 hx1 h (by omega) ht (le_trans (by norm_num) htb) hg
    have hs := serQ_pos hx0 hp0 (n + 1)
    unfold Gamain.series
    simp only [e1, e2, e3, hac, le_fin]
    by_cases hc : t' ≤ ac
    · rw [if_pos (decide_eq_true hc)]
      refine ⟨n + 1, g', true, rfl, by omega, by omega, r2, fun _ => ⟨by omega, ?_⟩, fun hb => (Bool.noConfusion hb)⟩
      have u := uu_20000 (k := 2 * (n + 1)) (by omega)
      have h1 := r1.1
      have h2 := mul_le_mul_of_nonneg_right u hs.le
      have h3 : (1 - 1 / 10 ^ 10) * serQ x p (n + 1) ≤ ac := by linarith
      have h4 : (1 - 1 / 10 ^ 10) * ((1 - 1 / 10 ^ 10) * serQ x p (n + 1)) ≤ 1 / 10 ^ 8 :=
        le_trans (mul_le_mul_of_nonneg_left h3 (by norm_num)) hacu
      by_contra hlt
      push Not at hlt
      nlinarith
    · rw [if_neg (by simpa using hc)]
      obtain ⟨m, g'', b, q1, q2, q3⟩ := ih (n + 1) t' g' (by omega) r1 (hacl.trans (not_le.mp hc).le) r2
      exact ⟨m, g'', b, q1, by omega, q3⟩

end HL.GammaR

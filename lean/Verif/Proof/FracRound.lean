import Verif.Proof.FracErr

/-
The continued fraction of `gamain` in rounded arithmetic: how the relative errors of numerators and denominators grow.
-/

namespace HL.GammaR
open HL HL.Integerise FP

/-- Adding two to a number is exact unless a power of two is passed. -/
def AddTwo (fp : FP) : Prop := ∀ (a : ℚ) (j : ℕ), fp.rnd a = .fin a → 1 ≤ j → j ≤ 40 → 2 ^ j ≤ a → a + 2 ≤ 2 ^ (j + 1) → fp.rnd (a + 2) = .fin (a + 2)

theorem addTwo_exact : AddTwo FP.exact := fun _ _ _ _ _ _ _ => rfl

theorem addTwo_ieee (sqrt : Fl → Fl) : AddTwo (FP.ieee sqrt) := by
  intro a j ha h1 h2 h3 h4
  have ha0 : 0 < a := lt_of_lt_of_le (by positivity) h3
  obtain ⟨hz, -⟩ := fin_pos_bounds ha0 ha
  have hlog : ilog2 a = (j : ℤ) := ilog2_unique (by rw [zpow_natCast]; exact h3) (by
    rw [show ((j : ℤ) + 1) = ((j + 1 : ℕ) : ℤ) by push_cast; rfl, zpow_natCast]; linarith)
  have hulp : ulp a = 1 / 2 ^ (52 - j) := by
    unfold ulp
    rw [hlog, max_eq_left (by omega), show (j : ℤ) - 52 = -((52 - j : ℕ) : ℤ) by omega, zpow_neg, zpow_natCast, one_div]
  rw [hulp] at hz
  generalize rne (a / (1 / 2 ^ (52 - j))) = z at hz
  have hp : (2 : ℚ) ^ (53 - j) * (1 / 2 ^ (52 - j)) = 2 := by
    rw [show 53 - j = (52 - j) + 1 by omega, pow_succ]; field_simp
  have e : a + 2 = ((z + 2 ^ (53 - j) : ℤ) : ℚ) / 2 ^ (52 - j) := by
    push_cast
    rw [add_div]
    rw [mul_one_div] at hp hz
    rw [hp, ← hz]
  rw [e]
  refine (ieee_good sqrt).dyadic _ _ ?_ (by omega)
  have hpos : (0 : ℚ) < ((z + 2 ^ (53 - j) : ℤ) : ℚ) / 2 ^ (52 - j) := by rw [← e]; linarith
  have hz0 : (0 : ℚ) < ((z + 2 ^ (53 - j) : ℤ) : ℚ) := by
    by_contra hc
    have := div_nonpos_of_nonpos_of_nonneg (not_lt.mp hc) (show (0 : ℚ) ≤ 2 ^ (52 - j) by positivity)
    linarith
  have hz1 : (0 : ℤ) < z + 2 ^ (53 - j) := by exact_mod_cast hz0
  rw [abs_of_pos hz1]
  have : ((z + 2 ^ (53 - j) : ℤ) : ℚ) ≤ 2 ^ 53 := by
    rw [e, div_le_iff₀ (by positivity), ← pow_add, show j + 1 + (52 - j) = 53 by omega] at h4
    exact h4
  exact_mod_cast this

variable {fp : FP}

/-- the computed `b`: rounded only where it passes a power of two -/
def BHat (fp : FP) (x s : ℚ) (n : ℕ) (b : ℚ) : Prop :=
  fp.rnd b = .fin b ∧ ∃ j : ℕ, 1 ≤ j ∧ j ≤ 21 ∧ 2 ^ j ≤ b ∧ Rel (1 + j) b (x + 2 * n + 2 - s)

theorem pow_rnd (hfp : fp.Good) {j : ℕ} (hj : j ≤ 50) : fp.rnd (2 ^ j) = .fin (2 ^ j) := by
  have := hfp.dyadic (2 ^ j) 0 (by
    rw [abs_of_pos (by positivity)]
    exact pow_le_pow_right₀ (by norm_num) (by omega)) (by norm_num)
  simpa using this

theorem hugeQ_400 : 2 ^ 400 ≤ hugeQ := by
  unfold hugeQ
  exact pow_le_pow_right₀ (by norm_num) (by norm_num)

/-- rounding of anything neither tiny nor huge -/
theorem rnd_wide (hfp : fp.Good) {q : ℚ} (h : q = 0 ∨ (1 / 2 ^ 700 ≤ |q| ∧ |q| ≤ 2 ^ 400)) : ∃ a, fp.rnd q = .fin a ∧ |a - q| ≤ |q| / 2 ^ 53 := by
  rcases h with rfl | ⟨h1, h2⟩
  · exact ⟨0, rnd_zero' hfp, by simp⟩
  · have h3 : |q| ≤ hugeQ := h2.trans hugeQ_400
    have : 0 ≤ |q| := abs_nonneg q
    exact near' hfp q (tinyQ_700.trans h1) (by linarith)

theorem pow_700 {M : ℚ} (h : 1 / 2 ^ 100 ≤ M) : 1 / 2 ^ 700 ≤ M :=
  le_trans (one_div_le_one_div_of_le (by positivity) (pow_le_pow_right₀ (by norm_num) (by norm_num))) h

theorem pow_400 {M : ℚ} (h : M ≤ 2 ^ 250) : M ≤ 2 ^ 400 := h.trans (pow_le_pow_right₀ (by norm_num) (by norm_num))

theorem BHat.range {x s b : ℚ} {n : ℕ} (hs : s ≤ x) (hs0 : 0 < s) (hxb : x ≤ 500000) (hn : n ≤ 10000) (h : BHat fp x s n b) :
    2 ≤ b ∧ b ≤ 2 ^ 21 ∧ Rel 22 b (x + 2 * n + 2 - s) := by
  obtain ⟨hr, j, hj1, hj21, hj2, hrel⟩ := h
  have hnr : (n : ℚ) ≤ 10000 := by exact_mod_cast hn
  have hn0 : (0 : ℚ) ≤ n := Nat.cast_nonneg n
  have hb2 : 2 ≤ b := le_trans (by simpa using pow_le_pow_right₀ (show (1 : ℚ) ≤ 2 by norm_num) hj1) hj2
  have hup := hrel.upper (by omega) (by linarith)
  exact ⟨hb2, by norm_num; linarith, hrel.mono (by linarith) (by linarith) (by omega)⟩

theorem BHat.zero (hfp : fp.Good) {x s : ℚ} {j : ℕ} (hsj : s = (j : ℚ) / 2) (hs : s ≤ x) (hs0 : 0 < s) (hxb : x ≤ 500000) :
    ∃ b, fp.sub (.fin 1) (.fin s) = .fin (1 - s) ∧ fp.add (fp.add (.fin (1 - s)) (.fin x)) (.fin 1) = .fin b ∧ BHat fp x s 0 b := by
  have e0 : fp.sub (.fin 1) (.fin s) = .fin (1 - s) := by
    show fp.rnd (1 + -s) = _
    have hj : (j : ℚ) ≤ 1000000 := by rw [hsj] at hs; linarith
    have hjz : (j : ℤ) ≤ 1000000 := by exact_mod_cast hj
    have := hfp.dyadic (2 - j) 1 (by rw [abs_le]; constructor <;> norm_num <;> omega) (by norm_num)
    have e : ((2 - (j : ℤ) : ℤ) : ℚ) / 2 ^ 1 = 1 + -s := by rw [hsj]; push_cast; ring
    rw [e] at this
    rw [this]
    congr 1; ring
  have one : fp.rnd 1 = .fin 1 := by simpa using pow_rnd hfp (j := 0) (by norm_num)
  have two : fp.rnd 2 = .fin 2 := by simpa using pow_rnd hfp (j := 1) (by norm_num)
  obtain ⟨a, ha, hra⟩ := rnd_mid hfp (q := 1 - s + x) (pow_700 (le_trans (by norm_num) (show (1 : ℚ) ≤ 1 - s + x by linarith)))
    (le_trans (show 1 - s + x ≤ 500001 by linarith) (by norm_num))
  have ha1 : 1 ≤ a := hfp.mono 1 (1 - s + x) 1 a (by linarith) one ha
  have hau := hra.upper (by norm_num) (by linarith)
  obtain ⟨b, hb, hrb⟩ := rnd_mid hfp (q := a + 1) (pow_700 (le_trans (by norm_num) (show (1 : ℚ) ≤ a + 1 by linarith)))
    (le_trans (show a + 1 ≤ 1000003 by linarith) (by norm_num))
  have hb2 : 2 ≤ b := hfp.mono 2 (a + 1) 2 b (by linarith) two hb
  refine ⟨b, e0, ?_, hfp.idem _ _ hb, 1, le_rfl, by norm_num, by linarith, ?_⟩
  · have e1 : fp.add (.fin (1 - s)) (.fin x) = .fin a := ha
    rw [e1]
    exact hb
  · have r1 : Rel 1 (a + 1) (1 - s + x + 1) := hra.add ((Rel.refl 1).mono (by norm_num) (by norm_num) (by norm_num))
    have r2 := hrb.trans r1
    have e : 1 - s + x + 1 = x + 2 * ((0 : ℕ) : ℚ) + 2 - s := by push_cast; ring
    rwa [e] at r2

theorem BHat.succ (hfp : fp.Good) (h2 : AddTwo fp) {x s b : ℚ} {n : ℕ} (hs : s ≤ x) (hs0 : 0 < s) (hxb : x ≤ 500000) (hn : n + 1 ≤ 10000)
    (h : BHat fp x s n b) : ∃ b', fp.add (.fin b) (.fin 2) = .fin b' ∧ BHat fp x s (n + 1) b' := by
  obtain ⟨hb2, hb21, -⟩ := h.range hs hs0 hxb (by omega)
  obtain ⟨hr, j, hj1, hj21, hj2, hrel⟩ := h
  have hnr : (n : ℚ) + 1 ≤ 10000 := by exact_mod_cast hn
  have hn0 : (0 : ℚ) ≤ n := Nat.cast_nonneg n
  have e : x + 2 * n + 2 - s + 2 = x + 2 * ((n + 1 : ℕ) : ℚ) + 2 - s := by push_cast; ring
  have radd : Rel (1 + j) (b + 2) (x + 2 * ((n + 1 : ℕ) : ℚ) + 2 - s) := by
    rw [← e]
    exact hrel.add ((Rel.refl 2).mono (by norm_num) (by norm_num) (by omega))
  rcases le_total (b + 2) (2 ^ (j + 1)) with h | h
  · have hx := h2 b j hr hj1 (by omega) hj2 h
    exact ⟨b + 2, hx, hx, j, hj1, hj21, by linarith, radd⟩
  · obtain ⟨b', hb', hrb⟩ := rnd_mid hfp (q := b + 2) (pow_700 (le_trans (by norm_num) (show (1 : ℚ) ≤ b + 2 by linarith)))
      (le_trans (show b + 2 ≤ 2 ^ 21 + 2 by linarith) (by norm_num))
    have hpow : 2 ^ (j + 1) ≤ b' := hfp.mono _ _ _ _ h (pow_rnd hfp (by omega)) hb'
    have r := hrb.trans radd
    rw [show 1 + (1 + j) = 1 + (j + 1) by ring] at r
    refine ⟨b', hb', hfp.idem _ _ hb', j + 1, by omega, ?_, hpow, r⟩
    by_contra hc
    have hj : j = 21 := by omega
    subst hj
    have := r.upper (by norm_num) (by linarith [show (0 : ℚ) ≤ 2 ^ (21 + 1) by positivity])
    push_cast at this
    norm_num at hpow
    linarith

theorem rel_absle {k : ℕ} {a b : ℚ} (h : Rel k a b) (hk : k ≤ 1000) (ha : 0 ≤ a) (hb : 0 ≤ b) : |a - b| ≤ (k + 1) / 2 ^ 53 * b := by
  have hu := uu_pow_ge k
  have hkq : (k : ℚ) ≤ 1000 := by exact_mod_cast hk
  have hk0 : (0 : ℚ) ≤ k := Nat.cast_nonneg k
  have h1 := mul_le_mul_of_nonneg_right hu ha
  have h2 := mul_le_mul_of_nonneg_right hu hb
  obtain ⟨h3, h4⟩ := h
  generalize uu ^ k = w at *
  have hden : (0 : ℚ) < 2 ^ 53 := by positivity
  have hbig : (2000000 : ℚ) ≤ 2 ^ 53 := by norm_num
  generalize (2 : ℚ) ^ 53 = d at *
  have h5 : (1 - k / d) * a ≤ b := h1.trans h4
  have h6 : (1 - k / d) * b ≤ a := h2.trans h3
  have e1 : (1 - k / d) * a = (d - k) * a / d := by field_simp
  have e2 : (1 - k / d) * b = (d - k) * b / d := by field_simp
  rw [e1, div_le_iff₀ hden] at h5
  rw [e2, div_le_iff₀ hden] at h6
  rw [div_mul_eq_mul_div, abs_le, le_div_iff₀ hden, neg_le, ← sub_nonneg]
  constructor
  · have : (k + 1) * b / d - -(a - b) = ((k + 1) * b - (b - a) * d) / d := by field_simp; ring
    rw [this]
    refine div_nonneg ?_ hden.le
    linarith
  · -- a d ≤ b d + (k+1) b, from (d-k) a ≤ b d
    have h7 : (d - k) * ((a - b) * d) ≤ (d - k) * ((k + 1) * b) := by
      have : (d - k) * ((a - b) * d) = ((d - k) * a) * d - (d - k) * b * d := by ring
      rw [this]
      have t1 := mul_le_mul_of_nonneg_right h5 hden.le
      have t2 : k * (k + 1) * b ≤ d * b := mul_le_mul_of_nonneg_right (by nlinarith) hb
      nlinarith
    exact le_of_mul_le_mul_left h7 (by linarith)

/-! ### one step -/

/-- the relative errors of two consecutive numerators (or denominators) after `n` steps -/
def EInv (s : ℚ) (n : ℕ) (h0 h1 : ℚ) : Prop :=
  |h1 - 1| + 101 * |h1 - h0| ≤ 203 * (100 / 2 ^ 53) * (n + 1) ∧ |h1 - h0| ≤ 100 / 2 ^ 53 * (2 * n + 102) ∧
  ((n : ℚ) + 2 ≤ s → |h0 - 1| ≤ 100 / 2 ^ 53 * (n + 1) ∧ |h1 - 1| ≤ 100 / 2 ^ 53 * (n + 1))

theorem EInv.close {s : ℚ} {n : ℕ} {h0 h1 : ℚ} (h : EInv s n h0 h1) (hn : n ≤ 10000) :
    |h0 - 1| ≤ 3 / 10 ^ 8 ∧ |h1 - 1| ≤ 3 / 10 ^ 8 ∧ |h1 - h0| ≤ 3 / 10 ^ 10 := by
  obtain ⟨a, b, -⟩ := h
  have hnr : (n : ℚ) ≤ 10000 := by exact_mod_cast hn
  have t := abs_sub_le h0 h1 1
  rw [abs_sub_comm h0 h1] at t
  have h3 := abs_nonneg (h1 - h0)
  have h4 := abs_nonneg (h1 - 1)
  have e1 : 203 * ((100 : ℚ) / 2 ^ 53) * (n + 1) ≤ 203 * (100 / 2 ^ 53) * 10001 := by gcongr; linarith
  have e2 : (100 : ℚ) / 2 ^ 53 * (2 * n + 102) ≤ 100 / 2 ^ 53 * 20102 := by gcongr; linarith
  have e3 : 203 * ((100 : ℚ) / 2 ^ 53) * 10001 ≤ 3 / 10 ^ 8 := by norm_num
  have e4 : (100 : ℚ) / 2 ^ 53 * 20102 ≤ 3 / 10 ^ 10 := by norm_num
  refine ⟨by linarith, by linarith, by linarith⟩

/-- what the exact recurrence makes of the relative errors -/
def hNext (x s : ℚ) (y : ℕ → ℚ) (n : ℕ) (h0 h1 : ℚ) : ℚ :=
  ((x + 2 * n + 4 - s) * y (n + 1) * h1 - (n + 1) * (n + 2 - s) * y n * h0) / y (n + 2)

theorem einv_step {x s : ℚ} {y : ℕ → ℚ} (hx : 1 < x) (hs : s ≤ x) (hs0 : 0 < s) (hy : Sol x s y) {n : ℕ} (hn : n + 1 ≤ 10000)
    {h0 h1 h1' h2 : ℚ} (h : EInv s n h0 h1) (e1 : |h1' - h1| ≤ 3 / 2 ^ 53) (e2 : |h2 - hNext x s y n h0 h1| ≤ 84 / 2 ^ 53) :
    EInv s (n + 1) h1' h2 := by
  have p0 := hy.pos hx hs n
  have p1 := hy.pos hx hs (n + 1)
  have p2 := hy.pos hx hs (n + 2)
  have hr := hy.step n
  have hnn : (0 : ℚ) ≤ n := Nat.cast_nonneg n
  obtain ⟨i1, i2, i3⟩ := h
  rcases le_total s ((n : ℚ) + 2) with hA | hA
  · -- beyond the order
    have hth := hy.theta hx hs hs0.le hn (by linarith)
    have hth0 : 0 ≤ (n + 1) * (n + 2 - s) * y n := by
      have : 0 ≤ (n : ℚ) + 2 - s := by linarith
      positivity
    have eH : hNext x s y n h0 h1 = h1 + (n + 1) * (n + 2 - s) * y n / y (n + 2) * (h1 - h0) := by
      unfold hNext
      have e : (n + 1) * (n + 2 - s) * y n / y (n + 2) * (h1 - h0) * y (n + 2) = (n + 1) * (n + 2 - s) * y n * (h1 - h0) := by
        rw [mul_right_comm, div_mul_cancel₀ _ p2.ne']
      rw [div_eq_iff p2.ne', add_mul h1, e, hr]
      ring
    have ht1 : (n + 1) * (n + 2 - s) * y n / y (n + 2) ≤ 101 / 102 := by rw [div_le_iff₀ p2]; exact hth
    have ht0 : 0 ≤ (n + 1) * (n + 2 - s) * y n / y (n + 2) := div_nonneg hth0 p2.le
    rw [eH] at e2
    generalize (n + 1) * ((n : ℚ) + 2 - s) * y n / y (n + 2) = θ at *
    have hu : (0 : ℚ) < 1 / 2 ^ 53 := by norm_num
    rw [show (3 : ℚ) / 2 ^ 53 = 3 * (1 / 2 ^ 53) by ring] at e1
    rw [show (84 : ℚ) / 2 ^ 53 = 84 * (1 / 2 ^ 53) by ring] at e2
    unfold EInv
    rw [show (100 : ℚ) / 2 ^ 53 = 100 * (1 / 2 ^ 53) by ring] at *
    generalize (1 : ℚ) / 2 ^ 53 = u at *
    have hd : |h2 - h1'| ≤ 101 / 102 * |h1 - h0| + 87 * u := by
      have e : h2 - h1' = (h2 - (h1 + θ * (h1 - h0))) + -(h1' - h1) + θ * (h1 - h0) := by ring
      rw [e]
      have a1 := abs_add_le ((h2 - (h1 + θ * (h1 - h0))) + -(h1' - h1)) (θ * (h1 - h0))
      have a2 := abs_add_le (h2 - (h1 + θ * (h1 - h0))) (-(h1' - h1))
      rw [abs_neg] at a2
      rw [abs_mul, abs_of_nonneg ht0] at a1
      have a3 := mul_le_mul_of_nonneg_right ht1 (abs_nonneg (h1 - h0))
      linarith
    have hd2 : |h2 - 1| ≤ |h1 - 1| + 3 * u + |h2 - h1'| := by
      have e : h2 - 1 = (h2 - h1') + (h1' - h1) + (h1 - 1) := by ring
      rw [e]
      have a1 := abs_add_le ((h2 - h1') + (h1' - h1)) (h1 - 1)
      have a2 := abs_add_le (h2 - h1') (h1' - h1)
      linarith
    have hd0 := abs_nonneg (h1 - h0)
    refine ⟨?_, ?_, fun hc => ?_⟩
    · push_cast
      nlinarith
    · push_cast
      nlinarith
    · push_cast at hc
      exfalso; linarith
  · -- before the order
    obtain ⟨m0, m1⟩ := i3 hA
    have hα : 0 ≤ (n + 1) * (s - n - 2) * y n := by
      have : 0 ≤ s - n - 2 := by linarith
      positivity
    have hb : 0 ≤ (x + 2 * n + 4 - s) * y (n + 1) := mul_nonneg (by linarith) p1.le
    have eH : hNext x s y n h0 h1 - 1 = ((x + 2 * n + 4 - s) * y (n + 1) * (h1 - 1) + (n + 1) * (s - n - 2) * y n * (h0 - 1)) / y (n + 2) := by
      unfold hNext
      rw [eq_div_iff p2.ne', sub_mul, div_mul_cancel₀ _ p2.ne', hr]
      ring
    have hsum : (x + 2 * n + 4 - s) * y (n + 1) + (n + 1) * (s - n - 2) * y n = y (n + 2) := by rw [hr]; ring
    have hH : |hNext x s y n h0 h1 - 1| ≤ 100 / 2 ^ 53 * (n + 1) := by
      rw [eH, abs_div, abs_of_pos p2, div_le_iff₀ p2, ← hsum]
      have a1 := abs_add_le ((x + 2 * n + 4 - s) * y (n + 1) * (h1 - 1)) ((n + 1) * (s - n - 2) * y n * (h0 - 1))
      rw [abs_mul, abs_of_nonneg hb, abs_mul, abs_of_nonneg hα] at a1
      have a2 := mul_le_mul_of_nonneg_left m1 hb
      have a3 := mul_le_mul_of_nonneg_left m0 hα
      linarith
    have hu : (0 : ℚ) < 1 / 2 ^ 53 := by norm_num
    rw [show (3 : ℚ) / 2 ^ 53 = 3 * (1 / 2 ^ 53) by ring] at e1
    rw [show (84 : ℚ) / 2 ^ 53 = 84 * (1 / 2 ^ 53) by ring] at e2
    unfold EInv
    rw [show (100 : ℚ) / 2 ^ 53 = 100 * (1 / 2 ^ 53) by ring] at *
    generalize (1 : ℚ) / 2 ^ 53 = u at *
    have hd2 : |h2 - 1| ≤ 100 * u * (n + 1) + 84 * u := by
      have := abs_sub_le h2 (hNext x s y n h0 h1) 1
      linarith
    have hd1 : |h1' - 1| ≤ 100 * u * (n + 1) + 3 * u := by
      have := abs_sub_le h1' h1 1
      linarith
    have hd : |h2 - h1'| ≤ |h2 - 1| + |h1' - 1| := by
      have := abs_sub_le h2 1 h1'
      rwa [abs_sub_comm 1 h1'] at this
    push_cast
    refine ⟨?_, ?_, fun _ => ⟨?_, ?_⟩⟩ <;> nlinarith

/-- sums of absolute values against the new value -/
theorem step_sums {x s : ℚ} {y : ℕ → ℚ} (hx : 1 < x) (hs : s ≤ x) (hs0 : 0 < s) (hy : Sol x s y) {n : ℕ} (hn : n + 1 ≤ 10000)
    {h0 h1 : ℚ} (k0 : |h0 - 1| ≤ 1 / 100) (k1 : |h1 - 1| ≤ 1 / 100) :
    (x + 2 * n + 4 - s) * y (n + 1) + |((n : ℚ) + 1) * (n + 2 - s)| * y n ≤ 3 * y (n + 2) ∧
      9 / 10 * y (n + 2) ≤ (x + 2 * n + 4 - s) * y (n + 1) * h1 - (n + 1) * (n + 2 - s) * y n * h0 := by
  have p0 := hy.pos hx hs n
  have p1 := hy.pos hx hs (n + 1)
  have p2 := hy.pos hx hs (n + 2)
  have hr := hy.step n
  have hnn : (0 : ℚ) ≤ n := Nat.cast_nonneg n
  obtain ⟨g0, g0'⟩ := abs_le.mp k0
  obtain ⟨g1, g1'⟩ := abs_le.mp k1
  rcases le_total s ((n : ℚ) + 2) with hA' | hA'
  · have hth := hy.theta hx hs hs0.le hn (by linarith)
    have hth0 : 0 ≤ (n + 1) * (n + 2 - s) * y n := by
      have : 0 ≤ (n : ℚ) + 2 - s := by linarith
      positivity
    rw [abs_of_nonneg (by have : 0 ≤ (n : ℚ) + 2 - s := by linarith
                          positivity)]
    generalize (n + 1) * ((n : ℚ) + 2 - s) * y n = w at *
    have hbw : (x + 2 * n + 4 - s) * y (n + 1) = y (n + 2) + w := by rw [hr]; ring
    rw [hbw]
    constructor
    · linarith
    · nlinarith
  · have hα : 0 ≤ (n + 1) * (s - n - 2) * y n := by
      have : 0 ≤ s - n - 2 := by linarith
      positivity
    have e : |((n : ℚ) + 1) * (n + 2 - s)| = (n + 1) * (s - n - 2) := by
      rw [abs_of_nonpos (mul_nonpos_of_nonneg_of_nonpos (by linarith) (by linarith))]; ring
    rw [e]
    have e2 : (n + 1) * (n + 2 - s) * y n * h0 = -((n + 1) * (s - n - 2) * y n * h0) := by ring
    rw [e2]
    have hbw : (x + 2 * n + 4 - s) * y (n + 1) = y (n + 2) - (n + 1) * (s - n - 2) * y n := by rw [hr]; ring
    generalize (n + 1) * (s - n - 2) * y n = w at *
    have : 0 ≤ y (n + 2) - w := by rw [← hbw]; exact mul_nonneg (by linarith) p1.le
    rw [hbw]
    constructor
    · linarith
    · nlinarith

/-- the rounding of `b * p - a * q` -/
theorem sub_prod_round (hfp : fp.Good) {b β α Y0 Y1 Y2 l h0 h1 : ℚ} (hb0 : 2 ≤ b) (hb1 : b ≤ 2 ^ 21) (hβ0 : 0 ≤ β) (hβ : |b - β| ≤ 23 / 2 ^ 53 * β)
    (hα : |α| ≤ 2 ^ 33) (hα' : α = 0 ∨ 1 / 2 ≤ |α|) (hY0 : 0 < Y0) (hY1 : 0 < Y1) (hY2 : 0 < Y2) (hl : 0 < l) (k0 : |h0 - 1| ≤ 1 / 100) (k1 : |h1 - 1| ≤ 1 / 100)
    (q0 : 1 / 2 ^ 35 ≤ l * Y0) (q0' : l * Y0 ≤ 2 ^ 160) (q1 : 1 / 4 ≤ l * Y1) (q1' : l * Y1 ≤ 2 ^ 160) (q2 : 1 / 4 ≤ l * Y2) (q2' : l * Y2 ≤ 2 ^ 200)
    (hT : β * Y1 + |α| * Y0 ≤ 3 * Y2) (hT' : 9 / 10 * Y2 ≤ β * Y1 * h1 - α * Y0 * h0) :
    ∃ h2, fp.sub (fp.mul (.fin b) (.fin (l * Y1 * h1))) (fp.mul (.fin α) (.fin (l * Y0 * h0))) = .fin (l * Y2 * h2) ∧
      |h2 - (β * Y1 * h1 - α * Y0 * h0) / Y2| ≤ 81 / 2 ^ 53 := by
  obtain ⟨g0, g0'⟩ := abs_le.mp k0
  obtain ⟨g1, g1'⟩ := abs_le.mp k1
  have hc0l : 1 / 2 ^ 36 ≤ l * Y0 * h0 := by
    have : (1 : ℚ) / 2 ^ 36 = 1 / 2 ^ 35 * (1 / 2) := by norm_num
    rw [this]
    exact mul_le_mul q0 (by linarith) (by norm_num) (by positivity)
  have hc1l : 1 / 8 ≤ l * Y1 * h1 := by
    have : (1 : ℚ) / 8 = 1 / 4 * (1 / 2) := by norm_num
    rw [this]
    exact mul_le_mul q1 (by linarith) (by norm_num) (by positivity)
  have hc0u : l * Y0 * h0 ≤ 2 ^ 161 := by
    calc l * Y0 * h0 ≤ 2 ^ 160 * 2 := mul_le_mul q0' (by linarith) (by linarith) (by positivity)
      _ = 2 ^ 161 := by norm_num
  have hc1u : l * Y1 * h1 ≤ 2 ^ 161 := by
    calc l * Y1 * h1 ≤ 2 ^ 160 * 2 := mul_le_mul q1' (by linarith) (by linarith) (by positivity)
      _ = 2 ^ 161 := by norm_num
  have hc0p : 0 < l * Y0 * h0 := lt_of_lt_of_le (by norm_num) hc0l
  have hc1p : 0 < l * Y1 * h1 := lt_of_lt_of_le (by norm_num) hc1l
  have hm0 : l * Y0 * h0 ≤ l * Y0 * (101 / 100) := mul_le_mul_of_nonneg_left (by linarith) (by positivity)
  have hm1 : l * Y1 * h1 ≤ l * Y1 * (101 / 100) := mul_le_mul_of_nonneg_left (by linarith) (by positivity)
  -- the products
  obtain ⟨B, hB, hBe⟩ := rnd_wide hfp (q := b * (l * Y1 * h1)) (Or.inr (by
    rw [abs_of_pos (by positivity)]
    refine ⟨pow_700 (le_trans (show (1 : ℚ) / 2 ^ 100 ≤ 2 * (1 / 8) by norm_num) (mul_le_mul hb0 hc1l (by norm_num) (by linarith))), pow_400 ?_⟩
    calc b * (l * Y1 * h1) ≤ 2 ^ 21 * 2 ^ 161 := mul_le_mul hb1 hc1u hc1p.le (by positivity)
      _ ≤ 2 ^ 250 := by norm_num))
  obtain ⟨A, hA, hAe⟩ := rnd_wide hfp (q := α * (l * Y0 * h0)) (by
    rcases hα' with h | h
    · left; rw [h, zero_mul]
    · right
      rw [abs_mul, abs_of_pos hc0p]
      refine ⟨pow_700 (le_trans (show (1 : ℚ) / 2 ^ 100 ≤ 1 / 2 * (1 / 2 ^ 36) by norm_num) (mul_le_mul h hc0l (by norm_num) (abs_nonneg _))), pow_400 ?_⟩
      calc |α| * (l * Y0 * h0) ≤ 2 ^ 33 * 2 ^ 161 := mul_le_mul hα hc0u hc0p.le (by positivity)
        _ ≤ 2 ^ 250 := by norm_num)
  have hL : 0 < l * Y2 := mul_pos hl hY2
  have hz1 : 0 ≤ l * (β * Y1) := by positivity
  have hz0 : 0 ≤ l * (|α| * Y0) := by positivity
  have hlT : l * (β * Y1) + l * (|α| * Y0) ≤ 3 * (l * Y2) := by
    have := mul_le_mul_of_nonneg_left hT hl.le
    linarith
  have hXl : 9 / 10 * (l * Y2) ≤ β * (l * Y1 * h1) - α * (l * Y0 * h0) := by
    have := mul_le_mul_of_nonneg_left hT' hl.le
    linarith
  have hXu : β * (l * Y1 * h1) - α * (l * Y0 * h0) ≤ 4 * (l * Y2) := by
    have t1 := mul_le_mul_of_nonneg_left hm1 hβ0
    have t2 := mul_le_mul_of_nonneg_right (neg_le_abs α) hc0p.le
    have t3 := mul_le_mul_of_nonneg_left hm0 (abs_nonneg α)
    linarith
  rw [abs_of_pos (mul_pos (by linarith) hc1p)] at hBe
  rw [abs_mul, abs_of_pos hc0p] at hAe
  have e0 : (β * Y1 * h1 - α * Y0 * h0) / Y2 = (β * (l * Y1 * h1) - α * (l * Y0 * h0)) / (l * Y2) := by
    rw [div_eq_div_iff hY2.ne' hL.ne']; ring
  rw [e0]
  -- the errors
  rw [div_eq_mul_one_div] at hBe hAe hβ
  rw [show (23 : ℚ) * (1 / 2 ^ 53) * β = (1 / 2 ^ 53) * (23 * β) by ring] at hβ
  rw [div_eq_mul_one_div (81 : ℚ)]
  have hu0 : (0 : ℚ) < 1 / 2 ^ 53 := by norm_num
  have hu1 : (1 : ℚ) / 2 ^ 53 ≤ 1 / 10000 := by norm_num
  have rr : ∀ q : ℚ, q = 0 ∨ (1 / 2 ^ 700 ≤ |q| ∧ |q| ≤ 2 ^ 400) → ∃ a, fp.rnd q = .fin a ∧ |a - q| ≤ |q| * (1 / 2 ^ 53) := fun q h => by
    obtain ⟨a, h1, h2⟩ := rnd_wide (q := q) hfp h
    exact ⟨a, h1, h2.trans (le_of_eq (div_eq_mul_one_div _ _))⟩
  generalize (1 : ℚ) / 2 ^ 53 = u at *
  have dB : |B - β * (l * Y1 * h1)| ≤ 25 * u * (l * (β * Y1)) := by
    have t := abs_sub_le B (b * (l * Y1 * h1)) (β * (l * Y1 * h1))
    rw [← sub_mul, abs_mul (b - _), abs_of_pos hc1p] at t
    have hbu : b ≤ 101 / 100 * β := by
      have := (abs_le.mp hβ).2
      nlinarith
    have t1 : b * (l * Y1 * h1) ≤ 101 / 100 * β * (l * Y1 * (101 / 100)) := mul_le_mul hbu hm1 hc1p.le (by positivity)
    have t2 : |b - β| * (l * Y1 * h1) ≤ u * (23 * β) * (l * Y1 * (101 / 100)) := mul_le_mul hβ hm1 hc1p.le (by positivity)
    have t3 := mul_le_mul_of_nonneg_right t1 hu0.le
    have t4 : 0 ≤ u * (l * (β * Y1)) := by positivity
    linarith
  have dA : |A - α * (l * Y0 * h0)| ≤ 2 * u * (l * (|α| * Y0)) := by
    have t1 := mul_le_mul_of_nonneg_right (mul_le_mul_of_nonneg_left hm0 (abs_nonneg α)) hu0.le
    have t4 : 0 ≤ u * (l * (|α| * Y0)) := by positivity
    linarith
  have dAB : |B - A - (β * (l * Y1 * h1) - α * (l * Y0 * h0))| ≤ 75 * u * (l * Y2) := by
    have e : B - A - (β * (l * Y1 * h1) - α * (l * Y0 * h0)) = (B - β * (l * Y1 * h1)) - (A - α * (l * Y0 * h0)) := by ring
    rw [e]
    have t := abs_sub (B - β * (l * Y1 * h1)) (A - α * (l * Y0 * h0))
    have t1 := mul_le_mul_of_nonneg_left hlT hu0.le
    have t4 : 0 ≤ u * (l * (|α| * Y0)) := by positivity
    linarith
  generalize β * (l * Y1 * h1) - α * (l * Y0 * h0) = X at *
  have hd := abs_le.mp dAB
  have hbd : 75 * u * (l * Y2) ≤ 1 / 10 * (l * Y2) := mul_le_mul_of_nonneg_right (by linarith) hL.le
  have hBA0 : 4 / 5 * (l * Y2) ≤ B - A := by linarith
  have hBA1 : B - A ≤ 5 * (l * Y2) := by linarith
  obtain ⟨r, hrr, hre⟩ := rr (B - A) (Or.inr (by
    rw [abs_of_nonneg (by linarith)]
    refine ⟨pow_700 (le_trans (show (1 : ℚ) / 2 ^ 100 ≤ 4 / 5 * (1 / 4) by norm_num) (by linarith)), pow_400 (hBA1.trans ?_)⟩
    calc 5 * (l * Y2) ≤ 5 * 2 ^ 200 := by linarith
      _ ≤ 2 ^ 250 := by norm_num))
  refine ⟨r / (l * Y2), ?_, ?_⟩
  · have m1 : fp.mul (.fin b) (.fin (l * Y1 * h1)) = .fin B := hB
    have m2 : fp.mul (.fin α) (.fin (l * Y0 * h0)) = .fin A := hA
    rw [m1, m2, mul_div_cancel₀ _ hL.ne']
    show fp.rnd (B + -A) = _
    rw [← sub_eq_add_neg]
    exact hrr
  · rw [← sub_div, abs_div, abs_of_pos hL, div_le_iff₀ hL]
    have t := abs_sub_le r (B - A) X
    rw [abs_of_nonneg (show 0 ≤ B - A by linarith)] at hre
    have t1 := mul_le_mul_of_nonneg_right hBA1 hu0.le
    have t4 : 0 ≤ u * (l * Y2) := by positivity
    linarith

/-- One numerator or denominator in rounded arithmetic. -/
theorem newPn_round (hfp : fp.Good) {x s : ℚ} {y : ℕ → ℚ} (hx : 1 < x) (hs : s ≤ x) (hs0 : 0 < s) (hxb : x ≤ 500000) {j : ℕ}
    (hsj : s = (j : ℚ) / 2) (hy : Sol x s y) {n : ℕ} (hn : n + 1 ≤ 10000) {b : ℚ} (hb : BHat fp x s (n + 1) b) (hup : y (n + 1) ≤ 2 ^ 33 * y n)
    {l h0 h1 : ℚ} (hl : 0 < l) (k0 : |h0 - 1| ≤ 1 / 100) (k1 : |h1 - 1| ≤ 1 / 100) (r1 : 1 / 4 ≤ l * y (n + 1)) (r2 : l * y (n + 1) ≤ 2 ^ 160)
    (st : Gamain.Frac) (sa : st.a = .fin (n + 2 - s)) (sb : st.b = .fin b) (stt : st.term = .fin (n + 1)) :
    ∃ h2, Gamain.newPn fp st (.fin (l * y (n + 1) * h1)) (.fin (l * y n * h0)) = .fin (l * y (n + 2) * h2) ∧
      |h2 - hNext x s y n h0 h1| ≤ 81 / 2 ^ 53 := by
  have p0 := hy.pos hx hs n
  have p1 := hy.pos hx hs (n + 1)
  have p2 := hy.pos hx hs (n + 2)
  have hr := hy.step n
  have hinc := hy.incr hx hs n
  have hnn : (0 : ℚ) ≤ n := Nat.cast_nonneg n
  have hnr : (n : ℚ) + 1 ≤ 10000 := by exact_mod_cast hn
  obtain ⟨hb2, hb21, hbrel⟩ := hb.range hs hs0 hxb hn
  have hbx : x + 2 * ((n + 1 : ℕ) : ℚ) + 2 - s = x + 2 * n + 4 - s := by push_cast; ring
  rw [hbx] at hbrel
  have hB0 : 2 ≤ x + 2 * n + 4 - s := by linarith
  have hbabs := rel_absle hbrel (by norm_num) (by linarith) (by linarith)
  push_cast at hbabs
  obtain ⟨g0, g0'⟩ := abs_le.mp k0
  obtain ⟨g1, g1'⟩ := abs_le.mp k1
  -- the coefficient `a * term` is exact
  have ea : fp.mul st.a st.term = .fin ((n + 1) * (n + 2 - s)) := by
    rw [sa, stt]
    show fp.rnd ((n + 2 - s) * (n + 1)) = _
    have hjq : (j : ℚ) ≤ 1000000 := by rw [hsj] at hs; linarith
    have hjz : (j : ℤ) ≤ 1000000 := by exact_mod_cast hjq
    have hnz : (n : ℤ) + 1 ≤ 10000 := by exact_mod_cast hn
    have hj0 : (0 : ℤ) ≤ j := Int.natCast_nonneg j
    have hn0 : (0 : ℤ) ≤ n := Int.natCast_nonneg n
    have := hfp.dyadic ((2 * n + 4 - j) * (n + 1)) 1 (by
      rw [abs_mul, abs_of_nonneg (show (0 : ℤ) ≤ n + 1 by omega)]
      have h1 : |(2 * n + 4 - j : ℤ)| ≤ 1020000 := by rw [abs_le]; constructor <;> omega
      calc |(2 * n + 4 - j : ℤ)| * (n + 1) ≤ 1020000 * 10000 := mul_le_mul h1 hnz (by omega) (by norm_num)
        _ ≤ 2 ^ 53 := by norm_num) (by norm_num)
    have e : (((2 * n + 4 - j) * (n + 1) : ℤ) : ℚ) / 2 ^ 1 = (n + 2 - s) * (n + 1) := by rw [hsj]; push_cast; ring
    rw [e] at this
    rw [this]
    congr 1; ring
  -- magnitudes
  have ha1 : |((n : ℚ) + 1) * (n + 2 - s)| ≤ 2 ^ 33 := by
    rw [abs_mul, abs_of_nonneg (by linarith)]
    have h1 : |(n : ℚ) + 2 - s| ≤ 510000 := by rw [abs_le]; constructor <;> linarith
    calc ((n : ℚ) + 1) * |(n : ℚ) + 2 - s| ≤ 10000 * 510000 := mul_le_mul hnr h1 (abs_nonneg _) (by norm_num)
      _ ≤ 2 ^ 33 := by norm_num
  have ha2 : ((n : ℚ) + 1) * (n + 2 - s) = 0 ∨ 1 / 2 ≤ |((n : ℚ) + 1) * (n + 2 - s)| := by
    by_cases hz : (2 * n + 4 - j : ℤ) = 0
    · left
      have : ((2 * n + 4 - j : ℤ) : ℚ) = 0 := by exact_mod_cast hz
      push_cast at this
      have : (n : ℚ) + 2 - s = 0 := by rw [hsj]; linarith
      rw [this, mul_zero]
    · right
      have h1 : (1 : ℤ) ≤ |(2 * n + 4 - j : ℤ)| := Int.one_le_abs hz
      have h2 : (1 : ℚ) ≤ |((2 * n + 4 - j : ℤ) : ℚ)| := by exact_mod_cast h1
      have e : (n : ℚ) + 2 - s = ((2 * n + 4 - j : ℤ) : ℚ) / 2 := by rw [hsj]; push_cast; ring
      rw [abs_mul, abs_of_nonneg (by linarith), e, abs_div, abs_of_pos (show (0 : ℚ) < 2 by norm_num)]
      have h3 : (1 : ℚ) ≤ n + 1 := by linarith
      nlinarith [mul_le_mul h3 h2 (by norm_num) (by linarith)]
  have hly0 : l * y n ≤ l * y (n + 1) := by
    refine mul_le_mul_of_nonneg_left ?_ hl.le
    nlinarith
  have hly0' : 1 / 2 ^ 35 ≤ l * y n := by
    have : l * y (n + 1) ≤ 2 ^ 33 * (l * y n) := by
      calc l * y (n + 1) ≤ l * (2 ^ 33 * y n) := mul_le_mul_of_nonneg_left hup hl.le
        _ = _ := by ring
    rw [show (1 : ℚ) / 2 ^ 35 = 1 / 4 / 2 ^ 33 by norm_num, div_le_iff₀ (by positivity)]
    linarith
  obtain ⟨hT, hT'⟩ := step_sums hx hs hs0 hy hn k0 k1
  have hLl : 1 / 4 ≤ l * y (n + 2) := by
    have h1 := hy.incr hx hs (n + 1)
    push_cast at h1
    have : l * y (n + 1) ≤ l * y (n + 2) := mul_le_mul_of_nonneg_left (by nlinarith) hl.le
    linarith
  have hLu : l * y (n + 2) ≤ 2 ^ 200 := by
    have h1 : y (n + 2) ≤ 2 ^ 34 * y (n + 1) := by
      rw [hr]
      have h2 : -(((n : ℚ) + 1) * (n + 2 - s) * y n) ≤ 2 ^ 33 * y (n + 1) := by
        have h3 := neg_le_abs (((n : ℚ) + 1) * (n + 2 - s))
        have h4 : -(((n : ℚ) + 1) * (n + 2 - s)) * y n ≤ 2 ^ 33 * y n := mul_le_mul_of_nonneg_right (h3.trans ha1) p0.le
        have h5 : y n ≤ y (n + 1) := by nlinarith
        linarith
      have h6 : (x + 2 * n + 4 - s) * y (n + 1) ≤ 2 ^ 33 * y (n + 1) := mul_le_mul_of_nonneg_right (by norm_num; linarith) p1.le
      linarith
    calc l * y (n + 2) ≤ l * (2 ^ 34 * y (n + 1)) := mul_le_mul_of_nonneg_left h1 hl.le
      _ = 2 ^ 34 * (l * y (n + 1)) := by ring
      _ ≤ 2 ^ 34 * 2 ^ 160 := mul_le_mul_of_nonneg_left r2 (by positivity)
      _ ≤ 2 ^ 200 := by norm_num
  unfold Gamain.newPn
  rw [ea, sb]
  exact sub_prod_round hfp hb2 hb21 (by linarith) (by norm_num at hbabs ⊢; exact hbabs) ha1 ha2 p0 p1 p2 hl k0 k1 hly0' (hly0.trans r2) r1 r2 hLl hLu hT hT'

/-! ### the state of the loop -/

theorem div_fin {a b : ℚ} (hb : b ≠ 0) : fp.div (.fin a) (.fin b) = fp.rnd (a / b) := by unfold FP.div; simp [hb]

theorem oflo_rnd (hfp : fp.Good) : ∃ o, Gamain.oflo fp = .fin o ∧ 10 ^ 36 ≤ o ∧ o ≤ 2 ^ 124 := by
  obtain ⟨o, ho, hr⟩ := rnd_wide hfp (q := 10 ^ 37) (Or.inr (by
    rw [abs_of_pos (by positivity)]
    exact ⟨pow_700 (by norm_num), pow_400 (by norm_num)⟩))
  refine ⟨o, ho, ?_⟩
  rw [abs_of_pos (show (0 : ℚ) < 10 ^ 37 by positivity)] at hr
  have h := abs_le.mp hr
  have h1 : (10 : ℚ) ^ 37 / 2 ^ 53 ≤ 10 ^ 36 := by norm_num
  have h2 : (10 : ℚ) ^ 37 = 10 * 10 ^ 36 := by norm_num
  have h3 : (11 : ℚ) * 10 ^ 36 ≤ 2 ^ 124 := by norm_num
  have h4 : (0 : ℚ) < 10 ^ 36 := by norm_num
  constructor <;> linarith

/-- dividing by `oflo` -/
theorem scale_round (hfp : fp.Good) {l y h o : ℚ} (hl : 0 < l) (hy : 0 < y) (h1 : 1 / 4 ≤ l * y) (h2 : l * y ≤ 2 ^ 200) (k : |h - 1| ≤ 1 / 100)
    (o1 : 10 ^ 36 ≤ o) (o2 : o ≤ 2 ^ 124) : ∃ h', fp.div (.fin (l * y * h)) (.fin o) = .fin (l / o * y * h') ∧ |h' - h| ≤ 3 / 2 ^ 53 := by
  obtain ⟨g0, g1⟩ := abs_le.mp k
  have ho : 0 < o := lt_of_lt_of_le (by positivity) o1
  have hh : 0 < h := by linarith
  have hL : 0 < l / o * y := by positivity
  obtain ⟨r, hr, he⟩ := rnd_wide hfp (q := l * y * h / o) (Or.inr (by
    rw [abs_of_pos (by positivity)]
    refine ⟨one_div_le_one_div_of_le (show (0 : ℚ) < 2 ^ 130 by positivity) (pow_le_pow_right₀ (by norm_num) (by norm_num)) |>.trans ?_, pow_400 ?_⟩
    · rw [div_le_div_iff₀ (by positivity) ho]
      have : 1 / 4 * (1 / 2) ≤ l * y * h := mul_le_mul h1 (by linarith) (by norm_num) (by positivity)
      have e : (2 : ℚ) ^ 130 = 64 * 2 ^ 124 := by norm_num
      nlinarith
    · rw [div_le_iff₀ ho]
      have t1 : l * y * h ≤ 2 ^ 200 * 2 := mul_le_mul h2 (by linarith) hh.le (by positivity)
      have t2 : (2 : ℚ) ^ 200 * 2 ≤ 2 ^ 250 * 1 := by norm_num
      have t3 : (2 : ℚ) ^ 250 * 1 ≤ 2 ^ 250 * o := mul_le_mul_of_nonneg_left (le_trans (by norm_num) o1) (by positivity)
      linarith))
  refine ⟨r / (l / o * y), ?_, ?_⟩
  · rw [div_fin ho.ne', hr, mul_div_cancel₀ _ hL.ne']
  · have e : l * y * h / o = l / o * y * h := by ring
    rw [e, abs_of_pos (show 0 < l / o * y * h by positivity)] at he
    have e2 : r / (l / o * y) - h = (r - l / o * y * h) / (l / o * y) := by
      rw [sub_div, mul_div_cancel_left₀ _ hL.ne']
    rw [e2, abs_div, abs_of_pos hL, div_le_iff₀ hL]
    refine he.trans ?_
    rw [div_le_iff₀ (by positivity)]
    have e3 : 3 / 2 ^ 53 * (l / o * y) * 2 ^ 53 = l / o * y * 3 := by ring
    rw [e3]
    exact mul_le_mul_of_nonneg_left (by linarith) hL.le

/-- the convergents -/
def cvg (x s : ℚ) (n : ℕ) : ℚ := numQ x s n / denQ x s n

/-- the variables of the loop after `n` iterations -/
def FInv (fp : FP) (x s : ℚ) (n : ℕ) (st : Gamain.Frac) : Prop :=
  ∃ b l h0 h1 k0 k1 t : ℚ, st = ⟨.fin (n + 1 - s), .fin b, .fin n, .fin (cvg x s (n + 1) * t), .fin (l * numQ x s n * h0), .fin (l * denQ x s n * k0),
    .fin (l * numQ x s (n + 1) * h1), .fin (l * denQ x s (n + 1) * k1)⟩ ∧ BHat fp x s n b ∧ 0 < l ∧ 1 / 2 ≤ l * numQ x s (n + 1) ∧
    l * numQ x s (n + 1) ≤ 2 ^ 125 ∧ EInv s n h0 h1 ∧ EInv s n k0 k1 ∧ |t * k1 - h1| ≤ 20 / 2 ^ 53

theorem t_close {t h k : ℚ} (hh : |h - 1| ≤ 3 / 10 ^ 8) (hk : |k - 1| ≤ 3 / 10 ^ 8) (ht : |t * k - h| ≤ 20 / 2 ^ 53) : |t - 1| ≤ 7 / 10 ^ 8 := by
  have e20 : (20 : ℚ) / 2 ^ 53 ≤ 1 / 10 ^ 10 := by norm_num
  have h1 := abs_le.mp hh
  have h2 := abs_le.mp hk
  have h3 := abs_le.mp (ht.trans e20)
  rw [abs_le]
  constructor
  · by_contra hc
    push Not at hc
    have ht2 : t < 1 - 7 / 10 ^ 8 := by linarith
    have : t * k < (1 - 7 / 10 ^ 8) * (1 + 3 / 10 ^ 8) := by
      have hk0 : 0 < k := by norm_num at h2 ⊢; linarith
      calc t * k < (1 - 7 / 10 ^ 8) * k := mul_lt_mul_of_pos_right ht2 hk0
        _ ≤ _ := mul_le_mul_of_nonneg_left (by linarith) (by norm_num)
    have : ((1 : ℚ) - 7 / 10 ^ 8) * (1 + 3 / 10 ^ 8) ≤ 1 - 3 / 10 ^ 8 - 1 / 10 ^ 10 := by norm_num
    linarith
  · by_contra hc
    push Not at hc
    have ht2 : 1 + 7 / 10 ^ 8 < t := by linarith
    have : (1 + 7 / 10 ^ 8) * (1 - 3 / 10 ^ 8) < t * k := by
      have hk0 : 0 < k := by norm_num at h2 ⊢; linarith
      calc (1 + 7 / 10 ^ 8) * (1 - 3 / 10 ^ 8) ≤ (1 + 7 / 10 ^ 8) * k := mul_le_mul_of_nonneg_left (by linarith) (by norm_num)
        _ < _ := mul_lt_mul_of_pos_right ht2 hk0
    have : 1 + 3 / 10 ^ 8 + 1 / 10 ^ 10 ≤ ((1 : ℚ) + 7 / 10 ^ 8) * (1 - 3 / 10 ^ 8) := by norm_num
    linarith

theorem t_diff {t1 t2 h1 h2 k1 k2 : ℚ} (c2 : |t2 - 1| ≤ 7 / 10 ^ 8) (ck : |k1 - 1| ≤ 3 / 10 ^ 8) (hh : |h2 - h1| ≤ 3 / 10 ^ 10) (hk : |k2 - k1| ≤ 3 / 10 ^ 10)
    (a1 : |t1 * k1 - h1| ≤ 20 / 2 ^ 53) (a2 : |t2 * k2 - h2| ≤ 20 / 2 ^ 53) : |t1 - t2| ≤ 8 / 10 ^ 10 := by
  have e20 : (20 : ℚ) / 2 ^ 53 ≤ 1 / 10 ^ 12 := by norm_num
  have e : (t1 - t2) * k1 = (t1 * k1 - h1) - (t2 * k2 - h2) - (h2 - h1) + t2 * (k2 - k1) := by ring
  have ht2 : |t2| ≤ 11 / 10 := by
    have := abs_sub_le t2 1 0
    simp only [sub_zero, abs_one] at this
    have e7 : (7 : ℚ) / 10 ^ 8 ≤ 1 / 10 := by norm_num
    linarith
  have b1 : |t2 * (k2 - k1)| ≤ 11 / 10 * (3 / 10 ^ 10) := by
    rw [abs_mul]; exact mul_le_mul ht2 hk (abs_nonneg _) (by norm_num)
  have b2 : |(t1 - t2) * k1| ≤ 7 / 10 ^ 10 := by
    rw [e]
    have s1 := abs_add_le ((t1 * k1 - h1) - (t2 * k2 - h2) - (h2 - h1)) (t2 * (k2 - k1))
    have s2 := abs_sub ((t1 * k1 - h1) - (t2 * k2 - h2)) (h2 - h1)
    have s3 := abs_sub (t1 * k1 - h1) (t2 * k2 - h2)
    have : (3 : ℚ) / 10 ^ 10 + 1 / 10 ^ 12 + 1 / 10 ^ 12 + 11 / 10 * (3 / 10 ^ 10) ≤ 7 / 10 ^ 10 := by norm_num
    linarith
  have hk1 : 9 / 10 ≤ k1 := by
    have := (abs_le.mp ck).1
    have e7 : (3 : ℚ) / 10 ^ 8 ≤ 1 / 10 := by norm_num
    linarith
  rw [abs_mul, abs_of_pos (show 0 < k1 by linarith)] at b2
  have b3 : |t1 - t2| * (9 / 10) ≤ |t1 - t2| * k1 := mul_le_mul_of_nonneg_left hk1 (abs_nonneg _)
  have : (7 : ℚ) / 10 ^ 10 ≤ 8 / 10 ^ 10 * (9 / 10) := by norm_num
  linarith

/-- the quotient of a numerator and a denominator, rounded -/
theorem quot_round (hfp : fp.Good) {l N D h k r : ℚ} (hl : 0 < l) (hN : 0 < N) (hD : 0 < D) (hr : N / D = r) (r1 : 1 / 2 ^ 40 ≤ r) (r2 : r ≤ 1)
    (ch : |h - 1| ≤ 1 / 100) (ck : |k - 1| ≤ 1 / 100) :
    ∃ t, fp.div (.fin (l * N * h)) (.fin (l * D * k)) = .fin (r * t) ∧ |t * k - h| ≤ 2 / 2 ^ 53 := by
  obtain ⟨g0, g1⟩ := abs_le.mp ch
  obtain ⟨f0, f1⟩ := abs_le.mp ck
  have hh : 0 < h := by linarith
  have hk : 0 < k := by linarith
  have hr0 : 0 < r := lt_of_lt_of_le (by positivity) r1
  have e : l * N * h / (l * D * k) = r * (h / k) := by rw [← hr]; field_simp
  have q1 : 1 / 2 ≤ h / k := by rw [le_div_iff₀ hk]; linarith
  have q2 : h / k ≤ 2 := by rw [div_le_iff₀ hk]; linarith
  obtain ⟨a, ha, he⟩ := rnd_wide hfp (q := r * (h / k)) (Or.inr (by
    rw [abs_of_pos (by positivity)]
    refine ⟨pow_700 (le_trans (show (1 : ℚ) / 2 ^ 100 ≤ 1 / 2 ^ 40 * (1 / 2) by norm_num) (mul_le_mul r1 q1 (by norm_num) hr0.le)), pow_400 ?_⟩
    calc r * (h / k) ≤ 1 * 2 := mul_le_mul r2 q2 (by positivity) (by norm_num)
      _ ≤ 2 ^ 250 := by norm_num))
  refine ⟨a / r, ?_, ?_⟩
  · rw [div_fin (by positivity), e, ha, mul_div_cancel₀ _ hr0.ne']
  · rw [abs_of_pos (show 0 < r * (h / k) by positivity)] at he
    have e2 : a / r * k - h = (a - r * (h / k)) * (k / r) := by field_simp
    rw [e2, abs_mul, abs_of_pos (show 0 < k / r by positivity)]
    calc |a - r * (h / k)| * (k / r) ≤ r * (h / k) / 2 ^ 53 * (k / r) := mul_le_mul_of_nonneg_right he (by positivity)
      _ = h / 2 ^ 53 := by field_simp
      _ ≤ 2 / 2 ^ 53 := by gcongr; linarith

theorem cvg_bounds {x s : ℚ} (hx : 1 < x) (hs : s ≤ x) (hs0 : 0 < s) (hxb : x ≤ 500000) (n : ℕ) : 1 / 10 ^ 6 ≤ cvg x s n ∧ cvg x s n ≤ 1 := by
  have hd := (denQ_sol hx hs).pos hx hs n
  have hn := (numQ_sol x s).pos hx hs n
  obtain ⟨h1, h2⟩ := conv_bounds hx hs hs0 n
  unfold cvg
  constructor
  · rw [div_le_div_iff₀ (by norm_num) hd]
    have : 2 * x * numQ x s n ≤ 10 ^ 6 * numQ x s n := mul_le_mul_of_nonneg_right (by norm_num; linarith) hn.le
    linarith
  · rw [div_le_one hd]; exact h1

theorem frac_step (hfp : fp.Good) (ht : AddTwo fp) {x s : ℚ} (hx : 1 < x) (hs : s ≤ x) (hs0 : 0 < s) (hxb : x ≤ 500000) {j : ℕ} (hsj : s = (j : ℚ) / 2)
    {n : ℕ} (hn : n + 1 ≤ 10000) {st : Gamain.Frac} (hst : FInv fp x s n st) :
    ∃ p4 p5 t1 t2 : ℚ, (Gamain.nextFrac fp st).gin = .fin (cvg x s (n + 1) * t1) ∧
      Gamain.newPn fp (Gamain.nextFrac fp st) (Gamain.nextFrac fp st).p2 (Gamain.nextFrac fp st).p0 = .fin p4 ∧
      Gamain.newPn fp (Gamain.nextFrac fp st) (Gamain.nextFrac fp st).p3 (Gamain.nextFrac fp st).p1 = .fin p5 ∧ p5 ≠ 0 ∧
      fp.div (.fin p4) (.fin p5) = .fin (cvg x s (n + 2) * t2) ∧
      FInv fp x s (n + 1) (Gamain.shiftPn fp (Gamain.nextFrac fp st) (.fin (cvg x s (n + 2) * t2)) (.fin p4) (.fin p5)) ∧
      |t1 - 1| ≤ 7 / 10 ^ 8 ∧ |t2 - 1| ≤ 7 / 10 ^ 8 ∧ |t1 - t2| ≤ 8 / 10 ^ 10 := by
  obtain ⟨b, l, h0, h1, k0, k1, t1, rfl, hb, hl, hr1, hr2, hE, hK, htk⟩ := hst
  obtain ⟨b', hb', hB⟩ := hb.succ hfp ht hs hs0 hxb hn
  have sN := numQ_sol x s
  have sD := denQ_sol hx hs
  have hN1 := sN.pos hx hs (n + 1)
  have hN2 := sN.pos hx hs (n + 2)
  have hD1 := sD.pos hx hs (n + 1)
  have hD2 := sD.pos hx hs (n + 2)
  have uN := sN.upper hx hs hs0 hxb (by simp only [numQ]; norm_num; linarith)
  have uD := sD.upper hx hs hs0 hxb (by
    simp only [denQ]
    have : x * (x + 2 - s) ≤ x * 2 ^ 33 := mul_le_mul_of_nonneg_left (by norm_num; linarith) (by linarith)
    linarith)
  have hnr : (n : ℚ) + 1 ≤ 10000 := by exact_mod_cast hn
  have hn0 : (0 : ℚ) ≤ n := Nat.cast_nonneg n
  have hsb : s ≤ 500000 := hs.trans hxb
  -- the counters
  have ea : fp.add (.fin (n + 1 - s)) (.fin 1) = .fin (n + 2 - s) := by
    show fp.rnd (n + 1 - s + 1) = _
    have hjq : (j : ℚ) ≤ 1000000 := by rw [hsj] at hsb; linarith
    have hjz : (j : ℤ) ≤ 1000000 := by exact_mod_cast hjq
    have hnz : (n : ℤ) + 1 ≤ 10000 := by exact_mod_cast hn
    have hj0 : (0 : ℤ) ≤ j := Int.natCast_nonneg j
    have hnz0 : (0 : ℤ) ≤ n := Int.natCast_nonneg n
    have := hfp.dyadic (2 * n + 4 - j) 1 (by rw [abs_le]; constructor <;> norm_num <;> omega) (by norm_num)
    have e : ((2 * n + 4 - j : ℤ) : ℚ) / 2 ^ 1 = n + 1 - s + 1 := by rw [hsj]; push_cast; ring
    rw [e] at this
    rw [this]; congr 1; ring
  have et : fp.add (.fin (n : ℚ)) (.fin 1) = .fin (n + 1) := by
    show fp.rnd (n + 1) = _
    have := hfp.dyadic (n + 1) 0 (by
      rw [abs_of_nonneg (by positivity)]
      have hnz : (n : ℤ) + 1 ≤ 10000 := by exact_mod_cast hn
      omega) (by norm_num)
    simpa using this
  have enx : Gamain.nextFrac fp ⟨.fin (n + 1 - s), .fin b, .fin n, .fin (cvg x s (n + 1) * t1), .fin (l * numQ x s n * h0), .fin (l * denQ x s n * k0),
      .fin (l * numQ x s (n + 1) * h1), .fin (l * denQ x s (n + 1) * k1)⟩ = ⟨.fin (n + 2 - s), .fin b', .fin (n + 1), .fin (cvg x s (n + 1) * t1),
      .fin (l * numQ x s n * h0), .fin (l * denQ x s n * k0), .fin (l * numQ x s (n + 1) * h1), .fin (l * denQ x s (n + 1) * k1)⟩ := by
    unfold Gamain.nextFrac
    simp only [ea, et, hb']
  rw [enx]
  obtain ⟨cE0, cE1, -⟩ := hE.close (by omega)
  obtain ⟨cK0, cK1, -⟩ := hK.close (by omega)
  have e100 : (3 : ℚ) / 10 ^ 8 ≤ 1 / 100 := by norm_num
  have cb := conv_bounds hx hs hs0 (n + 1)
  have cb2 := conv_bounds hx hs hs0 (n + 2)
  have hDl : 1 / 2 ≤ l * denQ x s (n + 1) := hr1.trans (mul_le_mul_of_nonneg_left cb.1 hl.le)
  have hDu : l * denQ x s (n + 1) ≤ 2 ^ 150 := by
    calc l * denQ x s (n + 1) ≤ l * (2 * x * numQ x s (n + 1)) := mul_le_mul_of_nonneg_left cb.2 hl.le
      _ = 2 * x * (l * numQ x s (n + 1)) := by ring
      _ ≤ 2 ^ 20 * 2 ^ 125 := mul_le_mul (by norm_num; linarith) hr2 (by positivity) (by positivity)
      _ ≤ 2 ^ 150 := by norm_num
  obtain ⟨h2, hp4, hh2⟩ := newPn_round hfp hx hs hs0 hxb hsj sN hn hB (uN n (by omega)) hl (cE0.trans e100) (cE1.trans e100) (by linarith)
    (hr2.trans (by norm_num)) ⟨.fin (n + 2 - s), .fin b', .fin (n + 1), .fin (cvg x s (n + 1) * t1),
      .fin (l * numQ x s n * h0), .fin (l * denQ x s n * k0), .fin (l * numQ x s (n + 1) * h1), .fin (l * denQ x s (n + 1) * k1)⟩ rfl rfl rfl
  obtain ⟨k2, hp5, hk2⟩ := newPn_round hfp hx hs hs0 hxb hsj sD hn hB (uD n (by omega)) hl (cK0.trans e100) (cK1.trans e100) (by linarith)
    (hDu.trans (by norm_num)) ⟨.fin (n + 2 - s), .fin b', .fin (n + 1), .fin (cvg x s (n + 1) * t1),
      .fin (l * numQ x s n * h0), .fin (l * denQ x s n * k0), .fin (l * numQ x s (n + 1) * h1), .fin (l * denQ x s (n + 1) * k1)⟩ rfl rfl rfl
  have e81 : (81 : ℚ) / 2 ^ 53 ≤ 84 / 2 ^ 53 := by norm_num
  have hE2 : EInv s (n + 1) h1 h2 := einv_step hx hs hs0 sN hn hE (by rw [sub_self, abs_zero]; norm_num) (hh2.trans e81)
  have hK2 : EInv s (n + 1) k1 k2 := einv_step hx hs hs0 sD hn hK (by rw [sub_self, abs_zero]; norm_num) (hk2.trans e81)
  obtain ⟨-, cE2, dE⟩ := hE2.close hn
  obtain ⟨-, cK2, dK⟩ := hK2.close hn
  obtain ⟨rb1, rb2⟩ := cvg_bounds hx hs hs0 hxb (n + 2)
  obtain ⟨t2, hrn, ht2⟩ := quot_round hfp hl hN2 hD2 (r := cvg x s (n + 2)) rfl (le_trans (by norm_num) rb1) rb2 (cE2.trans e100) (cK2.trans e100)
  have e2 : (2 : ℚ) / 2 ^ 53 ≤ 20 / 2 ^ 53 := by norm_num
  have ct1 := t_close cE1 cK1 htk
  have ct2 := t_close cE2 cK2 (ht2.trans e2)
  have hk2p : 0 < k2 := by
    have := (abs_le.mp (cK2.trans e100)).1
    linarith
  have hh2p : 9 / 10 ≤ h2 := by
    have := (abs_le.mp (cE2.trans e100)).1
    linarith
  have hh2u : h2 ≤ 11 / 10 := by
    have := (abs_le.mp (cE2.trans e100)).2
    linarith
  refine ⟨l * numQ x s (n + 2) * h2, l * denQ x s (n + 2) * k2, t1, t2, rfl, hp4, hp5, by positivity, hrn, ?_, ct1, ct2,
    t_diff ct2 cK1 dE dK htk (ht2.trans e2)⟩
  -- the shift
  obtain ⟨o, ho, ho1, ho2⟩ := oflo_rnd hfp
  have hlN2 : l * numQ x s (n + 2) ≤ 2 ^ 160 := by
    calc l * numQ x s (n + 2) ≤ l * (2 ^ 33 * numQ x s (n + 1)) := mul_le_mul_of_nonneg_left (uN (n + 1) (by omega)) hl.le
      _ = 2 ^ 33 * (l * numQ x s (n + 1)) := by ring
      _ ≤ 2 ^ 33 * 2 ^ 125 := by gcongr
      _ ≤ 2 ^ 160 := by norm_num
  have hlD2 : l * denQ x s (n + 2) ≤ 2 ^ 200 := by
    calc l * denQ x s (n + 2) ≤ l * (2 ^ 33 * denQ x s (n + 1)) := mul_le_mul_of_nonneg_left (uD (n + 1) (by omega)) hl.le
      _ = 2 ^ 33 * (l * denQ x s (n + 1)) := by ring
      _ ≤ 2 ^ 33 * 2 ^ 150 := by gcongr
      _ ≤ 2 ^ 200 := by norm_num
  have hinc : numQ x s (n + 1) ≤ numQ x s (n + 2) := by
    have := sN.incr hx hs (n + 1)
    push_cast at this
    nlinarith
  have hlN2l : 1 / 2 ≤ l * numQ x s (n + 2) := hr1.trans (mul_le_mul_of_nonneg_left hinc hl.le)
  have hlD2l : 1 / 2 ≤ l * denQ x s (n + 2) := hlN2l.trans (mul_le_mul_of_nonneg_left cb2.1 hl.le)
  have cn : ((n + 1 : ℕ) : ℚ) = n + 1 := by push_cast; rfl
  have cs : ((n + 1 : ℕ) : ℚ) + 1 - s = n + 2 - s := by push_cast; ring
  have hop : 0 < o := lt_of_lt_of_le (by positivity) ho1
  unfold Gamain.shiftPn
  simp only [ho, FP.abs, FP.le]
  have habs : |l * numQ x s (n + 2) * h2| = l * numQ x s (n + 2) * h2 := abs_of_pos (by positivity)
  rw [habs]
  split
  · rename_i hc
    have hc' : o ≤ l * numQ x s (n + 2) * h2 := of_decide_eq_true hc
    obtain ⟨h1', q1, z1⟩ := scale_round hfp hl hN1 (by linarith) (hr2.trans (by norm_num)) (cE1.trans e100) ho1 ho2
    obtain ⟨k1', q2, z2⟩ := scale_round hfp hl hD1 (by linarith) (hDu.trans (by norm_num)) (cK1.trans e100) ho1 ho2
    obtain ⟨h2', q3, z3⟩ := scale_round hfp hl hN2 (by linarith) (hlN2.trans (by norm_num)) (cE2.trans e100) ho1 ho2
    obtain ⟨k2', q4, z4⟩ := scale_round hfp hl hD2 (by linarith) (hlD2.trans (by norm_num)) (cK2.trans e100) ho1 ho2
    refine ⟨b', l / o, h1', h2', k1', k2', t2, ?_, hB, by positivity, ?_, ?_, ?_, ?_, ?_⟩
    · rw [q1, q2, q3, q4, cs, cn]
    · rw [div_mul_eq_mul_div, le_div_iff₀ hop]
      have : l * numQ x s (n + 2) * h2 ≤ l * numQ x s (n + 2) * 2 := mul_le_mul_of_nonneg_left (by linarith) (by positivity)
      linarith
    · rw [div_mul_eq_mul_div, div_le_iff₀ hop]
      have : (2 : ℚ) ^ 125 * 10 ^ 36 ≤ 2 ^ 125 * o := mul_le_mul_of_nonneg_left ho1 (by positivity)
      have : (2 : ℚ) ^ 160 ≤ 2 ^ 125 * 10 ^ 36 := by norm_num
      exact hlN2.trans (by linarith)
    · refine einv_step hx hs hs0 sN hn hE z1 ?_
      have := abs_sub_le h2' h2 (hNext x s (numQ x s) n h0 h1)
      have e84 : (84 : ℚ) / 2 ^ 53 = 3 / 2 ^ 53 + 81 / 2 ^ 53 := by norm_num
      rw [e84]; linarith
    · refine einv_step hx hs hs0 sD hn hK z2 ?_
      have := abs_sub_le k2' k2 (hNext x s (denQ x s) n k0 k1)
      have e84 : (84 : ℚ) / 2 ^ 53 = 3 / 2 ^ 53 + 81 / 2 ^ 53 := by norm_num
      rw [e84]; linarith
    · have e : t2 * k2' - h2' = (t2 * k2 - h2) + t2 * (k2' - k2) - (h2' - h2) := by ring
      rw [e]
      have s1 := abs_sub ((t2 * k2 - h2) + t2 * (k2' - k2)) (h2' - h2)
      have s2 := abs_add_le (t2 * k2 - h2) (t2 * (k2' - k2))
      have s3 : |t2 * (k2' - k2)| ≤ 2 * (3 / 2 ^ 53) := by
        rw [abs_mul]
        refine mul_le_mul ?_ z4 (abs_nonneg _) (by norm_num)
        have := abs_sub_le t2 1 0
        simp only [sub_zero, abs_one] at this
        have e7 : (7 : ℚ) / 10 ^ 8 ≤ 1 := by norm_num
        linarith
      have : (2 : ℚ) / 2 ^ 53 + 2 * (3 / 2 ^ 53) + 3 / 2 ^ 53 ≤ 20 / 2 ^ 53 := by norm_num
      linarith
  · rename_i hc
    have hc' : ¬ o ≤ l * numQ x s (n + 2) * h2 := fun h => hc (decide_eq_true h)
    refine ⟨b', l, h1, h2, k1, k2, t2, ?_, hB, hl, hlN2l, ?_, hE2, hK2, ht2.trans e2⟩
    · rw [cs, cn]
    · have : l * numQ x s (n + 2) * (9 / 10) ≤ l * numQ x s (n + 2) * h2 := mul_le_mul_of_nonneg_left hh2p (by positivity)
      have : (2 : ℚ) ^ 125 = 2 * 2 ^ 124 := by norm_num
      push Not at hc'
      linarith

end HL.GammaR

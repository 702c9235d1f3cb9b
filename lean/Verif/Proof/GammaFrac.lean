import Verif.Proof.GammaTail

/-
How fast the convergents of the continued fraction for the incomplete gamma function approach each other.
-/

namespace HL.GammaR
open MeasureTheory Set Filter Topology Real

/-- the step from one convergent to the next -/
noncomputable def cdiff (x s : ℝ) (n : ℕ) : ℝ := num x s (n + 1) / den x s (n + 1) - num x s n / den x s n

noncomputable def wron (x s : ℝ) (n : ℕ) : ℝ := num x s (n + 1) * den x s n - num x s n * den x s (n + 1)

theorem wron_succ (x s : ℝ) (n : ℕ) : wron x s (n + 1) = (n + 1) * (n + 2 - s) * wron x s n := by
  unfold wron
  simp only [num, den]
  ring

theorem cdiff_eq {x s : ℝ} (hx : 1 < x) (hs : s ≤ x) (n : ℕ) : cdiff x s n = wron x s n / (den x s n * den x s (n + 1)) := by
  have h0 := (den_bounds hx hs n).1
  have h1 := (den_bounds hx hs (n + 1)).1
  unfold cdiff wron
  field_simp

theorem cdiff_step {x s θ : ℝ} (hx : 1 < x) (hs : s ≤ x) {n : ℕ} (h : (n + 1) * |n + 2 - s| * den x s n ≤ θ * den x s (n + 2)) :
    |cdiff x s (n + 1)| ≤ θ * |cdiff x s n| := by
  have h0 := (den_bounds hx hs n).1
  have h1 := (den_bounds hx hs (n + 1)).1
  have h2 := (den_bounds hx hs (n + 2)).1
  have hn : (0 : ℝ) ≤ n := Nat.cast_nonneg n
  rw [cdiff_eq hx hs, cdiff_eq hx hs, wron_succ, show n + 1 + 1 = n + 2 from rfl, abs_div, abs_div, abs_mul, abs_mul,
    abs_of_pos (mul_pos h0 h1), abs_of_pos (mul_pos h1 h2), abs_of_nonneg (show (0 : ℝ) ≤ n + 1 by linarith)]
  have hw := abs_nonneg (wron x s n)
  generalize |wron x s n| = w at *
  rw [div_le_iff₀ (mul_pos h1 h2)]
  have e : θ * (w / (den x s n * den x s (n + 1))) * (den x s (n + 1) * den x s (n + 2)) = w * (θ * den x s (n + 2)) / den x s n := by
    field_simp
  rw [e, le_div_iff₀ h0]
  nlinarith [mul_le_mul_of_nonneg_left h hw]

/-- the steps never grow -/
theorem cdiff_le {x s : ℝ} (hx : 1 < x) (hs : s ≤ x) (hs0 : 0 < s) (n : ℕ) : |cdiff x s (n + 1)| ≤ |cdiff x s n| := by
  have h0 := (den_bounds hx hs n).1
  obtain ⟨h1, h2, -, -⟩ := den_bounds hx hs (n + 1)
  have h3 := (den_bounds hx hs n).2.1
  have hn : (0 : ℝ) ≤ n := Nat.cast_nonneg n
  have := cdiff_step (θ := 1) hx hs (n := n) (by
    rw [one_mul]
    rcases le_total 0 ((n : ℝ) + 2 - s) with h | h
    · rw [abs_of_nonneg h]
      push_cast at h2
      calc (n + 1) * ((n : ℝ) + 2 - s) * den x s n = ((n : ℝ) + 2 - s) * ((n + 1) * den x s n) := by ring
        _ ≤ (n + 2 - s) * den x s (n + 1) := mul_le_mul_of_nonneg_left h3 h
        _ ≤ (n + 1 + 1) * den x s (n + 1) := mul_le_mul_of_nonneg_right (by linarith) h1.le
        _ ≤ _ := h2
    · rw [abs_of_nonpos h]
      have e : den x s (n + 2) = (x + 2 * n + 4 - s) * den x s (n + 1) - (n + 1) * (n + 2 - s) * den x s n := rfl
      rw [e]
      have : 0 ≤ (x + 2 * n + 4 - s) * den x s (n + 1) := mul_nonneg (by linarith) h1.le
      linarith)
  simpa using this

theorem cdiff_zero {x s : ℝ} (hx : 1 < x) (hs : s ≤ x) (hs0 : 0 < s) : |cdiff x s 0| ≤ 1 := by
  rw [cdiff_eq hx hs]
  unfold wron
  simp only [num, den, zero_add]
  have hx0 : 0 < x := by linarith
  have h2 : 0 < x + 2 - s := by linarith
  rw [show (x + 1) * x - 1 * (x * (x + 2 - s)) = x * (s - 1) by ring, show x * (x * (x + 2 - s)) = x * (x * (x + 2 - s)) from rfl,
    mul_div_mul_left _ _ hx0.ne', abs_div, abs_of_pos (mul_pos hx0 h2), div_le_one (mul_pos hx0 h2), abs_le]
  constructor <;> nlinarith

theorem cdiff_le_one {x s : ℝ} (hx : 1 < x) (hs : s ≤ x) (hs0 : 0 < s) (n : ℕ) : |cdiff x s n| ≤ 1 := by
  induction n with
  | zero => exact cdiff_zero hx hs hs0
  | succ n ih => exact (cdiff_le hx hs hs0 n).trans ih

/-- before the order of the function: the convergents alternate -/
theorem cdiff_early {x s : ℝ} (hx : 1 < x) (hs : s ≤ x) {n : ℕ} (hn : 2498 ≤ n) (h : (n : ℝ) + 2 ≤ s) (hsb : s ≤ 500000) :
    |cdiff x s (n + 1)| ≤ 50 / 51 * |cdiff x s n| := by
  obtain ⟨h0, -, -, hB⟩ := den_bounds hx hs n
  have h1 := (den_bounds hx hs (n + 1)).1
  have hnr : (2498 : ℝ) ≤ n := by exact_mod_cast hn
  refine cdiff_step hx hs ?_
  rw [abs_of_nonpos (by linarith)]
  have hB := hB (by linarith)
  have e : den x s (n + 2) = (x + 2 * n + 4 - s) * den x s (n + 1) - (n + 1) * (n + 2 - s) * den x s n := rfl
  rw [e]
  have h2 : (2 * n + 2) * den x s n ≤ den x s (n + 1) := le_trans (mul_le_mul_of_nonneg_right (by linarith) h0.le) hB
  have h3 : (2 * n + 4) * ((2 * n + 2) * den x s n) ≤ (x + 2 * n + 4 - s) * den x s (n + 1) :=
    mul_le_mul (by linarith) h2 (by positivity) (by linarith)
  have h4 : (n + 1) * (s - n - 2) * den x s n ≤ (n + 1) * (200 * n + 400) * den x s n := by
    refine mul_le_mul_of_nonneg_right (mul_le_mul_of_nonneg_left ?_ (by linarith)) h0.le
    linarith
  nlinarith

/-- beyond the order of the function the denominators grow by more and more above the number of the step -/
theorem den_grow {x s : ℝ} (hx : 1 < x) (hs : s ≤ x) {n : ℕ} {q q' : ℝ} (hA : 0 ≤ (n : ℝ) + 2 - s) (hq : 0 ≤ q) (hq' : q' ≤ q + 1 / 2)
    (hn : 2 * q ^ 2 ≤ n + 1) (h : (n + 1 + q) * den x s n ≤ den x s (n + 1)) : (n + 2 + q') * den x s (n + 1) ≤ den x s (n + 2) := by
  have h0 := (den_bounds hx hs n).1
  have h1 := (den_bounds hx hs (n + 1)).1
  have hnr : (0 : ℝ) ≤ n := Nat.cast_nonneg n
  have e : den x s (n + 2) = (x + 2 * n + 4 - s) * den x s (n + 1) - (n + 1) * (n + 2 - s) * den x s n := rfl
  rw [e]
  have hden : den x s n ≤ den x s (n + 1) / (n + 1 + q) := by
    rw [le_div_iff₀ (by positivity)]; linarith
  have h2 : (n + 1) * (n + 2 - s) * den x s n ≤ (n + 1) * (n + 2 - s) * (den x s (n + 1) / (n + 1 + q)) :=
    mul_le_mul_of_nonneg_left hden (by positivity)
  have h3 : (n + 1) * (n + 2 - s) ≤ (x + n + 2 - s - q') * (n + 1 + q) := by
    have t1 : q' * (n + 1 + q) ≤ (q + 1 / 2) * (n + 1 + q) := mul_le_mul_of_nonneg_right hq' (by positivity)
    have t2 : q * s ≤ q * x := mul_le_mul_of_nonneg_left hs hq
    nlinarith
  have h4 : (n + 1) * (n + 2 - s) * (den x s (n + 1) / (n + 1 + q)) ≤ (x + n + 2 - s - q') * den x s (n + 1) := by
    rw [← mul_div_assoc, div_le_iff₀ (by positivity)]
    nlinarith [mul_le_mul_of_nonneg_right h3 h1.le]
  linarith

theorem den_late {x s : ℝ} (hx : 1 < x) (hs : s ≤ x) (hsb : s ≤ 5002) (j : ℕ) :
    ((5000 + j : ℕ) + 1 + min (j / 2 : ℝ) 50) * den x s (5000 + j) ≤ den x s (5000 + j + 1) := by
  induction j with
  | zero =>
    have := (den_bounds hx hs 5000).2.1
    simpa using this
  | succ j ih =>
    have hj : (0 : ℝ) ≤ j := Nat.cast_nonneg j
    have hq0 : (0 : ℝ) ≤ min (j / 2 : ℝ) 50 := le_min (by positivity) (by norm_num)
    have hq50 : min (j / 2 : ℝ) 50 ≤ 50 := min_le_right _ _
    have := den_grow hx hs (n := 5000 + j) (q := min (j / 2 : ℝ) 50) (q' := min ((j + 1 : ℕ) / 2 : ℝ) 50) (by push_cast; linarith) hq0
      (by
        push_cast
        rcases le_total (j / 2 : ℝ) 50 with h | h
        · rw [min_eq_left h]; exact (min_le_left _ _).trans (by linarith)
        · rw [min_eq_right h]; exact (min_le_right _ _).trans (by linarith))
      (by push_cast; nlinarith) ih
    refine le_trans (le_of_eq ?_) this
    push_cast
    ring_nf

/-- beyond the order of the function: the convergents are monotone -/
theorem cdiff_late {x s : ℝ} (hx : 1 < x) (hs : s ≤ x) (hs0 : 0 < s) (hsb : s ≤ 5002) {n : ℕ} (hn : 5100 ≤ n) (hn2 : n ≤ 10000) :
    |cdiff x s (n + 1)| ≤ 100 / 101 * |cdiff x s n| := by
  have hnr : (5100 : ℝ) ≤ n := by exact_mod_cast hn
  have hnr2 : (n : ℝ) ≤ 10000 := by exact_mod_cast hn2
  have h0 := (den_bounds hx hs n).1
  have h1 := (den_bounds hx hs (n + 1)).1
  have key : ∀ m : ℕ, 5100 ≤ m → ((m : ℝ) + 51) * den x s m ≤ den x s (m + 1) := by
    intro m hm
    obtain ⟨j, rfl⟩ := Nat.exists_eq_add_of_le (show 5000 ≤ m by omega)
    have := den_late hx hs hsb j
    have hj : (100 : ℝ) ≤ j := by exact_mod_cast (by omega : 100 ≤ j)
    rw [min_eq_right (by linarith)] at this
    refine le_trans (le_of_eq ?_) this
    ring
  have k0 := key n hn
  have k1 := key (n + 1) (by omega)
  refine cdiff_step hx hs ?_
  rw [abs_of_nonneg (by linarith)]
  push_cast at k1
  have k2 : (n + 52) * ((n + 51) * den x s n) ≤ den x s (n + 2) := by
    refine le_trans (mul_le_mul_of_nonneg_left k0 (by linarith)) ?_
    refine le_trans (le_of_eq ?_) k1
    ring
  have k3 : (n + 1) * ((n : ℝ) + 2 - s) ≤ 100 / 101 * ((n + 52) * (n + 51)) := by nlinarith
  calc (n + 1) * ((n : ℝ) + 2 - s) * den x s n ≤ 100 / 101 * ((n + 52) * (n + 51)) * den x s n := mul_le_mul_of_nonneg_right k3 h0.le
    _ = 100 / 101 * ((n + 52) * ((n + 51) * den x s n)) := by ring
    _ ≤ _ := mul_le_mul_of_nonneg_left k2 (by norm_num)

theorem geo_of_step {f : ℕ → ℝ} {θ : ℝ} (h0 : 0 ≤ θ) {a : ℕ} (hf : f a ≤ 1) : ∀ j, (∀ i, i < j → f (a + i + 1) ≤ θ * f (a + i)) → f (a + j) ≤ θ ^ j
  | 0, _ => by simpa using hf
  | j + 1, h => by
    have ih := geo_of_step h0 hf j fun i hi => h i (by omega)
    rw [pow_succ', ← Nat.add_assoc]
    exact (h j (by omega)).trans (mul_le_mul_of_nonneg_left ih h0)

/-- two successive convergents within 1e-20 of each other are found before step 9999 -/
theorem cdiff_small {x s : ℝ} (hx : 1 < x) (hs : s ≤ x) (hs0 : 0 < s) (hxb : x ≤ 500000) : ∃ m, 1 ≤ m ∧ m ≤ 9999 ∧ |cdiff x s m| ≤ 1 / 10 ^ 16 := by
  rcases le_total s 5002 with h | h
  · refine ⟨5100 + 4800, by norm_num, by norm_num, ?_⟩
    have := geo_of_step (f := fun n => |cdiff x s n|) (θ := 100 / 101) (by norm_num) (a := 5100) (cdiff_le_one hx hs hs0 _) 4800
      fun i hi => cdiff_late hx hs hs0 h (by omega) (by omega)
    refine this.trans ?_
    calc (100 / 101 : ℝ) ^ 4800 = ((100 / 101) ^ 80) ^ 60 := by rw [← pow_mul]
      _ ≤ (1 / 2) ^ 60 := pow_le_pow_left₀ (by positivity) (by norm_num) 60
      _ ≤ 1 / 10 ^ 16 := by norm_num
  · refine ⟨2498 + 2500, by norm_num, by norm_num, ?_⟩
    have := geo_of_step (f := fun n => |cdiff x s n|) (θ := 50 / 51) (by norm_num) (a := 2498) (cdiff_le_one hx hs hs0 _) 2500
      fun i hi => cdiff_early hx hs (by omega) (by
        have : ((2498 + i : ℕ) : ℝ) + 2 ≤ 5002 := by
          have : 2498 + i + 2 ≤ 5002 := by omega
          exact_mod_cast this
        linarith) (by linarith)
    refine this.trans ?_
    calc (50 / 51 : ℝ) ^ 2500 = ((50 / 51) ^ 40) ^ 62 * (50 / 51) ^ 20 := by rw [← pow_mul, ← pow_add]
      _ ≤ (1 / 2) ^ 62 * 1 := mul_le_mul (pow_le_pow_left₀ (by positivity) (by norm_num) 62) (by norm_num) (by positivity) (by positivity)
      _ ≤ 1 / 10 ^ 16 := by norm_num

/-- the limit of the convergents is at least `1 / (x + 1)` -/
theorem tail_ge {x s : ℝ} (hx : 1 < x) (hs : s ≤ x) (hs0 : 0 < s) : rexp (-x) * x ^ s ≤ (x + 1) * mom x (s - 1) 0 := by
  have hx0 : 0 < x := by linarith
  have h := (remainder x s hx0 0).1
  simp only [den, num, coef] at h
  have h1 := mom_sub_one x (s - 1) hx0 0
  rw [show s - 1 - 1 = s - 2 by ring] at h1
  have h2 := mom_pos x (s - 1) hx0 (0 + 1)
  have h3 := mom_pos x (s - 2) hx0 0
  have hV : 0 < x * mom x (s - 2) 0 := mul_pos hx0 h3
  have : (1 - s) * (x * mom x (s - 2) 0) ≤ 1 * (x * mom x (s - 2) 0) := mul_le_mul_of_nonneg_right (by linarith) hV.le
  linarith

/-- the stopping criterion of the continued fraction is met before step 9999 -/
theorem stop_met {x s : ℝ} (hx : 1 < x) (hs : s ≤ x) (hs0 : 1 / 2 ≤ s) (hxb : x ≤ 500000) : ∃ m, 1 ≤ m ∧ m ≤ 9999 ∧
    |num x s m / den x s m - num x s (m + 1) / den x s (m + 1)| ≤ 1 / 10 ^ 8 ∧
    |num x s m / den x s m - num x s (m + 1) / den x s (m + 1)| ≤ 1 / 10 ^ 8 * (num x s (m + 1) / den x s (m + 1)) := by
  obtain ⟨m, h1, h2, h3⟩ := cdiff_small hx hs (by linarith) hxb
  have hx0 : 0 < x := by linarith
  have e := (cerr_bound hx hs hs0 m).2
  have ht := tail_ge hx hs (by linarith)
  have hf : 0 < rexp (-x) * x ^ s := by positivity
  refine ⟨m, h1, h2, ?_⟩
  unfold cdiff at h3
  rw [abs_sub_comm] at h3
  unfold cerr at e
  have hm : (m : ℝ) ≤ 9999 := by exact_mod_cast h2
  have hm0 : (0 : ℝ) ≤ m := Nat.cast_nonneg m
  generalize rexp (-x) * x ^ s = f at *
  generalize num x s m / den x s m = a at *
  generalize num x s (m + 1) / den x s (m + 1) = b at *
  generalize mom x (s - 1) 0 = U at *
  refine ⟨h3.trans (by norm_num), h3.trans ?_⟩
  rw [show U - f * a - (U - f * b) = -(f * (a - b)) by ring, abs_neg, abs_mul, abs_of_pos hf] at e
  have e1 : U - f * b ≤ (2 * m + 4) * (f * (1 / 10 ^ 16)) :=
    (le_abs_self _).trans (e.trans (mul_le_mul_of_nonneg_left (mul_le_mul_of_nonneg_left h3 hf.le) (by linarith)))
  have e2 : (2 * m + 4) * (f * (1 / 10 ^ 16)) ≤ 20002 * (f * (1 / 10 ^ 16)) := mul_le_mul_of_nonneg_right (by linarith) (by positivity)
  have e3 : f ≤ 500001 * U := by
    have : 0 < U := by nlinarith
    nlinarith
  have e4 : f * b ≥ f * (1 / 10 ^ 7) := by
    have : (1 : ℝ) / 10 ^ 7 + 20002 * (1 / 10 ^ 16) ≤ 1 / 500001 := by norm_num
    have := mul_le_mul_of_nonneg_left this hf.le
    linarith
  have e5 : 1 / 10 ^ 7 ≤ b := le_of_mul_le_mul_left e4 hf
  have : (1 : ℝ) / 10 ^ 16 ≤ 1 / 10 ^ 8 * (1 / 10 ^ 7) := by norm_num
  linarith

end HL.GammaR

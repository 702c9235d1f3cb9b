import Verif.Proof.NormalPair
import Verif.Props.Normal

/-
What `cumNorm`, `invCumNorm` and `Cholesky` compute, given a mathematics library that is right to one part in `10^14`
(`Accurate`): statements about the integral that defines the normal distribution.  They hold in binary64 and in exact
arithmetic alike.
-/

namespace HL
namespace Normal
open Real PolyCert

variable {fp : FP} {lm : Libm} {atan1 : Fl}

/-- **C92** `invCumNorm` inverts the standard normal distribution function: at every number from `2^-32` to `1 - 2^-32`
it returns a number whose probability is that number up to `10^-12`. -/
theorem C92_inverse (fp : FP) (hfp : fp.Good) (lm : Libm) (atan1 : Fl) (hl : Accurate fp lm atan1) (p : ℚ)
    (h0 : 1 / 2 ^ 32 ≤ p) (h1 : p ≤ 1 - 1 / 2 ^ 32) :
    ∃ n : ℚ, invCumNorm fp lm atan1 (.fin p) = .ok (.fin n) ∧ |cdf n - p| ≤ 1 / 10 ^ 12 := by
  obtain ⟨n, hn, _, he⟩ := invCumNorm_near hfp hl h0 h1
  exact ⟨n, hn, he⟩

/-- **C92** On the multiples of `2^-32` it keeps the order: different 32-bit numbers give different variates, the larger
the larger. -/
theorem C92_increasing (fp : FP) (hfp : fp.Good) (lm : Libm) (atan1 : Fl) (hl : Accurate fp lm atan1) (u v : ℕ)
    (h0 : 1 ≤ u) (huv : u < v) (h1 : v < 2 ^ 32) :
    ∃ m n : ℚ, invCumNorm fp lm atan1 (.fin (u / 2 ^ 32)) = .ok (.fin m) ∧ invCumNorm fp lm atan1 (.fin (v / 2 ^ 32)) = .ok (.fin n) ∧
      m < n := by
  have a1 : (1 : ℚ) ≤ u := by exact_mod_cast h0
  have a2 : (u : ℚ) + 1 ≤ v := by exact_mod_cast huv
  have a3 : (v : ℚ) + 1 ≤ 2 ^ 32 := by exact_mod_cast h1
  obtain ⟨m, hm, hme⟩ := C92_inverse fp hfp lm atan1 hl (u / 2 ^ 32) (by gcongr)
    (by rw [div_le_iff₀ (by positivity)]; linarith)
  obtain ⟨n, hn, hne⟩ := C92_inverse fp hfp lm atan1 hl (v / 2 ^ 32) (by gcongr; linarith)
    (by rw [div_le_iff₀ (by positivity)]; linarith)
  refine ⟨m, n, hm, hn, ?_⟩
  have b1 := (abs_le.mp hme).2
  have b2 := (abs_le.mp hne).1
  have a2' : (u : ℝ) + 1 ≤ v := by exact_mod_cast huv
  push_cast at b1 b2
  have h : cdf m < cdf n := by
    have : (u : ℝ) / 2 ^ 32 + 1 / 2 ^ 32 ≤ v / 2 ^ 32 := by rw [← add_div]; gcongr
    norm_num at this b1 b2
    linarith
  exact_mod_cast cdf_strictMono.lt_iff_lt.mp h

/-- **C92** `cumNorm` is the standard normal distribution function, up to `2 * 10^-13`. -/
theorem C92_cumNorm (fp : FP) (hfp : fp.Good) (lm : Libm) (atan1 : Fl) (hl : Accurate fp lm atan1) (z : ℚ) (hz : |z| ≤ 10 ^ 20) :
    ∃ c : ℚ, cumNorm fp lm (.fin z) = .fin c ∧ |(c : ℝ) - cdf z| ≤ 2 / 10 ^ 13 := by
  rcases le_or_gt |z| 15 with hs | hs
  · obtain ⟨c, hc, he⟩ := cumNorm_near hfp hl hs
    exact ⟨c, hc, he.trans (by norm_num)⟩
  have hz' : |(z : ℝ)| ≤ 10 ^ 20 := by exact_mod_cast hz
  have hs' : 15 < |(z : ℝ)| := by exact_mod_cast hs
  have hb := sqrt2_bounds
  have h2 : 0 < √2 := by positivity
  have hr1 : 7 / 10 ≤ 1 / √2 := by rw [le_div_iff₀ h2]; linarith
  obtain ⟨y, hy, hye⟩ := near_mul hfp (near_self z) (rsqrt2_near hfp hl) (A := |(z : ℝ)|) (B := 1) le_rfl (M := 2 * |(z : ℝ)|) (f := 1 / 10 ^ 13 * |(z : ℝ)|)
    (by rw [abs_of_pos (by positivity), div_le_iff₀ h2]; linarith) (by linarith) (by linarith) (by linarith)
  have hend : cdf (-13) ≤ 1 / 10 ^ 17 := by
    refine (cdf_tail (by norm_num)).trans (le_trans ?_ exp_neg_forty)
    unfold density
    rw [div_le_iff₀ s2pi_pos]
    calc exp (-((-13) ^ 2) / 2) ≤ exp (-40) := exp_le_exp.mpr (by norm_num)
      _ ≤ _ := le_mul_of_one_le_right (exp_pos _).le (by have := s2pi_bounds.1; linarith)
  obtain ⟨w, hw, hwe⟩ := hl.erf y
  have hsq : √2 * √2 = 2 := mul_self_sqrt (by norm_num)
  have hcdf : |cdf ((y : ℝ) * √2) - cdf z| ≤ 1 / 10 ^ 17 := by
    have hy' := abs_le.mp hye
    rcases le_or_gt 0 (z : ℝ) with hp | hn
    · rw [abs_of_nonneg hp] at hs' hy'
      have e1 : 13 ≤ (y : ℝ) * √2 := by
        have : 69 / 100 * z ≤ (y : ℝ) := by nlinarith
        nlinarith
      have c1 := cdf_strictMono.monotone (by linarith : -((y : ℝ) * √2) ≤ -13)
      have c2 := cdf_strictMono.monotone (by linarith : -(z : ℝ) ≤ -13)
      have d1 := cdf_add_neg ((y : ℝ) * √2)
      have d2 := cdf_add_neg (z : ℝ)
      have d3 := cdf_pos (-((y : ℝ) * √2))
      have d4 := cdf_pos (-(z : ℝ))
      rw [abs_le]; constructor <;> linarith
    · rw [abs_of_neg hn] at hs' hy'
      have e1 : (y : ℝ) * √2 ≤ -13 := by
        have : (y : ℝ) ≤ 69 / 100 * z := by nlinarith
        nlinarith
      have c1 := cdf_strictMono.monotone e1
      have c2 := cdf_strictMono.monotone (by linarith : (z : ℝ) ≤ -13)
      have d3 := cdf_pos ((y : ℝ) * √2)
      have d4 := cdf_pos (z : ℝ)
      rw [abs_le]; constructor <;> linarith
  have hw' : Near (lm.erf (.fin y)) (2 * cdf z - 1) (2 / 10 ^ 14) := by
    refine Near.to ⟨w, hw, hwe⟩ ?_
    rw [erf_cdf, show 2 * cdf ((y : ℝ) * √2) - 1 - (2 * cdf z - 1) = 2 * (cdf ((y : ℝ) * √2) - cdf z) by ring, abs_mul, abs_two]
    linarith
  have h1 := near_self 1
  rw [Rat.cast_one] at h1
  have c1 := cdf_pos (z : ℝ)
  have c2 := cdf_lt_one (z : ℝ)
  have ha := near_add hfp hw' h1 (M := 3) (f := 3 / 10 ^ 14) (by rw [abs_of_pos (by linarith)]; linarith) (by norm_num) (by norm_num)
  obtain ⟨c, hc, hce⟩ := near_mul hfp (near_self (1 / 2)) ha (A := 1 / 2) (B := 2) (M := 2) (f := 2 / 10 ^ 13) (by push_cast; norm_num)
    (by rw [abs_of_pos (by linarith)]; linarith) (by norm_num) (by norm_num) (by norm_num)
  refine ⟨c, by unfold cumNorm; rw [hy]; exact hc, ?_⟩
  rw [show ((1 / 2 : ℚ) : ℝ) * (2 * cdf z - 1 + 1) = cdf z by push_cast; ring] at hce
  exact hce

/-! ### a library as asked for -/

theorem rat_near (y : ℝ) : ∃ q : ℚ, |(q : ℝ) - y| ≤ 1 / 10 ^ 14 * |y| := by
  rcases eq_or_ne y 0 with rfl | hy
  · exact ⟨0, by simp⟩
  · have hp : 0 < 1 / 10 ^ 14 * |y| := by have := abs_pos.mpr hy; positivity
    obtain ⟨q, h1, h2⟩ := exists_rat_btwn (by linarith : y < y + 1 / 10 ^ 14 * |y|)
    exact ⟨q, by rw [abs_le]; constructor <;> linarith⟩

theorem exp_neg_35 : exp (-35) ≤ 5 / 10 ^ 15 := by
  have h : (27 / 10 : ℝ) ≤ exp 1 := by have := exp_one_gt_d9; norm_num at this ⊢; linarith
  have h2 : (10 : ℝ) ^ 15 / 5 ≤ exp 35 := by
    calc (10 : ℝ) ^ 15 / 5 ≤ (27 / 10) ^ 35 := by norm_num
      _ ≤ exp 1 ^ 35 := pow_le_pow_left₀ (by norm_num) h 35
      _ = exp 35 := by rw [← exp_nat_mul]; norm_num
  rw [exp_neg, inv_le_comm₀ (exp_pos _) (by norm_num)]
  refine le_trans ?_ h2
  norm_num

theorem erf_six {x : ℝ} (hx : 6 ≤ x) : |1 - erfR x| ≤ 1 / 10 ^ 14 := by
  have hb := sqrt2_bounds
  have h1 : cdf (-(84 / 10)) ≤ 5 / 10 ^ 15 := by
    refine (cdf_tail (by norm_num)).trans (le_trans ?_ exp_neg_35)
    unfold density
    rw [div_le_iff₀ s2pi_pos]
    calc exp (-((-(84 / 10)) ^ 2) / 2) ≤ exp (-35) := exp_le_exp.mpr (by norm_num)
      _ ≤ _ := le_mul_of_one_le_right (exp_pos _).le (by have := s2pi_bounds.1; linarith)
  have h2 : 84 / 10 ≤ x * √2 := by nlinarith
  have h3 := cdf_strictMono.monotone (by linarith : -(x * √2) ≤ -(84 / 10))
  have h4 := cdf_add_neg (x * √2)
  have h5 := cdf_pos (-(x * √2))
  rw [erf_cdf, abs_le]
  constructor <;> linarith

/-- There are libraries as accurate as that, for exact arithmetic and for binary64, and whose `erf` is 1 from 6 on, as that
of binary64 is. -/
theorem accurate_exists (rnd : ℚ → Fl) : ∃ (sqrt : Fl → Fl) (lm : Libm) (atan1 : Fl), Accurate ⟨rnd, sqrt⟩ lm atan1 ∧
    ∀ q : ℚ, 6 ≤ q → lm.erf (.fin q) = .fin 1 := by
  classical
  choose f hf using rat_near
  have erf' : ∀ q : ℚ, ∃ y : ℚ, |(y : ℝ) - erfR q| ≤ 1 / 10 ^ 14 ∧ (6 ≤ q → y = 1) := by
    intro q
    by_cases h : 6 ≤ q
    · refine ⟨1, ?_, fun _ => rfl⟩
      push_cast
      exact erf_six (by exact_mod_cast h)
    · refine ⟨f (erfR q), (hf _).trans ?_, fun h' => absurd h' h⟩
      have : |erfR q| ≤ 1 := by
        rw [erf_cdf, abs_le]
        have h1 := cdf_pos ((q : ℝ) * √2)
        have h2 := cdf_lt_one ((q : ℝ) * √2)
        constructor <;> linarith
      linarith
  choose g hg hg6 using erf'
  let on (F : ℚ → ℚ) : Fl → Fl := fun x => match x with | .fin q => .fin (F q) | x => x
  refine ⟨on fun q => f (√(q : ℝ)), ⟨id, id, on fun q => f (log q), on fun q => f (exp q), on g⟩, .fin (f (π / 4)), ⟨?_, ?_, ?_, ?_, ?_⟩, ?_⟩
  · intro q _ _; exact ⟨_, rfl, hf _⟩
  · intro q _; exact ⟨_, rfl, by have := hf (exp q); rwa [abs_of_pos (exp_pos _)] at this⟩
  · intro q; exact ⟨_, rfl, hg q⟩
  · intro q _ _; exact ⟨_, rfl, by have := hf (√(q : ℝ)); rwa [abs_of_nonneg (sqrt_nonneg _)] at this⟩
  · refine ⟨_, rfl, (hf _).trans ?_⟩
    have h3 := pi_pos
    have := pi_lt_four
    rw [abs_of_pos (by positivity)]
    linarith
  · intro q hq
    show Fl.fin (g q) = _
    rw [hg6 q hq]

/-! ### the correlated pair -/

/-- the first number, converted to a variate and back -/
theorem variate (hfp : fp.Good) (hl : Accurate fp lm atan1) {u : ℕ} (h0 : 1 ≤ u) (h1 : u < 2 ^ 32) :
    ∃ n : ℚ, invCumNorm fp lm atan1 (fp.mul (fp.ofInt u) (.fin scale)) = .ok (.fin n) ∧ |(n : ℝ)| ≤ 7 ∧
      |cdf n - u / 2 ^ 32| ≤ 1 / 10 ^ 12 := by
  rw [uniform_fin hfp h1]
  have a1 : (1 : ℚ) ≤ u := by exact_mod_cast h0
  have a3 : (u : ℚ) + 1 ≤ 2 ^ 32 := by exact_mod_cast h1
  obtain ⟨n, hn, hb, he⟩ := invCumNorm_near hfp hl (p := u / 2 ^ 32) (by gcongr) (by rw [div_le_iff₀ (by positivity)]; linarith)
  push_cast at he
  exact ⟨n, hn, hb, he⟩

/-- `cumNorm` of an approximate number -/
theorem second_near (hfp : fp.Good) (hl : Accurate fp lm atan1) {x : Fl} {t e : ℝ} (hx : Near x t e) (ht : |t| + e ≤ 15) :
    Near (cumNorm fp lm x) (cdf t) (13 / 10 ^ 14 + 4 / 10 * e) := by
  obtain ⟨z, rfl, hz⟩ := hx
  have hz15 : |z| ≤ 15 := by
    have : |(z : ℝ)| ≤ 15 := by
      calc |(z : ℝ)| = |((z : ℝ) - t) + t| := by ring_nf
        _ ≤ |(z : ℝ) - t| + |t| := abs_add_le _ _
        _ ≤ _ := by linarith
    exact_mod_cast this
  refine Near.to (cumNorm_near hfp hl hz15) ?_
  have := cdf_lip (z : ℝ) t
  linarith

theorem first_near (hfp : fp.Good) (hl : Accurate fp lm atan1) {n : ℚ} {y e : ℝ} (hn : |(n : ℝ)| ≤ 7) (he : |cdf n - y| ≤ e) :
    Near (cumNorm fp lm (.fin n)) y (13 / 10 ^ 14 + e) := by
  have := second_near hfp hl (near_self n) (by linarith)
  exact this.to (by linarith)

/-- a pair whose second variate is close to that of a given number -/
theorem run_near (hfp : fp.Good) (hl : Accurate fp lm atan1) (c : Cholesky) {u v w : ℕ} (hu : 1 ≤ u) (hu' : u < 2 ^ 32)
    (hv : 1 ≤ v) (hv' : v < 2 ^ 32) (hw : 1 ≤ w) (hw' : w < 2 ^ 32)
    (hsum : ∀ n0 n1 : ℚ, |(n0 : ℝ)| ≤ 7 → |(n1 : ℝ)| ≤ 7 → |cdf n0 - u / 2 ^ 32| ≤ 1 / 10 ^ 12 → |cdf n1 - v / 2 ^ 32| ≤ 1 / 10 ^ 12 →
      ∃ t : ℝ, Near (fp.add (fp.mul (.fin n0) c.m0) (fp.mul (.fin n1) c.m1)) t (1 / 10 ^ 12) ∧ |t| ≤ 7 ∧
        |cdf t - w / 2 ^ 32| ≤ 1 / 10 ^ 12) :
    ∃ a b, c.run fp lm atan1 [u, v] = .ok (a, b) ∧ (a = u ∨ a + 1 = u) ∧ (b = w ∨ b + 1 = w) := by
  obtain ⟨n0, e0, b0, d0⟩ := variate hfp hl hu hu'
  obtain ⟨n1, e1, b1, d1⟩ := variate hfp hl hv hv'
  obtain ⟨t, ht, bt, dt⟩ := hsum n0 n1 b0 b1 d0 d1
  obtain ⟨a, ha, ha'⟩ := convert_near hfp hu hu' ((first_near hfp hl b0 d0).mono (by norm_num))
  have hs := second_near hfp hl ht (by linarith)
  obtain ⟨b, hb, hb'⟩ := convert_near hfp hw hw' (hs.to (y' := (w : ℝ) / 2 ^ 32) (by linarith))
  refine ⟨a, b, ?_, ha', hb'⟩
  simp only [Cholesky.run]
  rw [e0, Out.ok_bind, e1, Out.ok_bind, ha, Out.ok_bind, hb, Out.ok_bind]
  rfl

theorem new_ok {c : Cholesky} (hfp : fp.Good) {q : ℚ} (hq : |q| ≤ 1) (hc : Cholesky.new fp (.fin q) = .ok c) :
    ∃ r : ℚ, 0 ≤ r ∧ r ≤ 1 ∧ fp.sub (.fin 1) (fp.mul (.fin q) (.fin q)) = .fin r ∧ c = ⟨.fin q, fp.sqrt (.fin r)⟩ := by
  obtain ⟨r, r0, r1, hr, h⟩ := (C80_construct fp hfp).2.2.2.1 q hq
  rw [hc] at h
  injection h with h
  exact ⟨r, r0, r1, hr, h⟩

/-- the factorisation of a correlation whose square is a short binary fraction -/
theorem new_exact {c : Cholesky} (hfp : fp.Good) (hl : Accurate fp lm atan1) {q : ℚ} (hq : |q| ≤ 1) (h1 : fp.rnd (q * q) = .fin (q * q))
    (h2 : fp.rnd (1 - q * q) = .fin (1 - q * q)) (hc : Cholesky.new fp (.fin q) = .ok c) :
    c.m0 = .fin q ∧ Near c.m1 (√(1 - (q : ℝ) * q)) (1 / 10 ^ 14) := by
  obtain ⟨r, r0, r1, hr, rfl⟩ := new_ok hfp hq hc
  have e : fp.sub (.fin 1) (fp.mul (.fin q) (.fin q)) = .fin (1 - q * q) := by
    show fp.sub (.fin 1) (fp.rnd (q * q)) = _
    rw [h1]
    show fp.rnd (1 + -(q * q)) = _
    rw [← sub_eq_add_neg, h2]
  rw [e] at hr
  injection hr with hr
  refine ⟨rfl, ?_⟩
  obtain ⟨y, hy, hye⟩ := hl.sqrt r r0 (by linarith)
  refine ⟨y, hy, ?_⟩
  rw [← hr] at hye
  push_cast at hye
  refine hye.trans ?_
  have : √(1 - (q : ℝ) * q) ≤ 1 := by
    rw [Real.sqrt_le_left (by norm_num)]
    nlinarith [mul_self_nonneg (q : ℝ)]
  linarith

theorem rnd_zero (hfp : fp.Good) : fp.rnd 0 = .fin 0 := by
  have := hfp.dyadic 0 0 (by norm_num) (by norm_num)
  norm_num at this; exact this

theorem rnd_one (hfp : fp.Good) : fp.rnd 1 = .fin 1 := by
  have := hfp.dyadic 1 0 (by norm_num) (by norm_num)
  norm_num at this; exact this

/-- **C80** With correlation 0 the pair that comes out is the pair that went in, but for truncation: each number is the
number given or one less. -/
theorem C80_independent (fp : FP) (hfp : fp.Good) (lm : Libm) (atan1 : Fl) (hl : Accurate fp lm atan1) (c : Cholesky)
    (hc : Cholesky.new fp (.fin 0) = .ok c) (u v : ℕ) (hu : 1 ≤ u) (hu' : u < 2 ^ 32) (hv : 1 ≤ v) (hv' : v < 2 ^ 32) :
    ∃ a b, c.run fp lm atan1 [u, v] = .ok (a, b) ∧ (a = u ∨ a + 1 = u) ∧ (b = v ∨ b + 1 = v) := by
  obtain ⟨m0, m1⟩ := new_exact hfp hl (by norm_num) (by rw [mul_zero]; exact rnd_zero hfp)
    (by rw [mul_zero, sub_zero]; exact rnd_one hfp) hc
  rw [Rat.cast_zero, mul_zero, sub_zero, sqrt_one] at m1
  refine run_near hfp hl c hu hu' hv hv' hv hv' fun n0 n1 b0 b1 d0 d1 => ⟨n1, ?_, b1, d1⟩
  rw [m0]
  have p0 := near_mul hfp (near_self n0) (near_self 0) (A := 7) (B := 0) (M := 0) (f := 1 / 10 ^ 15) b0 (by simp) (by norm_num) (by norm_num) (by norm_num)
  have p1 := near_mul hfp (near_self n1) m1 (A := 7) (B := 1) (M := 8) (f := 1 / 10 ^ 13) b1 (by simp) (by norm_num) (by norm_num) (by norm_num)
  have := near_add hfp p0 p1 (M := 8) (f := 1 / 10 ^ 12) (by push_cast; rw [mul_zero, mul_one, zero_add]; linarith) (by norm_num) (by norm_num)
  rwa [Rat.cast_zero, mul_zero, mul_one, zero_add] at this

/-- **C80** With correlation 1 both are the first number given, or one less. -/
theorem C80_equal (fp : FP) (hfp : fp.Good) (lm : Libm) (atan1 : Fl) (hl : Accurate fp lm atan1) (c : Cholesky)
    (hc : Cholesky.new fp (.fin 1) = .ok c) (u v : ℕ) (hu : 1 ≤ u) (hu' : u < 2 ^ 32) (hv : 1 ≤ v) (hv' : v < 2 ^ 32) :
    ∃ a b, c.run fp lm atan1 [u, v] = .ok (a, b) ∧ (a = u ∨ a + 1 = u) ∧ (b = u ∨ b + 1 = u) := by
  obtain ⟨m0, m1⟩ := new_exact hfp hl (by norm_num) (by rw [mul_one]; exact rnd_one hfp)
    (by rw [mul_one, sub_self]; exact rnd_zero hfp) hc
  rw [Rat.cast_one, mul_one, sub_self, sqrt_zero] at m1
  refine run_near hfp hl c hu hu' hv hv' hu hu' fun n0 n1 b0 b1 d0 d1 => ⟨n0, ?_, b0, d0⟩
  rw [m0]
  have p0 := near_mul hfp (near_self n0) (near_self 1) (A := 7) (B := 1) (M := 8) (f := 1 / 10 ^ 14) b0 (by simp) (by norm_num) (by norm_num) (by norm_num)
  have p1 := near_mul hfp (near_self n1) m1 (A := 7) (B := 0) (M := 1) (f := 1 / 10 ^ 13) b1 (by simp) (by norm_num) (by norm_num) (by norm_num)
  have := near_add hfp p0 p1 (M := 8) (f := 1 / 10 ^ 12) (by push_cast; rw [mul_zero, mul_one, add_zero]; linarith) (by norm_num) (by norm_num)
  rwa [Rat.cast_one, mul_zero, mul_one, add_zero] at this

/-- **C80** With correlation -1 the second is `2^32` less the first number given, or one less. -/
theorem C80_opposite (fp : FP) (hfp : fp.Good) (lm : Libm) (atan1 : Fl) (hl : Accurate fp lm atan1) (c : Cholesky)
    (hc : Cholesky.new fp (.fin (-1)) = .ok c) (u v : ℕ) (hu : 1 ≤ u) (hu' : u < 2 ^ 32) (hv : 1 ≤ v) (hv' : v < 2 ^ 32) :
    ∃ a b, c.run fp lm atan1 [u, v] = .ok (a, b) ∧ (a = u ∨ a + 1 = u) ∧ (u + b = 2 ^ 32 ∨ u + b + 1 = 2 ^ 32) := by
  obtain ⟨m0, m1⟩ := new_exact hfp hl (by norm_num) (by rw [neg_mul_neg, mul_one]; exact rnd_one hfp)
    (by rw [neg_mul_neg, mul_one, sub_self]; exact rnd_zero hfp) hc
  have e : (1 : ℝ) - ((-1 : ℚ) : ℝ) * ((-1 : ℚ) : ℝ) = 0 := by push_cast; ring
  rw [e, sqrt_zero] at m1
  have hw : ((2 ^ 32 - u : ℕ) : ℝ) = 2 ^ 32 - u := by rw [Nat.cast_sub hu'.le]; push_cast; norm_num
  obtain ⟨a, b, hr, ha, hb⟩ := run_near hfp hl c hu hu' hv hv' (w := 2 ^ 32 - u) (by omega) (by omega) fun n0 n1 b0 b1 d0 d1 => by
    refine ⟨-n0, ?_, by rwa [abs_neg], ?_⟩
    · rw [m0]
      have p0 := near_mul hfp (near_self n0) (near_self (-1)) (A := 7) (B := 1) (M := 8) (f := 1 / 10 ^ 14) b0 (by push_cast; simp) (by norm_num) (by norm_num) (by norm_num)
      have p1 := near_mul hfp (near_self n1) m1 (A := 7) (B := 0) (M := 1) (f := 1 / 10 ^ 13) b1 (by simp) (by norm_num) (by norm_num) (by norm_num)
      have e : (n0 : ℝ) * ((-1 : ℚ) : ℝ) + n1 * 0 = -n0 := by push_cast; ring
      have := near_add hfp p0 p1 (M := 8) (f := 1 / 10 ^ 12) (by rw [e, abs_neg]; linarith) (by norm_num) (by norm_num)
      rwa [e] at this
    · have h1 := cdf_add_neg (n0 : ℝ)
      rw [hw, sub_div, div_self (by positivity), show cdf (-(n0 : ℝ)) - (1 - (u : ℝ) / 2 ^ 32) = -(cdf n0 - u / 2 ^ 32) by linarith, abs_neg]
      exact d0
  exact ⟨a, b, hr, ha, by omega⟩

/-- **C80** Whatever the correlation, the first number of a pair is the first number given or one less. -/
theorem C80_first_back (fp : FP) (hfp : fp.Good) (lm : Libm) (atan1 : Fl) (hl : Accurate fp lm atan1) (c : Cholesky)
    (u v a b : ℕ) (hu : 1 ≤ u) (hu' : u < 2 ^ 32) (hv' : v < 2 ^ 32) (hr : c.run fp lm atan1 [u, v] = .ok (a, b)) :
    a = u ∨ a + 1 = u := by
  obtain ⟨n0, n1, e0, e1, ha, hb⟩ := chol_run_ok hfp lm atan1 c hu' hv' hr
  obtain ⟨m0, f0, b0, d0⟩ := variate hfp hl hu hu'
  rw [f0] at e0
  injection e0 with e0
  subst e0
  obtain ⟨a', ha', h⟩ := convert_near hfp hu hu' ((first_near hfp hl b0 d0).mono (by norm_num))
  rw [ha] at ha'
  injection ha' with ha'
  subst ha'
  exact h

/-- the second variate, for any correlation: the rounding of `1 - ρ²` matters most where it is small -/
theorem sum_near (hfp : fp.Good) (hl : Accurate fp lm atan1) {c : Cholesky} {q : ℚ} (hq : |q| ≤ 1)
    (hc : Cholesky.new fp (.fin q) = .ok c) {n0 n1 : ℚ} (h0 : |(n0 : ℝ)| ≤ 46 / 10) (h1 : |(n1 : ℝ)| ≤ 46 / 10) :
    Near (fp.add (fp.mul (.fin n0) c.m0) (fp.mul (.fin n1) c.m1)) (n0 * q + n1 * √(1 - (q : ℝ) ^ 2)) (3 / 10 ^ 7) := by
  obtain ⟨r, r0, r1, hr, rfl⟩ := new_ok hfp hq hc
  have hq' : |(q : ℝ)| ≤ 1 := by exact_mod_cast hq
  have hone := near_self 1
  rw [Rat.cast_one] at hone
  have hqq : |(q : ℝ) * q| ≤ 1 := by rw [abs_mul]; nlinarith [abs_nonneg (q : ℝ)]
  have hq0 : 0 ≤ (q : ℝ) * q := mul_self_nonneg _
  rw [abs_of_nonneg hq0] at hqq
  have m := near_mul hfp (near_self q) (near_self q) (A := 1) (B := 1) (M := 1) (f := 11 / 10 ^ 16) hq' hq' (by norm_num) (by norm_num) (by norm_num)
  have d := near_sub hfp hone m (M := 2) (f := 32 / 10 ^ 16) (by rw [abs_of_nonneg (by linarith)]; linarith) (by norm_num) (by norm_num)
  rw [hr] at d
  obtain ⟨r', hr', d⟩ := d
  injection hr' with hr'
  subst hr'
  have hs : |√(r : ℝ) - √(1 - (q : ℝ) ^ 2)| ≤ 57 / 10 ^ 9 := by
    have r0' : (0 : ℝ) ≤ r := by exact_mod_cast r0
    have s0 : 0 ≤ 1 - (q : ℝ) ^ 2 := by nlinarith
    have e1 := sq_sqrt r0'
    have e2 := sq_sqrt s0
    have f1 := sqrt_nonneg (r : ℝ)
    have f2 := sqrt_nonneg (1 - (q : ℝ) ^ 2)
    have d' := abs_le.mp d
    rw [← sq] at d'
    generalize √(r : ℝ) = x at *
    generalize √(1 - (q : ℝ) ^ 2) = y at *
    rw [← e1, ← e2] at d'
    apply abs_le_of_sq_le_sq' _ (by norm_num) |> abs_le.mpr
    rcases le_total x y with h | h <;> nlinarith
  have m1 : Near (fp.sqrt (.fin r)) (√(1 - (q : ℝ) ^ 2)) (58 / 10 ^ 9) := by
    obtain ⟨y, hy, hye⟩ := hl.sqrt r r0 (by linarith)
    have : √(r : ℝ) ≤ 1 := by rw [Real.sqrt_le_left (by norm_num)]; norm_num; exact_mod_cast r1
    exact Near.to ⟨y, hy, hye⟩ (by linarith)
  have hs1 : |√(1 - (q : ℝ) ^ 2)| ≤ 1 := by
    rw [abs_of_nonneg (sqrt_nonneg _), Real.sqrt_le_left (by norm_num)]; nlinarith
  have p0 := near_mul hfp (near_self n0) (near_self q) (A := 46 / 10) (B := 1) (M := 5) (f := 1 / 10 ^ 14) h0 hq' (by norm_num) (by norm_num) (by norm_num)
  have p1 := near_mul hfp (near_self n1) m1 (A := 46 / 10) (B := 1) (M := 5) (f := 28 / 10 ^ 8) h1 hs1 (by norm_num) (by norm_num) (by norm_num)
  refine near_add hfp p0 p1 (M := 20) (f := 3 / 10 ^ 7) ?_ (by norm_num) (by norm_num)
  have g0 : |(n0 : ℝ) * q| ≤ 46 / 10 := by rw [abs_mul]; nlinarith [abs_nonneg (n0 : ℝ), abs_nonneg (q : ℝ)]
  have g1 : |(n1 : ℝ) * √(1 - (q : ℝ) ^ 2)| ≤ 46 / 10 := by rw [abs_mul]; nlinarith [abs_nonneg (n1 : ℝ), abs_nonneg (√(1 - (q : ℝ) ^ 2))]
  have := abs_add_le ((n0 : ℝ) * q) (n1 * √(1 - (q : ℝ) ^ 2))
  linarith

theorem circle {x y q : ℝ} (hq : |q| ≤ 1) (hx : |x| ≤ 46 / 10) (hy : |y| ≤ 46 / 10) : |x * q + y * √(1 - q ^ 2)| ≤ 651 / 100 := by
  have s0 : 0 ≤ 1 - q ^ 2 := by have := abs_le.mp hq; nlinarith
  have e := sq_sqrt s0
  generalize √(1 - q ^ 2) = s at *
  have hx2 : x ^ 2 ≤ (46 / 10) ^ 2 := sq_le_sq' (abs_le.mp hx).1 (abs_le.mp hx).2
  have hy2 : y ^ 2 ≤ (46 / 10) ^ 2 := sq_le_sq' (abs_le.mp hy).1 (abs_le.mp hy).2
  apply abs_le_of_sq_le_sq' _ (by norm_num) |> abs_le.mpr
  nlinarith [sq_nonneg (x * s - y * q)]

/-- variates between -4.6 and 4.6 with close probabilities are close -/
theorem variate_close {x y : ℝ} (hx : |x| ≤ 46 / 10) (hy : |y| ≤ 46 / 10) : |x - y| ≤ 2 * 10 ^ 5 * |cdf x - cdf y| := by
  have he : 1 / 72000 ≤ exp (-11) := by
    have h : exp 11 ≤ 72000 := by
      calc exp 11 = exp 1 ^ 11 := by rw [← exp_nat_mul]; norm_num
        _ ≤ (2.7182818286 : ℝ) ^ 11 := pow_le_pow_left₀ (exp_pos 1).le exp_one_lt_d9.le 11
        _ ≤ _ := by norm_num
    rw [exp_neg, ← one_div]
    exact one_div_le_one_div_of_le (exp_pos _) h
  have hd : ∀ s ∈ interior (Set.Icc (-(46 / 10) : ℝ) (46 / 10)), 1 / (2 * 10 ^ 5) ≤ deriv cdf s := by
    intro s hs
    rw [interior_Icc] at hs
    rw [(cdf_hasDerivAt s).deriv]
    unfold density
    rw [le_div_iff₀ s2pi_pos]
    have h1 : exp (-11) ≤ exp (-(s ^ 2) / 2) := exp_le_exp.mpr (by nlinarith [hs.1, hs.2])
    have := s2pi_bounds.2
    linarith
  have key : ∀ a b : ℝ, |a| ≤ 46 / 10 → |b| ≤ 46 / 10 → a ≤ b → |a - b| ≤ 2 * 10 ^ 5 * |cdf a - cdf b| := by
    intro a b ha hb hab
    have := (convex_Icc (-(46 / 10) : ℝ) (46 / 10)).mul_sub_le_image_sub_of_le_deriv
      (continuous_iff_continuousAt.mpr fun s => (cdf_hasDerivAt s).continuousAt).continuousOn
      (fun s _ => (cdf_hasDerivAt s).differentiableAt.differentiableWithinAt) hd a (abs_le.mp ha) b (abs_le.mp hb) hab
    have h2 := cdf_strictMono.monotone hab
    rw [abs_of_nonpos (by linarith), abs_of_nonpos (by linarith)]
    linarith
  rcases le_total x y with h | h
  · exact key x y hx hy h
  · rw [abs_sub_comm, abs_sub_comm (cdf x)]; exact key y x hy hx h

/-- **C80** Away from the ends - both numbers between `2^16` and `2^32 - 2^16` - a pair comes out whatever the correlation
is, and it is the one the Gaussian copula prescribes: with `x` and `y` the normal variates of the two numbers given, the
second is the probability of `ρ x + √(1 - ρ²) y`, to six decimals. -/
theorem C80_copula (fp : FP) (hfp : fp.Good) (lm : Libm) (atan1 : Fl) (hl : Accurate fp lm atan1) (rho : ℚ) (hrho : |rho| ≤ 1)
    (c : Cholesky) (hc : Cholesky.new fp (.fin rho) = .ok c) (u v : ℕ) (hu : 2 ^ 16 ≤ u) (hu' : u ≤ 2 ^ 32 - 2 ^ 16)
    (hv : 2 ^ 16 ≤ v) (hv' : v ≤ 2 ^ 32 - 2 ^ 16) (x y : ℝ) (hx : cdf x = u / 2 ^ 32) (hy : cdf y = v / 2 ^ 32) :
    ∃ a b, c.run fp lm atan1 [u, v] = .ok (a, b) ∧ (a = u ∨ a + 1 = u) ∧
      |(b : ℝ) / 2 ^ 32 - cdf (rho * x + √(1 - (rho : ℝ) ^ 2) * y)| ≤ 1 / 10 ^ 6 := by
  have hq' : |(rho : ℝ)| ≤ 1 := by exact_mod_cast hrho
  have range : ∀ w : ℕ, 2 ^ 16 ≤ w → w ≤ 2 ^ 32 - 2 ^ 16 → (1 : ℝ) / 2 ^ 16 ≤ w / 2 ^ 32 ∧ (w : ℝ) / 2 ^ 32 ≤ 1 - 1 / 2 ^ 16 := by
    intro w h1 h2
    have a1 : (2 : ℝ) ^ 16 ≤ w := by exact_mod_cast h1
    have a2 : (w : ℝ) + 2 ^ 16 ≤ 2 ^ 32 := by
      have : w + 2 ^ 16 ≤ 2 ^ 32 := by omega
      exact_mod_cast this
    rw [le_div_iff₀ (by positivity), div_le_iff₀ (by positivity)]
    exact ⟨by linarith, by linarith⟩
  obtain ⟨ru, ru'⟩ := range u hu hu'
  obtain ⟨rv, rv'⟩ := range v hv hv'
  obtain ⟨n0, e0, b0, d0⟩ := variate hfp hl (u := u) (by omega) (by omega)
  obtain ⟨n1, e1, b1, d1⟩ := variate hfp hl (u := v) (by omega) (by omega)
  have i0 := quantile_inner ru ru' d0
  have i1 := quantile_inner rv rv' d1
  have ix := quantile_inner ru ru' (n := x) (by rw [hx, sub_self, abs_zero]; norm_num)
  have iy := quantile_inner rv rv' (n := y) (by rw [hy, sub_self, abs_zero]; norm_num)
  have k0 := variate_close i0 ix
  have k1 := variate_close i1 iy
  rw [hx] at k0
  rw [hy] at k1
  obtain ⟨a, ha, ha'⟩ := convert_near hfp (u := u) (by omega) (by omega) ((first_near hfp hl b0 d0).mono (by norm_num))
  obtain ⟨z, hz, hze⟩ := sum_near hfp hl hrho hc i0 i1
  have hcirc := circle hq' i0 i1
  have hz652 : |(z : ℝ)| ≤ 652 / 100 := by
    rw [abs_le] at *
    constructor <;> linarith
  obtain ⟨c1, c2⟩ := cdf_inner hz652
  have hs := second_near hfp hl (near_self z) (by linarith)
  obtain ⟨b, hb, hbe⟩ := convert_inner hfp c1 c2 (hs.mono (by norm_num))
  refine ⟨a, b, ?_, ha', ?_⟩
  · simp only [Cholesky.run]
    rw [e0, Out.ok_bind, e1, Out.ok_bind, ha, Out.ok_bind, hz, hb, Out.ok_bind]
    rfl
  · have hlip := cdf_lip (z : ℝ) (rho * x + √(1 - (rho : ℝ) ^ 2) * y)
    have hs1 : |√(1 - (rho : ℝ) ^ 2)| ≤ 1 := by
      rw [abs_of_nonneg (sqrt_nonneg _), Real.sqrt_le_left (by norm_num)]; nlinarith [sq_nonneg (rho : ℝ)]
    generalize √(1 - (rho : ℝ) ^ 2) = s at *
    have g : |(z : ℝ) - (rho * x + s * y)| ≤ 7 / 10 ^ 7 := by
      have t0 : |((n0 : ℝ) - x) * rho| ≤ 2 / 10 ^ 7 := by
        rw [abs_mul]
        calc |(n0 : ℝ) - x| * |(rho : ℝ)| ≤ (2 / 10 ^ 7) * 1 := mul_le_mul (by linarith) hq' (abs_nonneg _) (by norm_num)
          _ = _ := by ring
      have t1 : |((n1 : ℝ) - y) * s| ≤ 2 / 10 ^ 7 := by
        rw [abs_mul]
        calc |(n1 : ℝ) - y| * |s| ≤ (2 / 10 ^ 7) * 1 := mul_le_mul (by linarith) hs1 (abs_nonneg _) (by norm_num)
          _ = _ := by ring
      rw [abs_le] at *
      constructor <;> linarith
    have := abs_sub_le ((b : ℝ) / 2 ^ 32) (cdf z) (cdf (rho * x + s * y))
    linarith

/-- **C80** Close to the ends that fails: with correlation 5/8 and the last number twice, the second probability is 1 in
`double` - `erf` is 1 from 6 on - and `2^32` does not fit. -/
theorem C80_corner (fp : FP) (hfp : fp.Good) (lm : Libm) (atan1 : Fl) (hl : Accurate fp lm atan1)
    (h6 : ∀ q : ℚ, 6 ≤ q → lm.erf (.fin q) = .fin 1) (c : Cholesky) (hc : Cholesky.new fp (.fin (5 / 8)) = .ok c) :
    c.run fp lm atan1 [2 ^ 32 - 1, 2 ^ 32 - 1] = .ub .badCast := by
  obtain ⟨n, e, b, d⟩ := variate hfp hl (u := 2 ^ 32 - 1) (by norm_num) (by norm_num)
  obtain ⟨a, ha, -⟩ := convert_near hfp (u := 2 ^ 32 - 1) (by norm_num) (by norm_num) ((first_near hfp hl b d).mono (by norm_num))
  have hn : 616 / 100 ≤ (n : ℝ) := quantile_last (by
    have : ((2 ^ 32 - 1 : ℕ) : ℝ) / 2 ^ 32 = 1 - 1 / 2 ^ 32 := by norm_num
    rwa [this] at d)
  have hn7 := (abs_le.mp b).2
  obtain ⟨m0, m1⟩ := new_exact hfp hl (by norm_num [abs_le])
    (by have := hfp.dyadic 25 6 (by norm_num) (by norm_num); norm_num at this ⊢; exact this)
    (by have := hfp.dyadic 39 6 (by norm_num) (by norm_num); norm_num at this ⊢; exact this) hc
  have hs : 78 / 100 ≤ √(1 - ((5 / 8 : ℚ) : ℝ) * ((5 / 8 : ℚ) : ℝ)) ∧ √(1 - ((5 / 8 : ℚ) : ℝ) * ((5 / 8 : ℚ) : ℝ)) ≤ 79 / 100 := by
    constructor
    · apply Real.le_sqrt_of_sq_le; push_cast; norm_num
    · rw [Real.sqrt_le_left (by norm_num)]; push_cast; norm_num
  generalize √(1 - ((5 / 8 : ℚ) : ℝ) * ((5 / 8 : ℚ) : ℝ)) = s at *
  have p0 := near_mul hfp (near_self n) (near_self (5 / 8)) (A := 7) (B := 1) (M := 8) (f := 1 / 10 ^ 14) b
    (by push_cast; rw [abs_of_pos (by norm_num)]; norm_num) (by norm_num) (by norm_num) (by norm_num)
  have p1 := near_mul hfp (near_self n) m1 (A := 7) (B := 1) (M := 8) (f := 1 / 10 ^ 13) b
    (by rw [abs_of_pos (by linarith)]; linarith) (by norm_num) (by norm_num) (by norm_num)
  have hsum : (865 : ℝ) / 100 ≤ n * ((5 / 8 : ℚ) : ℝ) + n * s := by push_cast; nlinarith
  have hsum' : (n : ℝ) * ((5 / 8 : ℚ) : ℝ) + n * s ≤ 10 := by push_cast; nlinarith
  have ps := near_add hfp p0 p1 (M := 11) (f := 1 / 10 ^ 12) (by rw [abs_of_pos (by linarith)]; linarith) (by norm_num) (by norm_num)
  have hb2 := sqrt2_bounds
  have hr2 : 706 / 1000 ≤ 1 / √2 ∧ 1 / √2 ≤ 1 := by
    constructor
    · rw [le_div_iff₀ (by positivity)]; linarith
    · rw [div_le_iff₀ (by positivity)]; linarith
  have hrs := rsqrt2_near hfp hl
  generalize 1 / √2 = r2 at *
  obtain ⟨y, hy, hye⟩ := near_mul hfp ps hrs (A := 10) (B := 1) (M := 11) (f := 1 / 10 ^ 11)
    (by rw [abs_of_pos (by linarith)]; linarith) (by rw [abs_of_pos (by linarith)]; linarith) (by norm_num) (by norm_num) (by norm_num)
  have hy6 : (6 : ℚ) ≤ y := by
    have h := (abs_le.mp hye).1
    have : (6 : ℝ) ≤ y := by nlinarith
    exact_mod_cast this
  have r2' : fp.rnd 2 = .fin 2 := by
    have := hfp.dyadic 2 0 (by norm_num) (by norm_num)
    norm_num at this; exact this
  have r32 : fp.rnd (2 ^ 32) = .fin (2 ^ 32) := by
    have := hfp.dyadic (2 ^ 32) 0 (by norm_num) (by norm_num)
    norm_num at this ⊢; exact this
  have hcum : cumNorm fp lm (fp.add (fp.mul (.fin n) (.fin (5 / 8))) (fp.mul (.fin n) c.m1)) = .fin 1 := by
    unfold cumNorm
    rw [hy, h6 y hy6]
    show fp.mul (.fin (1 / 2)) (fp.rnd (1 + 1)) = _
    rw [one_add_one_eq_two, r2']
    show fp.rnd (1 / 2 * 2) = _
    rw [show (1 / 2 * 2 : ℚ) = 1 by norm_num]
    exact rnd_one hfp
  have hdiv : fp.div (.fin 1) (.fin scale) = .fin (2 ^ 32) := by
    have hne : scale ≠ 0 := by unfold scale; norm_num
    show (if scale = 0 then _ else fp.rnd (1 / scale)) = _
    rw [if_neg hne, show 1 / scale = 2 ^ 32 by unfold scale; norm_num, r32]
  simp only [Cholesky.run]
  rw [e, Out.ok_bind, Out.ok_bind, ha, Out.ok_bind, m0, hcum, hdiv]
  have : toUint32 (.fin (2 ^ 32)) = .ub .badCast := by
    show (if 0 ≤ FP.truncQ (2 ^ 32) ∧ FP.truncQ (2 ^ 32) < 2 ^ 32 then Out.ok (FP.truncQ (2 ^ 32)).toNat else .ub .badCast) = _
    refine if_neg ?_
    have : FP.truncQ (2 ^ 32) = 2 ^ 32 := by
      unfold FP.truncQ
      rw [if_pos (by norm_num)]
      have := Int.floor_natCast (R := ℚ) (2 ^ 32)
      exact_mod_cast this
    rw [this]
    norm_num
  rw [this]
  rfl

/-- There are binary64 libraries and a constructed object to which all of the above applies; the last number and the
middle one with correlation 0 and 5/8. -/
example : ∃ (sqrt : Fl → Fl) (lm : Libm) (atan1 : Fl) (c c' : Cholesky), Accurate (FP.ieee sqrt) lm atan1 ∧
    Cholesky.new (FP.ieee sqrt) (.fin 0) = .ok c ∧ Cholesky.new (FP.ieee sqrt) (.fin (5 / 8)) = .ok c' ∧
    (∃ a b, c.run (FP.ieee sqrt) lm atan1 [2 ^ 32 - 1, 2 ^ 31] = .ok (a, b) ∧ 2 ^ 32 - 2 ≤ a ∧ 2 ^ 31 - 1 ≤ b) ∧
    (∃ a b, c'.run (FP.ieee sqrt) lm atan1 [2 ^ 31, 2 ^ 31] = .ok (a, b) ∧ 2 ^ 31 - 1 ≤ a ∧ |(b : ℝ) / 2 ^ 32 - 1 / 2| ≤ 1 / 10 ^ 6) ∧
    c'.run (FP.ieee sqrt) lm atan1 [2 ^ 32 - 1, 2 ^ 32 - 1] = .ub .badCast := by
  obtain ⟨sqrt, lm, atan1, hl, h6⟩ := accurate_exists (FP.ieee id).rnd
  have hfp := FP.ieee_good sqrt
  obtain ⟨r, -, -, -, hc⟩ := (C80_construct (FP.ieee sqrt) hfp).2.2.2.1 0 (by norm_num)
  obtain ⟨r', -, -, -, hc'⟩ := (C80_construct (FP.ieee sqrt) hfp).2.2.2.1 (5 / 8) (by norm_num [abs_le])
  have h8 : |(5 / 8 : ℚ)| ≤ 1 := by norm_num [abs_le]
  refine ⟨sqrt, lm, atan1, _, _, hl, hc, hc', ?_, ?_, C80_corner _ hfp lm atan1 hl h6 _ hc'⟩
  · obtain ⟨a, b, h, ha, hb⟩ := C80_independent _ hfp lm atan1 hl _ hc (2 ^ 32 - 1) (2 ^ 31) (by norm_num) (by norm_num) (by norm_num) (by norm_num)
    exact ⟨a, b, h, by omega, by omega⟩
  · have hm : cdf 0 = ((2 ^ 31 : ℕ) : ℝ) / 2 ^ 32 := by rw [cdf_zero]; norm_num
    obtain ⟨a, b, h, ha, hb⟩ := C80_copula _ hfp lm atan1 hl (5 / 8) h8 _ hc' (2 ^ 31) (2 ^ 31) (by norm_num) (by norm_num) (by norm_num) (by norm_num) 0 0 hm hm
    rw [mul_zero, mul_zero, add_zero, cdf_zero] at hb
    exact ⟨a, b, h, by omega, hb⟩

end Normal
end HL

import Verif.Proof.NormalHalley
import Verif.Proof.NormalCentral
import Verif.Proof.NormalTail

/-
The start value of `invCumNorm` (StatFuncs.cpp:244-301) with rounding.
-/

namespace HL
namespace Normal
open Real PolyCert

variable {fp : FP} {lm : Libm} {atan1 : Fl}

theorem lit_near (hfp : fp.Good) (m : ℤ) (k : ℕ) {M f : ℝ} (hm : |(m : ℝ) / 10 ^ k| ≤ M) (hM : M ≤ 10 ^ 30)
    (hf : (M + 1 / 10 ^ 40) / 10 ^ 15 ≤ f) : Near (lit fp m k) ((m : ℝ) / 10 ^ k) f := by
  unfold lit
  refine near_rnd hfp (e := 0) (M := M) ?_ (by linarith) hM (by linarith)
  push_cast
  simp

/-- Horner's scheme over the real numbers, highest degree first -/
noncomputable def hornerR (a : ℝ) (cs : List ℝ) (x : ℝ) : ℝ := cs.foldl (fun acc c => acc * x + c) a

theorem horner_central (hfp : fp.Good) {z : Fl} {x : ℝ} (hx : |x| ≤ 23 / 100) (hz : Near z x (1 / 10 ^ 14)) :
    ∀ (ks : List Fl) (cs : List ℝ) (k : Fl) (c : ℝ), List.Forall₂ (fun k c => Near k c (1 / 10 ^ 12) ∧ |c| ≤ 300) ks cs →
      Near k c (1 / 10 ^ 11) → |c| ≤ 400 →
      Near (ks.foldl (fun acc c => fp.add (fp.mul acc z) c) k) (hornerR c cs x) (1 / 10 ^ 11) ∧ |hornerR c cs x| ≤ 400 := by
  intro ks
  induction ks with
  | nil =>
    intro cs k c h hk hc
    cases h
    exact ⟨hk, hc⟩
  | cons k' ks ih =>
    intro cs k c h hk hc
    obtain _ | ⟨⟨h1, h1'⟩, h2⟩ := h
    rename_i c' cs
    have hm := near_mul hfp hk hz hc hx (M := 100) (f := 7 / 10 ^ 12) (by norm_num) (by norm_num) (by norm_num)
    have hcx : |c * x| ≤ 92 := by
      rw [abs_mul]; nlinarith [abs_nonneg c, abs_nonneg x]
    have hcx' : |c * x + c'| ≤ 392 := (abs_add_le _ _).trans (by linarith)
    have ha := near_add hfp hm h1 (M := 400) (f := 1 / 10 ^ 11) (by linarith) (by norm_num) (by norm_num)
    exact ih cs _ _ h2 ha (by linarith)

theorem horner_tail (hfp : fp.Good) {z : Fl} {x : ℝ} (hx : |x| ≤ 68 / 10) (hz : Near z x (1 / 10 ^ 12)) :
    ∀ (ks : List Fl) (cs : List ℝ) (k : Fl) (c A : ℝ), List.Forall₂ (fun k c => Near k c (1 / 10 ^ 14) ∧ |c| ≤ 5) ks cs →
      8 ≤ A → A * 8 ^ ks.length ≤ 10 ^ 10 → Near k c (A / 10 ^ 12) → |c| ≤ A →
      Near (ks.foldl (fun acc c => fp.add (fp.mul acc z) c) k) (hornerR c cs x) (A * 8 ^ ks.length / 10 ^ 12) := by
  intro ks
  induction ks with
  | nil =>
    intro cs k c A h _ _ hk hc
    cases h
    simpa [hornerR] using hk
  | cons k' ks ih =>
    intro cs k c A h hA hA2 hk hc
    obtain _ | ⟨⟨h1, h1'⟩, h2⟩ := h
    rename_i c' cs
    have hA3 : A ≤ 10 ^ 10 := by
      refine le_trans ?_ hA2
      have : (1 : ℝ) ≤ 8 ^ (k' :: ks).length := one_le_pow₀ (by norm_num)
      nlinarith
    have hm := near_mul hfp hk hz hc hx (M := 7 * A) (f := 782 / 100 * A / 10 ^ 12) (by linarith) (by linarith) (by linarith)
    have hcx : |c * x| ≤ 68 / 10 * A := by
      rw [abs_mul]; nlinarith [abs_nonneg c, abs_nonneg x]
    have hcx' : |c * x + c'| ≤ 8 * A := (abs_add_le _ _).trans (by linarith)
    have ha := near_add hfp hm h1 (M := 9 * A) (f := 8 * A / 10 ^ 12) (by linarith) (by linarith) (by linarith)
    have := ih cs _ _ (8 * A) h2 (by linarith) (by rw [List.length_cons, pow_succ] at hA2; linarith) ha hcx'
    rw [List.length_cons, pow_succ, show A * (8 ^ ks.length * 8) / 10 ^ 12 = 8 * A * 8 ^ ks.length / 10 ^ 12 by ring]
    exact this

/-- the boundary of the tail -/
theorem xLow_near (hfp : fp.Good) : Near (xLow fp) (2425 / 10 ^ 5) (1 / 10 ^ 15) := by
  have := lit_near hfp 2425 5 (M := 1 / 10) (f := 1 / 10 ^ 15) (by norm_num [abs_of_pos]) (by norm_num) (by norm_num)
  push_cast at this
  exact this

theorem xHigh_near (hfp : fp.Good) : Near (xHigh fp) (1 - 2425 / 10 ^ 5) (3 / 10 ^ 15) := by
  have h1 := near_self 1
  rw [Rat.cast_one] at h1
  exact near_sub hfp h1 (xLow_near hfp) (M := 1) (by norm_num [abs_of_pos]) (by norm_num) (by norm_num)

theorem cB_ge {r : ℝ} (h0 : 0 ≤ r) (h1 : r ≤ 226339 / 1000000) : 2 / 1000 * 10 ^ 15 ≤ ev cB r := by
  have := posOn_spec (a := -1000) (b := 226339) (d := 1000000) (p := add cB [-2000000000000]) (by decide +kernel) (by norm_num) (x := r)
    (by push_cast; linarith) (by push_cast; linarith)
  rw [ev_add] at this
  simp only [ev] at this
  push_cast at this
  linarith

/-- The value at the start, in the central region. -/
theorem start_central (hfp : fp.Good) {p : ℚ} {lo hi : ℚ} (hlo : xLow fp = .fin lo) (hhi : xHigh fp = .fin hi) (h0 : lo ≤ p) (h1 : p ≤ hi) :
    Near (fp.div (fp.mul (horner fp (as fp) (fp.mul (fp.sub (.fin p) (.fin (1 / 2))) (fp.sub (.fin p) (.fin (1 / 2)))))
      (fp.sub (.fin p) (.fin (1 / 2)))) (horner fp (bs fp) (fp.mul (fp.sub (.fin p) (.fin (1 / 2))) (fp.sub (.fin p) (.fin (1 / 2))))))
      (central (p - 1 / 2)) (3 / 10 ^ 8) ∧ ((p : ℝ) - 1 / 2) ^ 2 ≤ 226339 / 1000000 := by
  have hlo' : (2425 / 10 ^ 5 - 1 / 10 ^ 15 : ℝ) ≤ p := by
    obtain ⟨a, ha, hae⟩ := xLow_near hfp
    rw [hlo] at ha; cases ha
    have := (abs_le.mp hae).1
    have : (lo : ℝ) ≤ p := by exact_mod_cast h0
    linarith
  have hhi' : (p : ℝ) ≤ 1 - 2425 / 10 ^ 5 + 3 / 10 ^ 15 := by
    obtain ⟨a, ha, hae⟩ := xHigh_near hfp
    rw [hhi] at ha; cases ha
    have := (abs_le.mp hae).2
    have : (p : ℝ) ≤ hi := by exact_mod_cast h1
    linarith
  set q : ℝ := p - 1 / 2 with hq
  have hqa : |q| ≤ 47575 / 100000 + 3 / 10 ^ 15 := by rw [abs_le]; constructor <;> linarith
  have hq2 : q ^ 2 ≤ 226339 / 1000000 := by
    rw [← sq_abs]
    calc |q| ^ 2 ≤ (47575 / 100000 + 3 / 10 ^ 15) ^ 2 := pow_le_pow_left₀ (abs_nonneg q) hqa 2
      _ ≤ _ := by norm_num
  refine ⟨?_, hq2⟩
  have hqa' : |q| ≤ 1 / 2 := by linarith
  have hz : Near (fp.sub (.fin p) (.fin (1 / 2))) q (1 / 10 ^ 15) := by
    have := near_sub hfp (near_self p) (near_self (1 / 2)) (M := 6 / 10) (f := 1 / 10 ^ 15) (by push_cast; linarith) (by norm_num) (by norm_num)
    push_cast at this
    exact this
  generalize fp.sub (.fin p) (.fin (1 / 2)) = z at hz
  have hr : Near (fp.mul z z) (q ^ 2) (1 / 10 ^ 14) := by
    have := near_mul hfp hz hz hqa' hqa' (M := 1) (f := 1 / 10 ^ 14) (by norm_num) (by norm_num) (by norm_num)
    rwa [← sq] at this
  generalize fp.mul z z = r at hr
  have hx : |q ^ 2| ≤ 23 / 100 := by rw [abs_of_nonneg (sq_nonneg q)]; linarith
  have hA : Near (horner fp (as fp) r) (ev cA (q ^ 2) / 10 ^ 15) (1 / 10 ^ 11) ∧ |ev cA (q ^ 2) / 10 ^ 15| ≤ 400 := by
    have := horner_central hfp hx hr
      [lit fp 2209460984245205 13, lit fp (-2759285104469687) 13, lit fp 1383577518672690 13, lit fp (-3066479806614716) 14,
        lit fp 2506628277459239 15]
      [((2209460984245205 : ℤ) : ℝ) / 10 ^ 13, ((-2759285104469687 : ℤ) : ℝ) / 10 ^ 13, ((1383577518672690 : ℤ) : ℝ) / 10 ^ 13,
        ((-3066479806614716 : ℤ) : ℝ) / 10 ^ 14, ((2506628277459239 : ℤ) : ℝ) / 10 ^ 15] (lit fp (-3969683028665376) 14)
      (((-3969683028665376 : ℤ) : ℝ) / 10 ^ 14)
      (by
        have key : ∀ (m : ℤ) (k : ℕ), |(m : ℝ) / 10 ^ k| ≤ 300 → Near (lit fp m k) ((m : ℝ) / 10 ^ k) (1 / 10 ^ 12) ∧ |(m : ℝ) / 10 ^ k| ≤ 300 :=
          fun m k h => ⟨lit_near hfp m k h (by norm_num) (by norm_num), h⟩
        refine .cons (key _ _ ?_) (.cons (key _ _ ?_) (.cons (key _ _ ?_) (.cons (key _ _ ?_) (.cons (key _ _ ?_) .nil)))) <;>
          (push_cast; rw [abs_le]; constructor <;> norm_num))
      (lit_near hfp _ _ (M := 300) (by push_cast; rw [abs_le]; constructor <;> norm_num) (by norm_num) (by norm_num))
      (by push_cast; rw [abs_le]; constructor <;> norm_num)
    have e : hornerR (((-3969683028665376 : ℤ) : ℝ) / 10 ^ 14) [((2209460984245205 : ℤ) : ℝ) / 10 ^ 13, ((-2759285104469687 : ℤ) : ℝ) / 10 ^ 13,
        ((1383577518672690 : ℤ) : ℝ) / 10 ^ 13, ((-3066479806614716 : ℤ) : ℝ) / 10 ^ 14, ((2506628277459239 : ℤ) : ℝ) / 10 ^ 15] (q ^ 2) =
        ev cA (q ^ 2) / 10 ^ 15 := by
      simp only [hornerR, List.foldl, ev, cA]
      push_cast
      ring
    rw [e] at this
    exact this
  have hB : Near (horner fp (bs fp) r) (ev cB (q ^ 2) / 10 ^ 15) (1 / 10 ^ 11) := by
    have := horner_central hfp hx hr
      [lit fp 1615858368580409 13, lit fp (-1556989798598866) 13, lit fp 6680131188771972 14, lit fp (-1328068155288572) 14, .fin 1]
      [((1615858368580409 : ℤ) : ℝ) / 10 ^ 13, ((-1556989798598866 : ℤ) : ℝ) / 10 ^ 13, ((6680131188771972 : ℤ) : ℝ) / 10 ^ 14,
        ((-1328068155288572 : ℤ) : ℝ) / 10 ^ 14, ((1 : ℚ) : ℝ)] (lit fp (-5447609879822406) 14)
      (((-5447609879822406 : ℤ) : ℝ) / 10 ^ 14)
      (by
        have key : ∀ (m : ℤ) (k : ℕ), |(m : ℝ) / 10 ^ k| ≤ 300 → Near (lit fp m k) ((m : ℝ) / 10 ^ k) (1 / 10 ^ 12) ∧ |(m : ℝ) / 10 ^ k| ≤ 300 :=
          fun m k h => ⟨lit_near hfp m k h (by norm_num) (by norm_num), h⟩
        refine .cons (key _ _ ?_) (.cons (key _ _ ?_) (.cons (key _ _ ?_) (.cons (key _ _ ?_) (.cons ⟨(near_self 1).mono (by norm_num), ?_⟩ .nil)))) <;>
          (push_cast; rw [abs_le]; constructor <;> norm_num))
      (lit_near hfp _ _ (M := 300) (by push_cast; rw [abs_le]; constructor <;> norm_num) (by norm_num) (by norm_num))
      (by push_cast; rw [abs_le]; constructor <;> norm_num)
    have e : hornerR (((-5447609879822406 : ℤ) : ℝ) / 10 ^ 14) [((1615858368580409 : ℤ) : ℝ) / 10 ^ 13, ((-1556989798598866 : ℤ) : ℝ) / 10 ^ 13,
        ((6680131188771972 : ℤ) : ℝ) / 10 ^ 14, ((-1328068155288572 : ℤ) : ℝ) / 10 ^ 14, ((1 : ℚ) : ℝ)] (q ^ 2) =
        ev cB (q ^ 2) / 10 ^ 15 := by
      simp only [hornerR, List.foldl, ev, cB]
      push_cast
      ring
    rw [e] at this
    exact this.1
  have hAz := near_mul hfp hA.1 hz hA.2 hqa' (M := 300) (f := 6 / 10 ^ 12) (by norm_num) (by norm_num) (by norm_num)
  have hBge := cB_ge (sq_nonneg q) hq2
  have hBpos := cB_pos (sq_nonneg q) hq2
  have ec : ev cA (q ^ 2) / 10 ^ 15 * q / (ev cB (q ^ 2) / 10 ^ 15) = central q := by
    unfold central; field_simp
  have := near_div hfp hAz hB (Q := 2) (b := 1999 / 10 ^ 6) (g := 2 / 10 ^ 8) (M := 3) (f := 3 / 10 ^ 8) (by rw [ec]; exact central_abs hq2)
    (by rw [abs_of_pos (by positivity), le_div_iff₀ (by positivity)]; linarith) (by norm_num) (by norm_num) (by norm_num) (by norm_num) (by norm_num)
  rwa [ec] at this

/-- `sqrt(-2 * log(p))` -/
noncomputable def tOf (p : ℝ) : ℝ := √(-2 * log p)

theorem tOf_facts {p : ℝ} (h0 : 1 / 2 ^ 33 ≤ p) (h1 : p ≤ 243 / 10000) :
    27 / 10 ≤ tOf p ∧ tOf p ≤ 68 / 10 ∧ exp (-(tOf p ^ 2) / 2) = p := by
  have hp : 0 < p := lt_of_lt_of_le (by positivity) h0
  have hl1 : log p ≤ -(3645 / 1000) := by
    rw [log_le_iff_le_exp hp, exp_neg]
    refine h1.trans ?_
    rw [le_inv_comm₀ (by norm_num) (exp_pos _)]
    have e1 : exp (3645 / 1000 : ℝ) = exp 1 ^ 3 * exp (3225 / 10000) ^ 2 := by
      rw [← exp_nat_mul, ← exp_nat_mul, ← exp_add]; norm_num
    have h2 : exp 1 ^ 3 ≤ 201 / 10 := by
      calc exp 1 ^ 3 ≤ (2.7182818286 : ℝ) ^ 3 := pow_le_pow_left₀ (exp_pos 1).le exp_one_lt_d9.le 3
        _ ≤ _ := by norm_num
    have h3 : exp (3225 / 10000 : ℝ) ≤ 14266 / 10000 := by
      have := abs_le.mp (abs_exp_sub_one_sub_id_le (x := 3225 / 10000) (by norm_num [abs_of_pos]))
      norm_num at this ⊢
      linarith
    have h4 : exp (3225 / 10000 : ℝ) ^ 2 ≤ (14266 / 10000) ^ 2 := pow_le_pow_left₀ (exp_pos _).le h3 2
    rw [e1]
    calc _ ≤ (201 / 10 : ℝ) * (14266 / 10000) ^ 2 := mul_le_mul h2 h4 (by positivity) (by norm_num)
      _ ≤ _ := by norm_num
  have hl2 : -(2312 / 100) ≤ log p := by
    have := log_le_log (by positivity) h0
    rw [log_div (by norm_num) (by positivity), log_one, log_pow] at this
    have h2 := log_two_lt_d9
    push_cast at this
    linarith
  refine ⟨le_sqrt_of_sq_le (by linarith), sqrt_le_iff.mpr ⟨by norm_num, by linarith⟩, ?_⟩
  unfold tOf
  rw [sq_sqrt (by linarith), show -(-2 * log p) / 2 = log p by ring, exp_log hp]

theorem tOf_near (hfp : fp.Good) (hl : Accurate fp lm atan1) {p : ℚ} (h0 : 1 / 2 ^ 33 ≤ (p : ℝ)) (h1 : (p : ℝ) ≤ 243 / 10000) :
    Near (fp.sqrt (fp.mul (.fin (-2)) (lm.log (.fin p)))) (tOf p) (1 / 10 ^ 12) := by
  obtain ⟨f1, f2, f3⟩ := tOf_facts h0 h1
  have hp : (0 : ℝ) < p := lt_of_lt_of_le (by positivity) h0
  have hlog : tOf p ^ 2 = -2 * log p := by
    have := congrArg log f3
    rw [log_exp] at this
    linarith
  have hla : |log (p : ℝ)| ≤ 2312 / 100 := by
    rw [abs_le]; constructor <;> nlinarith
  obtain ⟨y, hy, hye⟩ := hl.log p (by exact_mod_cast hp) (by
    have : (p : ℝ) ≤ 1 := by linarith
    exact_mod_cast this)
  have n1 : Near (lm.log (.fin p)) (log p) (24 / 10 ^ 14) := ⟨y, hy, hye.trans (by linarith)⟩
  obtain ⟨b, hb, hbe⟩ := near_mul hfp (near_self (-2)) n1 (A := 2) (B := 2312 / 100) (M := 50) (f := 6 / 10 ^ 13) (by push_cast; norm_num) hla
    (by norm_num) (by norm_num) (by norm_num)
  rw [show ((-2 : ℚ) : ℝ) * log p = tOf p ^ 2 by rw [hlog]; push_cast; ring] at hbe
  have hb' := abs_le.mp hbe
  have hb0 : (7 : ℝ) ≤ b := by nlinarith
  have hb1 : (b : ℝ) ≤ 47 := by nlinarith
  obtain ⟨c, hc, hce⟩ := hl.sqrt b (by have : (0 : ℝ) ≤ b := by linarith
                                       exact_mod_cast this) (by have : (b : ℝ) ≤ 100 := by linarith
                                                                exact_mod_cast this)
  rw [hb]
  refine Near.to (y := √(b : ℝ)) (e := 7 / 10 ^ 14) ⟨c, hc, hce.trans ?_⟩ ?_
  · have : √(b : ℝ) ≤ 7 := sqrt_le_iff.mpr ⟨by norm_num, by linarith⟩
    linarith
  · have h3 : |√(b : ℝ) - tOf p| * (√(b : ℝ) + tOf p) = |(b : ℝ) - tOf p ^ 2| := by
      rw [← abs_of_pos (by have := sqrt_nonneg (b : ℝ); linarith : 0 < √(b : ℝ) + tOf p), ← abs_mul]
      congr 1
      have e1 := mul_self_sqrt (by linarith : (0 : ℝ) ≤ b)
      linear_combination e1
    have h4 := abs_nonneg (√(b : ℝ) - tOf p)
    have h5 := sqrt_nonneg (b : ℝ)
    nlinarith

theorem tD_ge {t : ℝ} (h0 : 27 / 10 ≤ t) : 11 ≤ ev tD t / 10 ^ 18 := by
  rw [le_div_iff₀ (by positivity)]
  simp only [ev, tD]
  push_cast
  have h2 : 0 ≤ t * (2445134137142996000 + t * (322467129070039800 + t * (7784695709041462 + t * 0))) := by
    have : 0 ≤ t := by linarith
    positivity
  nlinarith

/-- The two polynomials of the tail. -/
theorem tail_polys (hfp : fp.Good) {t : ℝ} (h0 : 27 / 10 ≤ t) (h1 : t ≤ 68 / 10) {z : Fl} (hz : Near z t (1 / 10 ^ 12)) :
    Near (horner fp (cs fp) z) (ev tC t / 10 ^ 18) (3 / 10 ^ 7) ∧ Near (horner fp (ds fp) z) (ev tD t / 10 ^ 18) (4 / 10 ^ 8) := by
  have hx : |t| ≤ 68 / 10 := by rw [abs_of_pos (by linarith)]; exact h1
  have key : ∀ (m : ℤ) (k : ℕ), |(m : ℝ) / 10 ^ k| ≤ 5 → Near (lit fp m k) ((m : ℝ) / 10 ^ k) (1 / 10 ^ 14) ∧ |(m : ℝ) / 10 ^ k| ≤ 5 :=
    fun m k h => ⟨lit_near hfp m k h (by norm_num) (by norm_num), h⟩
  constructor
  · have := horner_tail hfp hx hz
      [lit fp (-3223964580411365) 16, lit fp (-2400758277161838) 15, lit fp (-2549732539343734) 15, lit fp 4374664141464968 15,
        lit fp 2938163982698783 15]
      [((-3223964580411365 : ℤ) : ℝ) / 10 ^ 16, ((-2400758277161838 : ℤ) : ℝ) / 10 ^ 15, ((-2549732539343734 : ℤ) : ℝ) / 10 ^ 15,
        ((4374664141464968 : ℤ) : ℝ) / 10 ^ 15, ((2938163982698783 : ℤ) : ℝ) / 10 ^ 15] (lit fp (-7784894002430293) 18)
      (((-7784894002430293 : ℤ) : ℝ) / 10 ^ 18) 8
      (by
        refine .cons (key _ _ ?_) (.cons (key _ _ ?_) (.cons (key _ _ ?_) (.cons (key _ _ ?_) (.cons (key _ _ ?_) .nil)))) <;>
          (push_cast; rw [abs_le]; constructor <;> norm_num))
      le_rfl (by norm_num)
      (lit_near hfp _ _ (M := 1) (by push_cast; rw [abs_le]; constructor <;> norm_num) (by norm_num) (by norm_num))
      (by push_cast; rw [abs_le]; constructor <;> norm_num)
    have e : hornerR (((-7784894002430293 : ℤ) : ℝ) / 10 ^ 18) [((-3223964580411365 : ℤ) : ℝ) / 10 ^ 16, ((-2400758277161838 : ℤ) : ℝ) / 10 ^ 15,
        ((-2549732539343734 : ℤ) : ℝ) / 10 ^ 15, ((4374664141464968 : ℤ) : ℝ) / 10 ^ 15, ((2938163982698783 : ℤ) : ℝ) / 10 ^ 15] t =
        ev tC t / 10 ^ 18 := by
      simp only [hornerR, List.foldl, ev, tC]
      push_cast
      ring
    rw [e] at this
    exact this.mono (by norm_num)
  · have := horner_tail hfp hx hz
      [lit fp 3224671290700398 16, lit fp 2445134137142996 15, lit fp 3754408661907416 15, .fin 1]
      [((3224671290700398 : ℤ) : ℝ) / 10 ^ 16, ((2445134137142996 : ℤ) : ℝ) / 10 ^ 15, ((3754408661907416 : ℤ) : ℝ) / 10 ^ 15, ((1 : ℚ) : ℝ)]
      (lit fp 7784695709041462 18) (((7784695709041462 : ℤ) : ℝ) / 10 ^ 18) 8
      (by
        refine .cons (key _ _ ?_) (.cons (key _ _ ?_) (.cons (key _ _ ?_) (.cons ⟨(near_self 1).mono (by norm_num), ?_⟩ .nil))) <;>
          (push_cast; rw [abs_le]; constructor <;> norm_num))
      le_rfl (by norm_num)
      (lit_near hfp _ _ (M := 1) (by push_cast; rw [abs_le]; constructor <;> norm_num) (by norm_num) (by norm_num))
      (by push_cast; rw [abs_le]; constructor <;> norm_num)
    have e : hornerR (((7784695709041462 : ℤ) : ℝ) / 10 ^ 18) [((3224671290700398 : ℤ) : ℝ) / 10 ^ 16, ((2445134137142996 : ℤ) : ℝ) / 10 ^ 15,
        ((3754408661907416 : ℤ) : ℝ) / 10 ^ 15, ((1 : ℚ) : ℝ)] t = ev tD t / 10 ^ 18 := by
      simp only [hornerR, List.foldl, ev, tD]
      push_cast
      ring
    rw [e] at this
    exact this.mono (by norm_num)

/-- The value at the start, in the tails. -/
theorem start_tail (hfp : fp.Good) (hl : Accurate fp lm atan1) {p : ℚ} (h0 : 1 / 2 ^ 33 ≤ (p : ℝ)) (h1 : (p : ℝ) ≤ 243 / 10000) :
    Near (fp.div (horner fp (cs fp) (fp.sqrt (fp.mul (.fin (-2)) (lm.log (.fin p)))))
      (horner fp (ds fp) (fp.sqrt (fp.mul (.fin (-2)) (lm.log (.fin p)))))) (tailF (tOf p)) (6 / 10 ^ 8) ∧
    Near (fp.div (FP.neg (horner fp (cs fp) (fp.sqrt (fp.mul (.fin (-2)) (lm.log (.fin p))))))
      (horner fp (ds fp) (fp.sqrt (fp.mul (.fin (-2)) (lm.log (.fin p)))))) (-tailF (tOf p)) (6 / 10 ^ 8) := by
  obtain ⟨f1, f2, f3⟩ := tOf_facts h0 h1
  obtain ⟨nC, nD⟩ := tail_polys hfp f1 f2 (tOf_near hfp hl h0 h1)
  have hD := tD_ge f1
  obtain ⟨r1, r2⟩ := tailF_range f1 (by linarith)
  have ec : ev tC (tOf p) / 10 ^ 18 / (ev tD (tOf p) / 10 ^ 18) = tailF (tOf p) := by
    unfold tailF
    have := tD_pos f1 (by linarith)
    field_simp
  have hQ : |tailF (tOf p)| ≤ 68 / 10 := by rw [abs_le]; constructor <;> linarith
  constructor
  · have := near_div hfp nC nD (Q := 68 / 10) (b := 10) (g := 58 / 10 ^ 9) (M := 7) (f := 6 / 10 ^ 8) (by rw [ec]; exact hQ)
      (by rw [abs_of_pos (by linarith)]; linarith) (by norm_num) (by norm_num) (by norm_num) (by norm_num) (by norm_num)
    rwa [ec] at this
  · have := near_div hfp (near_neg nC) nD (Q := 68 / 10) (b := 10) (g := 58 / 10 ^ 9) (M := 7) (f := 6 / 10 ^ 8)
      (by rw [neg_div, ec, abs_neg]; exact hQ)
      (by rw [abs_of_pos (by linarith)]; linarith) (by norm_num) (by norm_num) (by norm_num) (by norm_num) (by norm_num)
    rwa [neg_div, ec] at this

end Normal
end HL

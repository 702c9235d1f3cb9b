import Verif.Proof.IntegeriseRound

/-
Relative errors of sums, products and quotients of non-negative numbers, in any arithmetic with `FP.Good`.
-/

namespace HL
open Integerise
variable {fp : FP}

/-- one minus half a unit in the last place -/
def uu : ℚ := 1 - 1 / 2 ^ 53

theorem uu_pos : 0 < uu := by unfold uu; norm_num
theorem uu_le : uu ≤ 1 := by unfold uu; norm_num
theorem uu_pow_pos (k : Nat) : 0 < uu ^ k := pow_pos uu_pos k
theorem uu_pow_le (k : Nat) : uu ^ k ≤ 1 := pow_le_one₀ uu_pos.le uu_le

theorem uu_pow_ge (k : Nat) : 1 - (k : ℚ) / 2 ^ 53 ≤ uu ^ k := by
  have := one_add_mul_le_pow (a := (-(1 / 2 ^ 53) : ℚ)) (by norm_num) k
  unfold uu
  rw [sub_eq_add_neg (1 : ℚ) (1 / 2 ^ 53)]
  refine le_trans (le_of_eq ?_) this
  ring

theorem uu_half {k : Nat} (hk : k ≤ 2 ^ 52) : 1 / 2 ≤ uu ^ k := by
  refine le_trans ?_ (uu_pow_ge k)
  have : (k : ℚ) ≤ 2 ^ 52 := by exact_mod_cast hk
  linarith

/-- `x` and `y` agree up to `k` roundings -/
def Rel (k : Nat) (x y : ℚ) : Prop := uu ^ k * y ≤ x ∧ uu ^ k * x ≤ y

theorem Rel.mono {k l : Nat} {x y : ℚ} (h : Rel k x y) (hx : 0 ≤ x) (hy : 0 ≤ y) (hl : k ≤ l) : Rel l x y := by
  have := pow_le_pow_of_le_one uu_pos.le uu_le hl
  exact ⟨(mul_le_mul_of_nonneg_right this hy).trans h.1, (mul_le_mul_of_nonneg_right this hx).trans h.2⟩

theorem Rel.refl (x : ℚ) : Rel 0 x x := by simp [Rel]

theorem Rel.symm {k : Nat} {x y : ℚ} (h : Rel k x y) : Rel k y x := ⟨h.2, h.1⟩

theorem Rel.trans {k l : Nat} {x y z : ℚ} (h : Rel k x y) (h' : Rel l y z) : Rel (k + l) x z := by
  constructor
  · rw [pow_add, mul_assoc]
    exact (mul_le_mul_of_nonneg_left h'.1 (uu_pow_pos k).le).trans h.1
  · rw [pow_add, mul_comm (uu ^ k), mul_assoc]
    exact (mul_le_mul_of_nonneg_left h.2 (uu_pow_pos l).le).trans h'.2

theorem Rel.add {k : Nat} {x y x' y' : ℚ} (h : Rel k x y) (h' : Rel k x' y') : Rel k (x + x') (y + y') :=
  ⟨by rw [mul_add]; exact add_le_add h.1 h'.1, by rw [mul_add]; exact add_le_add h.2 h'.2⟩

theorem Rel.mul {k l : Nat} {x y x' y' : ℚ} (h : Rel k x y) (h' : Rel l x' y') (hx : 0 ≤ x) (hy : 0 ≤ y) (hx' : 0 ≤ x')
    (hy' : 0 ≤ y') : Rel (k + l) (x * x') (y * y') := by
  have e : ∀ a b : ℚ, uu ^ (k + l) * (a * b) = (uu ^ k * a) * (uu ^ l * b) := by intro a b; rw [pow_add]; ring
  exact ⟨by rw [e]; exact mul_le_mul h.1 h'.1 (mul_nonneg (uu_pow_pos l).le hy') hx,
    by rw [e]; exact mul_le_mul h.2 h'.2 (mul_nonneg (uu_pow_pos l).le hx') hy⟩

theorem Rel.inv {k : Nat} {x y : ℚ} (h : Rel k x y) (hx : 0 < x) (hy : 0 < y) : Rel k x⁻¹ y⁻¹ := by
  constructor
  · rw [← div_eq_mul_inv, div_le_iff₀ hy, inv_mul_eq_div, le_div_iff₀ hx]
    exact h.2
  · rw [← div_eq_mul_inv, div_le_iff₀ hx, inv_mul_eq_div, le_div_iff₀ hy]
    exact h.1

theorem Rel.div {k l : Nat} {x y x' y' : ℚ} (h : Rel k x y) (h' : Rel l x' y') (hx : 0 ≤ x) (hy : 0 ≤ y) (hx' : 0 < x')
    (hy' : 0 < y') : Rel (k + l) (x / x') (y / y') := by
  rw [div_eq_mul_inv, div_eq_mul_inv]
  exact h.mul (h'.inv hx' hy') hx hy (by positivity) (by positivity)

theorem Rel.nonneg {k : Nat} {x y : ℚ} (h : Rel k x y) (hy : 0 ≤ y) : 0 ≤ x :=
  le_trans (mul_nonneg (uu_pow_pos k).le hy) h.1

theorem Rel.zero_iff {k : Nat} {x y : ℚ} (h : Rel k x y) (hy : 0 ≤ y) : x = 0 ↔ y = 0 := by
  constructor
  · rintro rfl
    have := h.1
    have h2 : y ≤ 0 := by
      by_contra hc
      push Not at hc
      have := mul_pos (uu_pow_pos k) hc
      linarith
    linarith
  · rintro rfl
    have h1 := h.nonneg le_rfl
    have h2 := h.2
    by_contra hc
    have : 0 < x := lt_of_le_of_ne h1 (Ne.symm hc)
    have := mul_pos (uu_pow_pos k) this
    linarith

theorem Rel.upper {k : Nat} {x y : ℚ} (h : Rel k x y) (hk : k ≤ 2 ^ 52) (hx : 0 ≤ x) : x ≤ 2 * y := by
  have := mul_le_mul_of_nonneg_right (uu_half hk) hx
  have := h.2
  linarith

theorem Rel.lower {k : Nat} {x y : ℚ} (h : Rel k x y) (hk : k ≤ 2 ^ 52) (hy : 0 ≤ y) : y / 2 ≤ x := by
  have := mul_le_mul_of_nonneg_right (uu_half hk) hy
  have := h.1
  linarith

/-- Rounding a number in the normal range. -/
theorem rel_rnd (hfp : fp.Good) {q : ℚ} (h : q = 0 ∨ (tinyQ ≤ q ∧ q ≤ hugeQ)) : ∃ a, fp.rnd q = .fin a ∧ Rel 1 a q := by
  rcases h with rfl | ⟨h1, h2⟩
  · exact ⟨0, rnd_zero' hfp, by simp [Rel]⟩
  · have h0 : 0 < q := lt_of_lt_of_le tinyQ_pos h1
    have hh : 0 < hugeQ := lt_of_lt_of_le h0 h2
    obtain ⟨a, ha, hb⟩ := near' hfp q (by rwa [abs_of_pos h0]) (by rw [abs_of_pos h0]; linarith)
    refine ⟨a, ha, ?_⟩
    rw [abs_of_pos h0, abs_le] at hb
    unfold Rel uu
    rw [pow_one]
    constructor
    · linarith [hb.1]
    · have : a ≤ q * (1 + 1 / 2 ^ 53) := by linarith [hb.2]
      have h3 := mul_le_mul_of_nonneg_left this (show (0 : ℚ) ≤ 1 - 1 / 2 ^ 53 by norm_num)
      refine h3.trans ?_
      have : (1 - 1 / 2 ^ 53) * (q * (1 + 1 / 2 ^ 53)) = q - q / 2 ^ 106 := by ring
      rw [this]
      have : 0 ≤ q / 2 ^ 106 := by positivity
      linarith

/-- `x` and `y` agree up to `k` roundings and an absolute error of `e` -/
def RelA (k : Nat) (e x y : ℚ) : Prop := uu ^ k * y - e ≤ x ∧ uu ^ k * x - e ≤ y

theorem RelA.mono {k l : Nat} {e f x y : ℚ} (h : RelA k e x y) (hx : 0 ≤ x) (hy : 0 ≤ y) (hl : k ≤ l) (he : e ≤ f) :
    RelA l f x y := by
  have := pow_le_pow_of_le_one uu_pos.le uu_le hl
  have h1 := mul_le_mul_of_nonneg_right this hy
  have h2 := mul_le_mul_of_nonneg_right this hx
  exact ⟨by linarith [h.1], by linarith [h.2]⟩

theorem RelA.trans {k l : Nat} {e f x y z : ℚ} (h : RelA k e x y) (h' : RelA l f y z) (he : 0 ≤ e) (hf : 0 ≤ f) :
    RelA (k + l) (e + f) x z := by
  constructor
  · have h1 := mul_le_mul_of_nonneg_left h'.1 (uu_pow_pos k).le
    have h2 := mul_le_mul_of_nonneg_right (uu_pow_le k) hf
    have h3 : uu ^ (k + l) * z = uu ^ k * (uu ^ l * z) := by rw [pow_add, mul_assoc]
    rw [h3]
    have := h.1
    rw [mul_sub] at h1
    linarith
  · have h1 := mul_le_mul_of_nonneg_left h.2 (uu_pow_pos l).le
    have h2 := mul_le_mul_of_nonneg_right (uu_pow_le l) he
    have h3 : uu ^ (k + l) * x = uu ^ l * (uu ^ k * x) := by rw [pow_add, mul_comm (uu ^ k), mul_assoc]
    rw [h3]
    have := h'.2
    rw [mul_sub] at h1
    linarith

theorem RelA.add {k : Nat} {e f x y x' y' : ℚ} (h : RelA k e x y) (h' : RelA k f x' y') :
    RelA k (e + f) (x + x') (y + y') :=
  ⟨by rw [mul_add]; linarith [h.1, h'.1], by rw [mul_add]; linarith [h.2, h'.2]⟩

theorem RelA.scale {k : Nat} {e x y c : ℚ} (h : RelA k e x y) (hc : 0 ≤ c) : RelA k (e * c) (x * c) (y * c) := by
  have h1 := mul_le_mul_of_nonneg_right h.1 hc
  have h2 := mul_le_mul_of_nonneg_right h.2 hc
  constructor
  · refine le_trans (le_of_eq ?_) h1; ring
  · refine le_trans (le_of_eq ?_) h2; ring

/-- squares -/
theorem RelA.sq {k : Nat} {e x y M : ℚ} (h : RelA k e x y) (hx : 0 ≤ x) (hy : 0 ≤ y) (he : 0 ≤ e) (hxM : x ≤ M) (hyM : y ≤ M) :
    RelA (k + k) (2 * e * M) (x * x) (y * y) := by
  have key : ∀ a b : ℚ, 0 ≤ a → 0 ≤ b → b ≤ M → a ≤ M → uu ^ k * b - e ≤ a → uu ^ (k + k) * (b * b) - 2 * e * M ≤ a * a := by
    intro a b ha hb hbM haM h
    have hp := uu_pow_pos k
    have hc : 0 ≤ uu ^ k * b := mul_nonneg hp.le hb
    have hcb : uu ^ k * b ≤ b := by
      have := mul_le_mul_of_nonneg_right (uu_pow_le k) hb
      linarith
    have e1 : uu ^ (k + k) * (b * b) = (uu ^ k * b) * (uu ^ k * b) := by rw [pow_add]; ring
    rw [e1]
    have hcM := hcb.trans hbM
    generalize uu ^ k * b = c at *
    nlinarith [mul_le_mul_of_nonneg_left hcM he, mul_le_mul_of_nonneg_left haM he, mul_nonneg he ha]
  exact ⟨key x y hx hy hyM hxM h.1, key y x hy hx hxM hyM h.2⟩

theorem rnd_small (hfp : fp.Good) {q a : ℚ} (h0 : |q| ≤ tinyQ) (ha : fp.rnd q = .fin a) : |a| ≤ 2 * tinyQ := by
  have ht := tinyQ_pos
  have hb : tinyQ ≤ 2 * hugeQ := by have := tinyQ_le; have := hugeQ_ge; linarith
  obtain ⟨b, hb1, hb2⟩ := near' hfp tinyQ (by rw [abs_of_pos ht]) (by rwa [abs_of_pos ht])
  obtain ⟨c, hc1, hc2⟩ := near' hfp (-tinyQ) (by rw [abs_neg, abs_of_pos ht]) (by rwa [abs_neg, abs_of_pos ht])
  rw [abs_of_pos ht, abs_le] at hb2
  rw [abs_neg, abs_of_pos ht, abs_le] at hc2
  rw [abs_le] at h0
  have h1 := hfp.mono _ _ _ _ h0.2 ha hb1
  have h2 := hfp.mono _ _ _ _ h0.1 hc1 ha
  have h3 : tinyQ / 2 ^ 53 ≤ tinyQ := by
    rw [div_le_iff₀ (by positivity)]
    nlinarith
  rw [abs_le]
  constructor <;> linarith [hb2.2, hc2.1]

/-- Rounding any number that is not too large. -/
theorem relA_rnd (hfp : fp.Good) {q : ℚ} (h : |q| ≤ hugeQ) : ∃ a, fp.rnd q = .fin a ∧ RelA 1 (2 * tinyQ) |a| |q| ∧ (0 ≤ q → 0 ≤ a) := by
  have hh : 0 ≤ hugeQ := le_trans (abs_nonneg q) h
  have ht := tinyQ_pos
  have hpos : ∀ a, fp.rnd q = .fin a → 0 ≤ q → 0 ≤ a := fun a ha h0 => hfp.mono 0 q 0 a h0 (rnd_zero' hfp) ha
  by_cases hq : tinyQ ≤ |q|
  · obtain ⟨a, ha, hb⟩ := near' hfp q hq (by linarith)
    refine ⟨a, ha, ?_, hpos a ha⟩
    have h1 : |a| - |q| ≤ |q| / 2 ^ 53 := (abs_sub_abs_le_abs_sub a q).trans hb
    have h2 : |q| - |a| ≤ |q| / 2 ^ 53 := (abs_sub_abs_le_abs_sub q a).trans (by rw [abs_sub_comm]; exact hb)
    unfold RelA uu
    rw [pow_one]
    generalize |a| = x at *
    generalize |q| = y at *
    have hy : 0 ≤ y := ht.le.trans hq
    constructor
    · linarith
    · have : x ≤ y * (1 + 1 / 2 ^ 53) := by linarith
      have h3 := mul_le_mul_of_nonneg_left this (show (0 : ℚ) ≤ 1 - 1 / 2 ^ 53 by norm_num)
      have : (1 - 1 / 2 ^ 53) * (y * (1 + 1 / 2 ^ 53)) = y - y / 2 ^ 106 := by ring
      rw [this] at h3
      have : 0 ≤ y / 2 ^ 106 := by positivity
      linarith
  · push Not at hq
    obtain ⟨a, ha⟩ := finite' hfp q (by linarith)
    refine ⟨a, ha, ?_, hpos a ha⟩
    have := rnd_small hfp hq.le ha
    have h1 := abs_nonneg a
    have h2 := abs_nonneg q
    have h3 := mul_le_mul_of_nonneg_right uu_le h1
    have h4 := mul_le_mul_of_nonneg_right uu_le h2
    unfold RelA
    rw [pow_one]
    constructor <;> linarith

end HL

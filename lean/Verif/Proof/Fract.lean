import Verif.Proof.IntegeriseRound
import Verif.Proof.IPFWitness
import Mathlib.Algebra.Order.Floor.Ring
import Mathlib.Data.Rat.Floor

/-
The fraction of a double is a double, and a double below one is below one by a margin.
-/

namespace HL
namespace Integerise
variable {fp : FP}

/-- arithmetic in which remainders are computed exactly -/
structure Fine (fp : FP) : Prop where
  fract : ∀ a : ℚ, fp.rnd a = .fin a → 0 ≤ a → fp.rnd (Int.fract a) = .fin (Int.fract a)
  below : ∀ a : ℚ, fp.rnd a = .fin a → 0 ≤ a → a < 1 → ∃ b, fp.rnd (a - 1) = .fin b ∧ b < 0

theorem fine_exact (sqrt : Fl → Fl) : Fine ⟨Fl.fin, sqrt⟩ :=
  ⟨fun _ _ _ => rfl, fun a _ _ h => ⟨a - 1, rfl, by linarith⟩⟩

/-- the form of a double -/
theorem ieee_form {a : ℚ} (h : FP.rndIeee a = .fin a) (h0 : 0 ≤ a) :
    ∃ n t : ℤ, 0 ≤ n ∧ n ≤ 2 ^ 53 ∧ -1074 ≤ t ∧ a = n * (2 : ℚ) ^ t ∧ (1 / 2 < a → a < 1 → t = -53) := by
  rcases h0.eq_or_lt with rfl | hp
  · exact ⟨0, 0, le_rfl, by norm_num, by norm_num, by simp, by intro h; norm_num at h⟩
  · obtain ⟨h1, -⟩ := FP.fin_pos_bounds hp h
    obtain ⟨h2, h3⟩ := FP.rne_bound hp
    refine ⟨FP.rne (a / FP.ulp a), max (FP.ilog2 a) (-1022) - 52, h2, h3, by omega, h1, ?_⟩
    intro h4 h5
    have : FP.ilog2 a = -1 := FP.ilog2_unique (e := -1) (by norm_num; linarith) (by norm_num; exact h5)
    rw [this]
    rfl

theorem fract_scaled (n : ℤ) (k : ℕ) : Int.fract ((n : ℚ) / 2 ^ k) = ((n % 2 ^ k : ℤ) : ℚ) / 2 ^ k := by
  rw [Int.fract_eq_iff]
  have hk : (0 : ℚ) < 2 ^ k := by positivity
  have hk' : (0 : ℤ) < 2 ^ k := by positivity
  have h1 := Int.emod_nonneg n hk'.ne'
  have h2 := Int.emod_lt_of_pos n hk'
  refine ⟨div_nonneg (by exact_mod_cast h1) hk.le, ?_, ⟨n / 2 ^ k, ?_⟩⟩
  · rw [div_lt_one hk]; exact_mod_cast h2
  · have h3 := Int.emod_add_mul_ediv n (2 ^ k)
    have h4 : (n : ℚ) = ((n % 2 ^ k : ℤ) : ℚ) + 2 ^ k * ((n / 2 ^ k : ℤ) : ℚ) := by exact_mod_cast h3.symm
    rw [h4]
    field_simp
    ring

theorem fine_ieee (sqrt : Fl → Fl) : Fine (FP.ieee sqrt) := by
  have hg := FP.ieee_good sqrt
  constructor
  · intro a ha h0
    show FP.rndIeee (Int.fract a) = _
    obtain ⟨n, t, h1, h2, h3, h4, -⟩ := ieee_form ha h0
    rcases le_or_gt 0 t with ht | ht
    · obtain ⟨k, rfl⟩ := Int.eq_ofNat_of_zero_le ht
      have : Int.fract a = 0 := by
        rw [h4]
        have : (n : ℚ) * (2 : ℚ) ^ ((k : ℕ) : ℤ) = ((n * 2 ^ k : ℤ) : ℚ) := by push_cast; simp
        rw [this, Int.fract_intCast]
      rw [this]
      exact FP.rndIeee_zero
    · obtain ⟨k, rfl⟩ : ∃ k : ℕ, t = -(k : ℤ) := ⟨(-t).toNat, by omega⟩
      have e1 : a = (n : ℚ) / 2 ^ k := by rw [h4, zpow_neg, zpow_natCast]; rfl
      rw [e1, fract_scaled]
      have e2 : ((n % 2 ^ k : ℤ) : ℚ) / 2 ^ k = ((n % 2 ^ k : ℤ) : ℚ) * (2 : ℚ) ^ (-(k : ℤ)) := by
        rw [zpow_neg, zpow_natCast]; rfl
      rw [e2]
      have hk' : (0 : ℤ) < 2 ^ k := by positivity
      have h5 := Int.emod_nonneg n hk'.ne'
      have h6 : n % 2 ^ k ≤ n := by
        have h7 := Int.emod_add_mul_ediv n (2 ^ k)
        have h8 : 0 ≤ 2 ^ k * (n / 2 ^ k) := mul_nonneg hk'.le (Int.ediv_nonneg h1 hk'.le)
        omega
      exact ieee_int _ _ (by rw [abs_of_nonneg h5]; omega) h3 (by omega)
  · intro a ha h0 h1
    obtain ⟨b, hb⟩ := hg.finite (a - 1) (by
      rw [abs_of_neg (by linarith)]
      have : (1 : ℚ) ≤ 2 ^ 1023 := one_le_pow₀ (by norm_num)
      refine le_trans ?_ this
      linarith)
    refine ⟨b, hb, ?_⟩
    have key : a - 1 ≤ ((-1 : ℤ) : ℚ) / 2 ^ 53 := by
      rcases le_or_gt a (1 / 2) with h2 | h2
      · have : ((-1 : ℤ) : ℚ) / 2 ^ 53 ≥ -1 / 2 := by norm_num
        linarith
      · obtain ⟨n, t, -, -, -, h4, h5⟩ := ieee_form ha h0
        rw [h5 h2 h1] at h4
        have e1 : a = (n : ℚ) / 2 ^ 53 := by
          rw [h4, show (-53 : ℤ) = -((53 : ℕ) : ℤ) by norm_num, zpow_neg, zpow_natCast]; rfl
        have hn : n < 2 ^ 53 := by
          rw [e1, div_lt_one (by positivity)] at h1
          exact_mod_cast h1
        have : (n : ℚ) ≤ 2 ^ 53 - 1 := by
          have : n ≤ 2 ^ 53 - 1 := by omega
          exact_mod_cast this
        rw [e1]
        have : (n : ℚ) / 2 ^ 53 ≤ (2 ^ 53 - 1) / 2 ^ 53 := by gcongr
        norm_num at this ⊢
        linarith
    have := hg.mono _ _ _ _ key hb (hg.dyadic (-1) 53 (by norm_num) (by norm_num))
    refine lt_of_le_of_lt this ?_
    norm_num

end Integerise
end HL

import Verif.Model.SobolData
import Mathlib.Algebra.Polynomial.Monic
import Mathlib.Algebra.Polynomial.FieldDivision
import Mathlib.Algebra.Field.ZMod
import Mathlib.RingTheory.Coprime.Lemmas
import Mathlib.RingTheory.PrincipalIdealDomain
import Mathlib.Data.Nat.Bitwise
import Batteries.Data.Nat.Bitwise

/-
The polynomials of the Sobol table over the field with two elements: they are irreducible and different from one another.
-/

namespace HL
open Polynomial

/-- A bit as an element of the field with two elements. -/
def b2f (b : Bool) : ZMod 2 := if b then 1 else 0

theorem b2f_xor (a b : Bool) : b2f (a ^^ b) = b2f a + b2f b := by
  cases a <;> cases b <;> decide

theorem b2f_eq_zero {b : Bool} : b2f b = 0 ↔ b = false := by
  cases b <;> decide

theorem b2f_surj (x : ZMod 2) : x = b2f (decide (x = 1)) := by
  revert x; decide

/-- The polynomial with the bits of `a` as coefficients. -/
noncomputable def poly (a : Nat) : (ZMod 2)[X] := ∑ k ∈ Finset.range 32, C (b2f (a.testBit k)) * X ^ k

theorem coeff_poly {a : Nat} (h : a < 2 ^ 32) (k : Nat) : (poly a).coeff k = b2f (a.testBit k) := by
  unfold poly
  rw [Polynomial.finsetSum_coeff]
  simp only [Polynomial.coeff_C_mul, Polynomial.coeff_X_pow]
  by_cases hk : k < 32
  · rw [Finset.sum_eq_single k]
    · simp
    · intro j _ hj
      simp [Ne.symm hj]
    · intro hk'
      exact absurd (Finset.mem_range.mpr hk) hk'
  · have hb : a.testBit k = false :=
      Nat.testBit_lt_two_pow (lt_of_lt_of_le h (Nat.pow_le_pow_right (by omega) (by omega)))
    rw [hb]
    apply Finset.sum_eq_zero
    intro j hj
    have := Finset.mem_range.mp hj
    rw [if_neg (by omega)]
    simp

theorem poly_inj {a b : Nat} (ha : a < 2 ^ 32) (hb : b < 2 ^ 32) (h : poly a = poly b) : a = b := by
  apply Nat.eq_of_testBit_eq
  intro k
  have := congrArg (fun p => p.coeff k) h
  simp only [coeff_poly ha, coeff_poly hb] at this
  revert this
  cases a.testBit k <;> cases b.testBit k <;> decide

theorem poly_zero : poly 0 = 0 := by
  ext k
  rw [coeff_poly (by omega)]
  simp [b2f]

theorem poly_eq_zero {a : Nat} (ha : a < 2 ^ 32) (h : poly a = 0) : a = 0 :=
  poly_inj ha (by omega) (by rw [h, poly_zero])

theorem xor_lt' {a b n : Nat} (ha : a < 2 ^ n) (hb : b < 2 ^ n) : a ^^^ b < 2 ^ n := Nat.xor_lt_two_pow ha hb

theorem poly_xor {a b : Nat} (ha : a < 2 ^ 32) (hb : b < 2 ^ 32) : poly (a ^^^ b) = poly a + poly b := by
  ext k
  rw [coeff_poly (xor_lt' ha hb), Polynomial.coeff_add, coeff_poly ha, coeff_poly hb, Nat.testBit_xor, b2f_xor]

theorem poly_shift {b s : Nat} (hb : b < 2 ^ 32) (h : b <<< s < 2 ^ 32) : poly (b <<< s) = poly b * X ^ s := by
  ext k
  rw [coeff_poly h, Polynomial.coeff_mul_X_pow', Nat.testBit_shiftLeft]
  by_cases hk : s ≤ k
  · simp [hk, coeff_poly hb]
  · simp [hk, b2f]

theorem testBit_log2 {a : Nat} (h : a ≠ 0) : a.testBit (Nat.log2 a) = true := by
  rw [Nat.testBit_log2 h]

theorem natDegree_poly {a : Nat} (h0 : a ≠ 0) (h : a < 2 ^ 32) : (poly a).natDegree = Nat.log2 a := by
  apply Polynomial.natDegree_eq_of_le_of_coeff_ne_zero
  · rw [Polynomial.natDegree_le_iff_coeff_eq_zero]
    intro k hk
    rw [coeff_poly h, Nat.testBit_lt_two_pow, b2f]
    · simp
    · exact lt_of_lt_of_le (Nat.lt_log2_self (n := a)) (Nat.pow_le_pow_right (by omega) hk)
  · rw [coeff_poly h, testBit_log2 h0]
    decide

theorem monic_poly {a : Nat} (h0 : a ≠ 0) (h : a < 2 ^ 32) : (poly a).Monic := by
  unfold Polynomial.Monic Polynomial.leadingCoeff
  rw [natDegree_poly h0 h, coeff_poly h, testBit_log2 h0]
  rfl

/-! ### division -/

/-- The remainder of the division of `a` by `b`, as polynomials; `db` is the degree of `b` and `s` the number of bits by
which `a` is longer. -/
def clmod (b db s : Nat) : Nat → Nat :=
  Nat.rec (fun a => a) (fun s ih a => ih (cond (Nat.beq ((a >>> (db + s)) % 2) 1) (a ^^^ (b <<< s)) a)) s

theorem clmod_succ (b db s a : Nat) :
    clmod b db (s + 1) a = clmod b db s (if a.testBit (db + s) then a ^^^ (b <<< s) else a) := by
  show clmod b db s _ = _
  have h : Nat.beq ((a >>> (db + s)) % 2) 1 = a.testBit (db + s) := by
    rw [Nat.testBit_eq_decide_div_mod_eq, Nat.shiftRight_eq_div_pow, Bool.eq_iff_iff, Nat.beq_eq, decide_eq_true_eq]
  rw [h]
  cases a.testBit (db + s) <;> rfl

theorem lt_of_testBit_false {a n : Nat} (h : a < 2 ^ (n + 1)) (hb : a.testBit n = false) : a < 2 ^ n := by
  apply Nat.lt_pow_two_of_testBit
  intro i hi
  rcases Nat.eq_or_lt_of_le hi with rfl | hi
  · exact hb
  · exact Nat.testBit_lt_two_pow (lt_of_lt_of_le h (Nat.pow_le_pow_right (by omega) hi))

theorem clmod_spec {b db : Nat} (hb : b < 2 ^ (db + 1)) (hbit : b.testBit db = true) : ∀ (s a : Nat), db + s ≤ 32 →
    a < 2 ^ (db + s) → clmod b db s a < 2 ^ db ∧ ∃ q, poly a = poly (clmod b db s a) + poly b * q
  | 0, a, _, h => ⟨h, 0, by simp [clmod]⟩
  | s + 1, a, hs, h => by
    rw [clmod_succ]
    have hsh : b <<< s < 2 ^ (db + s + 1) := by
      rw [Nat.shiftLeft_eq, show db + s + 1 = (db + 1) + s by omega, Nat.pow_add]
      exact Nat.mul_lt_mul_of_pos_right hb (by positivity)
    have h32 : (2 : Nat) ^ (db + s + 1) ≤ 2 ^ 32 := Nat.pow_le_pow_right (by omega) (by omega)
    have hb32 : b < 2 ^ 32 := lt_of_lt_of_le hb (Nat.pow_le_pow_right (by omega) (by omega))
    have ha32 : a < 2 ^ 32 := lt_of_lt_of_le h h32
    by_cases ht : a.testBit (db + s) = true
    · rw [if_pos ht]
      have hlt : a ^^^ (b <<< s) < 2 ^ (db + s) := by
        apply lt_of_testBit_false (xor_lt' (by rw [← Nat.add_assoc] at h; exact h) hsh)
        rw [Nat.testBit_xor, ht, Nat.testBit_shiftLeft]
        simp [hbit]
      obtain ⟨h1, q, hq⟩ := clmod_spec hb hbit s _ (by omega) hlt
      refine ⟨h1, q + X ^ s, ?_⟩
      have hx := poly_xor ha32 (lt_of_lt_of_le hsh h32)
      rw [poly_shift hb32 (lt_of_lt_of_le hsh h32)] at hx
      have h2 : poly b * X ^ s + poly b * X ^ s = 0 := by
        rw [← two_mul, show (2 : (ZMod 2)[X]) = 0 from CharTwo.two_eq_zero, zero_mul]
      calc poly a = poly a + (poly b * X ^ s + poly b * X ^ s) := by rw [h2, add_zero]
        _ = poly (a ^^^ (b <<< s)) + poly b * X ^ s := by rw [hx]; ring
        _ = _ := by rw [hq]; ring
    · rw [if_neg ht]
      exact clmod_spec hb hbit s a (by omega) (lt_of_testBit_false (by rw [← Nat.add_assoc] at h; exact h) (by simpa using ht))

/-- Does `b` divide `a`, as polynomials? -/
def cldvd (b a : Nat) : Bool := Nat.beq (clmod b (Nat.log2 b) (Nat.log2 a + 1 - Nat.log2 b) a) 0

theorem cldvd_iff {a b : Nat} (hb0 : b ≠ 0) (hle : b ≤ a) (h : a < 2 ^ 31) : cldvd b a = true ↔ poly b ∣ poly a := by
  have ha0 : a ≠ 0 := by omega
  have hlog31 : Nat.log2 a < 31 := (Nat.log2_lt ha0).mpr h
  have hlog : Nat.log2 b ≤ Nat.log2 a := by
    rw [Nat.le_log2 ha0]; exact le_trans (Nat.log2_self_le hb0) hle
  obtain ⟨h1, q, hq⟩ := clmod_spec (b := b) (db := Nat.log2 b) Nat.lt_log2_self (testBit_log2 hb0)
    (Nat.log2 a + 1 - Nat.log2 b) a (by omega) (by
      rw [show Nat.log2 b + (Nat.log2 a + 1 - Nat.log2 b) = Nat.log2 a + 1 by omega]
      exact Nat.lt_log2_self)
  have hr32 : clmod b (Nat.log2 b) (Nat.log2 a + 1 - Nat.log2 b) a < 2 ^ 32 :=
    lt_of_lt_of_le h1 (Nat.pow_le_pow_right (by omega) (by omega))
  unfold cldvd
  generalize clmod b (Nat.log2 b) (Nat.log2 a + 1 - Nat.log2 b) a = r at *
  rw [Nat.beq_eq]
  constructor
  · rintro rfl
    rw [hq, poly_zero, zero_add]
    exact Dvd.intro _ rfl
  · intro hdvd
    have hdr : poly b ∣ poly r := by
      have : poly b ∣ poly r + poly b * q := hq ▸ hdvd
      exact (dvd_add_left (Dvd.intro _ rfl)).mp this
    by_contra hr
    have hdeg' := Polynomial.natDegree_le_of_dvd hdr (fun h => hr (poly_eq_zero hr32 h))
    rw [natDegree_poly hb0 (by omega), natDegree_poly hr hr32] at hdeg'
    have := (Nat.log2_lt hr).mpr h1
    omega

theorem exists_poly {q : (ZMod 2)[X]} {n : Nat} (hq : q.natDegree ≤ n) (hn : n < 32) : ∃ b < 2 ^ (n + 1), poly b = q := by
  refine ⟨Nat.ofBits (n := n + 1) (fun k => decide (q.coeff k = 1)), Nat.ofBits_lt_two_pow _, ?_⟩
  have hlt : Nat.ofBits (n := n + 1) (fun k => decide (q.coeff k = 1)) < 2 ^ 32 :=
    lt_of_lt_of_le (Nat.ofBits_lt_two_pow _) (Nat.pow_le_pow_right (by omega) (by omega))
  ext k
  rw [coeff_poly hlt]
  by_cases hk : k < n + 1
  · rw [Nat.testBit_ofBits_lt _ _ hk]
    exact (b2f_surj _).symm
  · rw [Nat.testBit_ofBits_ge _ _ (by omega), Polynomial.coeff_eq_zero_of_natDegree_lt (by omega)]
    rfl

/-- The irreducible polynomials of degree at most 6. -/
def smallIrr : List Nat :=
  [2, 3, 7, 11, 13, 19, 25, 31, 37, 41, 47, 55, 59, 61, 67, 73, 87, 91, 97, 103, 109, 115, 117]

/-- Every other polynomial of degree 1 to 6 has one of them as a proper divisor. -/
theorem smallIrr_complete : ∀ b < 128, 2 ≤ b → b ∈ smallIrr ∨ ∃ c ∈ smallIrr, c < b ∧ Nat.log2 c < Nat.log2 b ∧ cldvd c b = true := by
  decide +kernel

theorem mem_smallIrr {b : Nat} (h2 : 2 ≤ b) (h : b < 128) (hb : Irreducible (poly b)) : b ∈ smallIrr := by
  rcases smallIrr_complete b h h2 with hm | ⟨c, hc, hlt, hlog, hd⟩
  · exact hm
  · exfalso
    have hc2 : 2 ≤ c := (by decide : ∀ c ∈ smallIrr, 2 ≤ c) c hc
    have hdvd := (cldvd_iff (by omega) hlt.le (by omega)).mp hd
    obtain ⟨q, hq⟩ := hdvd
    have hdb := natDegree_poly (a := b) (by omega) (by omega)
    have hdc := natDegree_poly (a := c) (by omega) (by omega)
    have hlc : 1 ≤ Nat.log2 c := by rw [Nat.le_log2 (by omega)]; omega
    rcases hb.isUnit_or_isUnit hq with hu | hu
    · have := Polynomial.natDegree_eq_zero_of_isUnit hu
      omega
    · have h0 := Polynomial.natDegree_eq_zero_of_isUnit hu
      have := congrArg Polynomial.natDegree hq
      rw [Polynomial.natDegree_mul (monic_poly (by omega) (by omega)).ne_zero hu.ne_zero] at this
      omega

/-- No polynomial of at most half the degree divides `a`. -/
def irrCheck (a : Nat) : Bool := smallIrr.all fun b => !(Nat.ble (b + 1) a && cldvd b a)

theorem irrCheck_sound {a : Nat} (h2 : 2 ≤ a) (h : a < 2 ^ 14) (hc : irrCheck a = true) : Irreducible (poly a) := by
  have h32 : a < 2 ^ 32 := by omega
  have ha0 : a ≠ 0 := by omega
  have hlog : 1 ≤ Nat.log2 a := by
    rw [Nat.le_log2 ha0]; omega
  have hlog14 : Nat.log2 a < 14 := (Nat.log2_lt ha0).mpr h
  rw [(monic_poly ha0 h32).irreducible_iff_lt_natDegree_lt]
  · intro q hq hdeg hdvd
    rw [natDegree_poly ha0 h32, Finset.mem_Ioc] at hdeg
    obtain ⟨p, hp, hpq⟩ := WfDvdMonoid.exists_irreducible_factor (Polynomial.not_isUnit_of_natDegree_pos q hdeg.1) hq.ne_zero
    have hdp : p.natDegree ≤ 6 := by
      have := Polynomial.natDegree_le_of_dvd hpq hq.ne_zero
      omega
    obtain ⟨b, hb, rfl⟩ := exists_poly hdp (by omega)
    have hb2 : 2 ≤ b := by
      by_contra hlt
      have : b = 0 ∨ b = 1 := by omega
      rcases this with rfl | rfl
      · exact hp.ne_zero poly_zero
      · have := hp.natDegree_pos
        rw [natDegree_poly (by omega) (by omega)] at this
        have : Nat.log2 1 = 0 := by decide
        omega
    have hm := mem_smallIrr hb2 hb hp
    have hba : b < a := by
      have h1 := Polynomial.natDegree_le_of_dvd hpq hq.ne_zero
      rw [natDegree_poly (by omega) (by omega)] at h1
      have h3 : Nat.log2 b < Nat.log2 a := by omega
      calc b < 2 ^ (Nat.log2 b + 1) := Nat.lt_log2_self
        _ ≤ 2 ^ Nat.log2 a := Nat.pow_le_pow_right (by omega) h3
        _ ≤ a := Nat.log2_self_le ha0
    have := List.all_eq_true.mp hc b hm
    have hd := (cldvd_iff (by omega) hba.le (by omega)).mpr (hpq.trans hdvd)
    rw [hd] at this
    have hble : Nat.ble (b + 1) a = true := Nat.ble_eq.mpr hba
    rw [hble] at this
    simp at this
  · intro h1
    have := natDegree_poly ha0 h32
    rw [h1] at this
    simp at this
    omega

/-! ### the table -/

theorem sobolA_irr1 : (sobolA.take 300).all irrCheck = true := by decide +kernel
theorem sobolA_irr2 : ((sobolA.drop 300).take 300).all irrCheck = true := by decide +kernel
theorem sobolA_irr3 : ((sobolA.drop 600).take 300).all irrCheck = true := by decide +kernel
theorem sobolA_irr4 : (sobolA.drop 900).all irrCheck = true := by decide +kernel

theorem sobolA_irr : ∀ a ∈ sobolA, irrCheck a = true := by
  intro a ha
  rw [← List.take_append_drop 300 sobolA, List.mem_append] at ha
  rcases ha with ha | ha
  · exact List.all_eq_true.mp sobolA_irr1 a ha
  rw [← List.take_append_drop 300 (sobolA.drop 300), List.mem_append, List.drop_drop] at ha
  rcases ha with ha | ha
  · exact List.all_eq_true.mp sobolA_irr2 a ha
  rw [← List.take_append_drop 300 (sobolA.drop (300 + 300)), List.mem_append, List.drop_drop] at ha
  rcases ha with ha | ha
  · exact List.all_eq_true.mp sobolA_irr3 a ha
  · exact List.all_eq_true.mp sobolA_irr4 a ha

/-- No number occurs twice, nor is it a bit of `seen`. -/
def distinctCheck : List Nat → Nat → Bool
  | [], _ => true
  | a :: as, seen => !seen.testBit a && distinctCheck as (seen ||| 1 <<< a)

theorem distinctCheck_sound : ∀ (l : List Nat) (seen : Nat), distinctCheck l seen = true →
    l.Nodup ∧ ∀ a ∈ l, seen.testBit a = false
  | [], _, _ => by simp
  | a :: l, seen, h => by
    simp only [distinctCheck, Bool.and_eq_true, Bool.not_eq_true'] at h
    obtain ⟨h1, h2⟩ := distinctCheck_sound l _ h.2
    have h3 : ∀ b ∈ l, seen.testBit b = false ∧ b ≠ a := by
      intro b hb
      have := h2 b hb
      rw [Nat.testBit_or, Bool.or_eq_false_iff] at this
      refine ⟨this.1, ?_⟩
      rintro rfl
      have h4 := this.2
      rw [Nat.testBit_shiftLeft] at h4
      simp at h4
    refine ⟨List.nodup_cons.mpr ⟨fun hm => (h3 a hm).2 rfl, h1⟩, ?_⟩
    intro b hb
    rcases List.mem_cons.mp hb with rfl | hb
    · exact h.1
    · exact (h3 b hb).1

theorem sobolA_distinct : sobolA.Nodup := (distinctCheck_sound sobolA 0 (by decide +kernel)).1

end HL

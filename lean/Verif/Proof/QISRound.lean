import Verif.Proof.RelErr
import Verif.Proof.QISFull
import Verif.Proof.MicroInt

/-
The expectation and the chi-squared statistic of `qis` in rounded arithmetic.
-/

namespace HL
open Integerise
variable {fp : FP}

/-- `2^800` -/
@[irreducible] def bigQ : ℚ := 2 ^ 800

theorem bigQ_eq : bigQ = 2 ^ 800 := by unfold bigQ; rfl

theorem bigQ_pos : 0 < bigQ := by rw [bigQ_eq]; positivity

theorem big_one : 1 ≤ bigQ := by rw [bigQ_eq]; exact one_le_pow₀ (by norm_num)

/-- `2^200 * 2^800` is far below the largest number -/
theorem big_huge : bigQ * 2 ^ 200 ≤ hugeQ := by
  rw [bigQ_eq, hugeQ_eq, ← pow_add]
  exact pow_le_pow_right₀ (by norm_num) (by norm_num)

/-- and `1 / (2^200 * 2^800)` far above the smallest -/
theorem big_tiny : tinyQ * (bigQ * 2 ^ 200) ≤ 1 := by
  rw [bigQ_eq, tinyQ_eq, ← pow_add, zpow_neg, inv_mul_le_iff₀ (by positivity), mul_one]
  exact_mod_cast pow_le_pow_right₀ (show (1 : ℚ) ≤ 2 by norm_num) (show 800 + 200 ≤ 1022 by norm_num)

theorem norm_range {q c : ℚ} (h1 : 1 ≤ q * c) (hc : 0 < c) (hcb : c ≤ bigQ * 2 ^ 200) (h2 : q ≤ bigQ * 2 ^ 200) :
    tinyQ ≤ q ∧ q ≤ hugeQ := by
  refine ⟨?_, h2.trans big_huge⟩
  have ht := tinyQ_pos
  have h3 : tinyQ * c ≤ 1 := (mul_le_mul_of_nonneg_left hcb ht.le).trans big_tiny
  exact le_of_mul_le_mul_right (h3.trans h1) hc

/-- The product of the marginals at a cell. -/
theorem stateVal_fold (hfp : fp.Good) {pop : Int} (h1 : 1 ≤ pop) (hpop : pop < 2 ^ 52) (v : List Int) : ∀ (Q : Prob Int) (k : Nat) (a y : ℚ),
    (∀ p ∈ Q, 0 ≤ p.2 (proj p.1 v) ∧ p.2 (proj p.1 v) ≤ pop) → k + Q.length ≤ 2 ^ 52 → Rel k a y → (y = 0 ∨ 1 ≤ y) →
    y * (pop : ℚ) ^ Q.length ≤ bigQ →
    ∃ b, Q.foldl (fun x p => fp.mul x (fp.ofInt (p.2 (proj p.1 v)))) (.fin a) = .fin b ∧
      Rel (k + Q.length) b (y * productAt Q v) ∧ (y * productAt Q v = 0 ∨ 1 ≤ y * productAt Q v)
  | [], k, a, y, _, _, h, hy, _ => ⟨a, rfl, by simpa [productAt] using h, by simpa [productAt] using hy⟩
  | p :: Q, k, a, y, hQ, hk, h, hy, hb => by
    obtain ⟨hg0, hg1⟩ := hQ p (by simp)
    simp only [List.foldl_cons, List.length_cons] at *
    have hy0 : 0 ≤ y := by rcases hy with rfl | hy <;> linarith
    have ha0 := h.nonneg hy0
    have hofi : fp.ofInt (p.2 (proj p.1 v)) = .fin (p.2 (proj p.1 v)) := ofInt_exact hfp (by rw [abs_of_nonneg hg0]; omega)
    rw [hofi]
    have hp1 : (1 : ℚ) ≤ pop := by exact_mod_cast h1
    have hprod : productAt (p :: Q) v = (p.2 (proj p.1 v) : ℚ) * productAt Q v := by simp [productAt]
    generalize hgg : p.2 (proj p.1 v) = g at *
    have hgq0 : (0 : ℚ) ≤ g := by exact_mod_cast hg0
    have hgq1 : (g : ℚ) ≤ pop := by exact_mod_cast hg1
    have hyg : y * g = 0 ∨ 1 ≤ y * g := by
      rcases hy with rfl | hy
      · left; simp
      · rcases eq_or_lt_of_le hg0 with h | h
        · left; rw [← h]; simp
        · right
          have : (1 : ℚ) ≤ g := by exact_mod_cast h
          nlinarith
    have hb' : y * g * (pop : ℚ) ^ Q.length ≤ bigQ := by
      refine le_trans ?_ hb
      rw [pow_succ', ← mul_assoc]
      apply mul_le_mul_of_nonneg_right _ (by positivity)
      exact mul_le_mul_of_nonneg_left hgq1 hy0
    have hyb : y * g ≤ bigQ := by
      refine le_trans ?_ hb'
      have := one_le_pow₀ hp1 (n := Q.length)
      have : 0 ≤ y * g := mul_nonneg hy0 hgq0
      nlinarith
    have hrel : Rel k (a * g) (y * g) := by
      have := h.mul (Rel.refl (g : ℚ)) ha0 hy0 hgq0 hgq0
      simpa using this
    have hag0 : 0 ≤ a * g := mul_nonneg ha0 hgq0
    have hyg0 : 0 ≤ y * g := mul_nonneg hy0 hgq0
    obtain ⟨b, hb1, hb2⟩ := rel_rnd hfp (q := a * g) (by
      rcases hyg with h0 | h0
      · left; exact (hrel.zero_iff hyg0).mpr h0
      · right
        have := hrel.lower (by omega) hyg0
        have := hrel.upper (by omega) hag0
        have := big_one
        have : bigQ * 2 ≤ bigQ * 2 ^ 200 := mul_le_mul_of_nonneg_left (by norm_num) bigQ_pos.le
        exact norm_range (c := 2) (by linarith) (by norm_num) (by linarith) (by linarith))
    obtain ⟨c, hc1, hc2, hc3⟩ := stateVal_fold hfp h1 hpop v Q (k + 1) b (y * g) (fun q hq => hQ q (by simp [hq])) (by omega)
      (by have := hb2.trans hrel; rwa [Nat.add_comm] at this) hyg hb'
    refine ⟨c, ?_, ?_, ?_⟩
    · rw [← hc1]
      show List.foldl _ (fp.rnd (a * g)) Q = _
      rw [hb1]
    · rw [hprod, ← mul_assoc]
      rwa [show k + (Q.length + 1) = k + 1 + Q.length by omega]
    · rw [hprod, ← mul_assoc]; exact hc3

/-- the sum of the products -/
theorem sum_fold (hfp : fp.Good) {K : Nat} {B : ℚ} {f : List Int → Fl} {y : List Int → ℚ} : ∀ (vs : List (List Int)) (k : Nat) (a z : ℚ),
    (∀ v ∈ vs, ∃ x, f v = .fin x ∧ Rel K x (y v) ∧ (y v = 0 ∨ 1 ≤ y v) ∧ y v ≤ B) → K ≤ k → k + vs.length ≤ 2 ^ 52 →
    Rel k a z → (z = 0 ∨ 1 ≤ z) → z + vs.length * B ≤ bigQ →
    ∃ b, vs.foldl (fun acc v => fp.add acc (f v)) (.fin a) = .fin b ∧ Rel (k + vs.length) b (z + (vs.map y).sum)
  | [], k, a, z, _, _, _, h, _, _ => ⟨a, rfl, by simpa using h⟩
  | v :: vs, k, a, z, hv, hK, hk, h, hz, hb => by
    obtain ⟨x, hx, hr, hy, hyB⟩ := hv v (by simp)
    simp only [List.foldl_cons, List.length_cons, List.map_cons, List.sum_cons] at *
    have hz0 : 0 ≤ z := by rcases hz with rfl | hz <;> linarith
    have hy0 : 0 ≤ y v := by rcases hy with h | h <;> linarith
    have ha0 := h.nonneg hz0
    have hx0 := hr.nonneg hy0
    have hs : Rel k (a + x) (z + y v) := h.add (hr.mono hx0 hy0 hK)
    have hs0 : 0 ≤ z + y v := by linarith
    have hBp : 0 ≤ B := hy0.trans hyB
    have hsb : z + y v ≤ bigQ := by
      refine le_trans ?_ hb
      push_cast
      have : 0 ≤ (vs.length : ℚ) * B := by positivity
      nlinarith
    have hzy : z + y v = 0 ∨ 1 ≤ z + y v := by
      rcases hz with h | h
      · rcases hy with h' | h'
        · left; linarith
        · right; linarith
      · right; linarith
    obtain ⟨b, hb1, hb2⟩ := rel_rnd hfp (q := a + x) (by
      rcases hzy with h0 | h0
      · left; exact (hs.zero_iff hs0).mpr h0
      · right
        have := hs.lower (by omega) hs0
        have := hs.upper (by omega) (by linarith)
        have := big_one
        have : bigQ * 2 ≤ bigQ * 2 ^ 200 := mul_le_mul_of_nonneg_left (by norm_num) bigQ_pos.le
        exact norm_range (c := 2) (by linarith) (by norm_num) (by linarith) (by linarith))
    obtain ⟨c, hc1, hc2⟩ := sum_fold hfp vs (k + 1) b (z + y v) (fun w hw => hv w (by simp [hw])) (by omega) (by omega)
      (by have := hb2.trans hs; rwa [Nat.add_comm] at this) hzy (by
        push_cast at hb
        linarith)
    refine ⟨c, ?_, ?_⟩
    · rw [← hc1, hx]
      show List.foldl _ (fp.rnd (a + x)) vs = _
      rw [hb1]
    · rw [← add_assoc z]
      rwa [show k + (vs.length + 1) = k + 1 + vs.length by omega]

/-- The exact expectation. -/
def exactExp (s : List Nat) (P : Prob Int) (pop : Int) (v : List Int) : ℚ :=
  productAt P v * (pop / ∑ w ∈ cells s, productAt P w)

theorem entry_le {s : List Nat} {P : Prob Int} {pop : Int} (h : ProbOK s P pop) {p} (hp : p ∈ P) {j} (hj : InRange (projSizes p.1 s) j) :
    p.2 j ≤ pop := by
  rw [← h.total p hp]
  exact Finset.single_le_sum (fun i hi => h.nonneg p hp i (mem_cells.mp hi)) (mem_cells.mpr hj)

theorem productAt_le {pop : Int} (h1 : 1 ≤ pop) (v : List Int) : ∀ (Q : Prob Int), (∀ p ∈ Q, 0 ≤ p.2 (proj p.1 v) ∧ p.2 (proj p.1 v) ≤ pop) →
    0 ≤ productAt Q v ∧ productAt Q v ≤ (pop : ℚ) ^ Q.length
  | [], _ => by simp [productAt]
  | p :: Q, h => by
    obtain ⟨i1, i2⟩ := productAt_le h1 v Q (fun q hq => h q (by simp [hq]))
    obtain ⟨g0, g1⟩ := h p (by simp)
    have hprod : productAt (p :: Q) v = (p.2 (proj p.1 v) : ℚ) * productAt Q v := by simp [productAt]
    have g0 : (0 : ℚ) ≤ p.2 (proj p.1 v) := by exact_mod_cast g0
    have g1 : (p.2 (proj p.1 v) : ℚ) ≤ pop := by exact_mod_cast g1
    rw [hprod, List.length_cons, pow_succ']
    exact ⟨mul_nonneg g0 i1, mul_le_mul g1 i2 i1 (g0.trans g1)⟩

theorem expectedVal_rel (hfp : fp.Good) {s : List Nat} {P : Prob Int} {pop : Int} (h : ProbOK s P pop) (h1 : 1 ≤ pop)
    (hpop : pop < 2 ^ 52) (hc : ∃ v, InRange s v ∧ ∀ p ∈ P, 0 < p.2 (proj p.1 v))
    (hbig : (pop : ℚ) ^ P.length * prodSizes s ≤ bigQ) (hsz : 2 * P.length + prodSizes s + 2 ≤ 2 ^ 52) {v : List Int}
    (hv : InRange s v) :
    ∃ E, expectedVal fp s P pop v = .fin E ∧ Rel (2 * P.length + prodSizes s + 2) E (exactExp s P pop v) ∧
      (productAt P v = 0 ∨ 1 ≤ E * (bigQ * 16)) := by
  have hpq : (1 : ℚ) ≤ pop := by exact_mod_cast h1
  have hent : ∀ w, InRange s w → ∀ p ∈ P, 0 ≤ p.2 (proj p.1 w) ∧ p.2 (proj p.1 w) ≤ pop := by
    intro w hw p hp
    have := inRange_proj (h.dims p hp).2 hw
    exact ⟨h.nonneg p hp _ this, entry_le h hp this⟩
  have hN : (allIdx s).length = prodSizes s := length_allIdx s
  have hNpos : 0 < prodSizes s := by
    rw [← hN]
    exact List.length_pos_of_mem (mem_allIdx.mpr hv)
  have hN1 : (1 : ℚ) ≤ prodSizes s := by exact_mod_cast hNpos
  have hPk : (1 : ℚ) ≤ (pop : ℚ) ^ P.length := one_le_pow₀ hpq
  have hpb : (pop : ℚ) ^ P.length ≤ bigQ := le_trans (by nlinarith) hbig
  have hst : ∀ w, InRange s w → ∃ x, stateVal fp P w = .fin x ∧ Rel P.length x (productAt P w) ∧
      (productAt P w = 0 ∨ 1 ≤ productAt P w) ∧ productAt P w ≤ (pop : ℚ) ^ P.length := by
    intro w hw
    obtain ⟨b, hb1, hb2, hb3⟩ := stateVal_fold hfp h1 hpop w P 0 1 1 (hent w hw) (by omega) (Rel.refl 1) (Or.inr le_rfl) (by rwa [one_mul])
    rw [Nat.zero_add, one_mul] at hb2
    rw [one_mul] at hb3
    exact ⟨b, hb1, hb2, hb3, (productAt_le h1 w P (hent w hw)).2⟩
  obtain ⟨T, hT1, hT2⟩ := sum_fold hfp (allIdx s) P.length 0 0 (fun w hw => hst w (mem_allIdx.mp hw)) le_rfl (by omega)
    (by simp [Rel]) (Or.inl rfl) (by rw [hN]; linarith)
  rw [zero_add, sum_allIdx, hN] at hT2
  set S := ∑ w ∈ cells s, productAt P w with hS
  have hS1 : 1 ≤ S := by
    obtain ⟨w, hw, hwp⟩ := hc
    refine le_trans ?_ (Finset.single_le_sum (fun i hi => (productAt_le h1 i P (hent i (mem_cells.mp hi))).1) (mem_cells.mpr hw))
    obtain ⟨-, -, -, h3, -⟩ := hst w hw
    rcases h3 with h3 | h3
    · rw [productAt_eq_zero] at h3
      obtain ⟨p, hp, hp0⟩ := h3
      exact absurd hp0 (hwp p hp).ne'
    · exact h3
  have hSB : S ≤ bigQ := by
    refine le_trans ?_ hbig
    rw [hS]
    refine (Finset.sum_le_card_nsmul _ _ ((pop : ℚ) ^ P.length) (fun w hw => (productAt_le h1 w P (hent w (mem_cells.mp hw))).2)).trans ?_
    rw [nsmul_eq_mul, mul_comm]
    apply mul_le_mul_of_nonneg_left _ (by linarith)
    have : (cells s).card = prodSizes s := by
      unfold cells
      rw [List.toFinset_card_of_nodup (nodup_allIdx s), length_allIdx]
    rw [this]
  have hTl := hT2.lower (by omega) (by linarith)
  have hT0 : 0 < T := by linarith
  have hTu := hT2.upper (by omega) hT0.le
  have hpopd : (pop : ℚ) ≤ 2 ^ 52 := by exact_mod_cast hpop.le
  have hbp := bigQ_pos
  have hb1 := big_one
  have hq : Rel (P.length + prodSizes s) (pop / T) (pop / S) := by
    have := (Rel.refl (pop : ℚ)).div hT2 (by linarith) (by linarith) hT0 (by linarith)
    rwa [Nat.zero_add] at this
  have hqT : 1 ≤ (pop : ℚ) / T * (bigQ * 2) := by
    rw [div_mul_eq_mul_div, le_div_iff₀ hT0]
    nlinarith
  have hqU : (pop : ℚ) / T ≤ 2 ^ 53 := by
    rw [div_le_iff₀ hT0]
    linarith
  have big200 : bigQ * 2 ≤ bigQ * 2 ^ 200 := mul_le_mul_of_nonneg_left (by norm_num) bigQ_pos.le
  have big200' : bigQ * 8 ≤ bigQ * 2 ^ 200 := mul_le_mul_of_nonneg_left (by norm_num) bigQ_pos.le
  have big53 : 2 ^ 53 ≤ bigQ * 2 ^ 200 := by
    have := mul_le_mul_of_nonneg_right hb1 (show (0 : ℚ) ≤ 2 ^ 200 by positivity)
    refine le_trans ?_ this
    norm_num
  obtain ⟨c, hc1, hc2⟩ := rel_rnd hfp (Or.inr (norm_range hqT (by linarith) big200 (by linarith)))
  have hq0 : 0 ≤ (pop : ℚ) / T := by positivity
  have hc0 := hc2.nonneg hq0
  have hcl := hc2.lower (by norm_num) hq0
  have hcu := hc2.upper (by norm_num) hc0
  obtain ⟨x, hx, hxr, hx3, hx4⟩ := hst v hv
  have hp0 := (productAt_le h1 v P (hent v hv)).1
  have hx0 := hxr.nonneg hp0
  have hm : Rel (2 * P.length + prodSizes s + 1) (x * c) (exactExp s P pop v) := by
    have := hxr.mul (hc2.trans hq) hx0 hp0 hc0 (by positivity)
    rwa [show P.length + (1 + (P.length + prodSizes s)) = 2 * P.length + prodSizes s + 1 by omega] at this
  have hE0 : 0 ≤ exactExp s P pop v := by unfold exactExp; positivity
  have hxc0 : 0 ≤ x * c := mul_nonneg hx0 hc0
  have hxc : x * c = 0 ∨ 1 ≤ x * c * (bigQ * 8) := by
    rcases hx3 with h | h
    · left; rw [(hxr.zero_iff hp0).mpr h, zero_mul]
    · right
      have := hxr.lower (by omega) hp0
      have h4 : 1 / 2 ≤ x := by linarith
      have h5 : 1 ≤ c * (bigQ * 4) := by nlinarith
      nlinarith
  have hxcU : x * c ≤ bigQ * 2 ^ 200 := by
    have := hxr.upper (by omega) hx0
    have h6 : x ≤ 2 * bigQ := by linarith
    have h7 : c ≤ 2 ^ 54 := by linarith
    calc x * c ≤ (2 * bigQ) * 2 ^ 54 := mul_le_mul h6 h7 hc0 (by linarith)
      _ = bigQ * 2 ^ 55 := by ring
      _ ≤ _ := mul_le_mul_of_nonneg_left (by norm_num) hbp.le
  obtain ⟨E, hE1, hE2⟩ := rel_rnd hfp (q := x * c) (by
    rcases hxc with h | h
    · left; exact h
    · right; exact norm_range h (by linarith) big200' hxcU)
  refine ⟨E, ?_, ?_, ?_⟩
  · unfold expectedVal
    rw [hx, hT1, ofInt_exact hfp (by rw [abs_of_nonneg (by omega)]; omega)]
    show fp.mul (.fin x) (if T = 0 then _ else fp.rnd (pop / T)) = _
    rw [if_neg hT0.ne', hc1]
    exact hE1
  · have := hE2.trans hm
    rwa [show 1 + (2 * P.length + prodSizes s + 1) = 2 * P.length + prodSizes s + 2 by omega] at this
  · rcases hxc with h | h
    · left
      rcases hx3 with h' | h'
      · exact h'
      · exfalso
        have := hxr.lower (by omega) hp0
        have h5 : 1 ≤ c * (bigQ * 4) := by nlinarith
        have : c ≠ 0 := by rintro rfl; linarith
        have : x ≠ 0 := by rintro rfl; linarith
        simp_all
    · right
      have := hE2.lower (by norm_num) hxc0
      nlinarith

/-! ### chi-squared -/

theorem tiny_le_one : tinyQ ≤ 1 := tinyQ_le.trans (by norm_num)

theorem huge_ge {x : ℚ} (h : x ≤ bigQ * 2 ^ 200) : x ≤ hugeQ := h.trans big_huge

theorem big_pow {n : Nat} (h : n ≤ 200) : (2 : ℚ) ^ n ≤ bigQ * 2 ^ 200 := by
  have h1 := mul_le_mul_of_nonneg_right big_one (show (0 : ℚ) ≤ 2 ^ 200 by positivity)
  rw [one_mul] at h1
  exact (pow_le_pow_right₀ (by norm_num) h).trans h1

theorem relA_upper {k : Nat} {e x y : ℚ} (h : RelA k e x y) (hk : k ≤ 2 ^ 52) (hx : 0 ≤ x) : x ≤ 2 * (y + e) := by
  have := mul_le_mul_of_nonneg_right (uu_half hk) hx
  have := h.2
  linarith

/-- one term of the sum -/
theorem chi_term (hfp : fp.Good) {f : Int} (hf0 : 0 ≤ f) (hf : f ≤ 2 ^ 52) {E : ℚ} (hE : 1 ≤ E * (bigQ * 16)) (hE0 : 0 ≤ E)
    (hEu : E ≤ 2 ^ 53) :
    ∃ t, fp.div (fp.mul (fp.sub (fp.ofInt f) (.fin E)) (fp.sub (fp.ofInt f) (.fin E))) (.fin E) = .fin t ∧ 0 ≤ t ∧
      RelA 4 (tinyQ * bigQ * 2 ^ 64) t ((f - E) ^ 2 / E) ∧ (f - E) ^ 2 / E ≤ bigQ * 2 ^ 112 := by
  have hEp : 0 < E := lt_of_le_of_ne hE0 (by rintro rfl; linarith)
  have ht := tinyQ_pos
  have ht1 := tiny_le_one
  have hb := bigQ_pos
  have hb1 := big_one
  have hfq0 : (0 : ℚ) ≤ f := by exact_mod_cast hf0
  have hfq : (f : ℚ) ≤ 2 ^ 52 := by exact_mod_cast hf
  rw [ofInt_exact hfp (by rw [abs_of_nonneg hf0]; omega)]
  have hq : |(f : ℚ) - E| ≤ 2 ^ 54 := by rw [abs_le]; constructor <;> linarith
  have hinv : E⁻¹ ≤ bigQ * 16 := by
    rw [inv_eq_one_div, div_le_iff₀ hEp]; linarith
  have hinv0 : 0 ≤ E⁻¹ := by positivity
  obtain ⟨d, hd, hdr, -⟩ := relA_rnd hfp (huge_ge (hq.trans (big_pow (by norm_num))))
  have hdu := relA_upper hdr (by norm_num) (abs_nonneg d)
  have hd56 : |d| ≤ 2 ^ 56 := by linarith
  have hsq := hdr.sq (M := 2 ^ 56) (abs_nonneg d) (abs_nonneg _) (by linarith) hd56 (hq.trans (by norm_num))
  rw [abs_mul_abs_self, abs_mul_abs_self] at hsq
  have hdd0 : 0 ≤ d * d := mul_self_nonneg d
  have hddu : d * d ≤ 2 ^ 112 := by
    have := mul_le_mul hd56 hd56 (abs_nonneg d) (by norm_num)
    rw [abs_mul_abs_self] at this
    linarith
  obtain ⟨m, hm, hmr, hm0⟩ := relA_rnd hfp (q := d * d) (huge_ge (by
    rw [abs_of_nonneg hdd0]; exact hddu.trans (big_pow (by norm_num))))
  have hm0 := hm0 hdd0
  rw [abs_of_nonneg hdd0, abs_of_nonneg hm0] at hmr
  have hmu := relA_upper hmr (by norm_num) hm0
  have hm2 := (hmr.trans hsq (by linarith) (by positivity)).scale hinv0
  have hmE : m * E⁻¹ ≤ bigQ * 2 ^ 118 := by
    have h1 : m ≤ 2 ^ 114 := by linarith
    calc m * E⁻¹ ≤ 2 ^ 114 * (bigQ * 16) := mul_le_mul h1 hinv hinv0 (by norm_num)
      _ = _ := by ring
  have hmE0 : 0 ≤ m * E⁻¹ := mul_nonneg hm0 hinv0
  obtain ⟨t, ht1', htr, ht0⟩ := relA_rnd hfp (q := m * E⁻¹) (huge_ge (by
    rw [abs_of_nonneg hmE0]
    exact hmE.trans (mul_le_mul_of_nonneg_left (by norm_num) hb.le)))
  have ht0 := ht0 hmE0
  rw [abs_of_nonneg hmE0, abs_of_nonneg ht0] at htr
  have hfin := htr.trans hm2 (by linarith) (by positivity)
  have hx0 : 0 ≤ ((f : ℚ) - E) * (f - E) * E⁻¹ := mul_nonneg (mul_self_nonneg _) hinv0
  refine ⟨t, ?_, ht0, ?_, ?_⟩
  · have e1 : fp.sub (.fin (f : ℚ)) (.fin E) = .fin d := by
      show fp.rnd ((f : ℚ) + -E) = _
      rw [← sub_eq_add_neg]; exact hd
    rw [e1]
    have e2 : fp.mul (.fin d) (.fin d) = .fin m := hm
    rw [e2]
    show (if E = 0 then _ else fp.rnd (m / E)) = _
    rw [if_neg hEp.ne', div_eq_mul_inv]
    exact ht1'
  · rw [pow_two, div_eq_mul_inv]
    refine hfin.mono ht0 hx0 (by norm_num) ?_
    have h1 : (2 * tinyQ + 2 * (2 * tinyQ) * 2 ^ 56) * E⁻¹ ≤ (2 * tinyQ + 2 * (2 * tinyQ) * 2 ^ 56) * (bigQ * 16) :=
      mul_le_mul_of_nonneg_left hinv (by positivity)
    have h2 : tinyQ ≤ tinyQ * bigQ := by nlinarith
    have h3 : 0 < tinyQ * bigQ := mul_pos ht hb
    have h4 : (2 * tinyQ + 2 * (2 * tinyQ) * 2 ^ 56) * (bigQ * 16) = (tinyQ * bigQ) * (32 + 2 ^ 62) := by ring
    rw [h4] at h1
    generalize tinyQ * bigQ = w at *
    linarith
  · rw [div_eq_mul_inv]
    have h1 : ((f : ℚ) - E) ^ 2 ≤ 2 ^ 108 := by
      have := pow_le_pow_left₀ (abs_nonneg _) hq 2
      rw [sq_abs] at this
      refine this.trans (by norm_num)
    calc ((f : ℚ) - E) ^ 2 * E⁻¹ ≤ 2 ^ 108 * (bigQ * 16) := mul_le_mul h1 hinv hinv0 (by norm_num)
      _ = _ := by ring

theorem chi_fold (hfp : fp.Good) {g : List Int → Fl} {y : List Int → ℚ} {η : ℚ} (hη : 0 ≤ η) : ∀ (vs : List (List Int)) (k : Nat) (a z e : ℚ),
    (∀ v ∈ vs, ∃ t, g v = .fin t ∧ 0 ≤ t ∧ RelA 4 η t (y v) ∧ 0 ≤ y v ∧ y v ≤ bigQ * 2 ^ 112) → 4 ≤ k → k + vs.length ≤ 2 ^ 52 →
    RelA k e a z → 0 ≤ a → 0 ≤ z → 0 ≤ e →
    z + e + vs.length * (bigQ * 2 ^ 112 + η + 2 * tinyQ) ≤ bigQ * 2 ^ 199 →
    ∃ b, vs.foldl (fun c v => fp.add c (g v)) (.fin a) = .fin b ∧ 0 ≤ b ∧
      RelA (k + vs.length) (e + vs.length * (η + 2 * tinyQ)) b (z + (vs.map y).sum)
  | [], k, a, z, e, _, _, _, h, ha, _, _, _ => ⟨a, rfl, ha, by simpa using h⟩
  | v :: vs, k, a, z, e, hv, hk4, hk, h, ha, hz, he, hb => by
    obtain ⟨t, ht, ht0, htr, hy0, hyB⟩ := hv v (by simp)
    simp only [List.foldl_cons, List.length_cons, List.map_cons, List.sum_cons] at *
    have hs := h.add (htr.mono ht0 hy0 hk4 le_rfl)
    have hat : 0 ≤ a + t := by linarith
    have htp := tinyQ_pos
    have hbp := bigQ_pos
    push_cast at hb ⊢
    have hrest : 0 ≤ (vs.length : ℚ) * (bigQ * 2 ^ 112 + η + 2 * tinyQ) := by positivity
    have hup := relA_upper hs (by omega) hat
    have hle : a + t ≤ bigQ * 2 ^ 200 := by
      have : bigQ * 2 ^ 200 = 2 * (bigQ * 2 ^ 199) := by ring
      rw [this]
      nlinarith
    obtain ⟨b, hb1, hbr, hb0⟩ := relA_rnd hfp (q := a + t) (by rw [abs_of_nonneg hat]; exact huge_ge hle)
    have hb0 := hb0 hat
    rw [abs_of_nonneg hat, abs_of_nonneg hb0] at hbr
    have hbr := hbr.trans hs (by linarith) (by linarith)
    obtain ⟨c, hc1, hc0, hc2⟩ := chi_fold hfp hη vs (k + 1) b (z + y v) (2 * tinyQ + (e + η)) (fun w hw => hv w (by simp [hw])) (by omega)
      (by omega) (by rwa [Nat.add_comm] at hbr) hb0 (by linarith) (by linarith) (by nlinarith)
    refine ⟨c, ?_, hc0, ?_⟩
    · rw [← hc1, ht]
      show List.foldl _ (fp.rnd (a + t)) vs = _
      rw [hb1]
    · rw [← add_assoc z, show k + (vs.length + 1) = k + 1 + vs.length by omega]
      convert hc2 using 1
      ring

end HL

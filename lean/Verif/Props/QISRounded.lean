import Verif.Proof.QISRound
import Verif.Proof.SumRound
import Verif.Props.QIS

/-
C24 and C28 in rounded arithmetic: the expectation and the chi-squared statistic that `qis` reports.
-/

namespace HL
open Integerise
variable {fp : FP}

/-- **C24** in any arithmetic with `FP.Good`, in particular binary64: when some cell is possible and the population to the
power of the number of marginals, times the number of cells, is at most `2^800`, every expectation is a number, zero exactly
where a marginal is zero, and agrees with the population times the product of the marginals divided by the sum of these
products up to `m` roundings, `m` twice the number of marginals plus the number of cells plus 2.  So does the total with the
population. -/
theorem C24_rounded_partial (hfp : fp.Good) {lm : Libm} {s : List Nat} {P : Prob Int} {pop : Int} (h : ProbOK s P pop)
    (hpop : pop < 2 ^ 52) (h0 : 0 < pop) (hc : ∃ v, InRange s v ∧ ∀ p ∈ P, 0 < p.2 (proj p.1 v))
    (hbig : (pop : ℚ) ^ P.length * prodSizes s ≤ 2 ^ 800) (hsz : 2 * P.length + prodSizes s + 2 ≤ 2 ^ 52) {skips : Int} {x : QIS}
    (hx : qis fp lm s P skips = .ok x) :
    ∃ E : List Int → ℚ, x.expected = arr s (fun v => .fin (E v)) ∧
      (∀ v, InRange s v → ∀ e : ℚ, e = pop * productAt P v / ∑ w ∈ cells s, productAt P w →
        (1 - (2 * P.length + prodSizes s + 2) / 2 ^ 53) * e ≤ E v ∧ (1 - (2 * P.length + prodSizes s + 2) / 2 ^ 53) * E v ≤ e) ∧
      (∀ v, InRange s v → (E v = 0 ↔ ∃ p ∈ P, p.2 (proj p.1 v) = 0)) ∧
      (1 - (2 * P.length + prodSizes s + 2) / 2 ^ 53) * pop ≤ ∑ v ∈ cells s, E v ∧
      (1 - (2 * P.length + prodSizes s + 2) / 2 ^ 53) * ∑ v ∈ cells s, E v ≤ pop := by
  obtain ⟨c, vs, -, -, hs⟩ := run_ok hfp h hpop hx
  rw [← bigQ_eq] at hbig
  have hall : ∀ v, ∃ E : ℚ, InRange s v → expectedVal fp s P pop v = .fin E ∧
      Rel (2 * P.length + prodSizes s + 2) E (exactExp s P pop v) := by
    intro v
    by_cases hv : InRange s v
    · obtain ⟨E, h1, h2, -⟩ := expectedVal_rel hfp h h0 hpop hc hbig hsz hv
      exact ⟨E, fun _ => ⟨h1, h2⟩⟩
    · exact ⟨0, fun h => absurd h hv⟩
  choose E hE using hall
  have hp1 : (0 : ℚ) < pop := by exact_mod_cast h0
  have hS : 0 < ∑ w ∈ cells s, productAt P w := by
    obtain ⟨v, hv, hp⟩ := hc
    apply Finset.sum_pos' (fun v hv => productAt_nonneg h (mem_cells.mp hv))
    refine ⟨v, mem_cells.mpr hv, lt_of_le_of_ne (productAt_nonneg h hv) (Ne.symm ?_)⟩
    rw [Ne, productAt_eq_zero]
    rintro ⟨p, hp1, hp2⟩
    exact absurd hp2 (hp p hp1).ne'
  have he0 : ∀ v, InRange s v → 0 ≤ exactExp s P pop v := by
    intro v hv
    have := productAt_nonneg h hv
    unfold exactExp
    positivity
  have hE0 : ∀ v, InRange s v → 0 ≤ E v := fun v hv => (hE v hv).2.nonneg (he0 v hv)
  have hlow : (1 - (2 * P.length + prodSizes s + 2) / 2 ^ 53 : ℚ) ≤ uu ^ (2 * P.length + prodSizes s + 2) := by
    have := uu_pow_ge (2 * P.length + prodSizes s + 2)
    push_cast at this
    exact this
  have hfin : ∀ {x y : ℚ}, Rel (2 * P.length + prodSizes s + 2) x y → 0 ≤ x → 0 ≤ y →
      (1 - (2 * P.length + prodSizes s + 2) / 2 ^ 53) * y ≤ x ∧ (1 - (2 * P.length + prodSizes s + 2) / 2 ^ 53) * x ≤ y := by
    intro x y hr hx hy
    exact ⟨(mul_le_mul_of_nonneg_right hlow hy).trans hr.1, (mul_le_mul_of_nonneg_right hlow hx).trans hr.2⟩
  have hsum : Rel (2 * P.length + prodSizes s + 2) (∑ v ∈ cells s, E v) (∑ v ∈ cells s, exactExp s P pop v) := by
    constructor
    · rw [Finset.mul_sum]
      exact Finset.sum_le_sum fun v hv => (hE v (mem_cells.mp hv)).2.1
    · rw [Finset.mul_sum]
      exact Finset.sum_le_sum fun v hv => (hE v (mem_cells.mp hv)).2.2
  have htot : ∑ v ∈ cells s, exactExp s P pop v = pop := by
    unfold exactExp
    rw [← Finset.sum_mul, mul_comm, div_mul_cancel₀ _ hS.ne']
  rw [htot] at hsum
  refine ⟨E, ?_, ?_, ?_, hfin hsum (Finset.sum_nonneg fun v hv => hE0 v (mem_cells.mp hv)) hp1.le⟩
  · rw [hs.expected]
    exact arr_congr fun v hv => (hE v hv).1
  · intro v hv e he
    have : e = exactExp s P pop v := by rw [he]; unfold exactExp; ring
    rw [this]
    exact hfin (hE v hv).2 (hE0 v hv) (he0 v hv)
  · intro v hv
    rw [(hE v hv).2.zero_iff (he0 v hv), ← productAt_eq_zero]
    unfold exactExp
    rw [mul_eq_zero]
    constructor
    · rintro (h | h)
      · exact h
      · exact absurd h (div_pos hp1 hS).ne'
    · exact Or.inl

/-- **C28** in any arithmetic with `FP.Good`, in particular binary64: when no marginal entry is zero, under the same bounds,
`chiSq` is a number, not negative, and agrees with the sum over the cells of the squared difference between the result and the
reported expectation divided by the expectation, up to one rounding for each cell and four more, and an absolute error of
`2^-80`. -/
theorem C28_rounded_partial (hfp : fp.Good) {lm : Libm} {s : List Nat} {P : Prob Int} {pop : Int} (h : ProbOK s P pop)
    (hpop : pop < 2 ^ 52) (hpos : ∀ p ∈ P, ∀ j, InRange (projSizes p.1 s) j → 0 < p.2 j)
    (hbig : (pop : ℚ) ^ P.length * prodSizes s ≤ 2 ^ 800) (hsz : 2 * P.length + prodSizes s + 2 ≤ 2 ^ 52) {skips : Int} {x : QIS}
    (hx : qis fp lm s P skips = .ok x) :
    ∃ (f : List Int → Int) (E : List Int → ℚ) (c : ℚ), x.micro.array = arr s f ∧ x.expected = arr s (fun v => .fin (E v)) ∧
      x.chiSq = .fin c ∧ 0 ≤ c ∧ (∀ v, InRange s v → 0 < E v) ∧ ∀ X : ℚ, X = ∑ v ∈ cells s, (f v - E v) ^ 2 / E v →
        (1 - (prodSizes s + 4) / 2 ^ 53) * X - 1 / 2 ^ 80 ≤ c ∧ (1 - (prodSizes s + 4) / 2 ^ 53) * c - 1 / 2 ^ 80 ≤ X := by
  obtain ⟨c, vs, -, -, hs⟩ := run_ok hfp h hpop hx
  rw [← bigQ_eq] at hbig
  have hprod : ∀ v, InRange s v → 0 < productAt P v := by
    intro v hv
    refine lt_of_le_of_ne (productAt_nonneg h hv) (Ne.symm ?_)
    rw [Ne, productAt_eq_zero]
    rintro ⟨p, hp1, hp2⟩
    exact absurd hp2 (hpos p hp1 _ (inRange_proj (h.dims p hp1).2 hv)).ne'
  obtain ⟨v0, hv0⟩ := exists_inRange h.good.2
  have hpop0 : 0 < pop := by
    have hl := h.lists
    obtain ⟨p, hp⟩ := List.exists_mem_of_ne_nil P (by rintro rfl; simp at hl)
    obtain ⟨v, hv⟩ := exists_inRange (goodShape_projSizes h.good (h.dims p hp).1 (h.dims p hp).2).2
    have := h.total p hp
    have h1 : 0 < ∑ j ∈ cells (projSizes p.1 s), p.2 j :=
      Finset.sum_pos (fun j hj => hpos p hp j (mem_cells.mp hj)) ⟨v, mem_cells.mpr hv⟩
    rwa [this] at h1
  have hp1 : (0 : ℚ) < pop := by exact_mod_cast hpop0
  have hS : 0 < ∑ w ∈ cells s, productAt P w :=
    Finset.sum_pos (fun v hv => hprod v (mem_cells.mp hv)) ⟨v0, mem_cells.mpr hv0⟩
  have hall : ∀ v, ∃ E : ℚ, InRange s v → expectedVal fp s P pop v = .fin E ∧ 1 ≤ E * (bigQ * 16) ∧ 0 ≤ E ∧ E ≤ 2 ^ 53 := by
    intro v
    by_cases hv : InRange s v
    · obtain ⟨E, h1, h2, h3⟩ := expectedVal_rel hfp h hpop0 hpop
        ⟨v0, hv0, fun p hp => hpos p hp _ (inRange_proj (h.dims p hp).2 hv0)⟩ hbig hsz hv
      have he0 : 0 ≤ exactExp s P pop v := by
        have := (hprod v hv).le
        unfold exactExp; positivity
      have hE0 := h2.nonneg he0
      refine ⟨E, fun _ => ⟨h1, ?_, hE0, ?_⟩⟩
      · rcases h3 with h3 | h3
        · exact absurd h3 (hprod v hv).ne'
        · exact h3
      · have h4 := h2.upper hsz hE0
        have h5 : exactExp s P pop v ≤ pop := by
          unfold exactExp
          rw [mul_div_assoc', div_le_iff₀ hS, mul_comm]
          apply mul_le_mul_of_nonneg_left _ hp1.le
          exact Finset.single_le_sum (fun w hw => (hprod w (mem_cells.mp hw)).le) (mem_cells.mpr hv)
        have h6 : (pop : ℚ) ≤ 2 ^ 52 := by exact_mod_cast hpop.le
        linarith
    · exact ⟨0, fun h => absurd h hv⟩
  choose E hE using hall
  have hEp : ∀ v, InRange s v → 0 < E v := by
    intro v hv
    obtain ⟨-, h2, h3, -⟩ := hE v hv
    refine lt_of_le_of_ne h3 (fun h => ?_)
    rw [← h] at h2
    linarith
  have hN : (allIdx s).length = prodSizes s := length_allIdx s
  have ht := tinyQ_pos
  have hb := bigQ_pos
  have hb1 := big_one
  have hNq : (prodSizes s : ℚ) ≤ 2 ^ 52 := by exact_mod_cast (show prodSizes s ≤ 2 ^ 52 by omega)
  have hN0 : (0 : ℚ) ≤ prodSizes s := by positivity
  have htb : tinyQ * bigQ * 2 ^ 200 ≤ 1 := by have := big_tiny; rw [← mul_assoc] at this; exact this
  have htb0 : 0 < tinyQ * bigQ := mul_pos ht hb
  have ht2 : tinyQ ≤ tinyQ * bigQ := by nlinarith
  set η := tinyQ * bigQ * 2 ^ 64 with hη
  have hη0 : 0 ≤ η := by positivity
  have hcount : ∀ v, (vs.count v : Int) ≤ 2 ^ 52 := by
    intro v
    have h1 := List.count_le_length (a := v) (l := vs)
    have h2 := hs.size
    omega
  have herr : (prodSizes s : ℚ) * (η + 2 * tinyQ) ≤ 1 / 2 ^ 80 := by
    have h1 : η + 2 * tinyQ ≤ tinyQ * bigQ * 2 ^ 65 := by rw [hη]; linarith
    calc (prodSizes s : ℚ) * (η + 2 * tinyQ) ≤ 2 ^ 52 * (tinyQ * bigQ * 2 ^ 65) :=
          mul_le_mul hNq h1 (by positivity) (by norm_num)
      _ = tinyQ * bigQ * 2 ^ 200 / 2 ^ 83 := by ring
      _ ≤ 1 / 2 ^ 83 := by gcongr
      _ ≤ 1 / 2 ^ 80 := by norm_num
  obtain ⟨r, hr1, hr0, hr2⟩ := chi_fold (y := fun v => (((vs.count v : Int) : ℚ) - E v) ^ 2 / E v) hfp hη0 (allIdx s) 4 0 0 0 (by
      intro v hv
      have hv := mem_allIdx.mp hv
      obtain ⟨e1, e2, e3, e4⟩ := hE v hv
      obtain ⟨t, t1, t2, t3, t4⟩ := chi_term hfp (by positivity) (hcount v) e2 e3 e4
      exact ⟨t, t1, t2, t3, by have := hEp v hv; positivity, t4⟩) le_rfl (by have := h.lists; omega) (by simp [RelA]) le_rfl le_rfl le_rfl (by
      rw [hN]
      have h1 : bigQ * 2 ^ 112 + η + 2 * tinyQ ≤ bigQ * 2 ^ 113 := by
        have : η + 2 * tinyQ ≤ 1 := by
          have h1 : η + 2 * tinyQ ≤ tinyQ * bigQ * 2 ^ 65 := by rw [hη]; linarith
          refine h1.trans (le_trans ?_ htb)
          exact mul_le_mul_of_nonneg_left (by norm_num) htb0.le
        linarith
      rw [zero_add, zero_add]
      calc (prodSizes s : ℚ) * (bigQ * 2 ^ 112 + η + 2 * tinyQ) ≤ 2 ^ 52 * (bigQ * 2 ^ 113) :=
            mul_le_mul hNq h1 (by positivity) (by norm_num)
        _ = bigQ * 2 ^ 165 := by ring
        _ ≤ _ := mul_le_mul_of_nonneg_left (by norm_num) hb.le)
  rw [hN, zero_add, zero_add, sum_allIdx] at hr2
  refine ⟨fun v => (vs.count v : Int), E, r, by rw [hs.at_.micro], ?_, ?_, hr0, hEp, ?_⟩
  · rw [hs.expected]
    exact arr_congr fun v hv => (hE v hv).1
  · rw [hs.chiSq, ← hr1]
    unfold chiSqVal
    apply List.foldl_ext
    intro a v hv
    rw [(hE v (mem_allIdx.mp hv)).1]
  · intro X hX
    have hX0 : 0 ≤ X := by
      rw [hX]
      exact Finset.sum_nonneg fun v hv => by have := hEp v (mem_cells.mp hv); positivity
    simp only at hX
    rw [← hX] at hr2
    have hlow : (1 - (prodSizes s + 4) / 2 ^ 53 : ℚ) ≤ uu ^ (4 + prodSizes s) := by
      have := uu_pow_ge (4 + prodSizes s)
      push_cast at this
      linarith
    have h1 := mul_le_mul_of_nonneg_right hlow hX0
    have h2 := mul_le_mul_of_nonneg_right hlow hr0
    exact ⟨by linarith [hr2.1], by linarith [hr2.2]⟩

/-! ### Overflow -/

theorem inf_fold (sqrt : Fl → Fl) (v : List Int) : ∀ (Q : Prob Int), (∀ p ∈ Q, 0 < p.2 (proj p.1 v) ∧ p.2 (proj p.1 v) < 2 ^ 52) →
    Q.foldl (fun x p => (FP.ieee sqrt).mul x ((FP.ieee sqrt).ofInt (p.2 (proj p.1 v)))) .pinf = .pinf
  | [], _ => rfl
  | p :: Q, h => by
    obtain ⟨h0, h1⟩ := h p (by simp)
    rw [List.foldl_cons, ofInt_exact (FP.ieee_good sqrt) (by rw [abs_of_pos h0]; omega)]
    have hq : (0 : ℚ) < p.2 (proj p.1 v) := by exact_mod_cast h0
    have : (FP.ieee sqrt).mul .pinf (.fin (p.2 (proj p.1 v))) = .pinf := by
      simp [FP.mul, FP.sgn, FP.infOfSign, hq, hq.ne']
    rw [this]
    exact inf_fold sqrt v Q (fun q hq => h q (by simp [hq]))

/-- A product of positive numbers overflows or is accurate. -/
theorem prod_fold (sqrt : Fl → Fl) (v : List Int) : ∀ (Q : Prob Int) (k : Nat) (a y : ℚ),
    (∀ p ∈ Q, 0 < p.2 (proj p.1 v) ∧ p.2 (proj p.1 v) < 2 ^ 52) → 1 ≤ a → y ≤ a * (1 + 1 / 2 ^ 52) ^ k →
    Q.foldl (fun x p => (FP.ieee sqrt).mul x ((FP.ieee sqrt).ofInt (p.2 (proj p.1 v)))) (.fin a) = .pinf ∨
    ∃ b, Q.foldl (fun x p => (FP.ieee sqrt).mul x ((FP.ieee sqrt).ofInt (p.2 (proj p.1 v)))) (.fin a) = .fin b ∧
      y * productAt Q v ≤ b * (1 + 1 / 2 ^ 52) ^ (k + Q.length) ∧ (Q = [] ∨ b < 2 ^ 1024)
  | [], k, a, y, _, _, hy => Or.inr ⟨a, rfl, by simpa [productAt] using hy, Or.inl rfl⟩
  | p :: Q, k, a, y, h, ha, hy => by
    obtain ⟨h0, h1⟩ := h p (by simp)
    rw [List.foldl_cons, ofInt_exact (FP.ieee_good sqrt) (by rw [abs_of_pos h0]; omega)]
    have hprod : productAt (p :: Q) v = (p.2 (proj p.1 v) : ℚ) * productAt Q v := by simp [productAt]
    have hg : (1 : ℚ) ≤ p.2 (proj p.1 v) := by exact_mod_cast h0
    rw [hprod]
    generalize (p.2 (proj p.1 v) : ℚ) = g at *
    have hag : 1 ≤ a * g := by nlinarith
    rw [show (FP.ieee sqrt).mul (.fin a) (.fin g) = FP.rndIeee (a * g) from rfl]
    cases hr : FP.rndIeee (a * g) with
    | nan => exact absurd hr (ieee_not_nan _)
    | pinf => left; exact inf_fold sqrt v Q (fun q hq => h q (by simp [hq]))
    | ninf =>
      exfalso
      revert hr
      unfold FP.rndIeee
      dsimp only
      rw [if_neg (by linarith : a * g ≠ 0), if_pos (by linarith : 0 < a * g)]
      split_ifs <;> simp
    | fin b =>
      have hb1 : 1 ≤ b := (FP.ieee_good sqrt).mono 1 (a * g) 1 b hag (by
        have := (FP.ieee_good sqrt).dyadic 1 0 (by norm_num) (by norm_num)
        simpa using this) hr
      have herr := ieee_err_pos (by linarith) hr
      rw [abs_le] at herr
      have ht : tinyQ ≤ 1 / 2 ^ 53 := tinyQ_le.trans (by norm_num)
      have hagb : a * g ≤ b * (1 + 1 / 2 ^ 52) := by
        have : tinyQ ≤ b / 2 ^ 53 := ht.trans (by gcongr)
        have e : b * (1 + 1 / 2 ^ 52) = b + b / 2 ^ 53 + b / 2 ^ 53 := by ring
        rw [e]
        linarith [herr.1]
      have hyg : y * g ≤ b * (1 + 1 / 2 ^ 52) ^ (k + 1) := by
        calc y * g ≤ a * (1 + 1 / 2 ^ 52) ^ k * g := mul_le_mul_of_nonneg_right hy (by linarith)
          _ = (a * g) * (1 + 1 / 2 ^ 52) ^ k := by ring
          _ ≤ b * (1 + 1 / 2 ^ 52) * (1 + 1 / 2 ^ 52) ^ k := mul_le_mul_of_nonneg_right hagb (by positivity)
          _ = _ := by ring
      rcases prod_fold sqrt v Q (k + 1) b (y * g) (fun q hq => h q (by simp [hq])) hb1 hyg with h2 | ⟨c, h2, h3, h4⟩
      · left; exact h2
      · right
        refine ⟨c, h2, ?_, Or.inr ?_⟩
        · rw [← mul_assoc, List.length_cons, show k + (Q.length + 1) = k + 1 + Q.length by omega]
          exact h3
        · rcases h4 with rfl | h4
          · simp only [List.foldl_nil, Fl.fin.injEq] at h2
            subst h2
            by_contra hc
            push Not at hc
            revert hr
            unfold FP.rndIeee
            dsimp only
            rw [if_neg (by linarith : a * g ≠ 0), if_pos (by linarith : 0 < a * g)]
            split_ifs with hlt
            · simp
            · intro hr
              injection hr with hr
              rw [hr, abs_of_pos (lt_of_lt_of_le one_pos hb1)] at hlt
              exact hlt hc
          · exact h4

/-- a product of marginals that overflows -/
theorem stateVal_overflow (sqrt : Fl → Fl) {s : List Nat} {P : Prob Int} {pop : Int} (h : ProbOK s P pop) (hpop : pop < 2 ^ 52)
    (hl : P.length ≤ 2 ^ 51) {v : List Int} (hv : InRange s v) (hp : ∀ p ∈ P, 0 < p.2 (proj p.1 v)) (hbig : 2 ^ 1025 ≤ productAt P v) :
    stateVal (FP.ieee sqrt) P v = .pinf := by
  rcases prod_fold sqrt v P 0 1 1 (fun p hp' => ⟨hp p hp', lt_of_le_of_lt (entry_le h hp' (inRange_proj (h.dims p hp').2 hv)) hpop⟩)
    le_rfl (by norm_num) with h1 | ⟨b, h1, h2, h3⟩
  · exact h1
  · exfalso
    have hb : b < 2 ^ 1024 := by
      rcases h3 with rfl | h3
      · have := h.lists; simp at this
      · exact h3
    have hpow : (1 + 1 / 2 ^ 52 : ℚ) ^ P.length ≤ 2 := by
      have h4 : (1 - 1 / 2 ^ 52 : ℚ) ^ P.length ≥ 1 / 2 := by
        have := one_add_mul_le_pow (a := (-(1 / 2 ^ 52) : ℚ)) (by norm_num) P.length
        have h5 : (P.length : ℚ) ≤ 2 ^ 51 := by exact_mod_cast hl
        rw [sub_eq_add_neg]
        refine le_trans ?_ this
        linarith
      have h6 : (1 + 1 / 2 ^ 52 : ℚ) ^ P.length * (1 - 1 / 2 ^ 52 : ℚ) ^ P.length ≤ 1 := by
        rw [← mul_pow]
        exact pow_le_one₀ (by norm_num) (by norm_num)
      have h7 : 0 ≤ (1 + 1 / 2 ^ 52 : ℚ) ^ P.length := by positivity
      nlinarith
    rw [one_mul, Nat.zero_add] at h2
    have hb0 : 0 ≤ b := by
      by_contra hc
      push Not at hc
      have hnp : b * (1 + 1 / 2 ^ 52 : ℚ) ^ P.length ≤ 0 := mul_nonpos_of_nonpos_of_nonneg hc.le (by positivity)
      have hpp : (0 : ℚ) < productAt P v := lt_of_lt_of_le (by positivity) hbig
      exact absurd (lt_of_lt_of_le hpp (h2.trans hnp)) (lt_irrefl _)
    have h8 : b * (1 + 1 / 2 ^ 52 : ℚ) ^ P.length ≤ b * 2 := mul_le_mul_of_nonneg_left hpow hb0
    have h9 : (2 : ℚ) ^ 1025 = 2 ^ 1024 * 2 := by rw [pow_succ]
    rw [h9] at hbig
    generalize (2 : ℚ) ^ 1024 = B at *
    linarith

/-- **C24** and **C28** fail in binary64 when the product of the marginals overflows: for any accepted problem whose marginals
are all positive at some cell, with a product there of `2^1025` or more, any population `qis` returns comes with the
expectation NaN at that cell and `chiSq` NaN, reported as a perfect fit (p-value 1). -/
theorem C28_negation_overflow (sqrt : Fl → Fl) {lm : Libm} {s : List Nat} {P : Prob Int} {pop : Int} (h : ProbOK s P pop)
    (hpop : pop < 2 ^ 52) (hl : P.length ≤ 2 ^ 51) {v : List Int} (hv : InRange s v) (hp : ∀ p ∈ P, 0 < p.2 (proj p.1 v))
    (hbig : 2 ^ 1025 ≤ productAt P v) {skips : Int} {x : QIS} (hx : qis (FP.ieee sqrt) lm s P skips = .ok x) :
    x.expected.get v = .ok .nan ∧ x.chiSq = .nan ∧ x.pValue = .fin 1 := by
  obtain ⟨c, vs, -, -, hs⟩ := run_ok (FP.ieee_good sqrt) h hpop hx
  have hst := stateVal_overflow sqrt h hpop hl hv hp hbig
  have htot : (allIdx s).foldl (fun acc w => (FP.ieee sqrt).add acc (stateVal (FP.ieee sqrt) P w)) (.fin 0) = .pinf ∨
      (allIdx s).foldl (fun acc w => (FP.ieee sqrt).add acc (stateVal (FP.ieee sqrt) P w)) (.fin 0) = .ninf ∨
      (allIdx s).foldl (fun acc w => (FP.ieee sqrt).add acc (stateVal (FP.ieee sqrt) P w)) (.fin 0) = .nan := by
    have key : ∀ (ws : List (List Int)) (z : Fl), ((∃ q, z = .fin q) → v ∈ ws) → ∀ q,
        ws.foldl (fun acc w => (FP.ieee sqrt).add acc (stateVal (FP.ieee sqrt) P w)) z ≠ .fin q := by
      intro ws
      induction ws with
      | nil => intro z hz q hq; exact absurd (hz ⟨q, hq⟩) (by simp)
      | cons w ws ih =>
        intro z hz
        rw [List.foldl_cons]
        apply ih
        rintro ⟨q, hq⟩
        have hzq : ∃ q, z = .fin q := by
          revert hq
          cases z <;> cases stateVal (FP.ieee sqrt) P w <;> simp [FP.add]
        rcases List.mem_cons.mp (hz hzq) with rfl | hm
        · exfalso
          obtain ⟨q', rfl⟩ := hzq
          rw [hst] at hq
          simp [FP.add] at hq
        · exact hm
    cases hz : (allIdx s).foldl (fun acc w => (FP.ieee sqrt).add acc (stateVal (FP.ieee sqrt) P w)) (.fin 0) with
    | fin q => exact absurd hz (key _ _ (fun _ => mem_allIdx.mpr hv) q)
    | pinf => simp
    | ninf => simp
    | nan => simp
  have hE : expectedVal (FP.ieee sqrt) s P pop v = .nan := by
    have h0 : 0 ≤ pop := by
      have hl := h.lists
      obtain ⟨p, hp'⟩ := List.exists_mem_of_ne_nil P (by rintro rfl; simp at hl)
      exact (hp p hp').le.trans (entry_le h hp' (inRange_proj (h.dims p hp').2 hv))
    unfold expectedVal
    rw [hst, ofInt_exact (FP.ieee_good sqrt) (by rw [abs_of_nonneg h0]; omega)]
    rcases htot with ht | ht | ht <;> rw [ht] <;> simp [FP.div, FP.mul, FP.sgn, FP.infOfSign]
  have hchi : x.chiSq = .nan := by
    rw [hs.chiSq]
    unfold chiSqVal
    apply foldl_has_nan (fun v => (FP.ieee sqrt).div ((FP.ieee sqrt).mul ((FP.ieee sqrt).sub ((FP.ieee sqrt).ofInt (vs.count v : Int))
      (expectedVal (FP.ieee sqrt) s P pop v)) ((FP.ieee sqrt).sub ((FP.ieee sqrt).ofInt (vs.count v : Int)) (expectedVal (FP.ieee sqrt) s P pop v)))
      (expectedVal (FP.ieee sqrt) s P pop v))
    refine ⟨v, mem_allIdx.mpr hv, ?_⟩
    rw [hE]
    generalize (FP.ieee sqrt).mul _ _ = m
    cases m <;> rfl
  refine ⟨?_, hchi, ?_⟩
  · rw [hs.expected, get_arr hv, hE]
  · rw [hs.pValue, hchi]
    unfold tablePValue
    rw [pValue_nan (FP.ieee_good sqrt)]

/-- 1025 marginals of a table with a single cell and a population of 2 -/
def manyProb : Prob Int := (List.range 1025).map (fun i => ([i % 2], fun _ => 2))

/-! ### The hypotheses can be met -/

example (sqrt : Fl → Fl) (lm : Libm) : ∃ x, qis (FP.ieee sqrt) lm [2, 3] exProb 0 = .ok x :=
  (exProb_run (FP.ieee_good sqrt) lm).imp fun _ h => h.1

example : ((3 : Int) : ℚ) ^ exProb.length * (prodSizes [2, 3] : ℕ) ≤ 2 ^ 800 ∧
    2 * exProb.length + prodSizes [2, 3] + 2 ≤ 2 ^ 52 := by
  constructor
  · have : ((3 : Int) : ℚ) ^ exProb.length * (prodSizes [2, 3] : ℕ) = 54 := by
      simp [exProb, prodSizes]; norm_num
    rw [this]
    calc (54 : ℚ) ≤ 2 ^ 6 := by norm_num
      _ ≤ _ := pow_le_pow_right₀ (by norm_num) (by norm_num)
  · decide

theorem manyProb_get {p : List Nat × (List Int → Int)} (hp : p ∈ manyProb) : (p.1 = [0] ∨ p.1 = [1]) ∧ p.2 = fun _ => 2 := by
  obtain ⟨i, -, rfl⟩ := List.mem_map.mp hp
  refine ⟨?_, rfl⟩
  rcases Nat.mod_two_eq_zero_or_one i with h | h <;> simp [h]

theorem manyProb_ok : ProbOK [1, 1] manyProb 2 where
  lists := by simp [manyProb]
  two := by decide
  pos := by decide
  dims := by
    intro p hp
    rcases (manyProb_get hp).1 with h | h <;> simp [h]
  cover := by
    intro d hd
    simp only [List.length_cons, List.length_nil] at hd
    refine ⟨([d % 2], fun _ => 2), List.mem_map.mpr ⟨d, List.mem_range.mpr (by omega), rfl⟩, ?_⟩
    simp only [List.mem_singleton]
    omega
  nonneg := by
    intro p hp j _
    rw [(manyProb_get hp).2]
    norm_num
  total := by
    intro p hp
    rw [(manyProb_get hp).2]
    rcases (manyProb_get hp).1 with h | h <;> rw [h] <;> decide
  partials := by
    intro p hp q hq a b d ha hb x hx
    rw [(manyProb_get hp).2, (manyProb_get hq).2]
    have h1 : a = 0 := by
      rcases (manyProb_get hp).1 with h | h <;> rw [h] at ha <;> (by_contra hc; simp [hc] at ha)
    have h2 : b = 0 := by
      rcases (manyProb_get hq).1 with h | h <;> rw [h] at hb <;> (by_contra hc; simp [hc] at hb)
    subst h1 h2
    have e1 : projSizes p.1 [1, 1] = [1] := by rcases (manyProb_get hp).1 with h | h <;> rw [h] <;> decide
    have e2 : projSizes q.1 [1, 1] = [1] := by rcases (manyProb_get hq).1 with h | h <;> rw [h] <;> decide
    rw [e1, e2]

theorem manyProb_tree : TreeDims (manyProb.map Prod.fst) := by
  intro A ds B hAB
  have : ds ∈ manyProb.map Prod.fst := by rw [hAB]; simp
  obtain ⟨p, hp, rfl⟩ := List.mem_map.mp this
  rcases (manyProb_get hp).1 with h | h <;> rw [h]
  · refine ⟨by simp, ?_⟩
    intro d hd e he _ _
    simp only [List.mem_singleton] at hd he
    omega
  · refine ⟨by simp, ?_⟩
    intro d hd e he _ _
    simp only [List.mem_singleton] at hd he
    omega

theorem manyProb_big : productAt manyProb [0, 0] = 2 ^ 1025 := by
  have e : manyProb.map (fun p => (p.2 (proj p.1 [0, 0]) : ℚ)) = List.replicate 1025 2 := by
    rw [List.eq_replicate_iff]
    refine ⟨by simp [manyProb], ?_⟩
    intro b hb
    obtain ⟨p, hp, rfl⟩ := List.mem_map.mp hb
    rw [(manyProb_get hp).2]
    norm_num
  unfold productAt
  rw [e, List.prod_replicate]

/-- `qis` accepts these marginals, returns a population, and reports `chiSq` NaN for it -/
example (sqrt : Fl → Fl) (lm : Libm) : ∃ x, qis (FP.ieee sqrt) lm [1, 1] manyProb 0 = .ok x ∧ x.conv = true ∧ x.chiSq = .nan := by
  obtain ⟨x, hx, hc⟩ := C23_tree (FP.ieee_good sqrt) lm manyProb_ok (by norm_num) manyProb_tree (by simp) (skips := 0) le_rfl (by norm_num)
  exact ⟨x, hx, hc, (C28_negation_overflow sqrt manyProb_ok (by norm_num) (by simp [manyProb]) (v := [0, 0])
    (mem_allIdx.mp (by decide)) (fun p hp => by rw [(manyProb_get hp).2]; norm_num) manyProb_big.ge hx).2.1⟩

end HL

import Verif.Props.QISRounded
import Verif.Props.QISStateRounded
import Verif.Props.QISStateStats

/-
C86, continued: the expectation and the statistics reported by qis with state sampling in binary64.
-/

namespace HL
open QIS Micro Integerise

/-- **C86**, expectation in binary64: when some cell is possible and the population to the power of the number of marginals,
times the number of cells, is at most `2^800`, every expectation reported with state sampling is a number, zero exactly where a
marginal is zero, and agrees with the population times the product of the marginals divided by the sum of these products up to
`m` roundings, `m` twice the number of marginals plus the number of cells plus 2.  So does the total with the population. -/
theorem C86_expected_rounded {sqrt : Fl → Fl} {lm : Libm} {s : List Nat} {P : Prob Int} {pop : Int} (h : ProbOK s P pop)
    (hpop : pop < 2 ^ 52) (h0 : 0 < pop) (hc : ∃ v, InRange s v ∧ ∀ p ∈ P, 0 < p.2 (proj p.1 v))
    (hbig : (pop : ℚ) ^ P.length * prodSizes s ≤ 2 ^ 800) (hsz : 2 * P.length + prodSizes s + 2 ≤ 2 ^ 52)
    (hn : ∀ p ∈ P, p.1.Nodup ∧ p.1.length < s.length) {skips : Int} {x : QIS}
    (hx : qisState (FP.ieee sqrt) lm s P skips = .ok x) :
    ∃ E : List Int → ℚ, x.expected = arr s (fun v => .fin (E v)) ∧
      (∀ v, InRange s v → ∀ e : ℚ, e = pop * productAt P v / ∑ w ∈ cells s, productAt P w →
        (1 - (2 * P.length + prodSizes s + 2) / 2 ^ 53) * e ≤ E v ∧ (1 - (2 * P.length + prodSizes s + 2) / 2 ^ 53) * E v ≤ e) ∧
      (∀ v, InRange s v → (E v = 0 ↔ ∃ p ∈ P, p.2 (proj p.1 v) = 0)) ∧
      (1 - (2 * P.length + prodSizes s + 2) / 2 ^ 53) * pop ≤ ∑ v ∈ cells s, E v ∧
      (1 - (2 * P.length + prodSizes s + 2) / 2 ^ 53) * ∑ v ∈ cells s, E v ≤ pop := by
  have hfp := FP.ieee_good sqrt
  obtain ⟨vs, hs⟩ := qisState_solved hfp (signOK_ieee sqrt) h hpop hn hx
  rw [← bigQ_eq] at hbig
  have hall : ∀ v, ∃ E : ℚ, InRange s v → expectedVal (FP.ieee sqrt) s P pop v = .fin E ∧
      Rel (2 * P.length + prodSizes s + 2) E (exactExp s P pop v) := by
    intro v
    by_cases hv : InRange s v
    · obtain ⟨E, h1, h2, -⟩ := expectedVal_rel hfp h h0 hpop hc hbig hsz hv
      exact ⟨E, fun _ => ⟨h1, h2⟩⟩
    · exact ⟨0, fun h => absurd h hv⟩
  choose E hE using hall
  have hp1 : (0 : ℚ) < pop := by exact_mod_cast h0
  have hS : 0 < ∑ w ∈ cells s, productAt P w := by
    obtain ⟨v, hv, hp⟩ := hc
    apply Finset.sum_pos' (fun v hv => productAt_nonneg h (mem_cells.mp hv))
    refine ⟨v, mem_cells.mpr hv, lt_of_le_of_ne (productAt_nonneg h hv) (Ne.symm ?_)⟩
    rw [Ne, productAt_eq_zero]
    rintro ⟨p, hp1, hp2⟩
    exact absurd hp2 (hp p hp1).ne'
  have he0 : ∀ v, InRange s v → 0 ≤ exactExp s P pop v := by
    intro v hv
    have := productAt_nonneg h hv
    unfold exactExp
    positivity
  have hE0 : ∀ v, InRange s v → 0 ≤ E v := fun v hv => (hE v hv).2.nonneg (he0 v hv)
  have hlow : (1 - (2 * P.length + prodSizes s + 2) / 2 ^ 53 : ℚ) ≤ uu ^ (2 * P.length + prodSizes s + 2) := by
    have := uu_pow_ge (2 * P.length + prodSizes s + 2)
    push_cast at this
    exact this
  have hfin : ∀ {x y : ℚ}, Rel (2 * P.length + prodSizes s + 2) x y → 0 ≤ x → 0 ≤ y →
      (1 - (2 * P.length + prodSizes s + 2) / 2 ^ 53) * y ≤ x ∧ (1 - (2 * P.length + prodSizes s + 2) / 2 ^ 53) * x ≤ y := by
    intro x y hr hx hy
    exact ⟨(mul_le_mul_of_nonneg_right hlow hy).trans hr.1, (mul_le_mul_of_nonneg_right hlow hx).trans hr.2⟩
  have hsum : Rel (2 * P.length + prodSizes s + 2) (∑ v ∈ cells s, E v) (∑ v ∈ cells s, exactExp s P pop v) := by
    constructor
    · rw [Finset.mul_sum]
      exact Finset.sum_le_sum fun v hv => (hE v (mem_cells.mp hv)).2.1
    · rw [Finset.mul_sum]
      exact Finset.sum_le_sum fun v hv => (hE v (mem_cells.mp hv)).2.2
  have htot : ∑ v ∈ cells s, exactExp s P pop v = pop := by
    unfold exactExp
    rw [← Finset.sum_mul, mul_comm, div_mul_cancel₀ _ hS.ne']
  rw [htot] at hsum
  refine ⟨E, ?_, ?_, ?_, hfin hsum (Finset.sum_nonneg fun v hv => hE0 v (mem_cells.mp hv)) hp1.le⟩
  · rw [hs.expected]
    exact arr_congr fun v hv => (hE v hv).1
  · intro v hv e he
    have : e = exactExp s P pop v := by rw [he]; unfold exactExp; ring
    rw [this]
    exact hfin (hE v hv).2 (hE0 v hv) (he0 v hv)
  · intro v hv
    rw [(hE v hv).2.zero_iff (he0 v hv), ← productAt_eq_zero]
    unfold exactExp
    rw [mul_eq_zero]
    constructor
    · rintro (h | h)
      · exact h
      · exact absurd h (div_pos hp1 hS).ne'
    · exact Or.inl

/-- **C86**, statistics in binary64: when no marginal entry is zero, under the same bounds, the `chiSq` reported with state
sampling is a number, not negative, and agrees with the sum over the cells of the squared difference between the result and the
reported expectation divided by the expectation, up to one rounding for each cell and four more, and an absolute error of
`2^-80`; `pValue` is the value for this `chiSq` and the sizes of the table. -/
theorem C86_chiSq_rounded {sqrt : Fl → Fl} {lm : Libm} {s : List Nat} {P : Prob Int} {pop : Int} (h : ProbOK s P pop)
    (hpop : pop < 2 ^ 52) (hpos : ∀ p ∈ P, ∀ j, InRange (projSizes p.1 s) j → 0 < p.2 j)
    (hbig : (pop : ℚ) ^ P.length * prodSizes s ≤ 2 ^ 800) (hsz : 2 * P.length + prodSizes s + 2 ≤ 2 ^ 52)
    (hn : ∀ p ∈ P, p.1.Nodup ∧ p.1.length < s.length) {skips : Int} {x : QIS}
    (hx : qisState (FP.ieee sqrt) lm s P skips = .ok x) :
    ∃ (f : List Int → Int) (E : List Int → ℚ) (c : ℚ), x.micro.array = arr s f ∧ x.expected = arr s (fun v => .fin (E v)) ∧
      x.chiSq = .fin c ∧ x.pValue = tablePValue (FP.ieee sqrt) lm s (.fin c) ∧ 0 ≤ c ∧ (∀ v, InRange s v → 0 < E v) ∧ ∀ X : ℚ, X = ∑ v ∈ cells s, (f v - E v) ^ 2 / E v →
        (1 - (prodSizes s + 4) / 2 ^ 53) * X - 1 / 2 ^ 80 ≤ c ∧ (1 - (prodSizes s + 4) / 2 ^ 53) * c - 1 / 2 ^ 80 ≤ X := by
  have hfp := FP.ieee_good sqrt
  obtain ⟨vs, hs⟩ := qisState_solved hfp (signOK_ieee sqrt) h hpop hn hx
  rw [← bigQ_eq] at hbig
  have hprod : ∀ v, InRange s v → 0 < productAt P v := by
    intro v hv
    refine lt_of_le_of_ne (productAt_nonneg h hv) (Ne.symm ?_)
    rw [Ne, productAt_eq_zero]
    rintro ⟨p, hp1, hp2⟩
    exact absurd hp2 (hpos p hp1 _ (inRange_proj (h.dims p hp1).2 hv)).ne'
  obtain ⟨v0, hv0⟩ := exists_inRange h.good.2
  have hpop0 : 0 < pop := by
    have hl := h.lists
    obtain ⟨p, hp⟩ := List.exists_mem_of_ne_nil P (by rintro rfl; simp at hl)
    obtain ⟨v, hv⟩ := exists_inRange (goodShape_projSizes h.good (h.dims p hp).1 (h.dims p hp).2).2
    have := h.total p hp
    have h1 : 0 < ∑ j ∈ cells (projSizes p.1 s), p.2 j :=
      Finset.sum_pos (fun j hj => hpos p hp j (mem_cells.mp hj)) ⟨v, mem_cells.mpr hv⟩
    rwa [this] at h1
  have hp1 : (0 : ℚ) < pop := by exact_mod_cast hpop0
  have hS : 0 < ∑ w ∈ cells s, productAt P w :=
    Finset.sum_pos (fun v hv => hprod v (mem_cells.mp hv)) ⟨v0, mem_cells.mpr hv0⟩
  have hall : ∀ v, ∃ E : ℚ, InRange s v → expectedVal (FP.ieee sqrt) s P pop v = .fin E ∧ 1 ≤ E * (bigQ * 16) ∧ 0 ≤ E ∧ E ≤ 2 ^ 53 := by
    intro v
    by_cases hv : InRange s v
    · obtain ⟨E, h1, h2, h3⟩ := expectedVal_rel hfp h hpop0 hpop
        ⟨v0, hv0, fun p hp => hpos p hp _ (inRange_proj (h.dims p hp).2 hv0)⟩ hbig hsz hv
      have he0 : 0 ≤ exactExp s P pop v := by
        have := (hprod v hv).le
        unfold exactExp; positivity
      have hE0 := h2.nonneg he0
      refine ⟨E, fun _ => ⟨h1, ?_, hE0, ?_⟩⟩
      · rcases h3 with h3 | h3
        · exact absurd h3 (hprod v hv).ne'
        · exact h3
      · have h4 := h2.upper hsz hE0
        have h5 : exactExp s P pop v ≤ pop := by
          unfold exactExp
          rw [mul_div_assoc', div_le_iff₀ hS, mul_comm]
          apply mul_le_mul_of_nonneg_left _ hp1.le
          exact Finset.single_le_sum (fun w hw => (hprod w (mem_cells.mp hw)).le) (mem_cells.mpr hv)
        have h6 : (pop : ℚ) ≤ 2 ^ 52 := by exact_mod_cast hpop.le
        linarith
    · exact ⟨0, fun h => absurd h hv⟩
  choose E hE using hall
  have hEp : ∀ v, InRange s v → 0 < E v := by
    intro v hv
    obtain ⟨-, h2, h3, -⟩ := hE v hv
    refine lt_of_le_of_ne h3 (fun h => ?_)
    rw [← h] at h2
    linarith
  have hN : (allIdx s).length = prodSizes s := length_allIdx s
  have ht := tinyQ_pos
  have hb := bigQ_pos
  have hb1 := big_one
  have hNq : (prodSizes s : ℚ) ≤ 2 ^ 52 := by exact_mod_cast (show prodSizes s ≤ 2 ^ 52 by omega)
  have hN0 : (0 : ℚ) ≤ prodSizes s := by positivity
  have htb : tinyQ * bigQ * 2 ^ 200 ≤ 1 := by have := big_tiny; rw [← mul_assoc] at this; exact this
  have htb0 : 0 < tinyQ * bigQ := mul_pos ht hb
  have ht2 : tinyQ ≤ tinyQ * bigQ := by nlinarith
  set η := tinyQ * bigQ * 2 ^ 64 with hη
  have hη0 : 0 ≤ η := by positivity
  have hcount : ∀ v, (vs.count v : Int) ≤ 2 ^ 52 := by
    intro v
    have h1 := List.count_le_length (a := v) (l := vs)
    have h2 := hs.size
    omega
  have herr : (prodSizes s : ℚ) * (η + 2 * tinyQ) ≤ 1 / 2 ^ 80 := by
    have h1 : η + 2 * tinyQ ≤ tinyQ * bigQ * 2 ^ 65 := by rw [hη]; linarith
    calc (prodSizes s : ℚ) * (η + 2 * tinyQ) ≤ 2 ^ 52 * (tinyQ * bigQ * 2 ^ 65) :=
          mul_le_mul hNq h1 (by positivity) (by norm_num)
      _ = tinyQ * bigQ * 2 ^ 200 / 2 ^ 83 := by ring
      _ ≤ 1 / 2 ^ 83 := by gcongr
      _ ≤ 1 / 2 ^ 80 := by norm_num
  obtain ⟨r, hr1, hr0, hr2⟩ := chi_fold (y := fun v => (((vs.count v : Int) : ℚ) - E v) ^ 2 / E v) hfp hη0 (allIdx s) 4 0 0 0 (by
      intro v hv
      have hv := mem_allIdx.mp hv
      obtain ⟨e1, e2, e3, e4⟩ := hE v hv
      obtain ⟨t, t1, t2, t3, t4⟩ := chi_term hfp (by positivity) (hcount v) e2 e3 e4
      exact ⟨t, t1, t2, t3, by have := hEp v hv; positivity, t4⟩) le_rfl (by have := h.lists; omega) (by simp [RelA]) le_rfl le_rfl le_rfl (by
      rw [hN]
      have h1 : bigQ * 2 ^ 112 + η + 2 * tinyQ ≤ bigQ * 2 ^ 113 := by
        have : η + 2 * tinyQ ≤ 1 := by
          have h1 : η + 2 * tinyQ ≤ tinyQ * bigQ * 2 ^ 65 := by rw [hη]; linarith
          refine h1.trans (le_trans ?_ htb)
          exact mul_le_mul_of_nonneg_left (by norm_num) htb0.le
        linarith
      rw [zero_add, zero_add]
      calc (prodSizes s : ℚ) * (bigQ * 2 ^ 112 + η + 2 * tinyQ) ≤ 2 ^ 52 * (bigQ * 2 ^ 113) :=
            mul_le_mul hNq h1 (by positivity) (by norm_num)
        _ = bigQ * 2 ^ 165 := by ring
        _ ≤ _ := mul_le_mul_of_nonneg_left (by norm_num) hb.le)
  rw [hN, zero_add, zero_add, sum_allIdx] at hr2
  have hchi : x.chiSq = .fin r := by
    rw [hs.chiSq, ← hr1]
    unfold chiSqVal
    apply List.foldl_ext
    intro a v hv
    rw [(hE v (mem_allIdx.mp hv)).1]
  refine ⟨fun v => (vs.count v : Int), E, r, hs.array, ?_, hchi, by rw [hs.pValue, hchi], hr0, hEp, ?_⟩
  · rw [hs.expected]
    exact arr_congr fun v hv => (hE v hv).1
  · intro X hX
    have hX0 : 0 ≤ X := by
      rw [hX]
      exact Finset.sum_nonneg fun v hv => by have := hEp v (mem_cells.mp hv); positivity
    simp only at hX
    rw [← hX] at hr2
    have hlow : (1 - (prodSizes s + 4) / 2 ^ 53 : ℚ) ≤ uu ^ (4 + prodSizes s) := by
      have := uu_pow_ge (4 + prodSizes s)
      push_cast at this
      linarith
    have h1 := mul_le_mul_of_nonneg_right hlow hX0
    have h2 := mul_le_mul_of_nonneg_right hlow hr0
    exact ⟨by linarith [hr2.1], by linarith [hr2.2]⟩


/-- The hypotheses of both theorems are met by a run in binary64 with 14 people, four attributes and overlapping marginals. -/
example (sqrt : Fl → Fl) (lm : Libm) : ∃ x, qisState (FP.ieee sqrt) lm [2, 2, 2, 2] bandProb 0 = .ok x ∧
    (∃ c, x.chiSq = .fin c ∧ 0 ≤ c) ∧ ∃ E : List Int → ℚ, x.expected = arr [2, 2, 2, 2] (fun v => .fin (E v)) := by
  have hb : ((14 : Int) : ℚ) ^ bandProb.length * prodSizes [2, 2, 2, 2] ≤ 2 ^ 800 := by
    have h1 : (14 : ℚ) ^ bandProb.length * prodSizes [2, 2, 2, 2] ≤ 2 ^ 20 := by norm_num [bandProb, prodSizes]
    have h2 : (2 : ℚ) ^ 20 ≤ 2 ^ 800 := pow_le_pow_right₀ (by norm_num) (by norm_num)
    exact le_trans (by exact_mod_cast h1) h2
  have hpos : ∀ p ∈ bandProb, ∀ j, InRange (projSizes p.1 [2, 2, 2, 2]) j → 0 < p.2 j := by
    intro p hp j hj
    simp only [bandProb, List.mem_cons, List.not_mem_nil, or_false] at hp
    have h3 : ∀ d < 3, 0 ≤ j.getD d 0 := by
      intro d hd
      exact (inRange_getD hj (d := d) (by rcases hp with rfl | rfl <;> simpa [projSizes] using hd)).1
    have h0 := h3 0 (by norm_num)
    have h1 := mul_nonneg (h3 1 (by norm_num)) (h3 2 (by norm_num))
    rcases hp with rfl | rfl <;> · dsimp only; omega
  obtain ⟨c, hc, -, h, -⟩ := C86_returns_rounded (Or.inr ⟨sqrt, rfl⟩) lm bandProb_ok (by norm_num) bandProb_proper hb (by decide)
    (.refl _) bandProb_decomposable (by simp) (skips := 0) le_rfl (by norm_num)
  obtain ⟨x, f, hx, -⟩ := h (by rw [hc (by norm_num)]; norm_num)
  obtain ⟨-, -, r, -, -, h1, -, h2, -⟩ := C86_chiSq_rounded bandProb_ok (by norm_num) hpos hb (by decide) bandProb_proper hx
  obtain ⟨E, h3, -⟩ := C86_expected_rounded bandProb_ok (by norm_num) (by norm_num)
    ⟨[0, 0, 0, 0], by decide, by decide⟩ hb (by decide) bandProb_proper hx
  exact ⟨x, hx, ⟨r, h1, h2⟩, E, h3⟩

end HL

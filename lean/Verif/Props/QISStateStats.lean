import Verif.Props.QISState

/-
C86, continued: the expectation and the statistics reported by qis with state sampling.
-/

namespace HL
open QIS Micro

variable {fp : FP}

theorem qisState_solved (hfp : fp.Good) (hsg : SignOK fp) {lm : Libm} {s : List Nat} {P : Prob Int} {pop : Int} (h : ProbOK s P pop)
    (hpop : pop < 2 ^ 52) (hn : ∀ p ∈ P, p.1.Nodup ∧ p.1.length < s.length) {skips : Int} {x : QIS}
    (hx : qisState fp lm s P skips = .ok x) : ∃ vs, SolvedP fp lm s P pop vs x := by
  unfold qisState at hx
  rcases runP_cases hfp hsg lm h hpop hn skips (J := fun _ _ => True) trivial (fun _ _ _ _ _ _ => trivial) with
    ⟨-, e, h1, -⟩ | ⟨-, -, h1⟩ | ⟨c, -, -, ⟨-, -, -, -, -, -, -, -, h1⟩ | ⟨-, h1⟩ | ⟨vs, x', -, h1, h2⟩⟩
  · rw [h1] at hx; cases hx
  · rw [h1] at hx; cases hx
  · rw [h1] at hx; cases hx
  · rw [h1] at hx; cases hx
  · rw [h1] at hx
    injection hx with hx
    subst hx
    exact ⟨vs, h2⟩

/-- **C86**: in exact arithmetic, when no marginal entry is zero, `qis` compiled with state sampling reports as expectation the
independence table scaled to the population, as `chiSq` the sum over the cells of the squared difference between the population
and this expectation divided by the expectation, and as `pValue` the value for this number and the sizes of the table. -/
theorem C86_chiSq (lm : Libm) {s : List Nat} {P : Prob Int} {pop : Int} (h : ProbOK s P pop) (hpop : pop < 2 ^ 52)
    (hn : ∀ p ∈ P, p.1.Nodup ∧ p.1.length < s.length) (hpos : ∀ p ∈ P, ∀ j, InRange (projSizes p.1 s) j → 0 < p.2 j)
    {skips : Int} {x : QIS} (hx : qisState FP.exact lm s P skips = .ok x) :
    ∃ (f : List Int → Int) (E : List Int → ℚ), x.micro.array = arr s f ∧ x.expected = arr s (fun v => .fin (E v)) ∧
      (∀ v, E v = productAt P v * (pop / ∑ w ∈ cells s, productAt P w)) ∧
      x.chiSq = .fin (∑ v ∈ cells s, (f v - E v) ^ 2 / E v) ∧
      x.pValue = tablePValue FP.exact lm s (.fin (∑ v ∈ cells s, (f v - E v) ^ 2 / E v)) := by
  obtain ⟨vs, hs⟩ := qisState_solved FP.exact_good signOK_exact h hpop hn hx
  have hprod : ∀ v ∈ cells s, 0 < productAt P v := by
    intro v hv
    refine lt_of_le_of_ne (productAt_nonneg h (mem_cells.mp hv)) (Ne.symm ?_)
    rw [Ne, productAt_eq_zero]
    rintro ⟨p, hp1, hp2⟩
    exact absurd hp2 (hpos p hp1 _ (inRange_proj (h.dims p hp1).2 (mem_cells.mp hv))).ne'
  have hne : (cells s).Nonempty := by
    obtain ⟨v, hv⟩ := exists_inRange h.good.2
    exact ⟨v, mem_cells.mpr hv⟩
  have hsum : 0 < ∑ v ∈ cells s, productAt P v := Finset.sum_pos hprod hne
  have hp0 : (0 : ℚ) < pop := by
    have hl := h.lists
    obtain ⟨p, hp⟩ := List.exists_mem_of_ne_nil P (by rintro rfl; simp at hl)
    obtain ⟨v, hv⟩ := exists_inRange (goodShape_projSizes h.good (h.dims p hp).1 (h.dims p hp).2).2
    have := h.total p hp
    have h1 : 0 < ∑ j ∈ cells (projSizes p.1 s), p.2 j :=
      Finset.sum_pos (fun j hj => hpos p hp j (mem_cells.mp hj)) ⟨v, mem_cells.mpr hv⟩
    rw [this] at h1
    exact_mod_cast h1
  have hchi : x.chiSq = .fin (∑ v ∈ cells s, (((vs.count v : Int) : ℚ) - productAt P v * (pop / ∑ v ∈ cells s, productAt P v)) ^ 2 /
      (productAt P v * (pop / ∑ v ∈ cells s, productAt P v))) := by
    rw [hs.chiSq]
    unfold chiSqVal
    rw [foldl_exact _ (fun v => (((vs.count v : Int) : ℚ) - productAt P v * (pop / ∑ v ∈ cells s, productAt P v)) ^ 2 /
      (productAt P v * (pop / ∑ v ∈ cells s, productAt P v))), zero_add, sum_allIdx]
    intro v hv
    rw [expectedVal_exact hsum.ne']
    have hE : productAt P v * (pop / ∑ v ∈ cells s, productAt P v) ≠ 0 :=
      (mul_pos (hprod v (mem_cells.mpr (mem_allIdx.mp hv))) (div_pos hp0 hsum)).ne'
    rw [pow_two, sub_eq_add_neg]
    show (if _ then _ else _) = _
    rw [if_neg hE]
    rfl
  refine ⟨_, fun v => productAt P v * (pop / ∑ v ∈ cells s, productAt P v), hs.array, ?_, fun _ => rfl, hchi, ?_⟩
  · rw [hs.expected]
    congr 1
    funext v
    exact expectedVal_exact hsum.ne' v
  · rw [hs.pValue, hchi]

/-- The hypotheses are met by a run with 14 people and overlapping marginals. -/
example (lm : Libm) : ∃ x, qisState FP.exact lm [2, 2, 2, 2] bandProb 0 = .ok x ∧
    ∀ p ∈ bandProb, ∀ j, InRange (projSizes p.1 [2, 2, 2, 2]) j → 0 < p.2 j := by
  obtain ⟨c, hc, -, h, -⟩ := C86_returns lm bandProb_ok (by norm_num) bandProb_proper (.refl _) bandProb_decomposable (by simp) (skips := 0) le_rfl (by norm_num)
  obtain ⟨x, f, hx, -⟩ := h (by rw [hc (by norm_num)]; norm_num)
  refine ⟨x, hx, fun p hp j hj => ?_⟩
  simp only [bandProb, List.mem_cons, List.not_mem_nil, or_false] at hp
  have h3 : ∀ d < 3, 0 ≤ j.getD d 0 := by
    intro d hd
    exact (inRange_getD hj (d := d) (by rcases hp with rfl | rfl <;> simpa [projSizes] using hd)).1
  have h0 := h3 0 (by norm_num)
  have h1 := mul_nonneg (h3 1 (by norm_num)) (h3 2 (by norm_num))
  rcases hp with rfl | rfl <;> · dsimp only; omega

/-- **C86**, statistics when a marginal is zero at some cell: a run that returns reports NaN for `chiSq` and a p-value of 1
(a perfect fit), as `qis` does without state sampling (C28). -/
theorem C86_negation_chiSq (hsg : fp = FP.exact ∨ ∃ sqrt, fp = FP.ieee sqrt) {lm : Libm} {s : List Nat} {P : Prob Int} {pop : Int}
    (h : ProbOK s P pop) (hpop : pop < 2 ^ 52) (hn : ∀ p ∈ P, p.1.Nodup ∧ p.1.length < s.length)
    (hz : ∃ v, InRange s v ∧ ∃ p ∈ P, p.2 (proj p.1 v) = 0) {skips : Int} {x : QIS}
    (hx : qisState fp lm s P skips = .ok x) : x.chiSq = .nan ∧ x.pValue = .fin 1 := by
  have hfp : fp.Good := by
    rcases hsg with rfl | ⟨sqrt, rfl⟩
    · exact FP.exact_good
    · exact FP.ieee_good sqrt
  have hsi : SignOK fp := by
    rcases hsg with rfl | ⟨sqrt, rfl⟩
    · exact signOK_exact
    · exact signOK_ieee sqrt
  obtain ⟨vs, hs⟩ := qisState_solved hfp hsi h hpop hn hx
  obtain ⟨v, hv, p, hp, hpj⟩ := hz
  have hm := hs.met p hp _ (inRange_proj (h.dims p hp).2 hv)
  rw [marginalSum_count hs.range, hpj] at hm
  have hcount : vs.count v = 0 := by
    rw [List.count_eq_zero]
    intro hvm
    have : 0 < vs.countP (fun w => proj p.1 w = proj p.1 v) := List.countP_pos_iff.mpr ⟨v, hvm, by simp⟩
    omega
  have hchi : x.chiSq = .nan := by
    rw [hs.chiSq]
    exact chiSqVal_nan hfp hv (by rw [hcount]; rfl) (expectedVal_zero hfp ⟨p, hp, hpj⟩)
  refine ⟨hchi, ?_⟩
  rw [hs.pValue, hchi]
  unfold tablePValue
  rw [pValue_nan hfp]

theorem zeroProb_decomposable : Decomposable [2, 2] zeroProb := by
  intro A p B hP
  match A, hP with
  | [], hP =>
    simp only [zeroProb, List.nil_append, List.cons.injEq] at hP
    obtain ⟨rfl, -⟩ := hP
    exact ⟨by decide, .inl rfl⟩
  | [q], hP =>
    simp only [zeroProb, List.cons_append, List.nil_append, List.cons.injEq] at hP
    obtain ⟨rfl, rfl, -⟩ := hP
    refine ⟨by decide, .inr ⟨_, List.mem_singleton.mpr rfl, ?_, ?_⟩⟩
    · rintro d - ⟨r, hr, hdr⟩
      rw [List.mem_singleton] at hr
      subst hr
      exact hdr
    · intro v _
      simp only [shared, List.mem_cons, List.not_mem_nil, or_false]
      unfold weightOn
      simp
      decide
  | _ :: _ :: _, hP => simp [zeroProb] at hP

/-- The hypotheses are met by a run with two people in which nobody belongs to one of the categories. -/
example (lm : Libm) : ∃ x, qisState FP.exact lm [2, 2] zeroProb 0 = .ok x ∧ x.chiSq = .nan ∧ x.pValue = .fin 1 := by
  have hn : ∀ p ∈ zeroProb, p.1.Nodup ∧ p.1.length < [2, 2].length := by
    intro p hp
    simp only [zeroProb, List.mem_cons, List.not_mem_nil, or_false] at hp
    rcases hp with rfl | rfl <;> simp
  obtain ⟨c, hc, -, h, -⟩ := C86_returns lm zeroProb_ok (by norm_num) hn (.refl _) zeroProb_decomposable (by simp) (skips := 0) le_rfl (by norm_num)
  obtain ⟨x, f, hx, -⟩ := h (by rw [hc (by norm_num)]; norm_num)
  refine ⟨x, hx, C86_negation_chiSq (.inl rfl) zeroProb_ok (by norm_num) hn ?_ hx⟩
  exact ⟨[0, 0], by decide, _, List.mem_cons_self, by decide⟩

/-- **C86**: the option changes neither the expectation nor the number of individuals: when `qis` returns with and without state
sampling, whatever the skips of the two calls, both report the same expectation and place the same number of individuals. -/
theorem C86_same_expectation (hsg : fp = FP.exact ∨ ∃ sqrt, fp = FP.ieee sqrt) {lm : Libm} {s : List Nat} {P : Prob Int} {pop : Int}
    (h : ProbOK s P pop) (hpop : pop < 2 ^ 52) (hn : ∀ p ∈ P, p.1.Nodup ∧ p.1.length < s.length) {skips skips' : Int} {x y : QIS}
    (hx : qisState fp lm s P skips = .ok x) (hy : qis fp lm s P skips' = .ok y) :
    x.expected = y.expected ∧ ∃ f g : List Int → Int, x.micro.array = arr s f ∧ y.micro.array = arr s g ∧
      ∑ v ∈ cells s, f v = pop ∧ ∑ v ∈ cells s, g v = pop := by
  have hfp : fp.Good := by
    rcases hsg with rfl | ⟨sqrt, rfl⟩
    · exact FP.exact_good
    · exact FP.ieee_good sqrt
  have hsi : SignOK fp := by
    rcases hsg with rfl | ⟨sqrt, rfl⟩
    · exact signOK_exact
    · exact signOK_ieee sqrt
  obtain ⟨vs, hs⟩ := qisState_solved hfp hsi h hpop hn hx
  obtain ⟨c, ws, -, -, hw⟩ := run_ok hfp h hpop hy
  have h0 := h.pop_nonneg
  have key : ∀ l : List (List Int), (∀ v ∈ l, InRange s v) → l.length = pop.toNat → ∑ v ∈ cells s, (l.count v : Int) = pop := by
    intro l hl hlen
    rw [sum_count hl, hlen, Int.toNat_of_nonneg h0]
  exact ⟨by rw [hs.expected, hw.expected], _, _, hs.array, by rw [hw.at_.micro], key vs hs.range hs.size, key ws hw.range hw.size⟩

/-- Both calls return for two people in two attributes. -/
example (lm : Libm) : (∃ x, qisState FP.exact lm [2, 2] zeroProb 0 = .ok x) ∧ ∃ y, qis FP.exact lm [2, 2] zeroProb 5 = .ok y := by
  have hn : ∀ p ∈ zeroProb, p.1.Nodup ∧ p.1.length < [2, 2].length := by
    intro p hp
    simp only [zeroProb, List.mem_cons, List.not_mem_nil, or_false] at hp
    rcases hp with rfl | rfl <;> simp
  obtain ⟨c, hc, -, h, -⟩ := C86_returns lm zeroProb_ok (by norm_num) hn (.refl _) zeroProb_decomposable (by simp) (skips := 0) le_rfl (by norm_num)
  obtain ⟨x, f, hx, -⟩ := h (by rw [hc (by norm_num)]; norm_num)
  obtain ⟨y, hy, -⟩ := C23_tree FP.exact_good lm zeroProb_ok (by norm_num) (by exact exProb_tree) (by simp) (skips := 5) (by norm_num) (by norm_num)
  exact ⟨⟨x, hx⟩, y, hy⟩

end HL

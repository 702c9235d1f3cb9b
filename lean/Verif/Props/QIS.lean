import Verif.Proof.QISAxes
import Verif.Proof.QISFull
import Verif.Proof.QISPoints
import Verif.Props.Validation
import Verif.Proof.IPFWitness
import Mathlib.Tactic.IntervalCases

/-
C21-C28, C59: quasirandom integer sampling without replacement.

`qis fp lm s P skips` is one call of `qis` on the problem `P` for a table of sizes `s`; `fp` is the floating-point
arithmetic and `lm` the libm functions used for the p-value and the degeneracy.  Nothing else than a consistent
problem gets past the validation (`qis_accepted`, C19), so the theorems are about those.
-/

namespace HL
variable {fp : FP}

/-- One call of `qis`: construct, then solve once. -/
abbrev qis (fp : FP) (lm : Libm) (s : List Nat) (P : Prob Int) (skips : Int) : Out QIS :=
  QIS.run fp lm (indicesOf P) (marginalsOf s P) skips

/-- Whatever the index lists and the marginals (without empty dimensions, totals below 2^52), if `qis` returns then
they are a consistent problem for some table. -/
theorem qis_accepted (hfp : fp.Good) (lm : Libm) (is : List (List Int)) (ms : List (List Nat × (List Int → Int)))
    (hg : ∀ m ∈ ms, GoodShape m.1) (hsm : ∀ m ∈ ms, |∑ j ∈ cells m.1, m.2 j| < 2 ^ 52) (skips : Int) {x : QIS}
    (hx : QIS.run fp lm is (ms.map (fun m => arr m.1 m.2)) skips = .ok x) :
    ∃ s P pop, is = indicesOf P ∧ ms.map (fun m => arr m.1 m.2) = marginalsOf s P ∧ ProbOK s P pop ∧ pop < 2 ^ 52 ∧
      qis fp lm s P skips = .ok x := by
  have hm : ∃ m, Micro.new (β := Int) fp (numInt fp) is (ms.map (fun m => arr m.1 m.2)) = .ok m := by
    unfold QIS.run QIS.new at hx
    cases hn : Micro.new (β := Int) fp (numInt fp) is (ms.map (fun m => arr m.1 m.2)) with
    | ok m => exact ⟨m, rfl⟩
    | thrown e => rw [hn] at hx; cases hx
    | ub u => rw [hn] at hx; cases hx
    | diverges => rw [hn] at hx; cases hx
  obtain ⟨s, P, pop, h1, h2, h3⟩ := (C19_validation_int (β := Int) hfp is ms hg hsm).1.mp hm
  refine ⟨s, P, pop, h1, h2, h3, ?_, by rw [h1, h2] at hx; exact hx⟩
  have hl := h3.lists
  obtain ⟨p, hp⟩ := List.exists_mem_of_ne_nil P (by rintro rfl; simp at hl)
  have hmem : arr (projSizes p.1 s) p.2 ∈ ms.map (fun m => arr m.1 m.2) := by
    rw [h2]; exact List.mem_map.mpr ⟨p, hp, rfl⟩
  obtain ⟨m, hm, he⟩ := List.mem_map.mp hmem
  have hs : m.1 = projSizes p.1 s := congrArg NDArray.sizes he
  rw [hs] at he
  have := hsm m hm
  rw [hs, Finset.sum_congr rfl (fun j hj => arr_inj he j (mem_cells.mp hj)), h3.total p hp] at this
  exact (abs_lt.mp this).2

theorem exProb_tree : TreeDims (exProb.map Prod.fst) := by
  intro A ds B h
  simp only [exProb, List.map_cons, List.map_nil] at h
  match A, h with
  | [], h =>
    simp only [List.nil_append, List.cons.injEq] at h
    rw [← h.1]; simp
  | [a], h =>
    simp only [List.cons_append, List.nil_append, List.cons.injEq] at h
    rw [← h.2.1]; simp
  | a :: b :: A, h => simp at h

/-- The hypothesis "`qis` returns" of the theorems below is met by the problem `[1, 2]`, `[1, 1, 1]`. -/
theorem exProb_run (hfp : fp.Good) (lm : Libm) : ∃ x, qis fp lm [2, 3] exProb 0 = .ok x ∧ x.conv = true :=
  run_tree hfp lm exProb_ok (by norm_num) exProb_tree (by simp) (c := 1) (skipCount_small (by simp)) (by norm_num)

/-- The problem meets the hypotheses of `qis_accepted`. -/
example : ∃ (ms : List (List Nat × (List Int → Int))), (∀ m ∈ ms, GoodShape m.1) ∧
    (∀ m ∈ ms, |∑ j ∈ cells m.1, m.2 j| < 2 ^ 52) ∧ ∀ lm, ∃ x,
    QIS.run FP.exact lm (indicesOf exProb) (ms.map (fun m => arr m.1 m.2)) 0 = .ok x := by
  refine ⟨[([2], fun j => j.getD 0 0 + 1), ([3], fun _ => 1)], by decide, by decide, fun lm => ?_⟩
  obtain ⟨x, hx, -⟩ := exProb_run FP.exact_good lm
  exact ⟨x, hx⟩

/-! ### C21 -/

/-- **C21**: when `qis` returns, the result has the sizes of the table, no cell is negative and the cells sum to the
reported population, which is the total of every marginal. -/
theorem C21_population (hfp : fp.Good) {lm : Libm} {s : List Nat} {P : Prob Int} {pop : Int} (h : ProbOK s P pop)
    (hpop : pop < 2 ^ 52) {skips : Int} {x : QIS} (hx : qis fp lm s P skips = .ok x) :
    ∃ f, x.micro.array = arr s f ∧ (∀ v, InRange s v → 0 ≤ f v) ∧ ∑ v ∈ cells s, f v = x.micro.population ∧
      x.micro.population = pop := by
  obtain ⟨c, vs, -, -, hs⟩ := run_ok hfp h hpop hx
  have hp : x.micro.population = pop := by rw [hs.at_.micro]; rfl
  refine ⟨fun v => (vs.count v : Int), by rw [hs.at_.micro], fun v _ => by positivity, ?_, hp⟩
  rw [sum_count hs.range, hs.size, hp, Int.toNat_of_nonneg h.pop_nonneg]

/-! ### C22 -/

/-- **C22**: when `qis` returns, `conv` is true exactly when every marginal is met by the result. -/
theorem C22_conv (hfp : fp.Good) {lm : Libm} {s : List Nat} {P : Prob Int} {pop : Int} (h : ProbOK s P pop)
    (hpop : pop < 2 ^ 52) {skips : Int} {x : QIS} (hx : qis fp lm s P skips = .ok x) {f : List Int → Int}
    (hf : x.micro.array = arr s f) :
    x.conv = true ↔ ∀ p ∈ P, ∀ j, InRange (projSizes p.1 s) j → marginalSum s p.1 f j = p.2 j := by
  obtain ⟨c, vs, -, -, hs⟩ := run_ok hfp h hpop hx
  rw [hs.conv, unspent_iff h hs.range hs.size]
  have ha : x.micro.array = arr s (fun v => (vs.count v : Int)) := by rw [hs.at_.micro]
  rw [hf] at ha
  have : ∀ p j, marginalSum s p f j = marginalSum s p (fun v => (vs.count v : Int)) j := by
    intro p j
    unfold marginalSum
    apply Finset.sum_congr rfl
    intro v hv
    exact arr_inj ha v (mem_cells.mp (Finset.mem_filter.mp hv).1)
  simp only [this]

/-! ### C23 -/

/-- **C23**: for marginals each of which shares at most one dimension with those before it, `qis` returns with `conv`
true, for every number of skips from 0 to 2^31 and every population for which the Sobol sequence is long enough. -/
theorem C23_tree (hfp : fp.Good) (lm : Libm) {s : List Nat} {P : Prob Int} {pop : Int} (h : ProbOK s P pop)
    (hpop : pop < 2 ^ 31) (ht : TreeDims (P.map Prod.fst)) (hd : s.length ≤ 1111) {skips : Int} (h0 : 0 ≤ skips)
    (h1 : skips ≤ 2 ^ 31) : ∃ x, qis fp lm s P skips = .ok x ∧ x.conv = true := by
  rcases skipCount_cases (skips % 2 ^ 32).toNat with ⟨c, hc, hb⟩ | ⟨hb, -⟩
  · exact run_tree hfp lm h (by omega) ht hd hc (by omega)
  · omega

example (hfp : fp.Good) (lm : Libm) : ∃ x, qis fp lm [2, 3] exProb 5 = .ok x ∧ x.conv = true :=
  C23_tree hfp lm exProb_ok (by norm_num) exProb_tree (by simp) (by norm_num) (by norm_num)

/-- Beyond trees: whatever the other marginals, if the first ranges over every dimension (once) then `qis` returns. -/
theorem C23_full_first (hfp : fp.Good) (lm : Libm) {s : List Nat} {p : List Nat × (List Int → Int)} {Q : Prob Int} {pop : Int}
    (h : ProbOK s (p :: Q) pop) (hpop : pop < 2 ^ 31) (hnd : p.1.Nodup) (hall : ∀ d < s.length, d ∈ p.1)
    (hd : s.length ≤ 1111) {skips : Int} (h0 : 0 ≤ skips) (h1 : skips ≤ 2 ^ 31) : ∃ x, qis fp lm s (p :: Q) skips = .ok x := by
  rcases skipCount_cases (skips % 2 ^ 32).toNat with ⟨c, hc, hb⟩ | ⟨hb, -⟩
  · exact run_full hfp lm h (by omega) hnd hall hd hc (by omega)
  · omega

/-! ### C24 -/

/-- The expectation of `qis` in exact arithmetic, when some cell is possible. -/
theorem C24_expectation_partial (lm : Libm) {s : List Nat} {P : Prob Int} {pop : Int} (h : ProbOK s P pop) (hpop : pop < 2 ^ 52)
    (h0 : 0 < pop) (hc : ∃ v, InRange s v ∧ ∀ p ∈ P, 0 < p.2 (proj p.1 v)) {skips : Int} {x : QIS}
    (hx : qis FP.exact lm s P skips = .ok x) :
    ∃ E : List Int → ℚ, x.expected = arr s (fun v => .fin (E v)) ∧
      (∃ k > 0, ∀ v, InRange s v → E v = k * productAt P v) ∧
      (∀ v, InRange s v → (E v = 0 ↔ ∃ p ∈ P, p.2 (proj p.1 v) = 0)) ∧
      ∑ v ∈ cells s, E v = pop := by
  obtain ⟨c, vs, -, -, hs⟩ := run_ok FP.exact_good h hpop hx
  have hpos : 0 < ∑ v ∈ cells s, productAt P v := by
    obtain ⟨v, hv, hp⟩ := hc
    apply Finset.sum_pos' (fun v hv => productAt_nonneg h (mem_cells.mp hv))
    refine ⟨v, mem_cells.mpr hv, lt_of_le_of_ne (productAt_nonneg h hv) (Ne.symm ?_)⟩
    rw [Ne, productAt_eq_zero]
    rintro ⟨p, hp1, hp2⟩
    exact absurd hp2 (hp p hp1).ne'
  have hpopQ : (0 : ℚ) < pop := by exact_mod_cast h0
  have hk : (0 : ℚ) < pop / ∑ v ∈ cells s, productAt P v := div_pos hpopQ hpos
  refine ⟨fun v => productAt P v * (pop / ∑ v ∈ cells s, productAt P v), ?_, ⟨_, hk, fun v _ => mul_comm _ _⟩, ?_, ?_⟩
  · rw [hs.expected]
    congr 1
    funext v
    exact expectedVal_exact hpos.ne' v
  · intro v _
    rw [mul_eq_zero, productAt_eq_zero]
    constructor
    · rintro (h | h)
      · exact h
      · exact absurd h hk.ne'
    · exact Or.inl
  · rw [← Finset.sum_mul, mul_comm, div_mul_cancel₀ _ hpos.ne']

/-- **C24** for tree-structured problems, where some cell is always possible: in exact arithmetic and for a positive
population the expectation is proportional to the product of the marginals, zero exactly where a marginal is zero,
and sums to the population. -/
theorem C24_expectation_tree (lm : Libm) {s : List Nat} {P : Prob Int} {pop : Int} (h : ProbOK s P pop) (hpop : pop < 2 ^ 52)
    (h0 : 0 < pop) (ht : TreeDims (P.map Prod.fst)) {skips : Int} {x : QIS} (hx : qis FP.exact lm s P skips = .ok x) :
    ∃ E : List Int → ℚ, x.expected = arr s (fun v => .fin (E v)) ∧
      (∃ k > 0, ∀ v, InRange s v → E v = k * productAt P v) ∧
      (∀ v, InRange s v → (E v = 0 ↔ ∃ p ∈ P, p.2 (proj p.1 v) = 0)) ∧
      ∑ v ∈ cells s, E v = pop :=
  C24_expectation_partial lm h hpop h0 (tree_support h h0 (by omega) ht) hx

example (lm : Libm) : ∃ x, qis FP.exact lm [2, 3] exProb 0 = .ok x :=
  (exProb_run FP.exact_good lm).imp fun _ h => h.1

/-- Two marginals over both dimensions of a 2x2 table, the diagonal and the antidiagonal. -/
def crossProb : Prob Int :=
  [([0, 1], fun j => if j = [0, 0] ∨ j = [1, 1] then 1 else 0), ([0, 1], fun j => if j = [0, 1] ∨ j = [1, 0] then 1 else 0)]

theorem crossProb_ok : ProbOK [2, 2] crossProb 2 where
  lists := by decide
  two := by decide
  pos := by decide
  dims := by simp [crossProb]
  cover := by
    intro d hd
    simp only [List.length_cons, List.length_nil] at hd
    interval_cases d <;> simp [crossProb]
  nonneg := by
    intro p hp j hj
    simp only [crossProb, List.mem_cons, List.not_mem_nil, or_false] at hp
    rcases hp with rfl | rfl <;> · simp only []; split <;> decide
  total := by
    intro p hp
    simp only [crossProb, List.mem_cons, List.not_mem_nil, or_false] at hp
    rcases hp with rfl | rfl <;> decide
  partials := by
    intro p hp q hq a b d ha hb x hx
    simp only [crossProb, List.mem_cons, List.not_mem_nil, or_false] at hp hq
    have hp1 : p.1 = [0, 1] := by rcases hp with rfl | rfl <;> rfl
    have hq1 : q.1 = [0, 1] := by rcases hq with rfl | rfl <;> rfl
    have ha2 : a < 2 := by
      have := (List.getElem?_eq_some_iff.mp ha).1
      rw [hp1] at this; exact this
    have hb2 : b < 2 := by
      have := (List.getElem?_eq_some_iff.mp hb).1
      rw [hq1] at this; exact this
    rw [hp1] at ha
    rw [hq1] at hb
    have hx2 : x < 2 := by
      interval_cases a
      · simp at ha; subst ha; exact hx
      · simp at ha; subst ha; exact hx
    interval_cases a <;> interval_cases b <;> simp at ha hb <;> subst ha <;> simp at hb <;>
      interval_cases x <;> rcases hp with rfl | rfl <;> rcases hq with rfl | rfl <;> decide

/-- The hypotheses of `C23_full_first` are met. -/
example (hfp : fp.Good) (lm : Libm) : ∃ x, qis fp lm [2, 2] crossProb 0 = .ok x :=
  C23_full_first hfp lm crossProb_ok (by norm_num) (by decide)
    (by intro d hd; simp only [List.length_cons, List.length_nil] at hd; interval_cases d <;> simp) (by simp) (by norm_num) (by norm_num)

/-- **C24 fails in general**: marginals over the same two dimensions are accepted when they exclude each other, and then
`qis` returns a population for which every expectation is NaN. -/
theorem C24_negation : ProbOK [2, 2] crossProb 2 ∧ ∀ fp : FP, fp.Good → ∀ lm, ∃ x, qis fp lm [2, 2] crossProb 0 = .ok x ∧
    x.expected = arr [2, 2] (fun _ => .nan) := by
  refine ⟨crossProb_ok, fun fp hfp lm => ?_⟩
  obtain ⟨x, hx⟩ := C23_full_first hfp lm crossProb_ok (by norm_num) (by decide)
    (by intro d hd; simp only [List.length_cons, List.length_nil] at hd; interval_cases d <;> simp) (by simp) (skips := 0)
    (by norm_num) (by norm_num)
  refine ⟨x, hx, ?_⟩
  obtain ⟨c, vs, -, -, hs⟩ := run_ok hfp crossProb_ok (by norm_num) hx
  rw [hs.expected]
  have hi : ∀ v, stateVal fp crossProb v = .fin 0 := by
    intro v
    have o1 := ofInt_exact hfp (t := 1) (by norm_num)
    have o0 := ofInt_exact hfp (t := 0) (by norm_num)
    rw [Int.cast_one] at o1
    rw [Int.cast_zero] at o0
    have m00 : fp.mul (.fin 0) (.fin 0) = .fin 0 := by show fp.rnd (0 * 0) = _; rw [mul_zero]; exact rnd0 hfp
    have m01 : fp.mul (.fin 0) (.fin 1) = .fin 0 := by show fp.rnd (0 * 1) = _; rw [zero_mul]; exact rnd0 hfp
    have m10 : fp.mul (.fin 1) (.fin 0) = .fin 0 := by show fp.rnd (1 * 0) = _; rw [mul_zero]; exact rnd0 hfp
    have m11 : fp.mul (.fin 1) (.fin 1) = .fin 1 := by
      show fp.rnd (1 * 1) = _
      rw [mul_one]
      have := rnd_int hfp (t := 1) (by norm_num)
      simpa using this
    unfold stateVal
    simp only [crossProb, List.foldl_cons, List.foldl_nil]
    by_cases h1 : proj [0, 1] v = [0, 0] ∨ proj [0, 1] v = [1, 1]
    · have h2 : ¬ (proj [0, 1] v = [0, 1] ∨ proj [0, 1] v = [1, 0]) := by
        rcases h1 with h1 | h1 <;> rw [h1] <;> decide
      rw [if_pos h1, if_neg h2, o0, o1, m11, m10]
    · rw [if_neg h1, o0, m10]
      split
      · rw [o1, m01]
      · rw [o0, m00]
  have hsum : (allIdx [2, 2]).foldl (fun acc v => fp.add acc (stateVal fp crossProb v)) (.fin 0) = .fin 0 := by
    have a00 : fp.add (.fin 0) (.fin 0) = .fin 0 := by show fp.rnd (0 + 0) = _; rw [add_zero]; exact rnd0 hfp
    have : ∀ l : List (List Int), l.foldl (fun acc v => fp.add acc (stateVal fp crossProb v)) (.fin 0) = .fin 0 := by
      intro l
      induction l with
      | nil => rfl
      | cons v l ih => rw [List.foldl_cons, hi, a00, ih]
    exact this _
  congr 1
  funext v
  unfold expectedVal
  rw [hsum, hi]
  have o2 := ofInt_exact hfp (t := 2) (by norm_num)
  rw [o2]
  simp [FP.div, FP.infOfSign, FP.sgn, FP.mul]

/-! ### C25 -/

/-- What a caller can do with a `QIS` object: construct it, then solve as often as they like. -/
inductive QISReach (fp : FP) (lm : Libm) (is : List (List Int)) (ms : List (NDArray Int)) : QIS → Prop
  | new {skips x} : QIS.new fp is ms skips = .ok x → QISReach fp lm is ms x
  | solve {x x'} (reset : Bool) : QISReach fp lm is ms x → QIS.solve fp lm x reset = .ok x' → QISReach fp lm is ms x'

theorem reach_obj (hfp : fp.Good) {lm : Libm} {s : List Nat} {P : Prob Int} {pop : Int} (h : ProbOK s P pop) (hpop : pop < 2 ^ 52)
    {x : QIS} (hx : QISReach fp lm (indicesOf P) (marginalsOf s P) x) :
    ∃ P' n E, ProbShape s P' ∧ QISObj s P' pop n E x := by
  induction hx with
  | @new skips x hn =>
    rcases run_eq hfp lm h hpop skips with ⟨hd, e, h1, -⟩ | ⟨hd, hk, h1⟩ | ⟨c, x0, h1, h2, h3, h4, h5, h6, -⟩
    · have : ∀ x', QIS.new fp (indicesOf P) (marginalsOf s P) skips ≠ .ok x' := by
        intro x' hn'
        unfold QIS.new at hn'
        rw [micro_new_int hfp h hpop] at hn'
        simp only [Out.ok_bind] at hn'
        rw [show (mkMicro Int s P pop).dim = s.length from rfl] at hn'
        unfold Sobol.new at hn'
        by_cases h61 : 2 ^ 61 ≤ s.length
        · rw [if_pos h61] at hn'; cases hn'
        · rw [if_neg h61, if_pos (by omega)] at hn'; cases hn'
      exact absurd hn (this x)
    · have : ∀ x', QIS.new fp (indicesOf P) (marginalsOf s P) skips ≠ .ok x' := by
        intro x' hn'
        have h2 := h.two
        obtain ⟨sb, hsb, ha, -⟩ := new_ok (dim := s.length) (by omega) hd
        unfold QIS.new at hn'
        rw [micro_new_int hfp h hpop] at hn'
        simp only [Out.ok_bind] at hn'
        rw [show (mkMicro Int s P pop).dim = s.length from rfl, hsb] at hn'
        simp only [Out.ok_bind] at hn'
        unfold Sobol.skip sobolSkip at hn'
        have hdv : skipCount (skips % 2 ^ 32).toNat = .diverges := skipCount_diverges (by omega)
        rw [hdv] at hn'
        cases hn'
      exact absurd hn (this x)
    · rw [hn] at h6
      injection h6 with h6
      subst h6
      exact ⟨P, c, _, h.toProbShape, h4⟩
  | @solve x x' reset _ hs ih =>
    obtain ⟨P', n, E, h1, h2⟩ := ih
    rcases solve_cases (fp := fp) lm h1 h2 reset with h3 | ⟨-, h3⟩ | ⟨vs, x'', h3, h4⟩
    · rw [h3] at hs; cases hs
    · rw [h3] at hs; cases hs
    · rw [h3] at hs
      injection hs with hs
      subst hs
      exact ⟨_, _, _, shape_remaining h1 vs, h4.obj⟩

/-- **C25**: on an accepted problem, after any history of calls, `solve` never raises "not all dims have been set" and
never does anything undefined: it returns, or the sampler raises, or the Sobol sequence is exhausted.  It always
terminates. -/
theorem C25_all_dims_set (hfp : fp.Good) {lm : Libm} {s : List Nat} {P : Prob Int} {pop : Int} (h : ProbOK s P pop)
    (hpop : pop < 2 ^ 52) {x : QIS} (hx : QISReach fp lm (indicesOf P) (marginalsOf s P) x) (reset : Bool) :
    (∃ x', QIS.solve fp lm x reset = .ok x') ∨ QIS.solve fp lm x reset = .thrown .pickFailed ∨
      QIS.solve fp lm x reset = .thrown .sobolExhausted := by
  obtain ⟨P', n, E, h1, h2⟩ := reach_obj hfp h hpop hx
  rcases solve_cases (fp := fp) lm h1 h2 reset with h3 | ⟨-, h3⟩ | ⟨vs, x'', h3, h4⟩
  · exact Or.inr (Or.inl h3)
  · exact Or.inr (Or.inr h3)
  · exact Or.inl ⟨_, h3⟩

/-- **C25** for one call of `qis`: every outcome.  It fails to terminate exactly when `skips`, as an unsigned 32-bit
number, is above 2^31 (so for every negative `skips` above -2^31) and the dimension is supported. -/
theorem C25_outcomes (hfp : fp.Good) (lm : Libm) {s : List Nat} {P : Prob Int} {pop : Int} (h : ProbOK s P pop)
    (hpop : pop < 2 ^ 52) (skips : Int) :
    ((1111 < s.length ∧ (qis fp lm s P skips = .thrown .sobolDim ∨ qis fp lm s P skips = .thrown .lengthError)) ∨
     (s.length ≤ 1111 ∧ 2 ^ 31 < skips % 2 ^ 32 ∧ qis fp lm s P skips = .diverges) ∨
     (s.length ≤ 1111 ∧ skips % 2 ^ 32 ≤ 2 ^ 31 ∧
      ((∃ x, qis fp lm s P skips = .ok x) ∨ qis fp lm s P skips = .thrown .pickFailed ∨
        (2 ^ 31 ≤ pop ∧ qis fp lm s P skips = .thrown .sobolExhausted)))) := by
  rcases run_eq hfp lm h hpop skips with ⟨h1, e, h2, h3⟩ | h1 | ⟨c, x, h1, h2, hc, h3, -, -, h4⟩
  · left
    refine ⟨h1, ?_⟩
    rcases h3 with rfl | rfl
    · exact Or.inl h2
    · exact Or.inr h2
  · exact Or.inr (Or.inl h1)
  · right; right
    have hk : skips % 2 ^ 32 ≤ 2 ^ 31 := by
      by_contra hk
      have hdv : skipCount (skips % 2 ^ 32).toNat = .diverges := skipCount_diverges (by omega)
      rw [hdv] at h2
      cases h2
    refine ⟨h1, hk, ?_⟩
    rw [qis, h4]
    rcases solve_cases (fp := fp) lm h.toProbShape h3 false with h5 | ⟨h6, h5⟩ | ⟨vs, x'', h5, -⟩
    · exact Or.inr (Or.inl h5)
    · refine Or.inr (Or.inr ⟨?_, h5⟩)
      simp only [Bool.false_eq_true, if_false] at h6
      omega
    · exact Or.inl ⟨_, h5⟩

example (lm : Libm) : ∃ x, QISReach FP.exact lm (indicesOf exProb) (marginalsOf [2, 3] exProb) x ∧ x.conv = true := by
  obtain ⟨x, hx, hc⟩ := exProb_run FP.exact_good lm
  unfold qis QIS.run at hx
  cases hn : QIS.new FP.exact (indicesOf exProb) (marginalsOf [2, 3] exProb) 0 with
  | ok x0 =>
    rw [hn] at hx
    simp only [Out.ok_bind] at hx
    exact ⟨x, .solve false (.new hn) hx, hc⟩
  | thrown e => rw [hn] at hx; cases hx
  | ub u => rw [hn] at hx; cases hx
  | diverges => rw [hn] at hx; cases hx

/-! ### C26 -/

theorem skipped_spec {k c : Nat} (h : skipCount k = .ok c) : (k ≤ 2 → c = 1) ∧ (2 ≤ k → LargestPow2Below k c) := by
  constructor
  · intro hk
    rw [skipCount_small hk] at h
    injection h with h
    exact h.symm
  · intro hk
    rcases Nat.lt_or_ge (2 ^ 31) k with hb | hb
    · rw [skipCount_diverges hb] at h; cases h
    · obtain ⟨f, h1, h2, h3⟩ := skipCount_ok hk hb
      rw [h1] at h
      injection h with h
      exact ⟨f, h.symm, h2, by rw [pow_succ]; omega⟩

/-- The weights of the states of dimension `d` of the marginal `p` that are left when the individuals `done` have
been placed. -/
def weightsLeft (p : List Nat × (List Int → Int)) (d : Nat) (done : List (List Int)) (a : Nat) : Int :=
  p.2 [(a : Int)] - (done.countP (fun w => w.getD d 0 = (a : Int)) : Int)

/-- **C23**, decided: for marginals each of which shares at most one dimension with those before it and any number of skips
from 0 to 2^31, `qis` returns with `conv` true exactly when the sequence of 2^32 - 1 points is long enough for the skipped
points and the population; otherwise it raises. -/
theorem C23_tree_decided (hfp : fp.Good) (lm : Libm) {s : List Nat} {P : Prob Int} {pop : Int} (h : ProbOK s P pop)
    (hpop : pop < 2 ^ 52) (ht : TreeDims (P.map Prod.fst)) (hd : s.length ≤ 1111) {skips : Int} (h0 : 0 ≤ skips)
    (h1 : skips ≤ 2 ^ 31) :
    ∃ c : Nat, (skips ≤ 2 → c = 1) ∧ (2 ≤ skips → LargestPow2Below skips.toNat c) ∧
      (c + pop ≤ 2 ^ 32 - 1 → ∃ x, qis fp lm s P skips = .ok x ∧ x.conv = true) ∧
      (2 ^ 32 - 1 < c + pop → qis fp lm s P skips = .thrown .sobolExhausted) := by
  rcases skipCount_cases (skips % 2 ^ 32).toNat with ⟨c, hc, -⟩ | ⟨hb, -⟩
  · have hk : (skips % 2 ^ 32).toNat = skips.toNat := by omega
    obtain ⟨c1, c2⟩ := skipped_spec hc
    rw [hk] at c1 c2
    exact ⟨c, fun h => c1 (by omega), fun h => c2 (by omega), fun hn => run_tree hfp lm h hpop ht hd hc hn,
      fun hn => run_tree_exhausted hfp lm h hpop ht hd hc hn⟩
  · omega

/-- A table with a single cell and a population beyond the length of the sequence. -/
def bigProb : Prob Int := [([0], fun _ => 2 ^ 33), ([1], fun _ => 2 ^ 33)]

theorem bigProb_ok : ProbOK [1, 1] bigProb (2 ^ 33) where
  lists := by decide
  two := by decide
  pos := by decide
  dims := by simp [bigProb]
  cover := by
    intro d hd
    simp only [List.length_cons, List.length_nil] at hd
    interval_cases d <;> simp [bigProb]
  nonneg := by
    intro p hp j hj
    simp only [bigProb, List.mem_cons, List.not_mem_nil, or_false] at hp
    rcases hp with rfl | rfl <;> simp
  total := by
    intro p hp
    simp only [bigProb, List.mem_cons, List.not_mem_nil, or_false] at hp
    rcases hp with rfl | rfl <;> decide
  partials := by
    intro p hp q hq a b d ha hb x _
    simp only [bigProb, List.mem_cons, List.not_mem_nil, or_false] at hp hq
    rcases hp with rfl | rfl <;> rcases hq with rfl | rfl
    all_goals
      rw [List.getElem?_singleton] at ha hb
      split at ha <;> split at hb <;> simp_all
    all_goals omega

example (hfp : fp.Good) (lm : Libm) : qis fp lm [1, 1] bigProb 0 = .thrown .sobolExhausted := by
  obtain ⟨c, h1, -, -, h2⟩ := C23_tree_decided hfp lm bigProb_ok (by norm_num) exProb_tree (by simp) (skips := 0) le_rfl (by norm_num)
  exact h2 (by rw [h1 (by norm_num)]; norm_num)

/-- **C26**, what is true: with one-dimensional marginals (population at most 2^21, so that nothing is rounded) the
population consists of individuals `vs`, the `i`-th of which is read off the Sobol point number `c + i + 1` by inverting
the cumulative distributions of what is left of the marginals.  Here `c` points are skipped: the largest power of two
smaller than `skips`, but one point if `skips` is 0 or 1 as well (for which the documentation promises none to be
skipped: see `C26_negation`). -/
theorem C26_individuals_partial (hfp : fp.Good) {lm : Libm} {s : List Nat} {P : Prob Int} {pop : Int} (h : ProbOK s P pop)
    (hpop : pop ≤ 2 ^ 21) (hax : ∀ p ∈ P, ∃ d, p.1 = [d]) (hnd : (P.map Prod.fst).Nodup) {skips : Int} (h0 : 0 ≤ skips)
    (hsk : skips < 2 ^ 32) {x : QIS} (hx : qis fp lm s P skips = .ok x) :
    ∃ (c : Nat) (vs : List (List Int)), (skips ≤ 2 → c = 1) ∧ (2 ≤ skips → LargestPow2Below skips.toNat c) ∧
      (vs.length : Int) = pop ∧ x.micro.array = arr s (fun v => (vs.count v : Int)) ∧
      ∀ i < vs.length, ∃ pt v, IsPoint s.length (c + i + 1) pt ∧ vs[i]? = some v ∧ InRange s v ∧
        ∀ p ∈ P, ∀ d, p.1 = [d] → InverseCDF (weightsLeft p d (vs.take i)) (s.getD d 0) (pt.getD d 0).toNat (v.getD d 0) := by
  obtain ⟨c, vs, hdim, hc, hs⟩ := run_ok hfp h (by omega) hx
  have hmod : (skips % 2 ^ 32).toNat = skips.toNat := by
    rw [Int.emod_eq_of_lt h0 (by omega)]
  rw [hmod] at hc
  obtain ⟨c1, c2⟩ := skipped_spec hc
  have hcb : c ≤ 2 ^ 31 := by
    rcases skipCount_cases skips.toNat with ⟨c', hc', hb⟩ | ⟨-, hb⟩
    · rw [hc] at hc'; injection hc' with hc'; omega
    · rw [hc] at hb; cases hb
  have hpn := h.pop_nonneg
  have ht : TreeDims (P.map Prod.fst) := by
    intro A ds B hAB
    have hmem : ds ∈ P.map Prod.fst := by rw [hAB]; simp
    obtain ⟨p, hp, rfl⟩ := List.mem_map.mp hmem
    obtain ⟨d, hd⟩ := hax p hp
    rw [hd]
    refine ⟨by simp, ?_⟩
    intro a ha b hb _ _
    rw [List.mem_singleton] at ha hb
    rw [ha, hb]
  have hconv : x.conv = true := by
    obtain ⟨x', hx', hc'⟩ := run_tree hfp lm h (by omega) ht hdim (skips := skips) (by rw [hmod]; exact hc) (by omega)
    have : qis fp lm s P skips = .ok x' := hx'
    rw [hx] at this
    injection this with this
    rw [this]; exact hc'
  have hu := hs.conv.mp hconv
  refine ⟨c, vs.reverse, fun hk => c1 (by omega), fun hk => c2 (by omega), ?_, ?_, ?_⟩
  · rw [List.length_reverse, hs.size, Int.toNat_of_nonneg hpn]
  · rw [hs.at_.micro]
    simp only [List.count_reverse]
  · intro i hi
    rw [List.length_reverse, hs.size] at hi
    obtain ⟨seq, v, g1, g2, g3⟩ := hs.points i hi
    have hvm : v ∈ vs := by
      have := List.mem_of_getElem? g1
      simpa using this
    have h2 := h.two
    obtain ⟨pt, hpt⟩ := C09_point_exists (dim := s.length) (n := c + i + 1) (by omega) hdim (by omega) (by omega)
    have hpe : pt = seq := pointAt_unique hdim (isPoint_at hpt).1 g2
    subst hpe
    refine ⟨pt, v, hpt, g1, hs.range v hvm, ?_⟩
    intro p hp d hpd
    have hd : d < s.length := (h.dims p hp).2 d (by rw [hpd]; simp)
    have hsub : (vs.reverse.take i).reverse.Sublist vs := by
      have := (List.take_sublist i vs.reverse).reverse
      rwa [List.reverse_reverse] at this
    have hnn := nonneg_remaining h hu hsub
    unfold Draw at g3
    have hmap : remaining (vs.reverse.take i).reverse P = P.map (fun p => (p.1, fun j => p.2 j - ((vs.reverse.take i).reverse.countP (fun v => proj p.1 v = j) : Int))) := rfl
    have hsa := sampleAll_axes (fp := fp) h.good g2.1 (remaining (vs.reverse.take i).reverse P) (List.replicate s.length (-1)) v
      (partial_replicate s) (by
        intro q hq
        rw [hmap] at hq
        obtain ⟨r, hr, rfl⟩ := List.mem_map.mp hq
        obtain ⟨e, he⟩ := hax r hr
        have hel : e < s.length := (h.dims r hr).2 e (by rw [he]; simp)
        refine ⟨e, he, hel, ?_⟩
        rw [List.getD_eq_getElem?_getD, List.getElem?_replicate, if_pos hel]; decide)
      (by rw [map_fst_remaining]; exact hnd) (by rw [indicesOf_remaining, mapsOf_remaining]; exact g3)
    obtain ⟨k, hk1, hk2⟩ := hsa _ (List.mem_map.mpr ⟨p, hp, rfl⟩) d hpd
    simp only at hk2
    set w : List Int → Int := fun j => p.2 j - ((vs.reverse.take i).reverse.countP (fun v => proj p.1 v = j) : Int) with hw
    have hwn : ∀ j, InRange (projSizes p.1 s) j → 0 ≤ w j := fun j hj => hnn (p.1, w) (List.mem_map.mpr ⟨p, hp, rfl⟩) j hj
    have hps : projSizes p.1 s = [s.getD d 0] := by rw [hpd]; rfl
    have htot : (axisList (s.getD d 0) w).sum = pop - i := by
      rw [sum_axisList, ← hps, hw, Finset.sum_sub_distrib, h.total p hp, sum_countP (h.dims p hp).2
        (fun u hu' => hs.range u (hsub.subset hu')), List.length_reverse, List.length_take, List.length_reverse, hs.size]
      congr 2
      omega
    have hax0 : ∀ y ∈ axisList (s.getD d 0) w, 0 ≤ y := by
      intro y hy
      unfold axisList at hy
      obtain ⟨a, ha, rfl⟩ := List.mem_map.mp hy
      apply hwn
      rw [hps, inRange_iff_getD]
      refine ⟨by simp, ?_⟩
      intro e he
      simp only [List.length_singleton, Nat.lt_one_iff] at he
      subst he
      exact ⟨by simp, by simpa using List.mem_range.mp ha⟩
    obtain ⟨e1, e2, e3⟩ := pick_int_exact hfp hax0 (by rw [htot]; omega) hk2
    have hlen : (axisList (s.getD d 0) w).length = s.getD d 0 := by simp [axisList]
    rw [hlen] at e1
    have hww : ∀ a : Nat, weightsLeft p d (vs.reverse.take i) a = w [(a : Int)] := by
      intro a
      rw [hw]
      simp only
      unfold weightsLeft
      rw [List.countP_reverse]
      congr 2
      apply List.countP_congr
      intro u _
      rw [hpd]
      simp [proj_single, proj]
    have hall : ∀ m ≤ s.getD d 0, ∑ a ∈ Finset.range m, weightsLeft p d (vs.reverse.take i) a = ((axisList (s.getD d 0) w).take m).sum := by
      intro m hm
      rw [take_axisList hm]
      exact Finset.sum_congr rfl (fun a _ => hww a)
    have hfull : (axisList (s.getD d 0) w).sum = ∑ a ∈ Finset.range (s.getD d 0), weightsLeft p d (vs.reverse.take i) a := by
      rw [hall _ le_rfl, List.take_of_length_le (by rw [hlen])]
    refine ⟨k, hk1, e1, ?_, ?_⟩
    · rw [hall k (by omega), ← hfull]; exact e2
    · rw [hall (k + 1) (by omega), ← hfull]; exact e3

theorem exProb_axes : (∀ p ∈ exProb, ∃ d, p.1 = [d]) ∧ (exProb.map Prod.fst).Nodup := by
  constructor
  · simp [exProb]
  · simp [exProb]

/-- The hypotheses are met. -/
example (hfp : fp.Good) (lm : Libm) : ∃ x, qis fp lm [2, 3] exProb 100 = .ok x ∧ (∀ p ∈ exProb, ∃ d, p.1 = [d]) ∧
    (exProb.map Prod.fst).Nodup := by
  obtain ⟨x, hx, -⟩ := C23_tree hfp lm exProb_ok (by norm_num) exProb_tree (by simp) (skips := 100) (by norm_num) (by norm_num)
  exact ⟨x, hx, exProb_axes⟩

/-- `[1, 1]` along both dimensions of a 2x2 table. -/
def pairProb : Prob Int := [([0], fun _ => 1), ([1], fun _ => 1)]

theorem pairProb_ok : ProbOK [2, 2] pairProb 2 where
  lists := by decide
  two := by decide
  pos := by decide
  dims := by simp [pairProb]
  cover := by
    intro d hd
    simp only [List.length_cons, List.length_nil] at hd
    interval_cases d <;> simp [pairProb]
  nonneg := by
    intro p hp j hj
    simp only [pairProb, List.mem_cons, List.not_mem_nil, or_false] at hp
    rcases hp with rfl | rfl <;> simp
  total := by
    intro p hp
    simp only [pairProb, List.mem_cons, List.not_mem_nil, or_false] at hp
    rcases hp with rfl | rfl <;> decide
  partials := by
    intro p hp q hq a b d ha hb x _
    simp only [pairProb, List.mem_cons, List.not_mem_nil, or_false] at hp hq
    rcases hp with rfl | rfl <;> rcases hq with rfl | rfl
    all_goals
      rw [List.getElem?_singleton] at ha hb
      split at ha <;> split at hb <;> simp_all
    all_goals omega

theorem pairProb_tree : TreeDims (pairProb.map Prod.fst) := exProb_tree

/-- **C26 fails**: `qis` with `skips` 0 does not use the first point of the Sobol sequence.  On a 2x2 table with
marginals `[1, 1]` the first point selects the cell (1, 1), and the population has nobody there. -/
theorem C26_negation (hfp : fp.Good) (lm : Libm) : ProbOK [2, 2] pairProb 2 ∧ ∃ x f pt v,
    qis fp lm [2, 2] pairProb 0 = .ok x ∧ x.micro.array = arr [2, 2] f ∧ IsPoint 2 1 pt ∧ InRange [2, 2] v ∧
    (∀ p ∈ pairProb, ∀ d, p.1 = [d] → InverseCDF (weightsLeft p d []) 2 (pt.getD d 0).toNat (v.getD d 0)) ∧ f v = 0 := by
  refine ⟨pairProb_ok, ?_⟩
  obtain ⟨x, hx, -⟩ := C23_tree hfp lm pairProb_ok (by norm_num) pairProb_tree (by simp) (skips := 0) (by norm_num) (by norm_num)
  obtain ⟨c, vs, hc, -, hl, ha, hi⟩ := C26_individuals_partial hfp pairProb_ok (by norm_num) (by simp [pairProb]) (by simp [pairProb])
    (skips := 0) (by norm_num) (by norm_num) hx
  have hc1 := hc (by norm_num)
  subst hc1
  obtain ⟨pt, hpt⟩ := C09_point_exists (dim := 2) (n := 1) (by norm_num) (by norm_num) (by norm_num) (by norm_num)
  obtain ⟨q0, q1⟩ := points12.1 hpt
  refine ⟨x, _, pt, [1, 1], hx, ha, hpt, by decide, ?_, ?_⟩
  · intro p hp d hpd
    simp only [pairProb, List.mem_cons, List.not_mem_nil, or_false] at hp
    rcases hp with rfl | rfl
    · simp only [List.cons.injEq, and_true] at hpd
      subst hpd
      rw [q0]
      exact ⟨1, rfl, by norm_num, by simp [weightsLeft], by simp [weightsLeft]⟩
    · simp only [List.cons.injEq, and_true] at hpd
      subst hpd
      rw [q1]
      exact ⟨1, rfl, by norm_num, by simp [weightsLeft], by simp [weightsLeft]⟩
  · have hl2 : vs.length = 2 := by omega
    match vs, hl2 with
    | [v0, v1], _ =>
      obtain ⟨pt0, w0, a1, a2, a3, a4⟩ := hi 0 (by simp)
      obtain ⟨pt1, w1, b1, b2, b3, b4⟩ := hi 1 (by simp)
      simp only [List.getElem?_cons_zero, Option.some.injEq] at a2
      simp only [List.getElem?_cons_succ, List.getElem?_cons_zero, Option.some.injEq] at b2
      subst a2 b2
      obtain ⟨r0, r1⟩ := points12.2 a1
      have hv0 : v0 = [1, 0] := by
        obtain ⟨k, hk, k1, k2, k3⟩ := a4 ([0], fun _ => 1) (by simp [pairProb]) 0 rfl
        obtain ⟨l, hl, l1, l2, l3⟩ := a4 ([1], fun _ => 1) (by simp [pairProb]) 1 rfl
        rw [r0] at k2 k3
        rw [r1] at l2 l3
        simp only [List.getD_cons_zero, List.getD_cons_succ] at k1 l1
        have hk1 : k = 1 := by
          interval_cases k
          · simp [weightsLeft] at k3
          · rfl
        have hl0 : l = 0 := by
          interval_cases l
          · rfl
          · simp [weightsLeft] at l2
        have hlen := inRange_length a3
        apply ext_getD hlen
        intro d hd
        rw [hlen] at hd
        simp only [List.length_cons, List.length_nil] at hd
        interval_cases d
        · rw [hk, hk1]; rfl
        · rw [hl, hl0]; rfl
      have hv1 : v1.getD 0 0 = 0 := by
        obtain ⟨k, hk, k1, k2, k3⟩ := b4 ([0], fun _ => 1) (by simp [pairProb]) 0 rfl
        simp only [List.getD_cons_zero] at k1
        have hu := (pt1.getD 0 0).isLt
        interval_cases k
        · exact hk
        · exfalso
          have w0 : weightsLeft ([0], fun _ => 1) 0 (List.take 1 [v0, v1]) 0 = 1 := by rw [hv0]; simp [weightsLeft]
          have w1 : weightsLeft ([0], fun _ => 1) 0 (List.take 1 [v0, v1]) 1 = 0 := by rw [hv0]; simp [weightsLeft]
          simp only [List.getD_cons_zero, Finset.sum_range_succ, Finset.sum_range_zero, w0, w1] at k2
          omega
      have hne : v1 ≠ [1, 1] := by
        rintro rfl
        simp at hv1
      rw [hv0, List.count_cons, List.count_cons]
      simp [hne]

/-! ### C27 -/

/-- **C27**, what is true: whenever `solve` returns, after any history of calls, the result has no negative cell and
sums to the population. -/
theorem C27_resolve_partial (hfp : fp.Good) {lm : Libm} {s : List Nat} {P : Prob Int} {pop : Int} (h : ProbOK s P pop)
    (hpop : pop < 2 ^ 52) {x x' : QIS} (hx : QISReach fp lm (indicesOf P) (marginalsOf s P) x) {reset : Bool}
    (hs : QIS.solve fp lm x reset = .ok x') :
    ∃ f, x'.micro.array = arr s f ∧ (∀ v, InRange s v → 0 ≤ f v) ∧ ∑ v ∈ cells s, f v = x'.micro.population ∧
      x'.micro.population = pop := by
  obtain ⟨P', n, E, h1, h2⟩ := reach_obj hfp h hpop hx
  rcases solve_cases (fp := fp) lm h1 h2 reset with h3 | ⟨-, h3⟩ | ⟨vs, x'', h3, h4⟩
  · rw [h3] at hs; cases hs
  · rw [h3] at hs; cases hs
  · rw [h3] at hs
    injection hs with hs
    subst hs
    have hp : x''.micro.population = pop := by rw [h4.at_.micro]; rfl
    refine ⟨fun v => (vs.count v : Int), by rw [h4.at_.micro], fun v _ => by positivity, ?_, hp⟩
    rw [sum_count h4.range, h4.size, hp, Int.toNat_of_nonneg h.pop_nonneg]

/-- **C27 fails**: on every accepted problem with a positive population, once `qis` has succeeded (`conv` true) a second
`solve` raises, with or without resetting the Sobol sequence. -/
theorem C27_negation (hfp : fp.Good) {lm : Libm} {s : List Nat} {P : Prob Int} {pop : Int} (h : ProbOK s P pop)
    (hpop : pop < 2 ^ 52) (h0 : 0 < pop) {skips : Int} {x : QIS} (hx : qis fp lm s P skips = .ok x) (hc : x.conv = true)
    (reset : Bool) :
    QIS.solve fp lm x reset = .thrown .pickFailed ∨ QIS.solve fp lm x reset = .thrown .sobolExhausted := by
  obtain ⟨c, vs, -, -, hs⟩ := run_ok hfp h hpop hx
  refine solve_zero hfp lm (shape_remaining h.toProbShape vs) hs.obj reset h0 ?_
  intro p hp j hj
  obtain ⟨q, hq, rfl⟩ := List.mem_map.mp hp
  have := (unspent_iff h hs.range hs.size).mp (hs.conv.mp hc) q hq j hj
  rw [marginalSum_count hs.range] at this
  simp only
  omega

/-- The hypotheses are met, so `qis` objects cannot be solved twice. -/
example (hfp : fp.Good) (lm : Libm) : ∃ x, qis fp lm [2, 3] exProb 0 = .ok x ∧ x.conv = true ∧ ∀ reset,
    QIS.solve fp lm x reset = .thrown .pickFailed ∨ QIS.solve fp lm x reset = .thrown .sobolExhausted := by
  obtain ⟨x, hx, hc⟩ := exProb_run hfp lm
  exact ⟨x, hx, hc, C27_negation hfp exProb_ok (by norm_num) (by norm_num) hx hc⟩

/-! ### C28 -/

/-- **C28**, what is true: in exact arithmetic, when no marginal entry is zero, `chiSq` is a number, the sum over the
cells of the squared difference between result and expectation divided by the expectation. -/
theorem C28_chiSq_partial (lm : Libm) {s : List Nat} {P : Prob Int} {pop : Int} (h : ProbOK s P pop) (hpop : pop < 2 ^ 52)
    (hpos : ∀ p ∈ P, ∀ j, InRange (projSizes p.1 s) j → 0 < p.2 j) {skips : Int} {x : QIS}
    (hx : qis FP.exact lm s P skips = .ok x) :
    ∃ (f : List Int → Int) (E : List Int → ℚ), x.micro.array = arr s f ∧ x.expected = arr s (fun v => .fin (E v)) ∧
      x.chiSq = .fin (∑ v ∈ cells s, (f v - E v) ^ 2 / E v) := by
  obtain ⟨c, vs, -, -, hs⟩ := run_ok FP.exact_good h hpop hx
  have hprod : ∀ v ∈ cells s, 0 < productAt P v := by
    intro v hv
    refine lt_of_le_of_ne (productAt_nonneg h (mem_cells.mp hv)) (Ne.symm ?_)
    rw [Ne, productAt_eq_zero]
    rintro ⟨p, hp1, hp2⟩
    exact absurd hp2 (hpos p hp1 _ (inRange_proj (h.dims p hp1).2 (mem_cells.mp hv))).ne'
  have hne : (cells s).Nonempty := by
    obtain ⟨v, hv⟩ := exists_inRange h.good.2
    exact ⟨v, mem_cells.mpr hv⟩
  have hsum : 0 < ∑ v ∈ cells s, productAt P v := Finset.sum_pos hprod hne
  have hp0 : (0 : ℚ) < pop := by
    have hl := h.lists
    obtain ⟨p, hp⟩ := List.exists_mem_of_ne_nil P (by rintro rfl; simp at hl)
    obtain ⟨v, hv⟩ := exists_inRange (goodShape_projSizes h.good (h.dims p hp).1 (h.dims p hp).2).2
    have := h.total p hp
    have h1 : 0 < ∑ j ∈ cells (projSizes p.1 s), p.2 j :=
      Finset.sum_pos (fun j hj => hpos p hp j (mem_cells.mp hj)) ⟨v, mem_cells.mpr hv⟩
    rw [this] at h1
    exact_mod_cast h1
  refine ⟨_, fun v => productAt P v * (pop / ∑ v ∈ cells s, productAt P v), by rw [hs.at_.micro], ?_, ?_⟩
  · rw [hs.expected]
    congr 1
    funext v
    exact expectedVal_exact hsum.ne' v
  · rw [hs.chiSq]
    unfold chiSqVal
    rw [foldl_exact _ (fun v => (((vs.count v : Int) : ℚ) - productAt P v * (pop / ∑ v ∈ cells s, productAt P v)) ^ 2 /
      (productAt P v * (pop / ∑ v ∈ cells s, productAt P v))), zero_add, sum_allIdx]
    intro v hv
    rw [expectedVal_exact hsum.ne']
    have hE : productAt P v * (pop / ∑ v ∈ cells s, productAt P v) ≠ 0 :=
      (mul_pos (hprod v (mem_cells.mpr (mem_allIdx.mp hv))) (div_pos hp0 hsum)).ne'
    rw [pow_two, sub_eq_add_neg]
    show (if _ then _ else _) = _
    rw [if_neg hE]
    rfl

example (lm : Libm) : ∃ x, qis FP.exact lm [2, 3] exProb 0 = .ok x ∧
    ∀ p ∈ exProb, ∀ j, InRange (projSizes p.1 [2, 3]) j → 0 < p.2 j := by
  obtain ⟨x, hx, -⟩ := exProb_run FP.exact_good lm
  refine ⟨x, hx, ?_⟩
  intro p hp j hj
  simp only [exProb, List.mem_cons, List.not_mem_nil, or_false] at hp
  rcases hp with rfl | rfl
  · have := (inRange_getD hj (d := 0) (by decide)).1
    simp only; omega
  · simp

/-- **C28 fails** whenever a marginal is zero at some cell: if `qis` then returns with `conv` true, `chiSq` is NaN, and the
reported p-value is 1 (a perfect fit). -/
theorem C28_negation (hfp : fp.Good) {lm : Libm} {s : List Nat} {P : Prob Int} {pop : Int} (h : ProbOK s P pop)
    (hpop : pop < 2 ^ 52) (hz : ∃ v, InRange s v ∧ ∃ p ∈ P, p.2 (proj p.1 v) = 0) {skips : Int} {x : QIS}
    (hx : qis fp lm s P skips = .ok x) (hc : x.conv = true) : x.chiSq = .nan ∧ x.pValue = .fin 1 := by
  obtain ⟨c, vs, -, -, hs⟩ := run_ok hfp h hpop hx
  obtain ⟨v, hv, p, hp, hpj⟩ := hz
  have hm := (unspent_iff h hs.range hs.size).mp (hs.conv.mp hc) p hp _ (inRange_proj (h.dims p hp).2 hv)
  rw [marginalSum_count hs.range, hpj] at hm
  have hcount : vs.count v = 0 := by
    rw [List.count_eq_zero]
    intro hvm
    have : 0 < vs.countP (fun w => proj p.1 w = proj p.1 v) := List.countP_pos_iff.mpr ⟨v, hvm, by simp⟩
    omega
  have hchi : x.chiSq = .nan := by
    rw [hs.chiSq]
    exact chiSqVal_nan hfp hv (by rw [hcount]; rfl) (expectedVal_zero hfp ⟨p, hp, hpj⟩)
  refine ⟨hchi, ?_⟩
  rw [hs.pValue, hchi]
  unfold tablePValue
  rw [pValue_nan hfp]

/-- `[0, 2]` along the first and `[1, 1]` along the second dimension of a 2x2 table. -/
def zeroProb : Prob Int := [([0], fun j => 2 * j.getD 0 0), ([1], fun _ => 1)]

theorem zeroProb_ok : ProbOK [2, 2] zeroProb 2 where
  lists := by decide
  two := by decide
  pos := by decide
  dims := by simp [zeroProb]
  cover := by
    intro d hd
    simp only [List.length_cons, List.length_nil] at hd
    interval_cases d <;> simp [zeroProb]
  nonneg := by
    intro p hp j hj
    simp only [zeroProb, List.mem_cons, List.not_mem_nil, or_false] at hp
    rcases hp with rfl | rfl
    · have := (inRange_getD hj (d := 0) (by decide)).1
      simp only; omega
    · simp
  total := by
    intro p hp
    simp only [zeroProb, List.mem_cons, List.not_mem_nil, or_false] at hp
    rcases hp with rfl | rfl <;> decide
  partials := by
    intro p hp q hq a b d ha hb x _
    simp only [zeroProb, List.mem_cons, List.not_mem_nil, or_false] at hp hq
    rcases hp with rfl | rfl <;> rcases hq with rfl | rfl
    all_goals
      rw [List.getElem?_singleton] at ha hb
      split at ha <;> split at hb <;> simp_all
    all_goals omega

/-- The hypotheses are met. -/
example (hfp : fp.Good) (lm : Libm) : ∃ x, qis fp lm [2, 2] zeroProb 0 = .ok x ∧ x.conv = true ∧ x.chiSq = .nan ∧
    x.pValue = .fin 1 := by
  obtain ⟨x, hx, hc⟩ := C23_tree hfp lm zeroProb_ok (by norm_num) (by exact exProb_tree) (by simp) (skips := 0) (by norm_num) (by norm_num)
  exact ⟨x, hx, hc, C28_negation hfp zeroProb_ok (by norm_num)
    ⟨[0, 0], by decide, ([0], fun j => 2 * j.getD 0 0), by simp [zeroProb], by decide⟩ hx hc⟩

/-! ### C59 -/

/-- **C59**, `qis`: for every Sobol value and all non-negative integer weights with a positive total (at most 2^53), the
state picked is in range and has positive weight. -/
theorem C59_pick_int (hfp : fp.Good) {dist : List Int} (hn : ∀ x ∈ dist, 0 ≤ x) (hs : 0 < dist.sum) (hb : dist.sum ≤ 2 ^ 53)
    (u : U32) : ∃ i, pick fp (numInt fp) dist (variate fp u) = .ok i ∧ i < dist.length ∧ 0 < dist.getD i 0 :=
  pick_int_pos hfp hn hs hb u

/-- **C59**, `qis`: when all weights are zero an exception is raised. -/
theorem C59_pick_zero (hfp : fp.Good) {dist : List Int} (hz : ∀ x ∈ dist, x = 0) (u : U32) :
    pick fp (numInt fp) dist (variate fp u) = .thrown .pickFailed := pick_int_zero hfp hz u

/-- **C59**, `qisi`, whose weights are doubles: the same, for a (rounded) total from 2^-990 to 2^1023.  Partial: see
`C59_negation_small` and `C59_negation_infinite` for totals outside. -/
theorem C59_pick_double_partial (hfp : fp.Good) {w : List ℚ} {t : ℚ} (hn : ∀ x ∈ w, 0 ≤ x)
    (ht : (w.map Fl.fin).foldl fp.add (.fin 0) = .fin t) (h1 : (2 : ℚ) ^ (-990 : ℤ) ≤ t) (h2 : t ≤ 2 ^ 1023) (u : U32) :
    ∃ i, pick fp (numFl fp) (w.map Fl.fin) (variate fp u) = .ok i ∧ i < w.length ∧ 0 < w.getD i 0 :=
  pick_fl_pos hfp hn ht h1 h2 u

example (hfp : fp.Good) (u : U32) : ∃ i, pick fp (numInt fp) [0, 2, 1] (variate fp u) = .ok i ∧ i < 3 ∧ 0 < ([0, 2, 1] : List Int).getD i 0 :=
  C59_pick_int hfp (dist := [0, 2, 1]) (by decide) (by decide) (by decide) u

example (u : U32) : ∃ i, pick FP.exact (numFl FP.exact) ([1 / 3, 0, 2].map Fl.fin) (variate FP.exact u) = .ok i ∧ i < 3 ∧
    0 < ([1 / 3, 0, 2] : List ℚ).getD i 0 := by
  apply C59_pick_double_partial FP.exact_good (t := 7 / 3) (by intro x hx; simp at hx; rcases hx with rfl | rfl | rfl <;> norm_num)
  · simp [FP.add, FP.exact]; norm_num
  · exact le_trans (zpow_le_zpow_right₀ (by norm_num) (by norm_num : (-990 : ℤ) ≤ 0)) (by norm_num)
  · exact le_trans (by norm_num : (7 / 3 : ℚ) ≤ 2 ^ 2) (pow_le_pow_right₀ (by norm_num) (by norm_num))

/-- **C59** fails in IEEE arithmetic for a denormal total: the only state there is has positive weight, but the largest
Sobol value picks none. -/
theorem C59_negation_small (sq : Fl → Fl) : pick (FP.ieee sq) (numFl (FP.ieee sq)) [.fin (2 ^ (-1074 : ℤ))]
    (variate (FP.ieee sq) 0xFFFFFFFF#32) = .thrown .pickFailed := by
  have hfp := FP.ieee_good sq
  have hadd : (FP.ieee sq).add (.fin 0) (.fin (2 ^ (-1074 : ℤ))) = .fin (2 ^ (-1074 : ℤ)) := by
    show FP.rndIeee (0 + 2 ^ (-1074 : ℤ)) = _
    rw [zero_add]; exact ieee_denorm
  unfold pick
  simp only [List.foldl_cons, List.foldl_nil]
  rw [show (numFl (FP.ieee sq)).toFl (.fin (2 ^ (-1074 : ℤ))) = .fin (2 ^ (-1074 : ℤ)) from rfl, hadd, variate_eq hfp]
  have hmul : (FP.ieee sq).mul (.fin (((0xFFFFFFFF#32 : U32).toNat : ℚ) / 2 ^ 32)) (.fin (2 ^ (-1074 : ℤ))) = .fin (2 ^ (-1074 : ℤ)) := by
    show FP.rndIeee _ = _
    have hq : (((0xFFFFFFFF#32 : U32).toNat : ℚ) / 2 ^ 32) * 2 ^ (-1074 : ℤ) = 4294967295 / 4294967296 * 2 ^ (-1074 : ℤ) := by
      congr 1
    rw [hq]
    have h2 : (2 : ℚ) ^ (-1074 : ℤ) = 2 * 2 ^ (-1075 : ℤ) := by
      rw [show (-1074 : ℤ) = 1 + -1075 by norm_num, zpow_add₀ (by norm_num)]; norm_num
    have hp : (0 : ℚ) < 2 ^ (-1075 : ℤ) := by positivity
    have hpos : (0 : ℚ) < 4294967295 / 4294967296 * 2 ^ (-1074 : ℤ) := by positivity
    have hl : FP.ilog2 (4294967295 / 4294967296 * (2 : ℚ) ^ (-1074 : ℤ)) = -1075 := by
      apply FP.ilog2_unique
      · rw [h2]; linarith
      · rw [show (-1075 : ℤ) + 1 = -1074 by norm_num, h2]; linarith
    have hu : FP.ulp (4294967295 / 4294967296 * (2 : ℚ) ^ (-1074 : ℤ)) = 2 ^ (-1074 : ℤ) := by
      unfold FP.ulp
      rw [hl]; rfl
    have hr : FP.rne (4294967295 / 4294967296) = 1 := by
      unfold FP.rne
      norm_num
    rw [FP.rndIeee_pos hpos, hu, mul_div_cancel_right₀ _ (by positivity), hr, if_neg]
    · norm_num
    · rw [not_le, Int.cast_one, one_mul]
      calc (2 : ℚ) ^ (-1074 : ℤ) ≤ 2 ^ (0 : ℤ) := zpow_le_zpow_right₀ (by norm_num) (by norm_num)
        _ < 2 ^ 1024 := by rw [zpow_zero]; exact one_lt_pow₀ (by norm_num) (by norm_num)
  rw [hmul]
  unfold pickLoop
  rw [show (numFl (FP.ieee sq)).add (numFl (FP.ieee sq)).zero (.fin (2 ^ (-1074 : ℤ))) = .fin (2 ^ (-1074 : ℤ)) from hadd]
  rw [show (numFl (FP.ieee sq)).toFl (.fin (2 ^ (-1074 : ℤ))) = .fin (2 ^ (-1074 : ℤ)) from rfl, if_neg (by simp [FP.lt])]
  rfl

/-- **C59** fails for an infinite total: no state is picked. -/
theorem C59_negation_infinite (hfp : fp.Good) (w : List Fl) (ht : w.foldl fp.add (.fin 0) = .pinf) (u : U32) :
    pick fp (numFl fp) w (variate fp u) = .thrown .pickFailed := by
  unfold pick
  rw [show w.foldl (fun acc x => fp.add acc ((numFl fp).toFl x)) (.fin 0) = .pinf from ht, variate_eq hfp]
  apply pickLoop_fl_pinf
  intro x
  by_cases h0 : (u.toNat : ℚ) / 2 ^ 32 = 0
  · rw [h0]; simp [FP.mul, FP.infOfSign, FP.sgn, FP.lt]
  · have : (0 : ℚ) < (u.toNat : ℚ) / 2 ^ 32 := lt_of_le_of_ne (by positivity) (Ne.symm h0)
    have e : fp.mul (.fin ((u.toNat : ℚ) / 2 ^ 32)) .pinf = .pinf := by
      have hu : u.toNat ≠ 0 := by
        intro hu
        rw [hu] at h0
        simp at h0
      simp [FP.mul, FP.infOfSign, FP.sgn, hu, Nat.pos_of_ne_zero hu]
    rw [e]
    cases x <;> rfl

end HL

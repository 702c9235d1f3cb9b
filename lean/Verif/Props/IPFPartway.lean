import Verif.Props.IPFClosest
import Verif.Proof.IPFDecomp

/-
C131: what a table returned by `ipf` is good for when the fit has not converged.  All in exact arithmetic.
-/

namespace HL
open Ent

section
variable {s : List Nat} {Q : Prob ℚ} {pop : Int}

/-- a sweep ends with scaling to the last marginal -/
theorem qsweep_last (s : List Nat) (Q : Prob ℚ) (p : List Nat × (List Int → ℚ)) (b : List Int → ℚ) :
    qsweep s (Q ++ [p]) b = qscaled s p.1 p.2 (qsweep s Q b) := by
  unfold qsweep
  rw [List.foldl_append]
  rfl

/-- scaling to a marginal meets each of its entries, or leaves nothing there -/
theorem qscaled_margin (s : List Nat) (p : List Nat × (List Int → ℚ)) (b : List Int → ℚ) (j : List Int) :
    marginalSum s p.1 (qscaled s p.1 p.2 b) j = p.2 j ∨ ∀ v, proj p.1 v = j → qscaled s p.1 p.2 b v = 0 := by
  by_cases h : marginalSum s p.1 b j = 0
  · right
    rintro v rfl
    unfold qscaled
    rw [if_pos h]
  · exact .inl (qscaled_meets (fun h' => absurd h' h))

/-- **C131**: converged or not, and whatever the seed: in every category of the marginal that comes last in the list, the table
`ipf` returns has either exactly the requested number or, where all its cells are zero, nothing. -/
theorem C131_last {p : List Nat × (List Int → ℚ)} (h : ProbShape s (Q ++ [p])) (hp : ProperProb s (Q ++ [p])) {b : List Int → ℚ}
    {r : IPF Fl} (hr : ipfExact s (Q ++ [p]) b = .ok r) :
    ∃ c : List Int → ℚ, r.micro.array = finArr s c ∧
      ∀ j, InRange (projSizes p.1 s) j → marginalSum s p.1 c j = p.2 j ∨ ∀ v, InRange s v → proj p.1 v = j → c v = 0 := by
  obtain ⟨pop, n, -, h1, -, -, -, hm, -, -, -⟩ := ipf_exact_fin h hp hr
  obtain ⟨n, rfl⟩ : ∃ k, n = k + 1 := ⟨n - 1, by omega⟩
  refine ⟨_, by rw [hm], fun j hj => ?_⟩
  rw [Function.iterate_succ_apply', qsweep_last]
  rcases qscaled_margin s p (qsweep s Q ((qsweep s (Q ++ [p]))^[n] b)) j with h2 | h2
  · exact .inl h2
  · exact .inr (fun v _ hv => h2 v hv)

/-- **C131**: the table never holds more than the population. -/
theorem C131_at_most (h : RatOK s Q pop) (hp : ProperProb s Q) {b : List Int → ℚ} {r : IPF Fl} (hr : ipfExact s Q b = .ok r) :
    ∃ c : List Int → ℚ, r.micro.array = finArr s c ∧ ∑ v ∈ cells s, c v ≤ pop := by
  obtain ⟨Q', p, rfl⟩ : ∃ Q' p, Q = Q' ++ [p] :=
    ⟨Q.dropLast, Q.getLast (by rintro rfl; have := h.lists; simp at this), (List.dropLast_append_getLast _).symm⟩
  obtain ⟨c, hc, hl⟩ := C131_last h.toProbShape hp hr
  refine ⟨c, hc, ?_⟩
  have hmem : p ∈ Q' ++ [p] := by simp
  have hd := (h.dims p hmem).2
  have e : ∑ v ∈ cells s, c v = ∑ j ∈ cells (projSizes p.1 s), marginalSum s p.1 c j :=
    (Finset.sum_fiberwise_of_maps_to (fun v hv => mem_cells.mpr (inRange_proj hd (mem_cells.mp hv))) c).symm
  rw [e, ← h.total p hmem]
  refine Finset.sum_le_sum (fun j hj => ?_)
  rw [mem_cells] at hj
  rcases hl j hj with h1 | h1
  · exact h1.le
  · have h0 : marginalSum s p.1 c j = 0 := Finset.sum_eq_zero (fun v hv => by
      obtain ⟨hv1, hv2⟩ := Finset.mem_filter.mp hv
      exact h1 v (mem_cells.mp hv1) hv2)
    rw [h0]
    exact h.nonneg p hmem j hj

/-- **C131**: if some non-negative table meets all the marginals and vanishes where the seed does, then, converged or not, the
table `ipf` returns meets the marginal that comes last in the list exactly, its total is the population, and it is zero only
where all such tables are. -/
theorem C131_met {p : List Nat × (List Int → ℚ)} (h : RatOK s (Q ++ [p]) pop) (hp : ProperProb s (Q ++ [p])) {b : List Int → ℚ}
    (hb : ∀ v, InRange s v → 0 ≤ b v) {t : List Int → ℝ} (ht : NonnegTable s t) (hm : MeetsMarginals s (Q ++ [p]) t)
    (hv : VanishesWith s t (realTable b)) {r : IPF Fl} (hr : ipfExact s (Q ++ [p]) b = .ok r) :
    ∃ c : List Int → ℚ, r.micro.array = finArr s c ∧ (∀ v, InRange s v → 0 ≤ c v) ∧
      (∀ j, InRange (projSizes p.1 s) j → marginalSum s p.1 c j = p.2 j) ∧ ∑ v ∈ cells s, c v = pop ∧
      VanishesWith s t (realTable c) := by
  have hmem : p ∈ Q ++ [p] := by simp
  have hd := (h.dims p hmem).2
  have hdims : ∀ q ∈ Q ++ [p], ∀ d ∈ q.1, d < s.length := fun q hq => (h.dims q hq).2
  have hbr : NonnegTable s (realTable b) := fun v h => Rat.cast_nonneg.mpr (hb v h)
  obtain ⟨pop', n, -, h1, -, -, -, hmi, -, -, -⟩ := ipf_exact_fin h.toProbShape hp hr
  obtain ⟨n, rfl⟩ : ∃ k, n = k + 1 := ⟨n - 1, by omega⟩
  have hk := iterate_keeps (dims_real h.toProbShape) hbr ht (meets_real.mp hm) hv (n + 1)
  rw [iterate_cast] at hk
  have hlast : ∀ j, InRange (projSizes p.1 s) j → marginalSum s p.1 ((qsweep s (Q ++ [p]))^[n + 1] b) j = p.2 j := by
    intro j hj
    have h2 := qscaled_margin s p (qsweep s Q ((qsweep s (Q ++ [p]))^[n] b)) j
    rw [← qsweep_last, ← Function.iterate_succ_apply' (f := qsweep s (Q ++ [p]))] at h2
    rcases h2 with h2 | h2
    · exact h2
    · -- the solution has nothing there either
      have h3 : marginalSum s p.1 t j = 0 := Finset.sum_eq_zero (fun v hv' => by
        obtain ⟨hv1, hv2⟩ := Finset.mem_filter.mp hv'
        refine hk.2 v (mem_cells.mp hv1) ?_
        show (((qsweep s (Q ++ [p]))^[n + 1] b v : ℚ) : ℝ) = 0
        rw [h2 v hv2, Rat.cast_zero])
      rw [hm p hmem j hj] at h3
      rw [Rat.cast_eq_zero.mp h3]
      exact Finset.sum_eq_zero (fun v hv' => h2 v (Finset.mem_filter.mp hv').2)
  refine ⟨_, by rw [hmi], iterate_nonneg_real hdims h.nonneg hb _, hlast, ?_, hk.2⟩
  rw [← h.total p hmem, ← Finset.sum_fiberwise_of_maps_to (fun v hv => mem_cells.mpr (inRange_proj hd (mem_cells.mp hv)))]
  exact Finset.sum_congr rfl (fun j hj => hlast j (mem_cells.mp hj))

/-- iterations never lead away from a solution -/
theorem iterate_closer (h : RatOK s Q pop) {b : List Int → ℚ} (hb : ∀ v, InRange s v → 0 ≤ b v) {t : List Int → ℝ}
    (ht : NonnegTable s t) (hm : MeetsMarginals s Q t) (hv : VanishesWith s t (realTable b)) (n : Nat) :
    relEntropy s t (realTable ((qsweep s Q)^[n + 1] b)) ≤ relEntropy s t (fun v => pop / (∑ w ∈ cells s, (b w : ℝ)) * b v) := by
  have hbr : NonnegTable s (realTable b) := fun v h => Rat.cast_nonneg.mpr (hb v h)
  have hne := real_ne_nil h.toProbShape
  have hd := dims_real h.toProbShape
  have hmr := meets_real.mp hm
  have hT := total_pop h hm
  rw [← iterate_cast]
  have hpop : (0 : ℝ) ≤ pop := by rw [← hT]; exact Finset.sum_nonneg (fun v hv => ht v (mem_cells.mp hv))
  rcases hpop.eq_or_lt with h0 | h0
  · -- an empty population
    have h1 := (Finset.sum_eq_zero_iff_of_nonneg (fun v hv => ht v (mem_cells.mp hv))).mp (hT.trans h0.symm)
    unfold relEntropy
    rw [Finset.sum_eq_zero (fun v hv => by rw [h1 v hv, zero_mul]), Finset.sum_eq_zero (fun v hv => by rw [h1 v hv, zero_mul])]
  · induction n with
    | zero =>
      obtain ⟨-, h2⟩ := first_sweep hne hd hbr ht hmr hv (by rw [hT]; exact h0)
      rw [hT] at h2
      exact h2
    | succ n ih =>
      refine le_trans ?_ ih
      obtain ⟨h1, h2⟩ := iterate_keeps hd hbr ht hmr hv (n + 1)
      obtain ⟨δ, -, h3, -⟩ := sweep_gain ht _ hd hmr h1 h2 (iterate_total hne hd hbr ht hmr hv (by omega))
      rw [Function.iterate_succ_apply' (n := n + 1)]
      have hl : (0 : ℝ) < (realProb Q).length := by
        exact_mod_cast List.length_pos_iff.mpr hne
      have hk : 0 < 4 * total s t * (realProb Q).length := by rw [hT]; positivity
      have h4 := (sq_nonneg δ).trans h3
      have := nonneg_of_mul_nonneg_right h4 hk
      linarith

/-- **C131**: converged or not, the table `ipf` returns is at least as close to every table that meets the marginals (and vanishes
where the seed does) as the seed, scaled to the population, is. -/
theorem C131_closer (h : RatOK s Q pop) (hp : ProperProb s Q) {b : List Int → ℚ} (hb : ∀ v, InRange s v → 0 ≤ b v)
    {r : IPF Fl} (hr : ipfExact s Q b = .ok r) :
    ∃ c : List Int → ℚ, r.micro.array = finArr s c ∧
      ∀ t, NonnegTable s t → MeetsMarginals s Q t → VanishesWith s t (realTable b) →
        relEntropy s t (realTable c) ≤ relEntropy s t (fun v => pop / (∑ w ∈ cells s, (b w : ℝ)) * b v) := by
  obtain ⟨pop', n, -, h1, -, -, -, hmi, -, -, -⟩ := ipf_exact_fin h.toProbShape hp hr
  obtain ⟨n, rfl⟩ : ∃ k, n = k + 1 := ⟨n - 1, by omega⟩
  exact ⟨_, by rw [hmi], fun t ht hm hv => iterate_closer h hb ht hm hv n⟩

/-- **C131**: calling `ipf` again with its result as the seed never leads away from a table that meets the marginals. -/
theorem C131_again (h : RatOK s Q pop) (hp : ProperProb s Q) {b : List Int → ℚ} (hb : ∀ v, InRange s v → 0 ≤ b v)
    {t : List Int → ℝ} (ht : NonnegTable s t) (hm : MeetsMarginals s Q t) (hv : VanishesWith s t (realTable b)) {r r' : IPF Fl}
    {c : List Int → ℚ} (hr : ipfExact s Q b = .ok r) (hc : r.micro.array = finArr s c)
    (hr' : IPF.run false FP.exact (numFl FP.exact) (indicesOf (finProb Q)) (marginalsOf s (finProb Q)) r.micro.array = .ok r') :
    ∃ c' : List Int → ℚ, r'.micro.array = finArr s c' ∧ relEntropy s t (realTable c') ≤ relEntropy s t (realTable c) := by
  obtain ⟨Q', p, rfl⟩ : ∃ Q' p, Q = Q' ++ [p] :=
    ⟨Q.dropLast, Q.getLast (by rintro rfl; have := h.lists; simp at this), (List.dropLast_append_getLast _).symm⟩
  obtain ⟨c1, hc1, h1, -, h2, h3⟩ := C131_met h hp hb ht hm hv hr
  have e : ∀ v, InRange s v → c v = c1 v := by
    intro v hv
    have := arr_inj (hc.symm.trans hc1) v hv
    injection this
  have hcn : ∀ v, InRange s v → 0 ≤ c v := fun v hv => by rw [e v hv]; exact h1 v hv
  have hcv : VanishesWith s t (realTable c) := fun v hv h0 => h3 v hv (by
    show ((c1 v : ℚ) : ℝ) = 0
    rw [← e v hv]; exact h0)
  rw [hc] at hr'
  obtain ⟨c', hc', h4⟩ := C131_closer h hp hcn hr'
  refine ⟨c', hc', (h4 t ht hm hcv).trans ?_⟩
  have hsum : ∑ w ∈ cells s, (c w : ℝ) = pop := by
    have : ∑ w ∈ cells s, c w = pop := by
      rw [← h2]; exact Finset.sum_congr rfl (fun v hv => e v (mem_cells.mp hv))
    rw [← Rat.cast_sum, this]; norm_cast
  rw [hsum]
  rcases eq_or_ne (pop : ℝ) 0 with h0 | h0
  · have hT := total_pop h hm
    have h1 := (Finset.sum_eq_zero_iff_of_nonneg (fun v hv => ht v (mem_cells.mp hv))).mp (hT.trans h0)
    unfold relEntropy
    rw [Finset.sum_eq_zero (fun v hv => by rw [h1 v hv, zero_mul]), Finset.sum_eq_zero (fun v hv => by rw [h1 v hv, zero_mul])]
  · refine le_of_eq (congrArg _ ?_)
    funext v
    show pop / pop * (c v : ℝ) = c v
    rw [div_self h0, one_mul]

/-- **C131**: the reported error is never more than the population. -/
theorem C131_error (h : RatOK s Q pop) (hp : ProperProb s Q) {b : List Int → ℚ} (hb : ∀ v, InRange s v → 0 ≤ b v)
    {r : IPF Fl} (hr : ipfExact s Q b = .ok r) : ∃ e : ℚ, r.maxError = .fin e ∧ 0 ≤ e ∧ e ≤ pop := by
  obtain ⟨c0, hc0, hle⟩ := C131_at_most h hp hr
  obtain ⟨pop', n, -, h1, -, -, -, hmi, -, -, hme⟩ := ipf_exact_fin h.toProbShape hp hr
  refine ⟨_, hme, ?_⟩
  have hdims : ∀ q ∈ Q, ∀ d ∈ q.1, d < s.length := fun q hq => (h.dims q hq).2
  have hc := iterate_nonneg_real hdims h.nonneg hb n
  set c := (qsweep s Q)^[n] b with hcdef
  have hle' : ∑ v ∈ cells s, c v ≤ pop := by
    have e : ∀ v, InRange s v → c v = c0 v := by
      intro v hv
      have h2 : finArr s c = finArr s c0 := by rw [← hc0, hmi]
      have := arr_inj h2 v hv
      injection this
    rw [Finset.sum_congr rfl (fun v hv => e v (mem_cells.mp hv))]
    exact hle
  obtain ⟨q, hq, j, hj, he⟩ := (qmax_spec h.toProbShape c).2
  rw [he]
  refine ⟨abs_nonneg _, abs_le.mpr ?_⟩
  have h2 : marginalSum s q.1 c j ≤ ∑ v ∈ cells s, c v :=
    Finset.sum_le_sum_of_subset_of_nonneg (Finset.filter_subset _ _) (fun v hv _ => hc v (mem_cells.mp hv))
  have h3 : 0 ≤ marginalSum s q.1 c j := marginalSum_nonneg hc _
  have h4 : q.2 j ≤ pop := by
    rw [← h.total q hq]
    exact Finset.single_le_sum (fun i hi => h.nonneg q hq i (mem_cells.mp hi)) (mem_cells.mpr hj)
  have h5 := h.nonneg q hq j hj
  constructor <;> linarith

end

/-- The hypotheses are met: the example problem, a seed with a zero, and a table that meets the marginals and has that zero. -/
example : ∃ Q p, exQ = Q ++ [p] ∧ RatOK [2, 3] (Q ++ [p]) 3 ∧ ProperProb [2, 3] (Q ++ [p]) ∧
    ∃ r, ipfExact [2, 3] (Q ++ [p]) (fun v => if v = [0, 0] then 0 else 1) = .ok r :=
  ⟨[exQ.head (by simp [exQ])], exQ.getLast (by simp [exQ]), rfl, exQ_ok, exQ_proper, exQ_run _⟩

/-- the table that meets them -/
def exMeets : List Int → ℚ := fun v => if v = [0, 1] ∨ v = [1, 0] ∨ v = [1, 2] then 1 else 0

example : NonnegTable [2, 3] (realTable exMeets) ∧ MeetsMarginals [2, 3] exQ (realTable exMeets) ∧
    VanishesWith [2, 3] (realTable exMeets) (realTable (fun v => if v = [0, 0] then 0 else 1)) := by
  refine ⟨?_, ?_, ?_⟩
  · intro v _
    unfold realTable exMeets
    split <;> norm_num
  · have key : ∀ q ∈ exQ, ∀ j ∈ allIdx (projSizes q.1 [2, 3]), marginalSum [2, 3] q.1 exMeets j = q.2 j := by
      unfold exQ
      decide +kernel
    intro q hq j hj
    rw [margin_cast, key q hq j (mem_allIdx.mpr hj)]
  · intro v hv h0
    have h1 : v = [0, 0] := by
      by_contra hne
      simp [realTable, hne] at h0
    subst h1
    unfold realTable exMeets
    norm_num

/-- Without a table that meets the marginals, nothing may be left: a seed of zeros. -/
theorem C131_blocked : ∃ (r : IPF Fl) (c : List Int → ℚ), ipfExact [2, 3] exQ (fun _ => 0) = .ok r ∧ r.conv = false ∧
    r.micro.array = finArr [2, 3] c ∧ ∑ v ∈ cells [2, 3], c v = 0 := by
  obtain ⟨r, hr⟩ := exQ_run (fun _ => 0)
  obtain ⟨pop', n, -, h1, -, -, -, hmi, -, hcv, -⟩ := ipf_exact_fin exQ_ok.toProbShape exQ_proper hr
  have hz : ∀ n v, (qsweep [2, 3] exQ)^[n] (fun _ => 0) v = 0 := by
    intro n
    induction n with
    | zero => intro v; rfl
    | succ n ih => intro v; rw [Function.iterate_succ_apply']; exact qsweep_zero _ (ih v)
  refine ⟨r, _, hr, ?_, by rw [hmi], Finset.sum_eq_zero (fun v _ => hz n v)⟩
  rw [hcv, decide_eq_false_iff_not, not_lt]
  have h2 := (qmax_spec exQ_ok.toProbShape ((qsweep [2, 3] exQ)^[n] (fun _ => 0))).1 ([1], fun _ => 1) (by simp [exQ]) [0]
    (by simp [InRange, projSizes])
  refine le_trans ?_ h2
  rw [show marginalSum [2, 3] [1] ((qsweep [2, 3] exQ)^[n] (fun _ => 0)) [0] = 0 from
    Finset.sum_eq_zero (fun v _ => hz n v)]
  norm_num

end HL

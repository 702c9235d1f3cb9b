import Verif.Proof.IPFWitness
import Mathlib.Tactic.IntervalCases

/-
C29-C40: iterative proportional fitting.

`IPF.run false fp N indices marginals seed` is one call of `ipf` in a release build, `fp` the floating-point
arithmetic.  `ipfExact s Q b` is the call on a table of sizes `s` with the problem `Q` and the seed `b`, all finite
doubles, in arithmetic without rounding.  Problems are `ProperProb` unless said otherwise: every marginal leaves out
at least one dimension, has no more entries than there are dimensions and names none of size two or more twice
(C37 is about the others).
-/

namespace HL
open Micro
variable {α : Type}

/-- `ipf` on finite doubles, without rounding. -/
abbrev ipfExact (s : List Nat) (Q : Prob ℚ) (b : List Int → ℚ) : Out (IPF Fl) :=
  IPF.run false FP.exact (numFl FP.exact) (indicesOf (finProb Q)) (marginalsOf s (finProb Q))
    (arr s (fun v => .fin (b v)))

/-- The table of the finite doubles `c`. -/
abbrev finArr (s : List Nat) (c : List Int → ℚ) : NDArray Fl := arr s (fun v => .fin (c v))

/-- A 2x3 problem: `[1, 2]` along dimension 0 and `[1, 1, 1]` along dimension 1. -/
def exQ : Prob ℚ := [([0], fun j => j.getD 0 0 + 1), ([1], fun _ => 1)]

theorem exQ_ok : RatOK [2, 3] exQ 3 where
  lists := by decide
  two := by decide
  pos := by decide
  dims := by simp [exQ]
  cover := by
    intro d hd
    simp only [List.length_cons, List.length_nil] at hd
    interval_cases d <;> simp [exQ]
  nonneg := by
    intro p hp j hj
    simp only [exQ, List.mem_cons, List.not_mem_nil, or_false] at hp
    rcases hp with rfl | rfl
    · have := (inRange_getD hj (d := 0) (by decide)).1
      have : (0 : ℚ) ≤ ((j.getD 0 0 : Int) : ℚ) := by exact_mod_cast this
      simp only; linarith
    · simp
  total := by
    intro p hp
    simp only [exQ, List.mem_cons, List.not_mem_nil, or_false] at hp
    rcases hp with rfl | rfl
    · rw [← sum_allIdx]; simp [projSizes, allIdx, List.range_succ]; norm_num
    · rw [← sum_allIdx]; simp [projSizes, allIdx, List.range_succ]; norm_num
  partials := by
    intro p hp q hq a b d ha hb x _
    simp only [exQ, List.mem_cons, List.not_mem_nil, or_false] at hp hq
    rcases hp with rfl | rfl <;> rcases hq with rfl | rfl
    all_goals
      rw [List.getElem?_singleton] at ha hb
      split at ha <;> split at hb <;> simp_all
    all_goals omega

theorem exQ_proper : ProperProb [2, 3] exQ := by unfold ProperProb; decide

/-- The hypotheses `ipfExact s Q b = .ok r` of the theorems below are met by this problem, whatever the seed. -/
theorem exQ_run (b : List Int → ℚ) : ∃ r, ipfExact [2, 3] exQ b = .ok r :=
  ipf_run_ok _ _ (minOK_fl _) (ratOK_accepted exQ_ok (by norm_num)) (properProb_fin exQ_proper) _

/-- It also meets the hypotheses of `C20_population_float`. -/
example : ∃ r : Micro Fl Fl, Micro.new FP.exact (numFl FP.exact) (indicesOf (finProb exQ))
    (([([2], fun j : List Int => ((j.getD 0 0 : Int) + 1 : ℚ)), ([3], fun _ => 1)] : List (List Nat × (List Int → ℚ))).map
      (fun m => arr m.1 (fun j => Fl.fin (m.2 j)))) = .ok r := by
  have he : ([([2], fun j : List Int => ((j.getD 0 0 : Int) + 1 : ℚ)), ([3], fun _ => 1)] :
      List (List Nat × (List Int → ℚ))).map (fun m => arr m.1 (fun j => Fl.fin (m.2 j))) =
      marginalsOf [2, 3] (finProb exQ) := by
    simp only [marginalsOf, finProb, exQ, List.map_cons, List.map_nil]
    rfl
  rw [he]
  exact ⟨_, micro_new_ok _ _ (minOK_fl _) (ratOK_accepted exQ_ok (by norm_num))⟩

/-! ### C29 -/

/-- **C29** in exact arithmetic, for finite seeds: the result is finite, `maxError` is the largest absolute
deviation of its sums from the marginals, and `conv` says precisely that this is below `1e-8`. -/
theorem C29_conv_exact {s : List Nat} {Q : Prob ℚ} (h : ProbShape s Q) (hp : ProperProb s Q) {b : List Int → ℚ}
    {r : IPF Fl} (hr : ipfExact s Q b = .ok r) :
    ∃ (c : List Int → ℚ) (e : ℚ), r.micro.array = finArr s c ∧ r.maxError = .fin e ∧
      (∀ q ∈ Q, ∀ j, InRange (projSizes q.1 s) j → |marginalSum s q.1 c j - q.2 j| ≤ e) ∧
      (∃ q ∈ Q, ∃ j, InRange (projSizes q.1 s) j ∧ |marginalSum s q.1 c j - q.2 j| = e) ∧
      (r.conv = true ↔ e < 1 / 10 ^ 8) ∧
      (r.conv = true → ∀ q ∈ Q, ∀ j, InRange (projSizes q.1 s) j → |marginalSum s q.1 c j - q.2 j| < 1 / 10 ^ 8) := by
  obtain ⟨pop, n, -, -, -, -, -, hm, -, hc, he⟩ := ipf_exact_fin h hp hr
  obtain ⟨h1, q, hq, j, hj, h2⟩ := qmax_spec h ((qsweep s Q)^[n] b)
  refine ⟨(qsweep s Q)^[n] b, _, by rw [hm], he, h1, ⟨q, hq, j, hj, h2.symm⟩, by rw [hc]; simp, ?_⟩
  intro hcv q hq j hj
  rw [hc, decide_eq_true_eq] at hcv
  exact lt_of_le_of_lt (h1 q hq j hj) hcv

example (b : List Int → ℚ) : ∃ s Q r, ProbShape s Q ∧ ProperProb s Q ∧ ipfExact s Q b = .ok r :=
  let ⟨r, hr⟩ := exQ_run b
  ⟨[2, 3], exQ, r, exQ_ok.toProbShape, exQ_proper, hr⟩

/-- **C29** for any rounding, any seed and both element types, for the sums as computed in that arithmetic:
`conv=true` means every deviation is NaN or below the double nearest `1e-8`.
Partial: the exact sums of the returned doubles may differ from the computed ones by rounding errors, which are not
bounded here, and NaN deviations pass (C38). -/
theorem C29_conv_rounded_partial (fp : FP) (N : Num α) (hN : MinOK N) {s : List Nat} {P : Prob α} (h : ProbShape s P)
    (hp : ProperProb s P) (a : List Int → Fl) {r : IPF α}
    (hr : IPF.run false fp N (indicesOf P) (marginalsOf s P) (arr s a) = .ok r) :
    ∃ c : List Int → Fl, r.micro.array = arr s c ∧
      (r.conv = true → ∀ p ∈ P, ∀ j, InRange (projSizes p.1 s) j →
        fp.sub (fsum fp s p.1 c j) (N.toFl (p.2 j)) = .nan ∨
        FP.lt (FP.abs (fp.sub (fsum fp s p.1 c j) (N.toFl (p.2 j)))) (fp.rnd (1 / 10 ^ 8)) = true) := by
  obtain ⟨pop, n, -, -, -, -, -, rfl⟩ := ipf_run fp N hN h hp a hr
  refine ⟨(sweep fp N s P)^[n] a, rfl, ?_⟩
  intro hc p hpp j hj
  exact (maxDev_lt fp N P hc).2 p hpp j hj

example (fp : FP) : MinOK (numFl fp) := minOK_fl fp

/-! ### C30 -/

/-- **C30**, any rounding, any seed, both element types: between 1 and 1000 iterations; `conv=false` only after
1000; fewer than 1000 imply `conv=true`. -/
theorem C30_iterations (fp : FP) (N : Num α) (hN : MinOK N) {s : List Nat} {P : Prob α} (h : ProbShape s P)
    (hp : ProperProb s P) (a : List Int → Fl) {r : IPF α}
    (hr : IPF.run false fp N (indicesOf P) (marginalsOf s P) (arr s a) = .ok r) :
    1 ≤ r.iters ∧ r.iters ≤ 1000 ∧ (r.conv = false → r.iters = 1000) ∧ (r.iters < 1000 → r.conv = true) := by
  obtain ⟨pop, n, -, h1, h2, h3, -, rfl⟩ := ipf_run fp N hN h hp a hr
  refine ⟨h1, h2, ?_, ?_⟩
  · intro hc
    rcases h3 with h3 | h3
    · exact absurd (h3.symm.trans hc) (by simp)
    · exact h3
  · intro hn
    rcases h3 with h3 | h3
    · exact h3
    · exact absurd (h3.symm ▸ hn : (1000 : Nat) < 1000) (by simp)

example (b : List Int → ℚ) : ∃ r, IPF.run false FP.exact (numFl FP.exact) (indicesOf (finProb exQ))
    (marginalsOf [2, 3] (finProb exQ)) (finArr [2, 3] b) = .ok r := exQ_run b

/-! ### C31 -/

/-- **C31** in exact arithmetic: zeros stay zero, and a non-negative seed gives a non-negative result. -/
theorem C31_zeros_and_signs_exact {s : List Nat} {Q : Prob ℚ} (h : ProbShape s Q) (hp : ProperProb s Q)
    {b : List Int → ℚ} {r : IPF Fl} (hr : ipfExact s Q b = .ok r) :
    ∃ c : List Int → ℚ, r.micro.array = finArr s c ∧ (∀ v, InRange s v → b v = 0 → c v = 0) ∧
      ((∀ v, InRange s v → 0 ≤ b v) → ∀ v, InRange s v → 0 ≤ c v) := by
  obtain ⟨pop, n, hok, -, -, -, -, hm, -, -, -⟩ := ipf_exact_fin h hp hr
  refine ⟨(qsweep s Q)^[n] b, by rw [hm], ?_, ?_⟩
  · intro v _ hv
    clear hm
    induction n with
    | zero => exact hv
    | succ n ih => rw [Function.iterate_succ_apply']; exact qsweep_zero Q ih
  · intro hb
    clear hm
    induction n with
    | zero => exact hb
    | succ n ih =>
      rw [Function.iterate_succ_apply']
      exact qsweep_nonneg Q (fun q hq => (h.dims q hq).2) (nonneg_of_ok hok) ih

/-- **C31** for binary64 and any other rounding that keeps zero and signs: zero cells end up zero or NaN, and a
non-negative seed gives cells that are non-negative or NaN.
Partial: NaN does occur (`C31_negation_ieee`). -/
theorem C31_zeros_and_signs_partial {fp : FP} (h0 : fp.rnd 0 = .fin 0)
    (hs : ∀ q, 0 ≤ q → fp.rnd q = .nan ∨ FP.le (.fin 0) (fp.rnd q) = true) {s : List Nat} {P : Prob Fl}
    (h : ProbShape s P) (hp : ProperProb s P) (a : List Int → Fl) {r : IPF Fl}
    (hr : IPF.run false fp (numFl fp) (indicesOf P) (marginalsOf s P) (arr s a) = .ok r) :
    ∃ c : List Int → Fl, r.micro.array = arr s c ∧
      (∀ v, InRange s v → a v = .fin 0 → c v = .fin 0 ∨ c v = .nan) ∧
      ((∀ v, InRange s v → FP.le (.fin 0) (a v) = true) →
        ∀ v, InRange s v → c v = .nan ∨ FP.le (.fin 0) (c v) = true) := by
  obtain ⟨pop, n, hok, -, -, -, -, rfl⟩ := ipf_run fp _ (minOK_fl fp) h hp a hr
  refine ⟨(sweep fp (numFl fp) s P)^[n] a, rfl, ?_, ?_⟩
  · intro v _ hv
    exact iterate_zeroNan h0 (numFl fp) P (Or.inl hv) n
  · intro ha
    refine iterate_nonNeg hs (numFl fp) P (fun p hp => (h.dims p hp).2) ?_ (fun v hv => Or.inr (ha v hv)) n
    intro p hpp j hj
    have := hok.nonneg p hpp j hj
    rw [nonNegNan_cases]
    show p.2 j = .nan ∨ p.2 j = .pinf ∨ _
    revert this
    show FP.lt (p.2 j) (.fin 0) = false → _
    cases p.2 j <;> simp [FP.lt, numFl]

/-- binary64 qualifies. -/
example (sqrt : Fl → Fl) : (FP.ieee sqrt).rnd 0 = .fin 0 ∧
    ∀ q, 0 ≤ q → (FP.ieee sqrt).rnd q = .nan ∨ FP.le (.fin 0) ((FP.ieee sqrt).rnd q) = true :=
  ⟨ieee_zero sqrt, ieee_nonneg sqrt⟩

/-- **C31**, negation in binary64: the seed `[[0, 2^-1074], [1, 1]]` with the marginals `[1, 1]` and `[1, 1]`: the zero
cell becomes NaN (the factor of the first row overflows). -/
theorem C31_negation_ieee (sqrt : Fl → Fl) :
    ∃ r c, IPF.run false (FP.ieee sqrt) (numFl (FP.ieee sqrt)) (indicesOf unitProb) (marginalsOf [2, 2] unitProb)
      (arr [2, 2] tinySeed) = .ok r ∧ r.micro.array = arr [2, 2] c ∧ tinySeed [0, 0] = .fin 0 ∧ c [0, 0] = .nan := by
  obtain ⟨r, hr, -, -, -, ha⟩ := run_nan (FP.ieee_good sqrt) (minOK_fl _) (unitProb_ok sqrt) unitProb_proper
    (tiny_sums sqrt)
  exact ⟨r, _, hr, ha, rfl, tiny_sweep sqrt _ (by simp)⟩

/-! ### C32 -/

/-- **C32**: the result is the seed times one factor per marginal, each depending only on the marginal's own
dimensions. -/
theorem C32_association {s : List Nat} {Q : Prob ℚ} (h : ProbShape s Q) (hp : ProperProb s Q) {b : List Int → ℚ}
    {r : IPF Fl} (hr : ipfExact s Q b = .ok r) :
    ∃ (c : List Int → ℚ) (F : Fin Q.length → List Int → ℚ), r.micro.array = finArr s c ∧
      ∀ v, InRange s v → c v = b v * ∏ k, F k (proj Q[k].1 v) := by
  obtain ⟨pop, n, -, -, -, -, -, hm, -, -, -⟩ := ipf_exact_fin h hp hr
  obtain ⟨F, hF⟩ := factored_iterate (s := s) (Q := Q) b n
  exact ⟨_, F, by rw [hm], hF⟩

/-- **C32**, odds ratios: for dimensions `d`, `e` that no marginal has in common, the cross-product ratio of any
2x2 subtable along `d` and `e` is that of the seed. -/
theorem C32_odds_ratios {s : List Nat} {Q : Prob ℚ} (h : ProbShape s Q) (hp : ProperProb s Q) {b : List Int → ℚ}
    {r : IPF Fl} (hr : ipfExact s Q b = .ok r) {d e : Nat} (hne : d ≠ e) (hde : ∀ q ∈ Q, d ∉ q.1 ∨ e ∉ q.1) :
    ∃ c : List Int → ℚ, r.micro.array = finArr s c ∧ ∀ (v : List Int) (i i' j j' : Int),
      InRange s ((v.set d i).set e j) → InRange s ((v.set d i).set e j') →
      InRange s ((v.set d i').set e j) → InRange s ((v.set d i').set e j') →
      c ((v.set d i).set e j) * c ((v.set d i').set e j') * (b ((v.set d i).set e j') * b ((v.set d i').set e j)) =
      c ((v.set d i).set e j') * c ((v.set d i').set e j) * (b ((v.set d i).set e j) * b ((v.set d i').set e j')) := by
  obtain ⟨c, F, h1, h2⟩ := C32_association h hp hr
  exact ⟨c, h1, fun v i i' j j' => Factored.odds ⟨F, h2⟩ hde v i i' j j' hne⟩

example : ∀ q ∈ exQ, 0 ∉ q.1 ∨ 1 ∉ q.1 := by decide

/-! ### C33 -/

/-- **C33**: a non-negative seed meeting all marginals is returned unchanged after one iteration. -/
theorem C33_fixed_point {s : List Nat} {Q : Prob ℚ} (h : ProbShape s Q) (hp : ProperProb s Q) {b : List Int → ℚ}
    {r : IPF Fl} (hr : ipfExact s Q b = .ok r) (hb : ∀ v, InRange s v → 0 ≤ b v)
    (hm : ∀ q ∈ Q, ∀ j, InRange (projSizes q.1 s) j → marginalSum s q.1 b j = q.2 j) :
    r.micro.array = finArr s b ∧ r.conv = true ∧ r.iters = 1 ∧ r.maxError = .fin 0 := by
  obtain ⟨pop, n, -, hn1, -, -, hn, hmi, hi, hc, he⟩ := ipf_exact_fin h hp hr
  have hsw : ∀ v, InRange s v → (qsweep s Q)^[1] b v = b v :=
    qsweep_fixed Q (fun q hq => (h.dims q hq).2) hb hm
  have hq0 : qmax s Q ((qsweep s Q)^[1] b) = 0 := (qmax_congr Q hsw).trans (qmax_zero h hm)
  have h1 : n = 1 := by
    by_contra hne
    have := hn 1 le_rfl (by omega)
    rw [hq0] at this
    norm_num at this
  subst h1
  rw [hq0] at hc he
  refine ⟨?_, by rw [hc]; norm_num, hi, he⟩
  rw [hmi]
  exact arr_congr (fun v hv => by rw [hsw v hv])

/-- Met by the table with rows `1/3, 1/3, 1/3` and `2/3, 2/3, 2/3`. -/
example : ∃ b : List Int → ℚ, (∀ v, InRange [2, 3] v → 0 ≤ b v) ∧
    ∀ q ∈ exQ, ∀ j, InRange (projSizes q.1 [2, 3]) j → marginalSum [2, 3] q.1 b j = q.2 j := by
  refine ⟨fun v => ((v.getD 0 0 : Int) + 1 : ℚ) / 3, ?_, ?_⟩
  · intro v hv
    have := (inRange_getD hv (d := 0) (by decide)).1
    have : (0 : ℚ) ≤ ((v.getD 0 0 : Int) : ℚ) := by exact_mod_cast this
    simp only; linarith
  · have key : ∀ q ∈ exQ, ∀ j ∈ allIdx (projSizes q.1 [2, 3]),
        (((allIdx [2, 3]).filter (fun v => proj q.1 v = j)).map
          (fun v : List Int => ((v.getD 0 0 : Int) + 1 : ℚ) / 3)).sum = q.2 j := by
      simp [exQ, projSizes, allIdx, List.range_succ, proj]
      norm_num
    intro q hq j hj
    rw [← key q hq j (mem_allIdx.mpr hj), sum_filter_allIdx]
    rfl

/-- For seeds with negative cells the property is false: the seed `[[1, -1], [0, 1]]` has the row sums `[0, 1]` and
the column sums `[1, 0]`, yet `ipf` with those marginals returns a different table. -/
def exSigned : List Int → ℚ := fun v =>
  if v = [0, 0] then 1 else if v = [0, 1] then -1 else if v = [1, 1] then 1 else 0

def exSignedQ : Prob ℚ := [([0], fun j => if j = [1] then 1 else 0), ([1], fun j => if j = [0] then 1 else 0)]

theorem C33_negation_signed_seed :
    RatOK [2, 2] exSignedQ 1 ∧
    (∀ q ∈ exSignedQ, ∀ j, InRange (projSizes q.1 [2, 2]) j → marginalSum [2, 2] q.1 exSigned j = q.2 j) ∧
    ∃ r c, ipfExact [2, 2] exSignedQ exSigned = .ok r ∧ r.micro.array = finArr [2, 2] c ∧ c [0, 0] = 0 ∧
      exSigned [0, 0] = 1 := by
  have hok : RatOK [2, 2] exSignedQ 1 := by
    refine ⟨⟨by decide, by decide, by decide, by simp [exSignedQ], ?_⟩, ?_, ?_, ?_⟩
    · intro d hd
      simp only [List.length_cons, List.length_nil] at hd
      interval_cases d <;> simp [exSignedQ]
    · intro p hp j hj
      simp only [exSignedQ, List.mem_cons, List.not_mem_nil, or_false] at hp
      rcases hp with rfl | rfl <;> simp only <;> split <;> norm_num
    · intro p hp
      simp only [exSignedQ, List.mem_cons, List.not_mem_nil, or_false] at hp
      rcases hp with rfl | rfl <;> rw [← sum_allIdx] <;> simp [projSizes, allIdx, List.range_succ]
    · intro p hp q hq a b d ha hb x _
      simp only [exSignedQ, List.mem_cons, List.not_mem_nil, or_false] at hp hq
      rcases hp with rfl | rfl <;> rcases hq with rfl | rfl
      all_goals
        rw [List.getElem?_singleton] at ha hb
        split at ha <;> split at hb <;> simp_all
      all_goals omega
  have hpr : ProperProb [2, 2] exSignedQ := by unfold ProperProb; decide
  have hms : ∀ q ∈ exSignedQ, ∀ j, InRange (projSizes q.1 [2, 2]) j → marginalSum [2, 2] q.1 exSigned j = q.2 j := by
    have key : ∀ q ∈ exSignedQ, ∀ j ∈ allIdx (projSizes q.1 [2, 2]),
        (((allIdx [2, 2]).filter (fun v => proj q.1 v = j)).map exSigned).sum = q.2 j := by
      simp [exSignedQ, projSizes, allIdx, List.range_succ, proj, exSigned]
    intro q hq j hj
    rw [← key q hq j (mem_allIdx.mpr hj), sum_filter_allIdx]
    rfl
  refine ⟨hok, hms, ?_⟩
  obtain ⟨r, hr⟩ := ipf_run_ok FP.exact (numFl FP.exact) (minOK_fl _) (ratOK_accepted hok (by norm_num))
    (properProb_fin hpr) (fun v => .fin (exSigned v))
  obtain ⟨pop, n, -, hn, -, -, -, hm, -, -, -⟩ := ipf_exact_fin hok.toProbShape hpr hr
  refine ⟨r, (qsweep [2, 2] exSignedQ)^[n] exSigned, hr, by rw [hm], ?_, rfl⟩
  have h1 : qsweep [2, 2] exSignedQ exSigned [0, 0] = 0 := by
    show qsweep [2, 2] _ (qscaled _ _ _ _) _ = 0
    apply qsweep_zero
    unfold qscaled
    rw [if_pos]
    have := hms _ (by unfold exSignedQ; exact List.mem_cons_self) [0] (by decide)
    simpa [proj] using this
  obtain ⟨k, rfl⟩ : ∃ k, n = k + 1 := ⟨n - 1, by omega⟩
  clear hm hn
  induction k with
  | zero => exact h1
  | succ k ih => rw [Function.iterate_succ_apply']; exact qsweep_zero _ ih

/-! ### C34 -/

/-- **C34**: marginals on disjoint dimensions with the positive total `pop`, constant positive seed: one iteration
gives the product of the marginals divided by `pop ^ (K - 1)`, with no error. -/
theorem C34_independence {s : List Nat} {Q : Prob ℚ} {pop : Int} (h : RatOK s Q pop) (hpos : 0 < pop)
    (hlt : pop < 2 ^ 62) (hd : (Q.map Prod.fst).flatten.Nodup) {c : ℚ} (hc : 0 < c) :
    ∃ r, ipfExact s Q (fun _ => c) = .ok r ∧ r.conv = true ∧ r.iters = 1 ∧ r.maxError = .fin 0 ∧
      r.micro.array = finArr s (fun v => (Q.map (fun q => q.2 (proj q.1 v))).prod / (pop : ℚ) ^ (Q.length - 1)) := by
  have hs : Splits s Q := by
    refine ⟨hd, ?_, ?_⟩
    · intro d hdm
      obtain ⟨l, hl, hdl⟩ := List.mem_flatten.mp hdm
      obtain ⟨q, hq, rfl⟩ := List.mem_map.mp hl
      exact (h.dims q hq).2 d hdl
    · intro d hdn
      obtain ⟨q, hq, hdq⟩ := h.cover d hdn
      exact List.mem_flatten.mpr ⟨q.1, List.mem_map.mpr ⟨q, hq, rfl⟩, hdq⟩
  have hp : ProperProb s Q := by
    have hlen : (Q.map Prod.fst).flatten.length = s.length := by
      have hperm : (Q.map Prod.fst).flatten.Perm (List.range s.length) :=
        (List.perm_ext_iff_of_nodup hd List.nodup_range).mpr (fun d => by
          simp only [List.mem_range]
          exact ⟨hs.lt d, hs.all d⟩)
      simpa using hperm.length_eq
    intro q hq
    obtain ⟨A, B, hQ⟩ := List.append_of_mem hq
    refine properDims_of_nodup ((List.nodup_flatten.mp hd).1 q.1 (List.mem_map.mpr ⟨q, hq, rfl⟩)) ?_
    have h2 := h.lists
    rw [← hlen, hQ]
    simp only [List.map_append, List.map_cons, List.flatten_append, List.flatten_cons, List.length_append]
    have hne : ∀ (L : Prob ℚ), L ≠ [] → (∀ q ∈ L, q ∈ Q) → 0 < ((L.map Prod.fst).flatten).length := by
      intro L hL hsub
      obtain ⟨q', hq'⟩ := List.exists_mem_of_ne_nil L hL
      obtain ⟨d, hd⟩ := List.exists_mem_of_ne_nil q'.1 (h.dims q' (hsub q' hq')).1
      exact List.length_pos_of_mem (List.mem_flatten.mpr ⟨q'.1, List.mem_map.mpr ⟨q', hq', rfl⟩, hd⟩)
    by_cases hA : A = []
    · have hB : B ≠ [] := by
        rintro rfl
        rw [hQ, hA] at h2
        simp at h2
      have := hne B hB (fun q hq => by rw [hQ]; simp [hq])
      omega
    · have := hne A hA (fun q hq => by rw [hQ]; simp [hq])
      omega
  obtain ⟨r, hr⟩ := ipf_run_ok FP.exact (numFl FP.exact) (minOK_fl _) (ratOK_accepted h hlt)
    (properProb_fin hp) (fun _ => .fin c)
  refine ⟨r, hr, ?_⟩
  obtain ⟨pop', n, -, hn1, -, -, hn, hmi, hi, hcv, he⟩ := ipf_exact_fin h.toProbShape hp (b := fun _ => c) hr
  have hT : (pop : ℚ) ≠ 0 := by exact_mod_cast hpos.ne'
  have hne : Q ≠ [] := by
    rintro rfl
    have := h.lists
    simp at this
  have hsw : ∀ v, InRange s v → (qsweep s Q)^[1] (fun _ => c) v = prodAt Q v / (pop : ℚ) ^ (Q.length - 1) :=
    qsweep_product h.toProbShape hs hT h.total Q [] rfl hne c hc.ne' _ (fun v _ => by simp [prodAt])
  have hq0 : qmax s Q ((qsweep s Q)^[1] (fun _ => c)) = 0 :=
    (qmax_congr Q hsw).trans (qmax_zero h.toProbShape (fun q hq j hj => marginalSum_product hs hT h.total hq hj))
  have h1 : n = 1 := by
    by_contra hne
    have := hn 1 le_rfl (by omega)
    rw [hq0] at this
    norm_num at this
  subst h1
  rw [hq0] at hcv he
  refine ⟨by rw [hcv]; norm_num, hi, he, ?_⟩
  rw [hmi]
  exact arr_congr (fun v hv => by rw [hsw v hv]; rfl)

example : RatOK [2, 3] exQ 3 ∧ (0 : Int) < 3 ∧ (exQ.map Prod.fst).flatten.Nodup := ⟨exQ_ok, by decide, by decide⟩

/-! ### C35 -/

/-- **C35**: multiplying the seed by a non-zero constant changes nothing, neither for accepted problems nor for
rejected ones. -/
theorem C35_seed_scale {s : List Nat} {Q : Prob ℚ} (h : ProbShape s Q) (hp : ProperProb s Q) (b : List Int → ℚ)
    {k : ℚ} (hk : k ≠ 0) : ipfExact s Q (fun v => k * b v) = ipfExact s Q b := by
  have hP := probShape_congr (fst_finProb Q).symm h
  have hne : Q ≠ [] := by
    rintro rfl
    have := h.lists
    simp at this
  have hd : ∀ p ∈ finProb Q, ∀ d ∈ p.1, d < s.length := fun p hp => (hP.dims p hp).2
  unfold ipfExact IPF.run
  cases hx : IPF.new FP.exact (numFl FP.exact) (indicesOf (finProb Q)) (marginalsOf s (finProb Q)) with
  | ok x =>
    simp only [Out.ok_bind]
    have hx' := hx
    unfold IPF.new at hx'
    obtain ⟨m, hm, hx'⟩ := Out.bind_eq_ok.mp hx'
    obtain ⟨pop, -, rfl⟩ := (new_ok_iff _ _ (minOK_fl _) hP).mp hm
    obtain ⟨x', hx1, hx2⟩ := ipf_new_obj hm
    rw [hx] at hx1
    injection hx1 with hx1
    subst hx1
    apply ipf_solve_congr _ _ hP (properProb_fin hp) hx2 hx2
    intro v hv
    rw [sweep_exact hd (reads_fin s Q) (a := fun v => .fin (k * b v)) (b := fun v => k * b v) (fun _ _ => rfl) v hv,
      sweep_exact hd (reads_fin s Q) (a := fun v => .fin (b v)) (b := b) (fun _ _ => rfl) v hv, qsweep_smul hne hk]
  | thrown e => rfl
  | ub u => rfl
  | diverges => rfl

example : ProbShape [2, 3] exQ ∧ ProperProb [2, 3] exQ := ⟨exQ_ok.toProbShape, exQ_proper⟩

/-! ### C36 -/

/-- **C36**: with a seed of any shape other than that of the table, `ipf` on an accepted problem raises an
exception, about the number of dimensions or about the sizes. -/
theorem C36_seed_shape (dbg : Bool) (fp : FP) (N : Num α) (hN : MinOK N) {s : List Nat} {P : Prob α} {pop : Int}
    (h : ProbOKG fp N s P pop) {t : List Nat} (g : List Int → Option Fl) (hts : t ≠ s) :
    IPF.run dbg fp N (indicesOf P) (marginalsOf s P) (arrO t g) =
      .thrown (if t.length ≠ s.length then .seedDims else .seedSizes) := by
  obtain ⟨x, hx1, hx2⟩ := ipf_new_obj (micro_new_ok (β := Fl) fp N hN h)
  obtain ⟨g', hg'⟩ := hx2.micro
  unfold IPF.run
  rw [hx1]
  simp only [Out.ok_bind]
  unfold IPF.solve IPF.checkSeed
  have h1 : x.micro.array.sizes = s := by rw [hg']; rfl
  have h2 : (arrO t g).sizes = t := rfl
  rw [h1, h2]
  by_cases hl : t.length = s.length
  · simp [hl, hts]
  · simp [hl]

/-- **C36**: with a seed of the right shape there is no undefined behaviour and no exception: a result is returned,
of that shape. -/
theorem C36_seed_read (fp : FP) (N : Num α) (hN : MinOK N) {s : List Nat} {P : Prob α} {pop : Int}
    (h : ProbOKG fp N s P pop) (hp : ProperProb s P) (a : List Int → Fl) :
    ∃ r c, IPF.run false fp N (indicesOf P) (marginalsOf s P) (arr s a) = .ok r ∧ r.micro.array = arr s c := by
  obtain ⟨r, hr⟩ := ipf_run_ok fp N hN h hp a
  obtain ⟨pop, n, -, -, -, -, -, rfl⟩ := ipf_run fp N hN h.toProbShape hp a hr
  exact ⟨_, _, hr, rfl⟩

example : ProbOKG FP.exact (numFl FP.exact) [2, 3] (finProb exQ) 3 ∧ ([3, 2] : List Nat) ≠ [2, 3] :=
  ⟨ratOK_accepted exQ_ok (by norm_num), by decide⟩

/-! ### C37 -/

/-- **C37**: `ipf` returns on every accepted problem in which every marginal leaves out at least one dimension
and names none twice (other than dimensions of size one).
Partial: for the others see the next theorems. -/
theorem C37_returns_partial (fp : FP) (N : Num α) (hN : MinOK N) {s : List Nat} {P : Prob α} {pop : Int}
    (h : ProbOKG fp N s P pop) (hp : ProperProb s P) (a : List Int → Fl) :
    ∃ r, IPF.run false fp N (indicesOf P) (marginalsOf s P) (arr s a) = .ok r :=
  ipf_run_ok fp N hN h hp a

theorem run_first {dbg : Bool} {fp : FP} {N : Num α} (hN : MinOK N) {s : List Nat} {P : Prob α} {pop : Int}
    (h : ProbOKG fp N s P pop) (a : List Int → Fl) {o : Out (NDArray Fl)}
    (ho : rScale dbg fp N (arr s a) (indicesOf P) (marginalsOf s P) = o) (hno : ∀ b, o ≠ .ok b) :
    ∃ x, IPF.run dbg fp N (indicesOf P) (marginalsOf s P) (arr s a) = (o >>= fun _ => .ok x) := by
  obtain ⟨x, hx1, hx2⟩ := ipf_new_obj (micro_new_ok (β := Fl) fp N hN h)
  refine ⟨x, ?_⟩
  unfold IPF.run
  rw [hx1]
  exact solve_first dbg fp N h.toProbShape hx2 a ho hno

theorem rScale_prefix {fp : FP} {N : Num α} {s : List Nat} (hg : GoodShape s) {A B : Prob α}
    {p : List Nat × (List Int → α)} (hd : ∀ q ∈ A, q.1 ≠ [] ∧ ∀ d ∈ q.1, d < s.length) (hA : ProperProb s A)
    {o : Out (NDArray Fl)} (hno : ∀ b, o ≠ .ok b)
    (hp : ∀ a : List Int → Fl, scaleOne false fp N (arr s a) (p.1.map (fun d : Nat => (d : Int)))
      (arr (projSizes p.1 s) p.2) = o) (a : List Int → Fl) :
    rScale false fp N (arr s a) (indicesOf (A ++ p :: B)) (marginalsOf s (A ++ p :: B)) = o := by
  rw [rScale_append false fp N A (p :: B) a _ (rScale_ok false fp N hg A a hd hA rfl)]
  simp only [indicesOf, marginalsOf, List.map_cons, rScale]
  rw [hp]
  cases o with
  | ok b => exact absurd rfl (hno b)
  | thrown e => rfl
  | ub u => rfl
  | diverges => rfl

/-- **C37**, negation: if a marginal covers all dimensions, an accepted call of `ipf` never returns (the first such
marginal is `p`, those before it are proper). -/
theorem C37_negation_covering {fp : FP} {N : Num α} (hN : MinOK N) {s : List Nat} {A B : Prob α}
    {p : List Nat × (List Int → α)} {pop : Int} (h : ProbOKG fp N s (A ++ p :: B) pop) (hA : ProperProb s A)
    (hn : p.1.Nodup) (hlen : p.1.length = s.length) (a : List Int → Fl) :
    IPF.run false fp N (indicesOf (A ++ p :: B)) (marginalsOf s (A ++ p :: B)) (arr s a) = .diverges := by
  have hg := h.toProbShape.good
  have hd := h.dims
  obtain ⟨x, hx⟩ := run_first hN h a (rScale_prefix (B := B) (o := .diverges) hg (fun q hq => hd q (by simp [hq])) hA
    (by simp) (fun a => scaleOne_covering fp N hg a hn (hd p (by simp)).2 hlen p.2) a) (by simp)
  rw [hx]; rfl

/-- **C37**, negation: likewise if a marginal names a dimension of size at least two twice. -/
theorem C37_negation_repeated {fp : FP} {N : Num α} (hN : MinOK N) {s : List Nat} {A B : Prob α}
    {p : List Nat × (List Int → α)} {pop : Int} (h : ProbOKG fp N s (A ++ p :: B) pop) (hA : ProperProb s A)
    (hlen : p.1.length ≤ s.length) {k l d : Nat} (hkl : k < l) (hk : p.1[k]? = some d) (hl : p.1[l]? = some d)
    (hsz : 2 ≤ s.getD d 0) (a : List Int → Fl) :
    IPF.run false fp N (indicesOf (A ++ p :: B)) (marginalsOf s (A ++ p :: B)) (arr s a) = .diverges := by
  have hg := h.toProbShape.good
  have hd := h.dims
  have hll : l < p.1.length := (List.getElem?_eq_some_iff.mp hl).1
  obtain ⟨x, hx⟩ := run_first hN h a (rScale_prefix (B := B) (o := .diverges) hg (fun q hq => hd q (by simp [hq])) hA
    (by simp) (fun a => scaleOne_dup fp N hg a (hd p (by simp)).2 hlen hkl hll
      (by rw [List.getD_eq_getElem?_getD, hk]; rfl) (by rw [List.getD_eq_getElem?_getD, hl]; rfl) hsz p.2) a) (by simp)
  rw [hx]; rfl

/-- **C37**, negation: if an index list is longer than the table has dimensions, an accepted call of `ipf` ends in
`std::length_error`. -/
theorem C37_negation_long {fp : FP} {N : Num α} (hN : MinOK N) {s : List Nat} {A B : Prob α}
    {p : List Nat × (List Int → α)} {pop : Int} (h : ProbOKG fp N s (A ++ p :: B) pop) (hA : ProperProb s A)
    (hlen : s.length < p.1.length) (a : List Int → Fl) :
    IPF.run false fp N (indicesOf (A ++ p :: B)) (marginalsOf s (A ++ p :: B)) (arr s a) = .thrown .lengthError := by
  have hg := h.toProbShape.good
  have hd := h.dims
  obtain ⟨x, hx⟩ := run_first hN h a (rScale_prefix (B := B) (o := .thrown .lengthError) hg
    (fun q hq => hd q (by simp [hq])) hA (by simp) (fun a => by
      unfold scaleOne
      rw [reduceM_eq false (numFl fp) hg a (hd p (by simp)).1 (hd p (by simp)).2 (by simp)]
      simp only [Out.ok_bind]
      rw [show (arr s a).sizes = s from rfl, show (arr s a).dim = s.length from rfl, index_new hg.1]
      simp only [Out.ok_bind]
      unfold invert
      rw [if_pos (by simpa using hlen)]
      rfl) a) (by simp)
  rw [hx]; rfl

/-- **C37**, all accepted problems: `ipf` returns exactly when every index list has at most as many entries as there
are dimensions, leaves out a dimension and names none of size two or more twice.  Otherwise the first list that does
not decides: it is too long and the call ends in `std::length_error`, or the call never returns. -/
theorem C37_outcomes {fp : FP} {N : Num α} (hN : MinOK N) {s : List Nat} {P : Prob α} {pop : Int}
    (h : ProbOKG fp N s P pop) (a : List Int → Fl) :
    (ProperProb s P ∧ ∃ r, IPF.run false fp N (indicesOf P) (marginalsOf s P) (arr s a) = .ok r) ∨
    ∃ A p B, P = A ++ p :: B ∧ ProperProb s A ∧ ¬ ProperDims s p.1 ∧
      IPF.run false fp N (indicesOf P) (marginalsOf s P) (arr s a) =
        if s.length < p.1.length then .thrown .lengthError else .diverges := by
  by_cases hp : ProperProb s P
  · exact Or.inl ⟨hp, ipf_run_ok fp N hN h hp a⟩
  · right
    have split : ∀ L : Prob α, ¬ ProperProb s L → ∃ A p B, L = A ++ p :: B ∧ ProperProb s A ∧ ¬ ProperDims s p.1 := by
      intro L
      induction L with
      | nil => intro hL; exact absurd (by simp [ProperProb]) hL
      | cons p L ih =>
        intro hL
        by_cases hpd : ProperDims s p.1
        · obtain ⟨A, q, B, rfl, hA, hq⟩ := ih (fun hc => hL (fun q hq => by
            rcases List.mem_cons.mp hq with rfl | hq
            · exact hpd
            · exact hc q hq))
          refine ⟨p :: A, q, B, rfl, ?_, hq⟩
          intro q' hq'
          rcases List.mem_cons.mp hq' with rfl | hq'
          · exact hpd
          · exact hA q' hq'
        · exact ⟨[], p, L, rfl, by simp [ProperProb], hpd⟩
    obtain ⟨A, p, B, rfl, hA, hpd⟩ := split P hp
    refine ⟨A, p, B, rfl, hA, hpd, ?_⟩
    by_cases hlen : s.length < p.1.length
    · rw [if_pos hlen]
      exact C37_negation_long hN h hA hlen a
    · rw [if_neg hlen]
      have hd := (h.dims p (by simp)).2
      by_cases hl : Loose s p.1
      · have hcov : ∀ d < s.length, d ∈ p.1 := by
          intro d hdn
          by_contra hc
          exact hpd ⟨by omega, ⟨d, hdn, hc⟩, hl⟩
        have hsub : List.range s.length ⊆ p.1 := fun d hdr => hcov d (List.mem_range.mp hdr)
        have hperm := (List.subperm_of_subset List.nodup_range hsub).perm_of_length_le (by simp; omega)
        exact C37_negation_covering hN h hA (hperm.nodup_iff.mp List.nodup_range) (by simpa using hperm.length_eq.symm) a
      · unfold Loose at hl
        rw [List.pairwise_iff_getElem] at hl
        push Not at hl
        obtain ⟨k, l, hk, hl', hkl, he, hsz⟩ := hl
        refine C37_negation_repeated hN h hA (by omega) hkl (d := p.1[k]) (List.getElem?_eq_getElem hk)
          (by rw [List.getElem?_eq_getElem hl', he]) ?_ a
        have := h.pos _ (getD_mem (hd p.1[k] (List.getElem_mem hk)))
        omega

/-- In a build with assertions, a first marginal with as many index entries as the table has dimensions, or more,
ends the process. -/
theorem C37_debug_covering {fp : FP} {N : Num α} (hN : MinOK N) {s : List Nat} {B : Prob α}
    {p : List Nat × (List Int → α)} {pop : Int} (h : ProbOKG fp N s (p :: B) pop)
    (hlen : s.length ≤ p.1.length) (a : List Int → Fl) :
    IPF.run true fp N (indicesOf (p :: B)) (marginalsOf s (p :: B)) (arr s a) = .ub .assertFail := by
  have : rScale true fp N (arr s a) (indicesOf (p :: B)) (marginalsOf s (p :: B)) = .ub .assertFail := by
    simp only [indicesOf, marginalsOf, List.map_cons, rScale, scaleOne, reduceM]
    rw [if_pos]
    · rfl
    · refine ⟨trivial, ?_⟩
      show ¬ _ < (arr s a).dim
      rw [show (arr s a).dim = s.length from rfl]
      simpa using hlen
  obtain ⟨x, hx⟩ := run_first hN h a this (by simp)
  rw [hx]; rfl

/-- A problem whose second marginal is the whole 2x2 table (all entries 1). -/
def exCover : Prob ℚ := [([0], fun _ => 2), ([0, 1], fun _ => 1)]

/-- A problem whose second marginal names dimension 0 twice. -/
def exRepeat : Prob ℚ := [([1], fun _ => 2), ([0, 0], fun _ => 1)]

theorem exCover_ok : RatOK [2, 2] exCover 4 := by
  refine ⟨⟨by decide, by decide, by decide, by simp [exCover], ?_⟩, ?_, ?_, ?_⟩
  · intro d hd
    simp only [List.length_cons, List.length_nil] at hd
    interval_cases d <;> simp [exCover]
  · intro p hp j hj
    simp only [exCover, List.mem_cons, List.not_mem_nil, or_false] at hp
    rcases hp with rfl | rfl <;> simp
  · intro p hp
    simp only [exCover, List.mem_cons, List.not_mem_nil, or_false] at hp
    rcases hp with rfl | rfl <;> rw [← sum_allIdx] <;> simp [projSizes, allIdx, List.range_succ] <;> norm_num
  · have key : ∀ p ∈ exCover, ∀ a d, p.1[a]? = some d → ∀ x : Nat, x < 2 →
        marginalSum (projSizes p.1 [2, 2]) [a] p.2 [(x : Int)] = 2 := by
      intro p hp a d ha x hx
      have ha' : a < p.1.length := (List.getElem?_eq_some_iff.mp ha).1
      unfold marginalSum
      rw [← sum_filter_allIdx]
      simp only [exCover, List.mem_cons, List.not_mem_nil, or_false] at hp
      rcases hp with rfl | rfl
      · have : a = 0 := by simpa using ha'
        subst this
        interval_cases x <;> simp [projSizes, allIdx, List.range_succ, proj]
      · have : a < 2 := ha'
        interval_cases a <;> interval_cases x <;> simp [projSizes, allIdx, List.range_succ, proj] <;> norm_num
    intro p hp q hq a b d ha hb x hx
    have hd : d < 2 := (exCover_dims p hp) d (List.mem_of_getElem? ha)
    have hx' : x < 2 := by
      interval_cases d <;> simpa using hx
    rw [key p hp a d ha x hx', key q hq b d hb x hx']
where
  exCover_dims : ∀ p ∈ exCover, ∀ d ∈ p.1, d < 2 := by simp [exCover]

theorem exRepeat_ok : RatOK [2, 2] exRepeat 4 := by
  refine ⟨⟨by decide, by decide, by decide, by simp [exRepeat], ?_⟩, ?_, ?_, ?_⟩
  · intro d hd
    simp only [List.length_cons, List.length_nil] at hd
    interval_cases d <;> simp [exRepeat]
  · intro p hp j hj
    simp only [exRepeat, List.mem_cons, List.not_mem_nil, or_false] at hp
    rcases hp with rfl | rfl <;> simp
  · intro p hp
    simp only [exRepeat, List.mem_cons, List.not_mem_nil, or_false] at hp
    rcases hp with rfl | rfl <;> rw [← sum_allIdx] <;> simp [projSizes, allIdx, List.range_succ] <;> norm_num
  · have key : ∀ p ∈ exRepeat, ∀ a d, p.1[a]? = some d → ∀ x : Nat, x < 2 →
        marginalSum (projSizes p.1 [2, 2]) [a] p.2 [(x : Int)] = 2 := by
      intro p hp a d ha x hx
      have ha' : a < p.1.length := (List.getElem?_eq_some_iff.mp ha).1
      unfold marginalSum
      rw [← sum_filter_allIdx]
      simp only [exRepeat, List.mem_cons, List.not_mem_nil, or_false] at hp
      rcases hp with rfl | rfl
      · have : a = 0 := by simpa using ha'
        subst this
        interval_cases x <;> simp [projSizes, allIdx, List.range_succ, proj]
      · have : a < 2 := ha'
        interval_cases a <;> interval_cases x <;> simp [projSizes, allIdx, List.range_succ, proj] <;> norm_num
    intro p hp q hq a b d ha hb x hx
    have hd : d < 2 := (exRepeat_dims p hp) d (List.mem_of_getElem? ha)
    have hx' : x < 2 := by
      interval_cases d <;> simpa using hx
    rw [key p hp a d ha x hx', key q hq b d hb x hx']
where
  exRepeat_dims : ∀ p ∈ exRepeat, ∀ d ∈ p.1, d < 2 := by simp [exRepeat]

/-- Both are accepted, and `ipf` never returns, whatever the seed. -/
theorem C37_witnesses (b : List Int → ℚ) :
    ipfExact [2, 2] exCover b = .diverges ∧ ipfExact [2, 2] exRepeat b = .diverges := by
  constructor
  · exact C37_negation_covering (A := finProb [([0], fun _ => 2)]) (B := []) (p := ([0, 1], fun _ => .fin 1)) (minOK_fl _)
      (ratOK_accepted exCover_ok (by norm_num)) (properProb_fin (by unfold ProperProb; decide)) (by decide) rfl _
  · exact C37_negation_repeated (A := finProb [([1], fun _ => 2)]) (B := []) (p := ([0, 0], fun _ => .fin 1)) (minOK_fl _)
      (ratOK_accepted exRepeat_ok (by norm_num)) (properProb_fin (by unfold ProperProb; decide)) le_rfl
      (k := 0) (l := 1) (d := 0) (by decide) rfl rfl (by decide) _

/-- An index list with more entries than there are dimensions, and one that repeats a dimension of size one. -/
def exLong : Prob ℚ := [([0], fun _ => 3), ([1, 1, 1], fun _ => 3)]
def exUnit : Prob ℚ := [([0], fun _ => 3), ([1, 1], fun _ => 3)]

theorem exLong_ok : RatOK [1, 1] exLong 3 ∧ RatOK [1, 1] exUnit 3 := by
  have main : ∀ E : Prob ℚ, (E = exLong ∨ E = exUnit) → RatOK [1, 1] E 3 := by
    intro E hE
    refine ⟨⟨?_, ?_, by decide, ?_, ?_⟩, ?_, ?_, ?_⟩
    · rcases hE with rfl | rfl <;> decide
    · rcases hE with rfl | rfl <;> decide
    · rcases hE with rfl | rfl <;> simp [exLong, exUnit]
    · intro d hd
      simp only [List.length_cons, List.length_nil] at hd
      rcases hE with rfl | rfl <;> interval_cases d <;> simp [exLong, exUnit]
    · intro p hp j hj
      rcases hE with rfl | rfl <;> simp only [exLong, exUnit, List.mem_cons, List.not_mem_nil, or_false] at hp <;>
        rcases hp with rfl | rfl <;> simp
    · intro p hp
      rcases hE with rfl | rfl <;> simp only [exLong, exUnit, List.mem_cons, List.not_mem_nil, or_false] at hp <;>
        rcases hp with rfl | rfl <;> rw [← sum_allIdx] <;> simp [projSizes, allIdx, List.range_succ]
    · have hdims : ∀ p ∈ E, ∀ d ∈ p.1, d < 2 := by
        rcases hE with rfl | rfl <;> simp [exLong, exUnit]
      have key : ∀ p ∈ E, ∀ a d, p.1[a]? = some d → ∀ x : Nat, x < 1 →
          marginalSum (projSizes p.1 [1, 1]) [a] p.2 [(x : Int)] = 3 := by
        intro p hp a d ha x hx
        have ha' : a < p.1.length := (List.getElem?_eq_some_iff.mp ha).1
        unfold marginalSum
        rw [← sum_filter_allIdx]
        obtain rfl : x = 0 := by omega
        rcases hE with rfl | rfl <;> simp only [exLong, exUnit, List.mem_cons, List.not_mem_nil, or_false] at hp <;>
          rcases hp with rfl | rfl <;> simp only [List.length_cons, List.length_nil] at ha' <;>
          interval_cases a <;> simp [projSizes, allIdx, List.range_succ, proj]
      intro p hp q hq a b d ha hb x hx
      have hd : d < 2 := hdims p hp d (List.mem_of_getElem? ha)
      have hx' : x < 1 := by
        interval_cases d <;> simpa using hx
      rw [key p hp a d ha x hx', key q hq b d hb x hx']
  exact ⟨main _ (Or.inl rfl), main _ (Or.inr rfl)⟩

/-- Both are accepted; the first ends in an exception, the second returns. -/
theorem C37_witnesses_long (b : List Int → ℚ) :
    ipfExact [1, 1] exLong b = .thrown .lengthError ∧ ProperProb [1, 1] exUnit ∧ ∃ r, ipfExact [1, 1] exUnit b = .ok r := by
  have hp : ProperProb [1, 1] exUnit := by unfold ProperProb; decide
  refine ⟨?_, hp, ?_⟩
  · exact C37_negation_long (A := finProb [([0], fun _ => 3)]) (B := []) (p := ([1, 1, 1], fun _ => .fin 3)) (minOK_fl _)
      (ratOK_accepted exLong_ok.1 (by norm_num)) (properProb_fin (by unfold ProperProb; decide)) (by decide) _
  · exact ipf_run_ok _ _ (minOK_fl _) (ratOK_accepted exLong_ok.2 (by norm_num)) (properProb_fin hp) _

/-! ### C38 -/

/-- **C38** in exact arithmetic with a finite seed: the result contains no NaN, whether or not `conv` is set.
Partial: it fails for NaN seeds and in binary64, see the next two theorems. -/
theorem C38_no_nan_partial {s : List Nat} {Q : Prob ℚ} (h : ProbShape s Q) (hp : ProperProb s Q) {b : List Int → ℚ}
    {r : IPF Fl} (hr : ipfExact s Q b = .ok r) :
    ∃ c : List Int → Fl, r.micro.array = arr s c ∧ ∀ v, InRange s v → c v ≠ .nan := by
  obtain ⟨c, e, hc, -⟩ := C29_conv_exact h hp hr
  exact ⟨_, hc, fun v _ => by simp⟩

/-- **C38**, negation: for every accepted problem and any rounding, a seed of NaNs is reported as converged
after one iteration, with the result all NaN and a `maxError` of minus the largest double. -/
theorem C38_negation_nan_seed {fp : FP} (hfp : fp.Good) {N : Num α} (hN : MinOK N) {s : List Nat} {P : Prob α}
    {pop : Int} (h : ProbOKG fp N s P pop) (hp : ProperProb s P) :
    ∃ r c, IPF.run false fp N (indicesOf P) (marginalsOf s P) (arr s (fun _ => .nan)) = .ok r ∧ r.conv = true ∧
      r.iters = 1 ∧ r.maxError = .fin (-dblMax) ∧ r.micro.array = arr s c ∧ ∀ v, InRange s v → c v = .nan := by
  have hsw : ∀ v, InRange s v → sweep fp N s P (fun _ => .nan) v = .nan := fun v hv => sweep_nan fp N hv P rfl
  obtain ⟨r, h1, h2, h3, h4, h5⟩ := run_nan hfp hN h hp (a := fun _ => .nan) (by
    intro p hpp j hj
    obtain ⟨v, hv, rfl⟩ := exists_proj h.pos (hp p hpp).2.2 (h.dims p hpp).2 hj
    exact fsum_nan fp hv (hsw v hv))
  exact ⟨r, _, h1, h2, h3, h4, h5, hsw⟩

/-- **C38**, negation in binary64 with a finite, non-negative seed: `[[0, 2^-1074], [1, 1]]` with the marginals `[1, 1]`
and `[1, 1]` is reported as converged although three of the four cells are NaN. -/
theorem C38_negation_finite_seed (sqrt : Fl → Fl) :
    ∃ r c, IPF.run false (FP.ieee sqrt) (numFl (FP.ieee sqrt)) (indicesOf unitProb) (marginalsOf [2, 2] unitProb)
      (arr [2, 2] tinySeed) = .ok r ∧ r.conv = true ∧ r.iters = 1 ∧ r.micro.array = arr [2, 2] c ∧
      c [0, 0] = .nan ∧ c [0, 1] = .nan ∧ c [1, 0] = .nan := by
  obtain ⟨r, hr, h1, h2, -, ha⟩ := run_nan (FP.ieee_good sqrt) (minOK_fl _) (unitProb_ok sqrt) unitProb_proper
    (tiny_sums sqrt)
  exact ⟨r, _, hr, h1, h2, ha, tiny_sweep sqrt _ (by simp), tiny_sweep sqrt _ (by simp), tiny_sweep sqrt _ (by simp)⟩

/-- What NaN does, any rounding: a NaN cell of the seed is a NaN cell of the result, and every computed sum over
a NaN cell is NaN, so that its deviation is ignored. -/
theorem C38_nan_spreads (fp : FP) (N : Num α) (hN : MinOK N) {s : List Nat} {P : Prob α} (h : ProbShape s P)
    (hp : ProperProb s P) (a : List Int → Fl) {r : IPF α}
    (hr : IPF.run false fp N (indicesOf P) (marginalsOf s P) (arr s a) = .ok r) :
    ∃ c : List Int → Fl, r.micro.array = arr s c ∧ ∀ v, InRange s v → a v = .nan →
      c v = .nan ∧ ∀ p ∈ P, fsum fp s p.1 c (proj p.1 v) = .nan := by
  obtain ⟨pop, n, -, -, -, -, -, rfl⟩ := ipf_run fp N hN h hp a hr
  refine ⟨(sweep fp N s P)^[n] a, rfl, fun v hv ha => ?_⟩
  have := iterate_nan fp N hv P ha n
  exact ⟨this, fun p _ => fsum_nan fp hv this⟩

example (sqrt : Fl → Fl) : ProbOKG (FP.ieee sqrt) (numFl (FP.ieee sqrt)) [2, 2] unitProb 2 ∧
    ProperProb [2, 2] unitProb := ⟨unitProb_ok sqrt, unitProb_proper⟩

/-! ### C39 -/

/-- An object after a history of `solve` calls with the seeds `seeds`, in order; exceptions are caught by the caller
(the seed is checked before the object is changed). -/
def ipfHistory (fp : FP) (N : Num α) (x : IPF α) : List (NDArray Fl) → Out (IPF α)
  | [] => .ok x
  | seed :: seeds =>
    match IPF.solve false fp N x seed with
    | .ok y => ipfHistory fp N y seeds
    | .thrown _ => ipfHistory fp N x seeds
    | .ub u => .ub u
    | .diverges => .diverges

theorem solve_mismatch (dbg : Bool) (fp : FP) (N : Num α) {s : List Nat} {P : Prob α} {pop : Int} {x : IPF α}
    (hx : IPFObj s P pop x) {t : List Nat} (g : List Int → Option Fl) (hts : t ≠ s) :
    IPF.solve dbg fp N x (arrO t g) = .thrown (if t.length ≠ s.length then .seedDims else .seedSizes) := by
  obtain ⟨g', hg'⟩ := hx.micro
  unfold IPF.solve IPF.checkSeed
  have h1 : x.micro.array.sizes = s := by rw [hg']; rfl
  have h2 : (arrO t g).sizes = t := rfl
  rw [h1, h2]
  by_cases hl : t.length = s.length
  · simp [hl, hts]
  · simp [hl]

/-- **C39**: whatever seeds (of whatever shapes) an `IPF` object has been used with, the next call gives exactly
what it gives on a new object. -/
theorem C39_solves_independent (fp : FP) (N : Num α) (hN : MinOK N) {s : List Nat} {P : Prob α} (h : ProbShape s P)
    (hp : ProperProb s P) {x : IPF α} (hx : IPF.new fp N (indicesOf P) (marginalsOf s P) = .ok x)
    (hist : List (List Nat × (List Int → Fl))) (t : List Nat) (g : List Int → Fl) :
    ∃ y, ipfHistory fp N x (hist.map (fun q => arr q.1 q.2)) = .ok y ∧
      IPF.solve false fp N y (arr t g) = IPF.solve false fp N x (arr t g) := by
  have hx' := hx
  unfold IPF.new at hx'
  obtain ⟨m, hm, hx'⟩ := Out.bind_eq_ok.mp hx'
  obtain ⟨pop, -, rfl⟩ := (new_ok_iff _ _ hN h).mp hm
  obtain ⟨x', hx1, hxo⟩ := ipf_new_obj hm
  rw [hx] at hx1
  injection hx1 with hx1
  subst hx1
  have key : ∀ (hist : List (List Nat × (List Int → Fl))) (z : IPF α), IPFObj s P pop z →
      ∃ y, ipfHistory fp N z (hist.map (fun q => arr q.1 q.2)) = .ok y ∧ IPFObj s P pop y := by
    intro hist
    induction hist with
    | nil => intro z hz; exact ⟨z, rfl, hz⟩
    | cons q hist ih =>
      intro z hz
      rw [List.map_cons, ipfHistory]
      by_cases hq : q.1 = s
      · obtain ⟨n, -, -, -, -, hs⟩ := ipf_solve fp N h hp hz q.2
        rw [hq, hs]
        exact ih _ (ipfState_obj fp N s P pop _ n)
      · rw [show arr q.1 q.2 = arrO q.1 (fun v => some (q.2 v)) from rfl, solve_mismatch false fp N hz _ hq]
        exact ih z hz
  obtain ⟨y, hy1, hy2⟩ := key hist x hxo
  refine ⟨y, hy1, ?_⟩
  by_cases ht : t = s
  · subst ht
    exact ipf_solve_congr fp N h hp hy2 hxo (fun _ _ => rfl)
  · rw [show arr t g = arrO t (fun v => some (g v)) from rfl, solve_mismatch false fp N hy2 _ ht,
      solve_mismatch false fp N hxo _ ht]

/-- Met by the example problem. -/
example : ∃ x, IPF.new FP.exact (numFl FP.exact) (indicesOf (finProb exQ)) (marginalsOf [2, 3] (finProb exQ)) = .ok x :=
  let ⟨x, hx, _⟩ := ipf_new_obj (micro_new_ok (β := Fl) FP.exact (numFl FP.exact) (minOK_fl _)
    (ratOK_accepted exQ_ok (by norm_num)))
  ⟨x, hx⟩

/-! ### C40 -/

/-- **C40** in exact arithmetic: if all cells that contribute to an entry of at least `1e-8` are zero in the seed,
`ipf` returns `conv=false` (after 1000 iterations) in a release build, and raises the division-by-zero error in a
debug build (whose assertions also want fewer index entries than dimensions). -/
theorem C40_blocked_exact {s : List Nat} {Q : Prob ℚ} {pop : Int} (h : RatOK s Q pop) (hlt : pop < 2 ^ 62)
    (hp : ProperProb s Q) {b : List Int → ℚ} {q : List Nat × (List Int → ℚ)} (hq : q ∈ Q) {j : List Int}
    (hj : InRange (projSizes q.1 s) j) (hm : 1 / 10 ^ 8 ≤ q.2 j)
    (hz : ∀ v, InRange s v → proj q.1 v = j → b v = 0) :
    (∃ r, ipfExact s Q b = .ok r ∧ r.conv = false ∧ r.iters = 1000) ∧
    ((∀ q ∈ Q, q.1.length < s.length) →
      IPF.run true FP.exact (numFl FP.exact) (indicesOf (finProb Q)) (marginalsOf s (finProb Q))
        (finArr s b) = .thrown .div0) := by
  have hok := ratOK_accepted h hlt
  constructor
  · obtain ⟨r, hr⟩ := ipf_run_ok _ _ (minOK_fl _) hok (properProb_fin hp) (fun v => .fin (b v))
    refine ⟨r, hr, ?_⟩
    obtain ⟨c, hc, hc0, -⟩ := C31_zeros_and_signs_exact h.toProbShape hp hr
    obtain ⟨c', e, hc', -, -, -, -, hdev⟩ := C29_conv_exact h.toProbShape hp hr
    have hcc : ∀ v, InRange s v → c' v = c v := by
      intro v hv
      have := arr_inj (hc'.symm.trans hc) v hv
      injection this
    have hcv : r.conv = false := by
      by_contra hcn
      have := hdev (by simpa using hcn) q hq j hj
      rw [marginalSum_congr hcc, marginalSum_eq_zero (fun v hv hvj => hc0 v hv (hz v hv hvj)), zero_sub, abs_neg] at this
      have := le_abs_self (q.2 j)
      linarith
    exact ⟨hcv, (C30_iterations _ _ (minOK_fl _) hok.toProbShape (properProb_fin hp) _ hr).2.2.1 hcv⟩
  · intro hlen
    have hne : q.2 j ≠ 0 := by
      intro h0
      rw [h0] at hm
      norm_num at hm
    have := rScale_debug (N := numFl FP.exact) hok.toProbShape.good hok.dims (properProb_fin hp) (by
      intro p hp
      obtain ⟨q, hq, rfl⟩ := mem_finProb.mp hp
      exact hlen q hq) (reads_fin s Q)
      (a := fun v => .fin (b v)) (b := b) (fun _ _ => rfl) ⟨q, hq, j, hj, hne, hz⟩
    obtain ⟨x, hx⟩ := run_first (minOK_fl _) hok _ this (by simp)
    rw [hx]; rfl

/-- Met by the example problem with a seed that is zero in row 1. -/
example : ∃ q ∈ exQ, ∃ j, InRange (projSizes q.1 [2, 3]) j ∧ 1 / 10 ^ 8 ≤ q.2 j ∧
    ∀ v, InRange [2, 3] v → proj q.1 v = j → (fun v : List Int => if v.getD 0 0 = 1 then (0 : ℚ) else 1) v = 0 := by
  refine ⟨_, List.mem_cons_self, [1], by decide, by norm_num, ?_⟩
  intro v _ hv
  have : v.getD 0 0 = 1 := by simpa [proj] using hv
  simp only [this, if_true]

/-- **C40**, any rounding: for an entry that is a double of at least `1e-8`, either `conv=false` or one of
the cells contributing to it has become NaN.
Partial: with NaN cells `conv=true` is possible (C38). -/
theorem C40_blocked_partial {fp : FP} (hfp : fp.Good) (N : Num α) (hN : MinOK N) {s : List Nat} {P : Prob α}
    (h : ProbShape s P) (hp : ProperProb s P) (a : List Int → Fl) {r : IPF α}
    (hr : IPF.run false fp N (indicesOf P) (marginalsOf s P) (arr s a) = .ok r) {p : List Nat × (List Int → α)}
    (hpp : p ∈ P) {j : List Int} (hj : InRange (projSizes p.1 s) j) {q : ℚ} (hq : N.toFl (p.2 j) = .fin q)
    (hqr : fp.rnd q = .fin q ∧ fp.rnd (-q) = .fin (-q)) (hm : 1 / 10 ^ 8 ≤ q)
    (hz : ∀ v, InRange s v → proj p.1 v = j → a v = .fin 0) :
    ∃ c : List Int → Fl, r.micro.array = arr s c ∧
      (r.conv = false ∨ ∃ v, InRange s v ∧ proj p.1 v = j ∧ c v = .nan) := by
  obtain ⟨pop, n, -, -, -, -, -, rfl⟩ := ipf_run fp N hN h hp a hr
  refine ⟨(sweep fp N s P)^[n] a, rfl, ?_⟩
  by_cases hn : ∃ v, InRange s v ∧ proj p.1 v = j ∧ (sweep fp N s P)^[n] a v = .nan
  · exact Or.inr hn
  · left
    have hz' : ∀ v, InRange s v → proj p.1 v = j → (sweep fp N s P)^[n] a v = .fin 0 := by
      intro v hv hvj
      rcases iterate_zeroNan (rnd_zero hfp) N P (Or.inl (hz v hv hvj)) n with h1 | h1
      · exact h1
      · exact absurd ⟨v, hv, hvj, h1⟩ hn
    by_contra hc
    have hc' : FP.lt (maxDev fp N s P ((sweep fp N s P)^[n] a) (.fin (-dblMax))) (tol8 fp) = true :=
      (Bool.not_eq_false _).mp hc
    have hd : dev fp N s ((sweep fp N s P)^[n] a) p j = .fin (-q) := by
      unfold dev
      rw [fsum_zero (rnd_zero hfp) hz', hq]
      show fp.rnd (0 + -q) = _
      rw [zero_add]
      exact hqr.2
    obtain ⟨t, ht, -⟩ := tol8_good hfp
    rcases (maxDev_lt fp N P hc').2 p hpp j hj with h1 | h1
    · rw [hd] at h1; cases h1
    · rw [hd, ht] at h1
      simp only [FP.abs, FP.lt, decide_eq_true_eq, abs_neg] at h1
      have h2 := hfp.mono _ _ _ _ hm ht hqr.1
      have := le_abs_self q
      linarith

example (sqrt : Fl → Fl) : (FP.ieee sqrt).rnd 1 = .fin 1 ∧ (FP.ieee sqrt).rnd (-1) = .fin (-1) :=
  ⟨by exact_mod_cast ieee_small 1 (by norm_num), by exact_mod_cast ieee_small (-1) (by norm_num)⟩

end HL

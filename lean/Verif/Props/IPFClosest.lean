import Verif.Proof.EntropyLimit
import Verif.Props.IPF

/-
C69, C70: what table `ipf` computes, and that it gets there.  All in exact arithmetic.  Closeness of tables is relative entropy,
see EntropySpec.lean.
-/

namespace HL
open Filter Topology Ent

/-! ### C69 -/

theorem accepted_nonneg {s : List Nat} {Q : Prob ℚ} {pop : Int} (h : ProbOKG FP.exact (numFl FP.exact) s (finProb Q) pop) :
    ∀ q ∈ Q, ∀ j, InRange (projSizes q.1 s) j → 0 ≤ q.2 j := by
  intro q hq j hj
  have := h.nonneg (q.1, fun j => .fin (q.2 j)) (mem_finProb.mpr ⟨q, hq, rfl⟩) j hj
  by_contra hlt
  have h1 : FP.lt (.fin (q.2 j)) (.fin 0) = true := by simpa [FP.lt] using hlt
  have h2 : FP.lt (.fin (q.2 j)) (.fin 0) = false := this
  rw [h1] at h2
  exact absurd h2 (by simp)

theorem iterate_nonneg_real {s : List Nat} {Q : Prob ℚ} (hd : ∀ q ∈ Q, ∀ d ∈ q.1, d < s.length)
    (hq : ∀ q ∈ Q, ∀ j, InRange (projSizes q.1 s) j → 0 ≤ q.2 j) {b : List Int → ℚ} (hb : ∀ v, InRange s v → 0 ≤ b v) (n : Nat) :
    ∀ v, InRange s v → 0 ≤ (qsweep s Q)^[n] b v := by
  induction n with
  | zero => exact hb
  | succ n ih => rw [Function.iterate_succ_apply']; exact qsweep_nonneg Q hd hq ih

/-- the identity of Pythagoras for relative entropy -/
theorem factored_pythagoras {s : List Nat} {Q : Prob ℚ} (hd : ∀ q ∈ Q, ∀ d ∈ q.1, d < s.length) {b c : List Int → ℚ}
    (hc : ∀ v, InRange s v → 0 ≤ c v) (hf : Factored s Q b c) {t : List Int → ℝ} (ht : NonnegTable s t)
    (hm : ∀ q ∈ Q, ∀ j, InRange (projSizes q.1 s) j → marginalSum s q.1 t j = marginalSum s q.1 (realTable c) j)
    (hv : VanishesWith s t (realTable b)) :
    VanishesWith s t (realTable c) ∧
    relEntropy s t (realTable b) = relEntropy s t (realTable c) + relEntropy s (realTable c) (realTable b) := by
  obtain ⟨F, hF⟩ := hf
  have hcr : NonnegTable s (realTable c) := fun v h => Rat.cast_nonneg.mpr (hc v h)
  -- where the result vanishes, so does t
  have htc : VanishesWith s t (realTable c) := by
    intro v h h0
    have h0' : c v = 0 := Rat.cast_eq_zero.mp h0
    rw [hF v h] at h0'
    rcases mul_eq_zero.mp h0' with h1 | h1
    · exact hv v h (by show ((b v : ℚ) : ℝ) = 0; rw [h1]; norm_num)
    · obtain ⟨k, -, hk⟩ := Finset.prod_eq_zero_iff.mp h1
      have hQk : Q[k] ∈ Q := List.getElem_mem k.2
      apply zero_of_margin (ds := Q[k].1) ht h
      rw [hm _ hQk _ (inRange_proj (hd _ hQk) h)]
      unfold marginalSum
      apply Finset.sum_eq_zero
      intro w hw
      obtain ⟨hw1, hw2⟩ := Finset.mem_filter.mp hw
      have : c w = 0 := by
        rw [hF w (mem_cells.mp hw1), Finset.prod_eq_zero (Finset.mem_univ k) (by rw [hw2]; exact hk), mul_zero]
      show ((c w : ℚ) : ℝ) = 0
      rw [this]; norm_num
  refine ⟨htc, ?_⟩
  -- the logarithm of the ratio is a sum of functions of the projections
  let L : List Int → ℝ := fun v => ∑ k : Fin Q.length, Real.log ((F k (proj Q[k].1 v) : ℚ) : ℝ)
  have hlog : ∀ v, InRange s v → realTable c v ≠ 0 → Real.log (realTable c v / realTable b v) = L v := by
    intro v h h0
    have h0' : c v ≠ 0 := fun e => h0 (by show ((c v : ℚ) : ℝ) = 0; rw [e]; norm_num)
    rw [hF v h] at h0'
    have hb0 : b v ≠ 0 := left_ne_zero_of_mul h0'
    have hp0 := right_ne_zero_of_mul h0'
    have e : realTable c v / realTable b v = ∏ k : Fin Q.length, ((F k (proj Q[k].1 v) : ℚ) : ℝ) := by
      show ((c v : ℚ) : ℝ) / ((b v : ℚ) : ℝ) = _
      rw [hF v h]
      push_cast
      have : ((b v : ℚ) : ℝ) ≠ 0 := by exact_mod_cast hb0
      field_simp
    rw [e, Real.log_prod]
    intro k hk
    have := Finset.prod_ne_zero_iff.mp hp0 k hk
    exact_mod_cast this
  have hsum : ∀ f : List Int → ℝ, ∑ v ∈ cells s, f v * L v =
      ∑ k : Fin Q.length, ∑ j ∈ cells (projSizes Q[k].1 s), marginalSum s Q[k].1 f j * Real.log ((F k j : ℚ) : ℝ) := by
    intro f
    show ∑ v ∈ cells s, f v * (∑ k : Fin Q.length, Real.log ((F k (proj Q[k].1 v) : ℚ) : ℝ)) = _
    simp only [Finset.mul_sum]
    rw [Finset.sum_comm]
    apply Finset.sum_congr rfl
    intro k _
    exact sum_mul_proj (hd _ (List.getElem_mem k.2)) f (fun j => Real.log ((F k j : ℚ) : ℝ))
  have h1 : ∑ v ∈ cells s, t v * L v = ∑ v ∈ cells s, realTable c v * L v := by
    rw [hsum, hsum]
    apply Finset.sum_congr rfl
    intro k _
    apply Finset.sum_congr rfl
    intro j hj
    rw [hm Q[k] (List.getElem_mem k.2) j (mem_cells.mp hj)]
  have h2 : relEntropy s (realTable c) (realTable b) = ∑ v ∈ cells s, realTable c v * L v := by
    apply Finset.sum_congr rfl
    intro v h
    by_cases h0 : realTable c v = 0
    · rw [h0]; simp
    · rw [hlog v (mem_cells.mp h) h0]
  have h3 : relEntropy s t (realTable b) = relEntropy s t (realTable c) + ∑ v ∈ cells s, t v * L v := by
    unfold relEntropy
    rw [← Finset.sum_add_distrib]
    apply Finset.sum_congr rfl
    intro v h
    rw [mem_cells] at h
    by_cases h0 : t v = 0
    · rw [h0]; simp
    · have hc0 : realTable c v ≠ 0 := fun e => h0 (htc v h e)
      have hb0 : realTable b v ≠ 0 := fun e => h0 (hv v h e)
      rw [← hlog v h hc0, ← mul_add, ← Real.log_mul (div_ne_zero h0 hc0) (div_ne_zero hc0 hb0)]
      congr 2
      field_simp
  rw [h3, h1, h2]

/-- **C69.**  For every non-negative seed: the table `ipf` returns is non-negative, and among all non-negative tables with its
marginal sums that vanish where the seed does, it is the one closest to the seed, and the only closest one.  (When `conv` is
true, these marginal sums are the requested ones to within 1e-8, C29.) -/
theorem C69_closest {s : List Nat} {Q : Prob ℚ} (h : ProbShape s Q) (hp : ProperProb s Q) {b : List Int → ℚ}
    (hb : ∀ v, InRange s v → 0 ≤ b v) {r : IPF Fl} (hr : ipfExact s Q b = .ok r) :
    ∃ c : List Int → ℚ, r.micro.array = finArr s c ∧ NonnegTable s (realTable c) ∧
      VanishesWith s (realTable c) (realTable b) ∧
      ∀ t, NonnegTable s t →
        (∀ q ∈ Q, ∀ j, InRange (projSizes q.1 s) j → marginalSum s q.1 t j = marginalSum s q.1 (realTable c) j) →
        VanishesWith s t (realTable b) →
        relEntropy s (realTable c) (realTable b) ≤ relEntropy s t (realTable b) ∧
        (relEntropy s t (realTable b) = relEntropy s (realTable c) (realTable b) → ∀ v, InRange s v → t v = c v) := by
  obtain ⟨pop, n, hok, -, -, -, -, hm, -, -, -⟩ := ipf_exact_fin h hp hr
  have hdims : ∀ q ∈ Q, ∀ d ∈ q.1, d < s.length := fun q hq => (h.dims q hq).2
  have hc := iterate_nonneg_real hdims (accepted_nonneg hok) hb n
  have hF := factored_iterate (s := s) (Q := Q) b n
  have hcr : NonnegTable s (realTable ((qsweep s Q)^[n] b)) := fun v h => Rat.cast_nonneg.mpr (hc v h)
  refine ⟨(qsweep s Q)^[n] b, by rw [hm], hcr, ?_, ?_⟩
  · intro v hv h0
    obtain ⟨F, hF⟩ := hF
    have : b v = 0 := Rat.cast_eq_zero.mp h0
    show (((qsweep s Q)^[n] b v : ℚ) : ℝ) = 0
    rw [hF v hv, this]
    norm_num
  · intro t ht htm htb
    obtain ⟨h1, h2⟩ := factored_pythagoras hdims hc hF ht htm htb
    have htot : total s t = total s (realTable ((qsweep s Q)^[n] b)) := by
      obtain ⟨q, hq⟩ : ∃ q, q ∈ Q := List.exists_mem_of_ne_nil Q (by rintro rfl; have := h.lists; simp at this)
      exact total_eq (q := (q.1, fun j => (q.2 j : ℝ))) (hdims q hq) (htm q hq)
    have h3 := entropy_nonneg ht hcr h1 htot
    refine ⟨by linarith, ?_⟩
    intro he v hv
    exact eq_of_sum_log_zero (cells s) (fun v hv => ht v (mem_cells.mp hv)) (fun v hv => hcr v (mem_cells.mp hv))
      (fun v hv => h1 v (mem_cells.mp hv)) htot (by unfold relEntropy at h2 he; unfold relEntropy at h3; linarith) v (mem_cells.mpr hv)

/-- The hypotheses are met: the example problem with any non-negative seed, for example all ones; and other tables with the same
sums exist. -/
example : ∃ r, ipfExact [2, 3] exQ (fun _ => 1) = .ok r := exQ_run _

/-! ### C70 -/

/-- Calling `ipf` once with the seed `b`, and then `k` more times, each time with the result of the previous call as the seed. -/
def ipfCalls (s : List Nat) (Q : Prob ℚ) (b : List Int → ℚ) : Nat → Out (IPF Fl)
  | 0 => ipfExact s Q b
  | k + 1 => do
    let r ← ipfCalls s Q b k
    IPF.run false FP.exact (numFl FP.exact) (indicesOf (finProb Q)) (marginalsOf s (finProb Q)) r.micro.array

/-- what the calls do: all sweeps together -/
theorem ipfCalls_eq {s : List Nat} {Q : Prob ℚ} {pop : Int} (h : RatOK s Q pop) (hlt : pop < 2 ^ 62) (hp : ProperProb s Q)
    (b : List Int → ℚ) (k : Nat) :
    ∃ r n m, ipfCalls s Q b k = .ok r ∧ r.micro.array = finArr s ((qsweep s Q)^[n] b) ∧ k < n ∧ 1 ≤ m ∧ m ≤ n ∧ n ≤ 1000 * (k + 1) ∧
      r.conv = decide (qmax s Q ((qsweep s Q)^[n] b) < 1 / 10 ^ 8) ∧
      (∀ i, n - m < i → i < n → 1 / 10 ^ 8 ≤ qmax s Q ((qsweep s Q)^[i] b)) ∧ (r.conv = false → m = 1000) ∧
      (k = 0 → m = n) ∧ (∀ k' r', k = k' + 1 → ipfCalls s Q b k' = .ok r' →
        r'.micro.array = finArr s ((qsweep s Q)^[n - m] b)) := by
  induction k with
  | zero =>
    obtain ⟨r, hr⟩ := ipf_run_ok _ _ (minOK_fl _) (ratOK_accepted h hlt) (properProb_fin hp) (fun v => .fin (b v))
    obtain ⟨pop', n, -, h1, h2, h3, h4, h5, h6, h7, h8⟩ := ipf_exact_fin h.toProbShape hp hr
    refine ⟨r, n, n, hr, by rw [h5], by omega, h1, le_rfl, by omega, h7, fun i hi hi' => h4 i (by omega) hi', ?_, fun _ => rfl,
      fun k' r' hk => absurd hk (by omega)⟩
    intro hc
    rcases h3 with h3 | h3
    · rw [h7] at hc; simp at hc; linarith
    · exact h3
  | succ k ih =>
    obtain ⟨r0, n0, m0, hr0, ha0, hk0, hm1, hm0, hn0, -, -, -, -, -⟩ := ih
    obtain ⟨r, hr⟩ := ipf_run_ok _ _ (minOK_fl _) (ratOK_accepted h hlt) (properProb_fin hp)
      (fun v => .fin ((qsweep s Q)^[n0] b v))
    obtain ⟨pop', n, -, h1, h2, h3, h4, h5, h6, h7, h8⟩ := ipf_exact_fin h.toProbShape hp hr
    have hit : ∀ i, (qsweep s Q)^[i] ((qsweep s Q)^[n0] b) = (qsweep s Q)^[i + n0] b := fun i =>
      (Function.iterate_add_apply _ _ _ _).symm
    simp only [hit] at h3 h4 h5 h7 h8
    refine ⟨r, n + n0, n, ?_, by rw [h5], by omega, h1, by omega, by omega, h7, ?_, ?_, fun h => absurd h (by omega), ?_⟩
    · show (ipfCalls s Q b k >>= fun r => _) = _
      rw [hr0]
      simp only [Out.ok_bind]
      rw [ha0]
      exact hr
    · intro i hi hi'
      have := h4 (i - n0) (by omega) (by omega)
      rw [show i - n0 + n0 = i by omega] at this
      exact this
    · intro hc
      rcases h3 with h3 | h3
      · rw [h7] at hc; simp at hc; linarith
      · exact h3
    · intro k' r' hk' hr'
      have : k' = k := by omega
      subst this
      rw [hr0] at hr'
      injection hr' with hr'
      rw [← hr', ha0]
      congr 2
      rw [show n + n0 - n = n0 by omega]

section
variable {s : List Nat} {Q : Prob ℚ} {pop : Int}

theorem dims_real (h : ProbShape s Q) : DimsOK s (realProb Q) := by
  intro q hq
  obtain ⟨q', hq', rfl⟩ := List.mem_map.mp hq
  exact (h.dims q' hq').2

theorem real_ne_nil (h : ProbShape s Q) : realProb Q ≠ [] := by
  intro e
  have h1 := h.lists
  have : (realProb Q).length = 0 := by rw [e]; rfl
  unfold realProb at this
  rw [List.length_map] at this
  omega

theorem total_pop (h : RatOK s Q pop) {t : List Int → ℝ} (hm : MeetsMarginals s Q t) : total s t = (pop : ℝ) := by
  obtain ⟨q, hq⟩ : ∃ q, q ∈ Q := List.exists_mem_of_ne_nil Q (by rintro rfl; have := h.lists; simp at this)
  unfold total
  rw [sum_proj (h.dims q hq).2, Finset.sum_congr rfl (fun j hj => hm q hq j (mem_cells.mp hj))]
  have := h.total q hq
  exact_mod_cast this

/-- sweeps with a large deviation are few -/
theorem sweeps_bound (h : RatOK s Q pop) {b : List Int → ℚ} (hb : ∀ v, InRange s v → 0 ≤ b v) {t : List Int → ℝ}
    (ht : NonnegTable s t) (hm : MeetsMarginals s Q t) (hv : VanishesWith s t (realTable b)) (N : Nat)
    (hN : ∀ n, 0 < n → n ≤ N → 1 / 10 ^ 8 ≤ qmax s Q ((qsweep s Q)^[n] b)) :
    N * ((1 : ℝ) / 10 ^ 8) ^ 2 ≤ 4 * pop * Q.length *
      relEntropy s t (fun v => pop / (∑ w ∈ cells s, (b w : ℝ)) * b v) := by
  have hbr : NonnegTable s (realTable b) := fun v h => Rat.cast_nonneg.mpr (hb v h)
  have hlen : (realProb Q).length = Q.length := by unfold realProb; rw [List.length_map]
  have hne := real_ne_nil h.toProbShape
  have hd := dims_real h.toProbShape
  have hmr := meets_real.mp hm
  have h1 := iterate_rate hne hd hbr ht hmr hv (ε := 1 / 10 ^ 8) (by positivity) N (by
    intro n hn hn'
    obtain ⟨q, hq, j, hj, he⟩ := (qmax_spec h.toProbShape ((qsweep s Q)^[n] b)).2
    refine ⟨(q.1, fun j => (q.2 j : ℝ)), List.mem_map.mpr ⟨q, hq, rfl⟩, j, hj, ?_⟩
    rw [iterate_cast, margin_cast]
    have := hN n hn hn'
    rw [he] at this
    have h2 : (((1 : ℚ) / 10 ^ 8 : ℚ) : ℝ) ≤ ((|marginalSum s q.1 ((qsweep s Q)^[n] b) j - q.2 j| : ℚ) : ℝ) := Rat.cast_le.mpr this
    push_cast at h2
    exact h2)
  have hT := total_pop h hm
  rw [hlen, hT] at h1
  have hpop : (0 : ℝ) ≤ pop := by rw [← hT]; exact Finset.sum_nonneg (fun v hv => ht v (mem_cells.mp hv))
  rcases hpop.eq_or_lt with h0 | h0
  · rw [← h0] at h1 ⊢
    simpa using h1
  · obtain ⟨hB, h2⟩ := first_sweep hne hd hbr ht hmr hv (by rw [hT]; exact h0)
    obtain ⟨h3, h4⟩ := iterate_keeps hd hbr ht hmr hv (N + 1)
    have h5 := entropy_nonneg ht h3 h4 (iterate_total hne hd hbr ht hmr hv (by omega)).symm
    refine h1.trans (mul_le_mul_of_nonneg_left ?_ (by positivity))
    rw [hT] at h2
    exact (sub_le_self _ h5).trans h2

/-- **C70**, one call: when `ipf` gives up after its 1000 iterations although some non-negative table `t` meets the marginals and
vanishes where the seed does, then the relative entropy of that table with respect to the seed (scaled to the population) is at least
1000 * 1e-16 / (4 * pop * number of marginals). -/
theorem C70_gives_up (h : RatOK s Q pop) (hp : ProperProb s Q) {b : List Int → ℚ}
    (hb : ∀ v, InRange s v → 0 ≤ b v) {t : List Int → ℝ} (ht : NonnegTable s t) (hm : MeetsMarginals s Q t)
    (hv : VanishesWith s t (realTable b)) {r : IPF Fl} (hr : ipfExact s Q b = .ok r) (hc : r.conv = false) :
    1000 * ((1 : ℝ) / 10 ^ 8) ^ 2 ≤ 4 * pop * Q.length *
      relEntropy s t (fun v => pop / (∑ w ∈ cells s, (b w : ℝ)) * b v) := by
  obtain ⟨pop', n, -, h1, h2, h3, h4, h5, h6, h7, h8⟩ := ipf_exact_fin h.toProbShape hp hr
  rw [h7, decide_eq_false_iff_not] at hc
  have hn : n = 1000 := h3.resolve_left hc
  subst hn
  have := sweeps_bound h hb ht hm hv 1000 (fun i hi hi' => by
    rcases Nat.lt_or_ge i 1000 with h | h
    · exact h4 i hi h
    · rw [show i = 1000 by omega]; exact not_lt.mp hc)
  exact_mod_cast this

/-- **C70**, repeated calls: if some non-negative table meets the marginals and vanishes where the seed does, then calling `ipf` again
with its own result as the seed eventually reports convergence. -/
theorem C70_converges (h : RatOK s Q pop) (hlt : pop < 2 ^ 62) (hp : ProperProb s Q) {b : List Int → ℚ}
    (hb : ∀ v, InRange s v → 0 ≤ b v) {t : List Int → ℝ} (ht : NonnegTable s t) (hm : MeetsMarginals s Q t)
    (hv : VanishesWith s t (realTable b)) :
    ∃ k r, ipfCalls s Q b k = .ok r ∧ r.conv = true := by
  by_contra hno
  push Not at hno
  -- then all sweeps deviate
  have hall : ∀ n, 0 < n → 1 / 10 ^ 8 ≤ qmax s Q ((qsweep s Q)^[n] b) := by
    have key : ∀ k, ∀ i, 0 < i → i ≤ 1000 * (k + 1) → 1 / 10 ^ 8 ≤ qmax s Q ((qsweep s Q)^[i] b) ∧
        ∃ r, ipfCalls s Q b k = .ok r ∧ r.micro.array = finArr s ((qsweep s Q)^[1000 * (k + 1)] b) := by
      intro k
      induction k with
      | zero =>
        intro i hi hi'
        obtain ⟨r, n, m, hr, ha, -, -, -, -, hc, hd, hf, h0, -⟩ := ipfCalls_eq h hlt hp b 0
        have hcf := hno 0 r hr
        rw [ne_eq, Bool.not_eq_true] at hcf
        have hm' := hf hcf
        have hnm := h0 rfl
        subst hnm
        subst hm'
        rw [hc, decide_eq_false_iff_not] at hcf
        refine ⟨?_, r, hr, ha⟩
        rcases Nat.lt_or_ge i 1000 with hlt | hge
        · exact hd i (by omega) hlt
        · rw [show i = 1000 by omega]; exact not_lt.mp hcf
      | succ k ih =>
        intro i hi hi'
        obtain ⟨-, r', hr', ha'⟩ := ih 1 (by omega) (by omega)
        obtain ⟨r1, hr1⟩ := ipf_run_ok _ _ (minOK_fl _) (ratOK_accepted h hlt) (properProb_fin hp)
          (fun v => .fin ((qsweep s Q)^[1000 * (k + 1)] b v))
        obtain ⟨pop', n, -, h1, h2, h3, h4, h5, h6, h7, h8⟩ := ipf_exact_fin h.toProbShape hp hr1
        have hcall : ipfCalls s Q b (k + 1) = .ok r1 := by
          show (ipfCalls s Q b k >>= fun r => _) = _
          rw [hr']
          simp only [Out.ok_bind]
          rw [ha']
          exact hr1
        have hcf := hno (k + 1) r1 hcall
        rw [ne_eq, Bool.not_eq_true, h7, decide_eq_false_iff_not] at hcf
        have hn : n = 1000 := h3.resolve_left hcf
        subst hn
        simp only [← Function.iterate_add_apply] at h4 h5 hcf
        refine ⟨?_, r1, hcall, by
          rw [h5]
          show finArr s _ = _
          rw [show 1000 * (k + 1 + 1) = 1000 + 1000 * (k + 1) by omega]⟩
        rcases le_or_gt i (1000 * (k + 1)) with hle | hgt
        · exact (ih i hi hle).1
        · rcases Nat.lt_or_ge i (1000 + 1000 * (k + 1)) with hlt | hge
          · have := h4 (i - 1000 * (k + 1)) (by omega) (by omega)
            rw [show i - 1000 * (k + 1) + 1000 * (k + 1) = i by omega] at this
            exact this
          · rw [show i = 1000 + 1000 * (k + 1) by omega]; exact not_lt.mp hcf
    intro n hn
    exact (key n n hn (by omega)).1
  obtain ⟨N, hN⟩ := exists_nat_gt ((4 * pop * Q.length * relEntropy s t (fun v => pop / (∑ w ∈ cells s, (b w : ℝ)) * b v)) /
    ((1 : ℝ) / 10 ^ 8) ^ 2)
  rw [div_lt_iff₀ (by positivity)] at hN
  have := sweeps_bound h hb ht hm hv N (fun n hn _ => hall n hn)
  linarith

/-- **C70**, the limit: if some non-negative table meets the marginals and vanishes where the seed does, then the tables returned by
repeated calls converge.  The limit is non-negative, meets all marginals exactly, vanishes where the seed does, and is the closest
to the seed among all such tables, and the only closest one. -/
theorem C70_limit (h : RatOK s Q pop) (hlt : pop < 2 ^ 62) (hp : ProperProb s Q) {b : List Int → ℚ}
    (hb : ∀ v, InRange s v → 0 ≤ b v) {t : List Int → ℝ} (ht : NonnegTable s t) (hm : MeetsMarginals s Q t)
    (hv : VanishesWith s t (realTable b)) :
    ∃ (c : Nat → List Int → ℚ) (x : List Int → ℝ),
      (∀ k, ∃ r, ipfCalls s Q b k = .ok r ∧ r.micro.array = finArr s (c k)) ∧
      (∀ v, InRange s v → Tendsto (fun k => (c k v : ℝ)) atTop (𝓝 (x v))) ∧
      NonnegTable s x ∧ MeetsMarginals s Q x ∧ VanishesWith s x (realTable b) ∧
      ∀ q, NonnegTable s q → MeetsMarginals s Q q → VanishesWith s q (realTable b) →
        relEntropy s x (realTable b) ≤ relEntropy s q (realTable b) ∧
        (relEntropy s q (realTable b) = relEntropy s x (realTable b) → ∀ v, InRange s v → q v = x v) := by
  have hbr : NonnegTable s (realTable b) := fun v h => Rat.cast_nonneg.mpr (hb v h)
  have hne := real_ne_nil h.toProbShape
  have hd := dims_real h.toProbShape
  obtain ⟨x, hx0, hxm, hxb, hxl, hxq⟩ := exists_limit hne hd hbr ht (meets_real.mp hm) hv
  choose r n m hr ha hk hrest using ipfCalls_eq h hlt hp b
  refine ⟨fun k => (qsweep s Q)^[n k] b, x, fun k => ⟨r k, hr k, ha k⟩, ?_, hx0, meets_real.mpr hxm, hxb, ?_⟩
  · intro v hv'
    have h1 : Tendsto n atTop atTop := tendsto_atTop_mono (fun k => (hk k).le) tendsto_id
    refine ((hxl v hv').comp h1).congr (fun k => ?_)
    show (rsweep s (realProb Q))^[n k] (realTable b) v = _
    rw [iterate_cast]
    rfl
  · intro q hq0 hqm hqb
    obtain ⟨h1, h2⟩ := hxq q hq0 (meets_real.mp hqm) hqb
    have htot : total s q = total s x := by rw [total_pop h hqm, total_pop h (meets_real.mpr hxm)]
    have h3 := entropy_nonneg hq0 hx0 h1 htot
    refine ⟨by linarith, ?_⟩
    intro he v hv'
    exact eq_of_sum_log_zero (cells s) (fun v hv => hq0 v (mem_cells.mp hv)) (fun v hv => hx0 v (mem_cells.mp hv))
      (fun v hv => h1 v (mem_cells.mp hv)) htot (by unfold relEntropy at h2 he h3; linarith) v (mem_cells.mpr hv')

end

/-- The hypotheses of the three theorems are met: the example problem, the seed that is 1 in the first row and 5 in the second. -/
example : ∃ (b : List Int → ℚ) (t : List Int → ℝ), (∀ v, InRange [2, 3] v → 0 ≤ b v) ∧ NonnegTable [2, 3] t ∧
    MeetsMarginals [2, 3] exQ t ∧ VanishesWith [2, 3] t (realTable b) ∧ RatOK [2, 3] exQ 3 ∧ ProperProb [2, 3] exQ := by
  refine ⟨fun v => if v.getD 0 0 = 0 then 1 else 5, realTable (fun v => if v.getD 0 0 = 0 then 1 / 3 else 2 / 3), ?_, ?_, ?_, ?_,
    exQ_ok, exQ_proper⟩
  · intro v _
    dsimp only
    split_ifs <;> norm_num
  · intro v _
    apply Rat.cast_nonneg.mpr
    dsimp only
    split_ifs <;> norm_num
  · intro q hq j hj
    rw [margin_cast, Rat.cast_inj]
    have : ∀ q ∈ exQ, ∀ j ∈ cells (projSizes q.1 [2, 3]),
        marginalSum [2, 3] q.1 (fun v => if v.getD 0 0 = 0 then (1 / 3 : ℚ) else 2 / 3) j = q.2 j := by decide +kernel
    exact this q hq j (mem_cells.mpr hj)
  · intro v _ h
    have := Rat.cast_eq_zero.mp h
    dsimp only at this
    split_ifs at this <;> norm_num at this

end HL

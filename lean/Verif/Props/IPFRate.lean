import Verif.Proof.IPFRate
import Verif.Props.IPFClosest
import Verif.Props.IPFDouble

/-
C95: how many iterations ipf needs, for two marginals without a common dimension.  In exact arithmetic.
-/

namespace HL
open Rate

/-- The cross-product ratios of the table `b`, with rows given by the dimensions `d1` and columns by the dimensions `d2`, are at
most `R`: `v` and `v'` are two cells, `w` and `w'` the two cells with their rows and columns exchanged. -/
def OddsAtMost (R : ℚ) (s d1 d2 : List Nat) (b : List Int → ℚ) : Prop :=
  ∀ v v' w w', InRange s v → InRange s v' → InRange s w → InRange s w' → proj d1 w = proj d1 v → proj d2 w = proj d2 v' →
    proj d1 w' = proj d1 v' → proj d2 w' = proj d2 v → b v * b v' ≤ R * (b w * b w')

theorem rate_bound {s : List Nat} {p q : List Nat × (List Int → ℚ)} (h : ProbShape s [p, q]) (hd : (p.1 ++ q.1).Nodup)
    (hp0 : ∀ i, InRange (projSizes p.1 s) i → 0 ≤ p.2 i) (hq0 : ∀ j, InRange (projSizes q.1 s) j → 0 ≤ q.2 j)
    {T : ℚ} (hT : ∀ q' ∈ [p, q], ∑ j ∈ cells (projSizes q'.1 s), q'.2 j = T) {b : List Int → ℚ}
    (hb : ∀ v, InRange s v → 0 < b v) {R : ℚ} (hR : OddsAtMost R s p.1 q.1 b) (n : Nat) :
    1 ≤ R ∧ 0 ≤ T ∧ qmax s [p, q] ((qsweep s [p, q])^[n + 1] b) ≤ T * (R - 1) * ((R - 1) / (R + 1)) ^ (2 * n) := by
  have h2 : Two s p.1 q.1 := by
    refine ⟨hd, ?_, ?_⟩
    · intro d hdm
      rcases List.mem_append.mp hdm with hdm | hdm
      · exact (h.dims p (by simp)).2 d hdm
      · exact (h.dims q (by simp)).2 d hdm
    · intro d hdn
      obtain ⟨q', hq', hdq⟩ := h.cover d hdn
      simp only [List.mem_cons, List.not_mem_nil, or_false] at hq'
      rcases hq' with rfl | rfl <;> simp [hdq]
  have hR1 : 1 ≤ R := by
    obtain ⟨v, hv⟩ := exists_inRange h.pos
    have h1 := hR v v v v hv hv hv hv rfl rfl rfl rfl
    have h3 : 0 < b v * b v := mul_pos (hb v hv) (hb v hv)
    by_contra hlt
    nlinarith
  have hr : ∀ i ∈ cells (projSizes p.1 s), 0 ≤ p.2 i := fun i hi => hp0 i (mem_cells.mp hi)
  have hc : ∀ j ∈ cells (projSizes q.1 s), 0 ≤ q.2 j := fun j hj => hq0 j (mem_cells.mp hj)
  have hTp := hT p (by simp)
  have hTq := hT q (by simp)
  have hT0 : 0 ≤ T := by rw [← hTp]; exact Finset.sum_nonneg hr
  refine ⟨hR1, hT0, ?_⟩
  have hinv := h2.run hR1 hr hc (hTp.trans hTq.symm) (b := b)
    (fun i hi j hj => hb _ (h2.glue_inRange (mem_cells.mp hi) (mem_cells.mp hj)))
    (by
      intro i hi k hk j hj l hl
      have hi := mem_cells.mp hi
      have hk := mem_cells.mp hk
      have hj := mem_cells.mp hj
      have hl := mem_cells.mp hl
      exact hR _ _ _ _ (h2.glue_inRange hi hj) (h2.glue_inRange hk hl) (h2.glue_inRange hi hl) (h2.glue_inRange hk hj)
        ((h2.proj_app hi hl).1.trans (h2.proj_app hi hj).1.symm) ((h2.proj_app hi hl).2.trans (h2.proj_app hk hl).2.symm)
        ((h2.proj_app hk hj).1.trans (h2.proj_app hk hl).1.symm) ((h2.proj_app hk hj).2.trans (h2.proj_app hi hj).2.symm)) n
  have hk0 : 0 ≤ (R - 1) / (R + 1) := div_nonneg (by linarith) (by linarith)
  have hx0 : 0 ≤ ((R - 1) / (R + 1)) ^ (2 * n) * (R - 1) := mul_nonneg (pow_nonneg hk0 _) (by linarith)
  obtain ⟨q', hq', j, hj, he⟩ := (qmax_spec h ((qsweep s [p, q])^[n + 1] b)).2
  rw [he]
  simp only [List.mem_cons, List.not_mem_nil, or_false] at hq'
  rcases hq' with rfl | rfl
  · have h4 := hinv.dev (by linarith) hr (hTp.trans hTq.symm) (mem_cells.mpr hj)
    have e : ∑ l ∈ cells (projSizes q.1 s), mat s q'.1 q.1 ((qsweep s [(q'.1, q'.2), (q.1, q.2)])^[n + 1] b) j l =
        marginalSum s q'.1 ((qsweep s [q', q])^[n + 1] b) j := (h2.rowSum _ hj).symm
    rw [e] at h4
    have h5 : q'.2 j ≤ T := by rw [← hTp]; exact Finset.single_le_sum hr (mem_cells.mpr hj)
    have h6 := mul_le_mul_of_nonneg_right h5 hx0
    linarith
  · have e : ∑ i ∈ cells (projSizes p.1 s), mat s p.1 q'.1 ((qsweep s [(p.1, p.2), (q'.1, q'.2)])^[n + 1] b) i j =
        marginalSum s q'.1 ((qsweep s [p, q'])^[n + 1] b) j := (h2.colSum _ hj).symm
    rw [← e, hinv.sums j (mem_cells.mpr hj)]
    simp only [sub_self, abs_zero]
    have := mul_nonneg hT0 hx0
    linarith

/-- **C95.**  Two marginals without a common dimension, with the same total `T`, and a positive seed with cross-product ratios up
to `R`: the largest difference from a marginal that `ipf` reports is at most `T (R - 1) κ^(2 (iters - 1))` with
`κ = (R - 1) / (R + 1)`, and `ipf` converges within `n` iterations as soon as `T (R - 1) κ^(2 (n - 1))` is below the tolerance.
The number of cells and the values of the marginals do not enter. -/
theorem C95_rate {s : List Nat} {p q : List Nat × (List Int → ℚ)} (h : ProbShape s [p, q])
    (hd : (p.1 ++ q.1).Nodup) {T : ℚ} (hT : ∀ q' ∈ [p, q], ∑ j ∈ cells (projSizes q'.1 s), q'.2 j = T) {b : List Int → ℚ}
    (hb : ∀ v, InRange s v → 0 < b v) {R : ℚ} (hR : OddsAtMost R s p.1 q.1 b) {r : IPF Fl} (hr : ipfExact s [p, q] b = .ok r) :
    (∃ e, r.maxError = .fin e ∧ e ≤ T * (R - 1) * ((R - 1) / (R + 1)) ^ (2 * (r.iters - 1))) ∧
    ∀ n, 1 ≤ n → n ≤ 1000 → T * (R - 1) * ((R - 1) / (R + 1)) ^ (2 * (n - 1)) < 1 / 10 ^ 8 → r.conv = true ∧ r.iters ≤ n := by
  obtain ⟨pop, m, hok, hm1, hm2, hm3, hm4, -, hi, hc, he⟩ := ipf_exact_fin h (proper_of_disjoint h (by simpa using hd)) hr
  have hnn := accepted_nonneg hok
  have hbd := fun n => rate_bound h hd (hnn p (by simp)) (hnn q (by simp)) hT hb hR n
  constructor
  · refine ⟨_, he, ?_⟩
    obtain ⟨k, rfl⟩ : ∃ k, m = k + 1 := ⟨m - 1, by omega⟩
    rw [hi]
    exact (hbd k).2.2
  · intro n hn1 hn2 hs
    obtain ⟨k, rfl⟩ : ∃ k, n = k + 1 := ⟨n - 1, by omega⟩
    have hk := lt_of_le_of_lt (hbd k).2.2 hs
    have hle : m ≤ k + 1 := by
      by_contra hlt
      have := hm4 (k + 1) hn1 (by omega)
      linarith
    refine ⟨?_, by rw [hi]; exact hle⟩
    rw [hc, decide_eq_true_eq]
    rcases hm3 with h3 | h3
    · exact h3
    · have : k + 1 = m := by omega
      rw [← this]; exact hk

/-- **C95**, within the limit of 1000 iterations: populations up to ten billion and cross-product ratios up to 80. -/
theorem C95_converges {s : List Nat} {p q : List Nat × (List Int → ℚ)} (h : ProbShape s [p, q])
    (hd : (p.1 ++ q.1).Nodup) {T : ℚ} (hT : ∀ q' ∈ [p, q], ∑ j ∈ cells (projSizes q'.1 s), q'.2 j = T) (hT' : T ≤ 10 ^ 10)
    {b : List Int → ℚ} (hb : ∀ v, InRange s v → 0 < b v) (hR : OddsAtMost 80 s p.1 q.1 b) {r : IPF Fl}
    (hr : ipfExact s [p, q] b = .ok r) : r.conv = true := by
  refine ((C95_rate h hd hT hb hR hr).2 1000 (by norm_num) le_rfl ?_).1
  have h1 : (10 ^ 10 * 79 : ℚ) * (79 / 81) ^ 1998 < 1 / 10 ^ 8 := by
    have g1 : ((79 / 81 : ℚ)) ^ 28 ≤ 1 / 2 := by norm_num
    have g2 : ((79 / 81 : ℚ)) ^ 1998 ≤ (1 / 2) ^ 71 := by
      have e : (1998 : Nat) = 28 * 71 + 10 := by norm_num
      rw [e, pow_add, pow_mul]
      have g3 : (((79 / 81 : ℚ)) ^ 28) ^ 71 ≤ (1 / 2) ^ 71 := pow_le_pow_left₀ (by positivity) g1 71
      have g4 : ((79 / 81 : ℚ)) ^ 10 ≤ 1 := pow_le_one₀ (by norm_num) (by norm_num)
      have g5 : (0 : ℚ) ≤ (((79 / 81 : ℚ)) ^ 28) ^ 71 := by positivity
      nlinarith
    refine lt_of_le_of_lt (mul_le_mul_of_nonneg_left g2 (by norm_num)) ?_
    norm_num
  have h2 : (0 : ℚ) ≤ (79 / 81) ^ 1998 := pow_nonneg (by norm_num) _
  have e : ((80 : ℚ) - 1) / (80 + 1) = 79 / 81 := by norm_num
  have e' : (80 : ℚ) - 1 = 79 := by norm_num
  rw [e, e']
  have h3 := mul_le_mul_of_nonneg_right (mul_le_mul_of_nonneg_right hT' (show (0 : ℚ) ≤ 79 by norm_num)) h2
  exact lt_of_le_of_lt h3 h1

/-- The hypotheses are met: the 2x3 example problem, with a seed of 5 in one corner and 1 elsewhere; the cross-product ratios
are at most 25. -/
def cornerSeed (v : List Int) : ℚ := if v = [0, 0] then 5 else 1

theorem cornerSeed_odds (s d1 d2 : List Nat) : OddsAtMost 25 s d1 d2 cornerSeed := by
  intro v v' w w' _ _ _ _ _ _ _ _
  have h : ∀ v, 1 ≤ cornerSeed v ∧ cornerSeed v ≤ 5 := by
    intro v
    unfold cornerSeed
    split <;> norm_num
  have h1 := mul_le_mul (h v).2 (h v').2 (by linarith [(h v').1]) (by norm_num)
  have h2 := mul_le_mul (h w).1 (h w').1 (by norm_num) (by linarith [(h w).1])
  linarith

example : ∃ r, ipfExact [2, 3] exQ cornerSeed = .ok r ∧ r.conv = true := by
  obtain ⟨r, hr⟩ := exQ_run cornerSeed
  refine ⟨r, hr, C95_converges (p := ([0], fun j => j.getD 0 0 + 1)) (q := ([1], fun _ => 1)) (T := 3) exQ_ok.toProbShape
    (by decide) exQ_ok.total (by norm_num) ?_ ?_ hr⟩
  · intro v _
    unfold cornerSeed
    split <;> norm_num
  · intro v v' w w' h1 h2 h3 h4 h5 h6 h7 h8
    have := cornerSeed_odds [2, 3] [0] [1] v v' w w' h1 h2 h3 h4 h5 h6 h7 h8
    have hp : 0 ≤ cornerSeed w * cornerSeed w' := by
      unfold cornerSeed
      split <;> split <;> norm_num
    linarith

end HL

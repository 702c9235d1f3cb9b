import Verif.Proof.IPFRateMany
import Verif.Proof.QISIDisjoint
import Verif.Props.IPFClosest
import Verif.Props.IPFPositive
import Mathlib.Analysis.SpecialFunctions.Pow.Real

/-
C134: how many iterations ipf needs, for any number of marginals without common dimensions.  In exact arithmetic.
-/

namespace HL
open Rate

/-- The dimensions that all marginals but number `k` have. -/
def restDims (Q : Prob ℚ) (k : Nat) : List Nat := ((Q.eraseIdx k).map Prod.fst).flatten

/-- **C134.**  Marginals without common dimensions (`K` of them, at least two), with the same total `T`, and a positive seed in which
every cross-product ratio between the dimensions of one marginal and those of the others is at most `ρ²`.  Let
`lam = (K - 1) (ρ - 1) / (ρ + 1)` be at most one.  Then the largest difference from a marginal that `ipf` reports after `n ≥ 2`
iterations is at most `T (ρ ^ (2 (K - 1) lam ^ e) - 1)`, where `e` is `((n - 2) K + 1) / (K - 1)` rounded down, and `ipf` converges
within `n` iterations as soon as this is below the tolerance.  The number of cells and the values of the marginals (which may be zero)
do not enter. -/
theorem C134_rate {s : List Nat} {Q : Prob ℚ} (h : ProbShape s Q) (hd : (Q.map Prod.fst).flatten.Nodup) {T : ℚ} (hT0 : 0 < T)
    (hT : ∀ q ∈ Q, ∑ j ∈ cells (projSizes q.1 s), q.2 j = T) {b : List Int → ℚ} (hb : ∀ v, InRange s v → 0 < b v) {ρ : ℚ} (hρ : 1 ≤ ρ)
    (hR : ∀ k (hk : k < Q.length), OddsAtMost (ρ ^ 2) s Q[k].1 (restDims Q k) b) {lam : ℚ}
    (hlam : lam = ((Q.length - 1 : Nat) : ℚ) * ((ρ - 1) / (ρ + 1))) (hlam1 : lam ≤ 1) {r : IPF Fl} (hr : ipfExact s Q b = .ok r) :
    (2 ≤ r.iters → ∃ e, r.maxError = .fin e ∧
      (e : ℝ) ≤ T * ((ρ : ℝ) ^ (2 * (Q.length - 1 : Nat) * (lam : ℝ) ^ (((r.iters - 2) * Q.length + 1) / (Q.length - 1))) - 1)) ∧
    ∀ n, 2 ≤ n → n ≤ 1000 →
      T * ((ρ : ℝ) ^ (2 * (Q.length - 1 : Nat) * (lam : ℝ) ^ (((n - 2) * Q.length + 1) / (Q.length - 1))) - 1) < 1 / 10 ^ 8 →
      r.conv = true ∧ r.iters ≤ n := by
  obtain ⟨pop, m, hok, hm1, hm2, hm3, hm4, -, hi, hc, he⟩ := ipf_exact_fin h (properProb_of_disjoint h hd) hr
  have hnn := accepted_nonneg hok
  have hs : Splits s Q := splits_of_disjoint rfl h hd
  have hbd : ∀ n, ((qmax s Q ((qsweep s Q)^[n + 2] b) : ℚ) : ℝ) ≤
      T * ((ρ : ℝ) ^ (2 * (Q.length - 1 : Nat) * (lam : ℝ) ^ ((n * Q.length + 1) / (Q.length - 1))) - 1) := by
    intro n
    obtain ⟨q, hq, j, hj, e⟩ := (qmax_spec h ((qsweep s Q)^[n + 2] b)).2
    have h1 := many_error hs h.lists hnn hT hT0 hb hρ hR (hlam ▸ hlam1) n hq hj
    rw [e, Rat.cast_abs]
    refine h1.trans (le_of_eq ?_)
    rw [Real.rpow_def_of_pos (by exact_mod_cast lt_of_lt_of_le one_pos hρ), hlam]
    push_cast
    ring_nf
  constructor
  · intro h2
    refine ⟨_, he, ?_⟩
    rw [hi] at h2 ⊢
    obtain ⟨k, rfl⟩ : ∃ k, m = k + 2 := ⟨m - 2, by omega⟩
    exact hbd k
  · intro n hn1 hn2 hsm
    obtain ⟨k, rfl⟩ : ∃ k, n = k + 2 := ⟨n - 2, by omega⟩
    have h1 : qmax s Q ((qsweep s Q)^[k + 2] b) < 1 / 10 ^ 8 := by
      have := lt_of_le_of_lt (hbd k) hsm
      have h2 : ((qmax s Q ((qsweep s Q)^[k + 2] b) : ℚ) : ℝ) < ((1 / 10 ^ 8 : ℚ) : ℝ) := by push_cast; exact this
      exact_mod_cast h2
    have hmn : m ≤ k + 2 := by
      by_contra hlt
      exact absurd (hm4 (k + 2) (by omega) (by omega)) (not_le.mpr h1)
    refine ⟨?_, by rw [hi]; exact hmn⟩
    rw [hc, decide_eq_true_eq]
    rcases hm3 with hm3 | hm3
    · exact hm3
    · have : m = k + 2 := by omega
      rw [this]; exact h1

/-- a small exponent -/
theorem rpow_small {ρ x : ℝ} (hρ : 1 ≤ ρ) (hx : 0 ≤ x) (hs : x * (ρ - 1) ≤ 1) : ρ ^ x - 1 ≤ 2 * (x * (ρ - 1)) := by
  have h1 : Real.log ρ ≤ ρ - 1 := Real.log_le_sub_one_of_pos (by linarith)
  have h0 := Real.log_nonneg hρ
  rw [Real.rpow_def_of_pos (by linarith)]
  have h2 : Real.log ρ * x ≤ x * (ρ - 1) := by nlinarith
  have h3 : 0 ≤ Real.log ρ * x := mul_nonneg h0 hx
  have h4 := Real.abs_exp_sub_one_le (x := Real.log ρ * x) (by rw [abs_of_nonneg h3]; linarith)
  have h5 := le_abs_self (Real.exp (Real.log ρ * x) - 1)
  rw [abs_of_nonneg h3] at h4
  linarith

/-- **C134** for two marginals: `ipf` converges whenever no cross-product ratio of the seed exceeds 6400 and the total is at most ten
billion (C95 with its simpler rate has 80 in place of 6400). -/
theorem C134_two {s : List Nat} {p q : List Nat × (List Int → ℚ)} (h : ProbShape s [p, q]) (hd : (p.1 ++ q.1).Nodup) {T : ℚ} (hT0 : 0 < T)
    (hT : ∀ q' ∈ [p, q], ∑ j ∈ cells (projSizes q'.1 s), q'.2 j = T) (hT' : T ≤ 10 ^ 10)
    {b : List Int → ℚ} (hb : ∀ v, InRange s v → 0 < b v) (hR : OddsAtMost 6400 s p.1 q.1 b) {r : IPF Fl}
    (hr : ipfExact s [p, q] b = .ok r) : r.conv = true := by
  have hR' : OddsAtMost 6400 s q.1 p.1 b := by
    intro v v' w w' hv hv' hw hw' e1 e2 e3 e4
    have := hR v v' w' w hv hv' hw' hw e4 e3 e2 e1
    rwa [mul_comm (b w') (b w)] at this
  refine ((C134_rate h (by simpa using hd) hT0 hT hb (ρ := 80) (by norm_num) ?_ (lam := 79 / 81) (by norm_num) (by norm_num) hr).2
    1000 (by norm_num) le_rfl ?_).1
  · intro k hk
    have e : ((80 : ℚ) ^ 2) = 6400 := by norm_num
    rw [e]
    have hk' : k < 2 := hk
    interval_cases k
    · simpa [restDims] using hR
    · simpa [restDims] using hR'
  · have e : ((1000 - 2) * [p, q].length + 1) / ([p, q].length - 1) = 1997 := by simp
    have e1 : [p, q].length - 1 = 1 := rfl
    rw [e, e1]
    have g1 : ((79 / 81 : ℝ)) ^ 28 ≤ 1 / 2 := by norm_num
    have g2 : ((79 / 81 : ℝ)) ^ 1997 ≤ (1 / 2) ^ 71 := by
      have e : (1997 : Nat) = 28 * 71 + 9 := by norm_num
      rw [e, pow_add, pow_mul]
      have g3 : (((79 / 81 : ℝ)) ^ 28) ^ 71 ≤ (1 / 2) ^ 71 := pow_le_pow_left₀ (by positivity) g1 71
      have g4 : ((79 / 81 : ℝ)) ^ 9 ≤ 1 := pow_le_one₀ (by norm_num) (by norm_num)
      exact (mul_le_mul g3 g4 (by positivity) (by positivity)).trans (le_of_eq (mul_one _))
    push_cast
    set x : ℝ := 2 * 1 * (79 / 81 : ℝ) ^ 1997 with hx
    have hx0 : 0 ≤ x := by positivity
    have hx1 : x ≤ 2 * (1 / 2) ^ 71 := by rw [hx]; linarith
    have hx2 : x * (80 - 1) ≤ 1 / 10 ^ 19 := by
      have : (2 : ℝ) * (1 / 2) ^ 71 * 79 ≤ 1 / 10 ^ 19 := by norm_num
      linarith
    have g := rpow_small (ρ := 80) (by norm_num) hx0 (hx2.trans (by norm_num))
    have hTR : (T : ℝ) ≤ 10 ^ 10 := by exact_mod_cast hT'
    have hTR0 : (0 : ℝ) < T := by exact_mod_cast hT0
    calc (T : ℝ) * ((80 : ℝ) ^ x - 1) ≤ T * (2 * (1 / 10 ^ 19)) := mul_le_mul_of_nonneg_left (by linarith) hTR0.le
      _ ≤ 10 ^ 10 * (2 * (1 / 10 ^ 19)) := mul_le_mul_of_nonneg_right hTR (by norm_num)
      _ < 1 / 10 ^ 8 := by norm_num

/-- **C134** for three marginals: `ipf` converges whenever the cells of the seed differ by at most a factor 2.8 and the total is at most
ten billion. -/
theorem C134_three {s : List Nat} {Q : Prob ℚ} (h : ProbShape s Q) (h3 : Q.length = 3) (hd : (Q.map Prod.fst).flatten.Nodup) {T : ℚ}
    (hT0 : 0 < T) (hT : ∀ q ∈ Q, ∑ j ∈ cells (projSizes q.1 s), q.2 j = T) (hT' : T ≤ 10 ^ 10) {b : List Int → ℚ} {lo hi : ℚ}
    (hlo : 0 < lo) (hb : ∀ v, InRange s v → lo ≤ b v ∧ b v ≤ hi) (hh : hi ≤ 28 / 10 * lo) {r : IPF Fl} (hr : ipfExact s Q b = .ok r) :
    r.conv = true := by
  refine ((C134_rate h hd hT0 hT (fun v hv => hlo.trans_le (hb v hv).1) (ρ := 28 / 10) (by norm_num) ?_ (lam := 18 / 19)
    (by rw [h3]; norm_num) (by norm_num) hr).2 1000 (by norm_num) le_rfl ?_).1
  · intro k hk v v' w w' hv hv' hw hw' _ _ _ _
    have h1 := (hb v hv).2.trans hh
    have h2 := (hb v' hv').2.trans hh
    have h4 := mul_le_mul h1 h2 (hlo.le.trans (hb v' hv').1) (by positivity)
    have h5 := mul_le_mul (hb w hw).1 (hb w' hw').1 hlo.le (hlo.le.trans (hb w hw).1)
    nlinarith
  · rw [h3]
    have e : ((1000 - 2) * 3 + 1) / (3 - 1) = 1497 := by norm_num
    rw [e]
    have g1 : ((18 / 19 : ℝ)) ^ 13 ≤ 1 / 2 := by norm_num
    have g2 : ((18 / 19 : ℝ)) ^ 1497 ≤ (1 / 2) ^ 71 := by
      have e : (1497 : Nat) = 13 * 71 + 574 := by norm_num
      rw [e, pow_add, pow_mul]
      have g3 : (((18 / 19 : ℝ)) ^ 13) ^ 71 ≤ (1 / 2) ^ 71 := pow_le_pow_left₀ (by positivity) g1 71
      have g4 : ((18 / 19 : ℝ)) ^ 574 ≤ 1 := pow_le_one₀ (by norm_num) (by norm_num)
      exact (mul_le_mul g3 g4 (by positivity) (by positivity)).trans (le_of_eq (mul_one _))
    push_cast
    set x : ℝ := 2 * 2 * (18 / 19 : ℝ) ^ 1497 with hx
    have hx0 : 0 ≤ x := by positivity
    have hx1 : x ≤ 4 * (1 / 2) ^ 71 := by rw [hx]; linarith
    have hx2 : x * (28 / 10 - 1) ≤ 1 / 10 ^ 19 := by
      have : (4 : ℝ) * (1 / 2) ^ 71 * (28 / 10 - 1) ≤ 1 / 10 ^ 19 := by norm_num
      linarith
    have g := rpow_small (ρ := 28 / 10) (by norm_num) hx0 (hx2.trans (by norm_num))
    have hTR : (T : ℝ) ≤ 10 ^ 10 := by exact_mod_cast hT'
    have hTR0 : (0 : ℝ) < T := by exact_mod_cast hT0
    calc (T : ℝ) * ((28 / 10 : ℝ) ^ x - 1) ≤ T * (2 * (1 / 10 ^ 19)) := mul_le_mul_of_nonneg_left (by linarith) hTR0.le
      _ ≤ 10 ^ 10 * (2 * (1 / 10 ^ 19)) := mul_le_mul_of_nonneg_right hTR (by norm_num)
      _ < 1 / 10 ^ 8 := by norm_num

/-- **C134** for any number `K` of marginals: `ipf` converges within 100 iterations whenever the cells of the seed differ from each
other by no more than the part `1 / (K - 1)`, and the total is at most `10^20`. -/
theorem C134_any {s : List Nat} {Q : Prob ℚ} (h : ProbShape s Q) (hd : (Q.map Prod.fst).flatten.Nodup) {T : ℚ}
    (hT0 : 0 < T) (hT : ∀ q ∈ Q, ∑ j ∈ cells (projSizes q.1 s), q.2 j = T) (hT' : T ≤ 10 ^ 20) {b : List Int → ℚ} {lo hi : ℚ}
    (hlo : 0 < lo) (hb : ∀ v, InRange s v → lo ≤ b v ∧ b v ≤ hi) (hh : ((Q.length - 1 : Nat) : ℚ) * (hi - lo) ≤ lo) {r : IPF Fl}
    (hr : ipfExact s Q b = .ok r) : r.conv = true ∧ r.iters ≤ 100 := by
  have hK := h.lists
  obtain ⟨v0, hv0⟩ := exists_inRange h.pos
  have hlh : lo ≤ hi := (hb v0 hv0).1.trans (hb v0 hv0).2
  set ρ : ℚ := hi / lo with hρd
  have hρ : 1 ≤ ρ := (one_le_div hlo).mpr hlh
  have hKρ : ((Q.length - 1 : Nat) : ℚ) * (ρ - 1) ≤ 1 := by
    have : ρ - 1 = (hi - lo) / lo := by rw [hρd]; field_simp
    rw [this, ← mul_div_assoc, div_le_one hlo]
    exact hh
  have hhi : hi = ρ * lo := by rw [hρd]; field_simp
  have hl2 : ((Q.length - 1 : Nat) : ℚ) * ((ρ - 1) / (ρ + 1)) ≤ 1 / 2 := by
    rw [← mul_div_assoc, div_le_iff₀ (by linarith)]
    linarith
  have hl0 : 0 ≤ ((Q.length - 1 : Nat) : ℚ) * ((ρ - 1) / (ρ + 1)) :=
    mul_nonneg (Nat.cast_nonneg _) (div_nonneg (by linarith) (by linarith))
  refine (C134_rate h hd hT0 hT (fun v hv => hlo.trans_le (hb v hv).1) hρ ?_ rfl (by linarith) hr).2 100 (by norm_num) (by norm_num) ?_
  · intro k hk v v' w w' hv hv' hw hw' _ _ _ _
    have h1 := (hb v hv).2
    have h2 := (hb v' hv').2
    rw [hhi] at h1 h2
    have h4 := mul_le_mul h1 h2 (hlo.le.trans (hb v' hv').1) (by nlinarith)
    have h5 := mul_le_mul (hb w hw).1 (hb w' hw').1 hlo.le (hlo.le.trans (hb w hw).1)
    have h6 := mul_le_mul_of_nonneg_left h5 (sq_nonneg ρ)
    nlinarith
  · set lam : ℚ := ((Q.length - 1 : Nat) : ℚ) * ((ρ - 1) / (ρ + 1)) with hlamd
    have hl2R : (lam : ℝ) ≤ 1 / 2 := by
      have : ((lam : ℚ) : ℝ) ≤ ((1 / 2 : ℚ) : ℝ) := by exact_mod_cast hl2
      push_cast at this
      exact this
    have hl0R : (0 : ℝ) ≤ lam := by exact_mod_cast hl0
    have hρR : (1 : ℝ) ≤ ρ := by exact_mod_cast hρ
    have hKR : ((Q.length - 1 : Nat) : ℝ) * ((ρ : ℝ) - 1) ≤ 1 := by exact_mod_cast hKρ
    set e := ((100 - 2) * Q.length + 1) / (Q.length - 1)
    have he : 98 ≤ e := (Nat.le_div_iff_mul_le (by omega)).mpr (by omega)
    have g2 : (lam : ℝ) ^ e ≤ (1 / 2) ^ 98 :=
      (pow_le_pow_of_le_one hl0R (by linarith) he).trans (pow_le_pow_left₀ hl0R hl2R 98)
    set x : ℝ := 2 * ((Q.length - 1 : Nat) : ℝ) * (lam : ℝ) ^ e with hx
    have hx0 : 0 ≤ x := by positivity
    have hx2 : x * (ρ - 1) ≤ 2 * (1 / 2) ^ 98 := by
      have e1 : x * (ρ - 1) = 2 * (((Q.length - 1 : Nat) : ℝ) * ((ρ : ℝ) - 1)) * (lam : ℝ) ^ e := by rw [hx]; ring
      rw [e1]
      have h7 : 0 ≤ ((Q.length - 1 : Nat) : ℝ) * ((ρ : ℝ) - 1) := mul_nonneg (Nat.cast_nonneg _) (by linarith)
      have h8 := mul_le_mul hKR g2 (pow_nonneg hl0R _) zero_le_one
      linarith
    have g := rpow_small hρR hx0 (hx2.trans (by norm_num))
    have hTR : (T : ℝ) ≤ 10 ^ 20 := by exact_mod_cast hT'
    have hTR0 : (0 : ℝ) < T := by exact_mod_cast hT0
    calc (T : ℝ) * ((ρ : ℝ) ^ x - 1) ≤ T * (2 * (2 * (1 / 2) ^ 98)) := mul_le_mul_of_nonneg_left (by linarith) hTR0.le
      _ ≤ 10 ^ 20 * (2 * (2 * (1 / 2) ^ 98)) := mul_le_mul_of_nonneg_right hTR (by norm_num)
      _ < 1 / 10 ^ 8 := by norm_num

/-- The hypotheses of `C134_two` are met: rows `[400, 600]`, columns `[300, 700]` thousand, and a seed with one cell 2 among ones. -/
example : ∃ r, ipfExact [2, 2] (ratProb midProb) unevenSeed = .ok r ∧ r.conv = true := by
  have h := ratOK_ratProb midProb_ok
  obtain ⟨r, hr⟩ := ipf_run_ok FP.exact (numFl FP.exact) (minOK_fl _) (ratOK_accepted h (by norm_num))
    (properProb_fin (by unfold ProperProb; decide)) (fun v => .fin (unevenSeed v))
  have hT : ∀ q ∈ ratProb midProb, ∑ j ∈ cells (projSizes q.1 [2, 2]), q.2 j = (1000000 : ℚ) := by
    intro q hq
    have := h.total q hq
    exact_mod_cast this
  have key : ∀ v ∈ allIdx [2, 2], 1 ≤ unevenSeed v ∧ unevenSeed v ≤ 2 := by decide +kernel
  refine ⟨r, hr, C134_two h.toProbShape (by decide) (by norm_num) hT (by norm_num)
    (fun v hv => lt_of_lt_of_le one_pos (key v (mem_allIdx.mpr hv)).1) ?_ hr⟩
  intro v v' w w' hv hv' hw hw' _ _ _ _
  have h1 := key v (mem_allIdx.mpr hv)
  have h2 := key v' (mem_allIdx.mpr hv')
  have h3 := key w (mem_allIdx.mpr hw)
  have h4 := key w' (mem_allIdx.mpr hw')
  nlinarith

/-- Three marginals of one dimension each, one with an empty category. -/
def trioRows (j : List Int) : Int := if j = [0] then 4 else 6
def trioCols (j : List Int) : Int := if j = [0] then 3 else 7
def trioLays (j : List Int) : Int := if j = [0] then 0 else if j = [1] then 1 else 9
def trioProb : Prob Int := [([0], trioRows), ([1], trioCols), ([2], trioLays)]

theorem trioProb_ok : ProbOK [2, 2, 3] trioProb 10 where
  lists := by simp [trioProb]
  two := by decide
  pos := by decide
  dims := by simp [trioProb]
  cover := by
    intro d hd
    simp only [List.length_cons, List.length_nil] at hd
    interval_cases d <;> simp [trioProb]
  nonneg := by
    intro p hp j _
    simp only [trioProb, List.mem_cons, List.not_mem_nil, or_false] at hp
    rcases hp with rfl | rfl | rfl
    · show 0 ≤ trioRows j
      unfold trioRows; split <;> norm_num
    · show 0 ≤ trioCols j
      unfold trioCols; split <;> norm_num
    · show 0 ≤ trioLays j
      unfold trioLays; split <;> [norm_num; split <;> norm_num]
  total := by
    simp only [trioProb, List.mem_cons, List.not_mem_nil, or_false, forall_eq_or_imp, forall_eq]
    decide
  partials := by
    intro p hp q hq a b d h1 h2
    simp only [trioProb, List.mem_cons, List.not_mem_nil, or_false] at hp hq
    rcases hp with rfl | rfl | rfl <;> rcases hq with rfl | rfl | rfl <;> rcases a with _ | a <;> rcases b with _ | b <;>
      simp at h1 h2 <;> intro x hx <;> first | rfl | omega

/-- cells from 2 to 3 -/
def trioSeed : List Int → ℚ := fun v => if v = [0, 1, 2] then 3 else if v = [1, 1, 1] then 5 / 2 else 2

/-- The hypotheses of `C134_rate`, `C134_three` and `C134_any` are met. -/
example : ∃ r, ipfExact [2, 2, 3] (ratProb trioProb) trioSeed = .ok r ∧ r.conv = true ∧ r.iters ≤ 100 := by
  have h := ratOK_ratProb trioProb_ok
  obtain ⟨r, hr⟩ := ipf_run_ok FP.exact (numFl FP.exact) (minOK_fl _) (ratOK_accepted h (by norm_num))
    (properProb_fin (by unfold ProperProb; decide)) (fun v => .fin (trioSeed v))
  have hT : ∀ q ∈ ratProb trioProb, ∑ j ∈ cells (projSizes q.1 [2, 2, 3]), q.2 j = (10 : ℚ) := by
    intro q hq
    have := h.total q hq
    exact_mod_cast this
  have key : ∀ v ∈ allIdx [2, 2, 3], 2 ≤ trioSeed v ∧ trioSeed v ≤ 3 := by decide +kernel
  have hb : ∀ v, InRange [2, 2, 3] v → 2 ≤ trioSeed v ∧ trioSeed v ≤ 3 := fun v hv => key v (mem_allIdx.mpr hv)
  have h3 := C134_three h.toProbShape rfl (by decide) (by norm_num) hT (by norm_num) (by norm_num) hb (by norm_num) hr
  exact ⟨r, hr, h3, (C134_any h.toProbShape (by decide) (by norm_num) hT (by norm_num) (by norm_num) hb
    (by show ((2 : Nat) : ℚ) * (3 - 2) ≤ 2; norm_num) hr).2⟩

end HL

import Verif.Props.IPFSensitivity

/-
C138: raising the seed in some cells does not lower the fitted total of those cells.
-/

namespace HL
open Rate Micro Filter Topology

/-- **C138** for the closest tables, any marginals: the changes of the fitted table and of the logarithm of the seed are never opposed
on the whole. -/
theorem C138_law {s : List Nat} {Q : Prob ℚ} {b b' : List Int → ℚ} (hz : ∀ v, InRange s v → (b v = 0 ↔ b' v = 0)) {x x' : List Int → ℝ}
    (hx : IsClosest s Q b x) (hx' : IsClosest s Q b' x') :
    0 ≤ ∑ v ∈ cells s, (x' v - x v) * (Real.log (b' v) - Real.log (b v)) := by
  have hvan : VanishesWith s x (realTable b') := fun v hv h0 => hx.vanishes v hv (by
    have h1 : b' v = 0 := Rat.cast_eq_zero.mp h0
    exact Rat.cast_eq_zero.mpr ((hz v hv).mpr h1))
  have hvan' : VanishesWith s x' (realTable b) := fun v hv h0 => hx'.vanishes v hv (by
    have h1 : b v = 0 := Rat.cast_eq_zero.mp h0
    exact Rat.cast_eq_zero.mpr ((hz v hv).mp h1))
  have h1 := hx.least x' hx'.nonneg hx'.meets hvan'
  have h2 := hx'.least x hx.nonneg hx.meets hvan
  have diff : ∀ {y : List Int → ℝ}, VanishesWith s y (realTable b) → VanishesWith s y (realTable b') →
      relEntropy s y (realTable b) - relEntropy s y (realTable b') = ∑ v ∈ cells s, y v * (Real.log (b' v) - Real.log (b v)) := by
    intro y g1 g2
    unfold relEntropy
    rw [← Finset.sum_sub_distrib]
    refine Finset.sum_congr rfl fun v hv => ?_
    have hv := mem_cells.mp hv
    by_cases hy : y v = 0
    · rw [hy]; ring
    · have n1 : realTable b v ≠ 0 := fun h => hy (g1 v hv h)
      have n2 : realTable b' v ≠ 0 := fun h => hy (g2 v hv h)
      rw [Real.log_div hy n1, Real.log_div hy n2]
      unfold realTable
      ring
  have d1 := diff hx.vanishes hvan
  have d2 := diff hvan' hx'.vanishes
  have e : ∑ v ∈ cells s, (x' v - x v) * (Real.log (b' v) - Real.log (b v)) =
      ∑ v ∈ cells s, x' v * (Real.log (b' v) - Real.log (b v)) - ∑ v ∈ cells s, x v * (Real.log (b' v) - Real.log (b v)) := by
    rw [← Finset.sum_sub_distrib]
    exact Finset.sum_congr rfl fun v _ => by ring
  rw [e, ← d1, ← d2]
  linarith

theorem raised_zero {S : List Int → Bool} {t : ℚ} (ht : 1 ≤ t) {b : List Int → ℚ} (v : List Int) : b v = 0 ↔ raised S t b v = 0 := by
  unfold raised
  split
  · have : t ≠ 0 := by linarith
    simp [this]
  · rfl

/-- the change of the logarithm of the seed sees only the cells in `S` -/
theorem raise_sum {s : List Nat} {Q : Prob ℚ} {b : List Int → ℚ} (S : List Int → Bool) {t : ℚ} (ht : 1 < t) {x x' : List Int → ℝ}
    (hx : IsClosest s Q b x) (hx' : IsClosest s Q (raised S t b) x') :
    ∑ v ∈ cells s, (x' v - x v) * (Real.log (raised S t b v) - Real.log (b v)) = (totalOn s S x' - totalOn s S x) * Real.log t := by
  unfold totalOn
  rw [← Finset.sum_sub_distrib, Finset.sum_mul, Finset.sum_filter]
  refine Finset.sum_congr rfl fun v hv => ?_
  have hv := mem_cells.mp hv
  by_cases hS : S v = true
  · rw [if_pos hS]
    by_cases hb : b v = 0
    · have g1 := hx.vanishes v hv (by unfold realTable; rw [hb]; norm_num)
      have g2 := hx'.vanishes v hv (by
        have := (raised_zero (S := S) ht.le v).mp hb
        unfold realTable; rw [this]; norm_num)
      rw [g1, g2]; ring
    · have hb' : (b v : ℝ) ≠ 0 := by exact_mod_cast hb
      have ht0 : (t : ℝ) ≠ 0 := by
        have : t ≠ 0 := by linarith
        exact_mod_cast this
      have e : ((raised S t b v : ℚ) : ℝ) = (t : ℝ) * (b v : ℝ) := by unfold raised; rw [if_pos hS]; push_cast; rfl
      rw [e, Real.log_mul ht0 hb']
      ring
  · rw [if_neg hS]
    have e : raised S t b v = b v := by unfold raised; rw [if_neg hS]
    rw [e]; ring

/-- **C138** for the closest tables: multiplying the cells of the seed in `S` by `t > 1` does not lower their total in the closest table.
Any marginals, zeros in the seed included. -/
theorem C138_closest {s : List Nat} {Q : Prob ℚ} {b : List Int → ℚ} (S : List Int → Bool) {t : ℚ} (ht : 1 < t) {x x' : List Int → ℝ}
    (hx : IsClosest s Q b x) (hx' : IsClosest s Q (raised S t b) x') : totalOn s S x ≤ totalOn s S x' := by
  have h1 := C138_law (fun v _ => raised_zero (S := S) ht.le v) hx hx'
  have hlog : 0 < Real.log (t : ℝ) := Real.log_pos (by exact_mod_cast ht)
  rw [raise_sum S ht hx hx'] at h1
  have := nonneg_of_mul_nonneg_left h1 hlog
  linarith

/-- **C138** for `ipf` in exact arithmetic, any marginals on which it returns and for which some table fits: called again on its own result
often enough, it gives tables in which the total of the cells in `S` is, up to any `ε > 0`, no smaller with the raised seed. -/
theorem C138_limit {s : List Nat} {Q : Prob ℚ} {pop : Int} (h : RatOK s Q pop) (hlt : pop < 2 ^ 62) (hp : ProperProb s Q) {b : List Int → ℚ}
    (hb : ∀ v, InRange s v → 0 ≤ b v) {y : List Int → ℝ} (hy : NonnegTable s y) (hm : MeetsMarginals s Q y)
    (hv : VanishesWith s y (realTable b)) (S : List Int → Bool) {t : ℚ} (ht : 1 < t) :
    ∃ c c' : Nat → List Int → ℚ, (∀ k, ∃ r, ipfCalls s Q b k = .ok r ∧ r.micro.array = finArr s (c k)) ∧
      (∀ k, ∃ r, ipfCalls s Q (raised S t b) k = .ok r ∧ r.micro.array = finArr s (c' k)) ∧
      ∀ ε > 0, ∃ N, ∀ k ≥ N, totalOn s S (realTable (c k)) ≤ totalOn s S (realTable (c' k)) + ε := by
  have hb' : ∀ v, InRange s v → 0 ≤ raised S t b v := by
    intro v hv
    unfold raised
    split
    · exact mul_nonneg (by linarith) (hb v hv)
    · exact hb v hv
  have hv' : VanishesWith s y (realTable (raised S t b)) := fun v hr h0 => hv v hr (by
    have h1 : raised S t b v = 0 := Rat.cast_eq_zero.mp h0
    exact Rat.cast_eq_zero.mpr ((raised_zero ht.le v).mpr h1))
  obtain ⟨c, x, h1, h2, h3, h4, h5, h6⟩ := C70_limit h hlt hp hb hy hm hv
  obtain ⟨c', x', h1', h2', h3', h4', h5', h6'⟩ := C70_limit h hlt hp hb' hy hm hv'
  have key := C138_closest S ht (⟨h3, h4, h5, fun q g1 g2 g3 => (h6 q g1 g2 g3).1⟩ : IsClosest s Q b x)
    ⟨h3', h4', h5', fun q g1 g2 g3 => (h6' q g1 g2 g3).1⟩
  refine ⟨c, c', h1, h1', fun ε hε => ?_⟩
  have lim : ∀ {a : Nat → List Int → ℚ} {z : List Int → ℝ}, (∀ v, InRange s v → Tendsto (fun k => (a k v : ℝ)) atTop (𝓝 (z v))) →
      Tendsto (fun k => totalOn s S (realTable (a k))) atTop (𝓝 (totalOn s S z)) := by
    intro a z hz
    unfold totalOn
    exact tendsto_finsetSum _ fun v hv => hz v (mem_cells.mp (Finset.mem_filter.mp hv).1)
  have l1 := (lim h2).eventually (eventually_lt_nhds (show totalOn s S x < totalOn s S x + ε / 2 by linarith))
  have l2 := (lim h2').eventually (eventually_gt_nhds (show totalOn s S x' - ε / 2 < totalOn s S x' by linarith))
  obtain ⟨N, hN⟩ := eventually_atTop.mp (l1.and l2)
  exact ⟨N, fun k hk => by
    have := hN k hk
    linarith [this.1, this.2]⟩

/-- **C138** for a single call of `ipf` in exact arithmetic, under the conditions of C136 for both seeds: with reported deviations `e` and
`e'` of at most `m / 2`, the total of the cells in `S` is no smaller with the raised seed, up to the factor
`exp ((2 K / (1 - lam) + 1) (2 e / m + 2 e' / m))`. -/
theorem C138_exact {s : List Nat} {Q : Prob ℚ} {pop : Int} (h : RatOK s Q pop) (hd : (Q.map Prod.fst).flatten.Nodup) (hpop : 0 < pop)
    {m : ℚ} (hm0 : 0 < m) (hm : ∀ q ∈ Q, ∀ j, InRange (projSizes q.1 s) j → m ≤ q.2 j) {b : List Int → ℚ}
    (hb : ∀ v, InRange s v → 0 < b v) {ρ : ℚ} (hρ : 1 ≤ ρ) (S : List Int → Bool) {t : ℚ} (ht : 1 < t)
    (hR : ∀ k (hk : k < Q.length), OddsAtMost (ρ ^ 2) s Q[k].1 (restDims Q k) b)
    (hR' : ∀ k (hk : k < Q.length), OddsAtMost (ρ ^ 2) s Q[k].1 (restDims Q k) (raised S t b)) {lam : ℚ}
    (hlam : lam = ((Q.length - 1 : Nat) : ℚ) * ((ρ - 1) / (ρ + 1))) (hlam1 : lam < 1) {r r' : IPF Fl} (hr : ipfExact s Q b = .ok r)
    (hr' : ipfExact s Q (raised S t b) = .ok r') :
    ∃ (c c' : List Int → ℚ) (e e' : ℚ), r.micro.array = finArr s c ∧ r.maxError = .fin e ∧ r'.micro.array = finArr s c' ∧
      r'.maxError = .fin e' ∧ (2 * e ≤ m → 2 * e' ≤ m → totalOn s S (realTable c) ≤
        Real.exp ((2 * Q.length / (1 - lam) + 1) * (2 * (e / m) + 2 * (e' / m))) * totalOn s S (realTable c')) := by
  have hb' : ∀ v, InRange s v → 0 < raised S t b v := by
    intro v hv
    unfold raised
    split
    · exact mul_pos (by linarith) (hb v hv)
    · exact hb v hv
  obtain ⟨x, hx, -⟩ := C136_exists h hd hpop hb
  obtain ⟨x', hx', -⟩ := C136_exists h hd hpop hb'
  obtain ⟨c, e, h1, h2, h3⟩ := C136_exact h hd hm0 hm hb hρ hR hlam hlam1 hx hr
  obtain ⟨c', e', h1', h2', h3'⟩ := C136_exact h hd hm0 hm hb' hρ hR' hlam hlam1 hx' hr'
  refine ⟨c, c', e, e', h1, h2, h1', h2', fun he he' => ?_⟩
  have key := C138_closest S ht hx hx'
  set B := (2 * (Q.length : ℝ) / (1 - lam) + 1) * (2 * ((e : ℝ) / m)) with hB
  set B' := (2 * (Q.length : ℝ) / (1 - lam) + 1) * (2 * ((e' : ℝ) / m)) with hB'
  have n1 : Nr B (totalOn s S (realTable c)) (totalOn s S x) := by
    unfold totalOn
    exact Nr.sum fun v hv => h3 he v (mem_cells.mp (Finset.mem_filter.mp hv).1)
  have n2 : Nr B' (totalOn s S (realTable c')) (totalOn s S x') := by
    unfold totalOn
    exact Nr.sum fun v hv => h3' he' v (mem_cells.mp (Finset.mem_filter.mp hv).1)
  have eB : (2 * (Q.length : ℝ) / (1 - lam) + 1) * (2 * ((e : ℝ) / m) + 2 * ((e' : ℝ) / m)) = B + B' := by rw [hB, hB']; ring
  rw [eB, Real.exp_add, mul_assoc]
  exact n1.1.trans (mul_le_mul_of_nonneg_left (key.trans n2.2) (Real.exp_pos B).le)

/-- **C138** in double precision, under the conditions of `C136_odds` for both seeds: up to the part `E` of C136 on either side, the total of the
cells in `S` is no smaller with the raised seed. -/
theorem C138_odds {s : List Nat} {Q : Prob ℚ} {pop : Int} (h : RatOK s Q pop) (hd : (Q.map Prod.fst).flatten.Nodup) {b : List Int → ℚ}
    {lo hi ρ lo' hi' ρ' : ℚ} {f : Nat} (S : List Int → Bool) {t : ℚ} (ht : 1 < t) (hmo : Modest s Q pop b lo hi ρ f)
    (hmo' : Modest s Q pop (raised S t b) lo' hi' ρ' f) (hfp : fp.Good)
    {R R' : ℚ} (hR1 : 1 ≤ R) (hodds : ∀ k (hk : k < Q.length), OddsAtMost (R ^ 2) s Q[k].1 (restDims Q k) b)
    (hnear : ((Q.length - 1 : Nat) : ℚ) * (R - 1) ≤ 9 / 10) (hR1' : 1 ≤ R')
    (hodds' : ∀ k (hk : k < Q.length), OddsAtMost (R' ^ 2) s Q[k].1 (restDims Q k) (raised S t b))
    (hnear' : ((Q.length - 1 : Nat) : ℚ) * (R' - 1) ≤ 9 / 10)
    (hsmall : pop * (4 * Q.length ^ 2 * (f + 2) + f + 1) ≤ 89000000)
    (hone : ∀ q ∈ Q, ∀ j, InRange (projSizes q.1 s) j → 1 ≤ q.2 j)
    {E : ℝ} (hE : E = (8 * Q.length + 4) * (22 / 10 ^ 9 + 13 / 10 ^ 15 * (Q.length * (f + 2)))) {r r' : IPF Fl}
    (hr : IPF.run false fp (numFl fp) (indicesOf (finProb Q)) (marginalsOf s (finProb Q)) (finArr s b) = .ok r)
    (hr' : IPF.run false fp (numFl fp) (indicesOf (finProb Q)) (marginalsOf s (finProb Q)) (finArr s (raised S t b)) = .ok r') :
    ∃ c c' : List Int → ℚ, r.micro.array = finArr s c ∧ r'.micro.array = finArr s c' ∧ E ≤ 1 ∧
      (1 - E) * totalOn s S (realTable c) ≤ (1 + E) * totalOn s S (realTable c') := by
  have hb0 : ∀ v, InRange s v → 0 < b v := fun v hv => hmo.lo_pos.trans_le (hmo.seed v hv).1
  have hb0' : ∀ v, InRange s v → 0 < raised S t b v := fun v hv => hmo'.lo_pos.trans_le (hmo'.seed v hv).1
  have hpopp : (0 : Int) < pop := by
    have : (0 : ℚ) < (pop : ℚ) := pop_pos h hmo.pos
    exact_mod_cast this
  obtain ⟨x, hx, -⟩ := C136_exists h hd hpopp hb0
  obtain ⟨x', hx', -⟩ := C136_exists h hd hpopp hb0'
  obtain ⟨c, h1, h2⟩ := C136_odds h hd hmo hfp hR1 hodds hnear hsmall hone hx hr
  obtain ⟨c', h1', h2'⟩ := C136_odds h hd hmo' hfp hR1' hodds' hnear' hsmall hone hx' hr'
  rw [← hE] at h2 h2'
  have hE0 : 0 ≤ E := by rw [hE]; positivity
  have hE1 : E ≤ 1 := by
    rw [hE]
    refine part_le_one h.lists ?_
    have g1 : (0 : Int) ≤ 4 * (Q.length : Int) ^ 2 * (f + 2) + f + 1 := by positivity
    have g2 : (4 * (Q.length : Int) ^ 2 * (f + 2) + f + 1) ≤ 89000000 := le_trans (le_mul_of_one_le_left g1 (by omega)) hsmall
    exact_mod_cast g2
  refine ⟨c, c', h1, h1', hE1, ?_⟩
  have key := C138_closest S ht hx hx'
  have up : totalOn s S (realTable c) ≤ (1 + E) * totalOn s S x := by
    unfold totalOn
    rw [Finset.mul_sum]
    refine Finset.sum_le_sum fun v hv => ?_
    have := (abs_le.mp (h2 v (mem_cells.mp (Finset.mem_filter.mp hv).1))).2
    show (c v : ℝ) ≤ _
    linarith
  have low : (1 - E) * totalOn s S x' ≤ totalOn s S (realTable c') := by
    unfold totalOn
    rw [Finset.mul_sum]
    refine Finset.sum_le_sum fun v hv => ?_
    have := (abs_le.mp (h2' v (mem_cells.mp (Finset.mem_filter.mp hv).1))).1
    show _ ≤ (c' v : ℝ)
    linarith
  have a1 := mul_le_mul_of_nonneg_left up (show 0 ≤ 1 - E by linarith)
  have a2 := mul_le_mul_of_nonneg_left key (mul_nonneg (show 0 ≤ 1 - E by linarith) (show 0 ≤ 1 + E by linarith))
  have a3 := mul_le_mul_of_nonneg_left low (show 0 ≤ 1 + E by linarith)
  linarith

/-- **C138** in double precision, under the conditions of C136 for both seeds: up to the part `E` of C136 on either side, the total of the
cells in `S` is no smaller with the raised seed. -/
theorem C138_double {s : List Nat} {Q : Prob ℚ} {pop : Int} (h : RatOK s Q pop) (hd : (Q.map Prod.fst).flatten.Nodup) {b : List Int → ℚ}
    {lo hi ρ lo' hi' ρ' : ℚ} {f : Nat} (S : List Int → Bool) {t : ℚ} (ht : 1 < t) (hmo : Modest s Q pop b lo hi ρ f)
    (hmo' : Modest s Q pop (raised S t b) lo' hi' ρ' f) (hfp : fp.Good)
    (hspread : ((Q.length - 1 : Nat) : ℚ) * (hi - lo) ≤ 9 / 10 * lo) (hspread' : ((Q.length - 1 : Nat) : ℚ) * (hi' - lo') ≤ 9 / 10 * lo')
    (hsmall : pop * (4 * Q.length ^ 2 * (f + 2) + f + 1) ≤ 89000000)
    (hone : ∀ q ∈ Q, ∀ j, InRange (projSizes q.1 s) j → 1 ≤ q.2 j)
    {E : ℝ} (hE : E = (8 * Q.length + 4) * (22 / 10 ^ 9 + 13 / 10 ^ 15 * (Q.length * (f + 2)))) {r r' : IPF Fl}
    (hr : IPF.run false fp (numFl fp) (indicesOf (finProb Q)) (marginalsOf s (finProb Q)) (finArr s b) = .ok r)
    (hr' : IPF.run false fp (numFl fp) (indicesOf (finProb Q)) (marginalsOf s (finProb Q)) (finArr s (raised S t b)) = .ok r') :
    ∃ c c' : List Int → ℚ, r.micro.array = finArr s c ∧ r'.micro.array = finArr s c' ∧ E ≤ 1 ∧
      (1 - E) * totalOn s S (realTable c) ≤ (1 + E) * totalOn s S (realTable c') := by
  exact C138_odds h hd S ht hmo hmo' hfp ((one_le_div hmo.lo_pos).mpr hmo.seedOrder)
    (fun k hk => odds_of_spread hmo.lo_pos hmo.seed hmo.seedOrder _ _) (near_of_spread hmo.lo_pos hspread)
    ((one_le_div hmo'.lo_pos).mpr hmo'.seedOrder) (fun k hk => odds_of_spread hmo'.lo_pos hmo'.seed hmo'.seedOrder _ _)
    (near_of_spread hmo'.lo_pos hspread') hsmall hone hE hr hr'

/-! ### The hypotheses are met -/

/-- `gentleSeed` is the flat seed with one cell raised by a quarter. -/
theorem gentle_raised : raised (fun v => v = [0, 1]) (5 / 4) (fun _ => 1) = gentleSeed := by
  funext v
  unfold raised gentleSeed
  simp

/-- A million people in two by two categories, binary64: both calls run, and the raised cell does not get smaller by more than a part in a
million. -/
example (sqrt : Fl → Fl) : ∃ r r' c c', IPF.run false (FP.ieee sqrt) (numFl (FP.ieee sqrt)) (indicesOf (finProb (ratProb midProb)))
      (marginalsOf [2, 2] (finProb (ratProb midProb))) (finArr [2, 2] (fun _ => 1)) = .ok r ∧
      IPF.run false (FP.ieee sqrt) (numFl (FP.ieee sqrt)) (indicesOf (finProb (ratProb midProb)))
      (marginalsOf [2, 2] (finProb (ratProb midProb))) (finArr [2, 2] gentleSeed) = .ok r' ∧
      r.micro.array = finArr [2, 2] c ∧ r'.micro.array = finArr [2, 2] c' ∧
      (1 - (8 * ((ratProb midProb).length : ℝ) + 4) * (22 / 10 ^ 9 + 13 / 10 ^ 15 * ((ratProb midProb).length * ((2 : Nat) + 2)))) * (c [0, 1] : ℝ) ≤
      (1 + (8 * ((ratProb midProb).length : ℝ) + 4) * (22 / 10 ^ 9 + 13 / 10 ^ 15 * ((ratProb midProb).length * ((2 : Nat) + 2)))) * (c' [0, 1] : ℝ) := by
  have hok := ratOK_ratProb midProb_ok
  obtain ⟨r0, h0, -, -⟩ := mid_run sqrt
  have hp : ProperProb [2, 2] (ratProb midProb) := by unfold ProperProb; decide
  obtain ⟨pop, n, hok', -⟩ := ipf_run (FP.ieee sqrt) (numFl (FP.ieee sqrt)) (minOK_fl _)
    (probShape_congr (fst_finProb (ratProb midProb)).symm hok.toProbShape) (properProb_fin hp) _
    (by rw [fin_ratProb]; exact h0)
  obtain ⟨r', hr'⟩ := ipf_run_ok (FP.ieee sqrt) (numFl (FP.ieee sqrt)) (minOK_fl _) hok' (properProb_fin hp) (fun v => .fin (gentleSeed v))
  obtain ⟨r, hr⟩ := ipf_run_ok (FP.ieee sqrt) (numFl (FP.ieee sqrt)) (minOK_fl _) hok' (properProb_fin hp) (fun _ => .fin 1)
  have hs1 : ((1 : Nat) : ℚ) * (5 / 4 - 1) ≤ 9 / 10 * 1 := by norm_num
  have hs2 : (1000000 : Int) * (4 * ((2 : Nat) : Int) ^ 2 * (((2 : Nat) : Int) + 2) + ((2 : Nat) : Int) + 1) ≤ 89000000 := by norm_num
  obtain ⟨c, c', h1, h2, -, h3⟩ := C138_double hok (by decide) (fun v => v = [0, 1]) (t := 5 / 4) (by norm_num) flat_modest
    (by rw [gentle_raised]; exact gentle_modest) (FP.ieee_good sqrt) hs1 hs1 hs2 mid_one rfl hr (by rw [gentle_raised]; exact hr')
  refine ⟨r, r', c, c', hr, hr', h1, h2, ?_⟩
  have one : ∀ y : List Int → ℝ, totalOn [2, 2] (fun v => v = [0, 1]) y = y [0, 1] := by
    intro y
    unfold totalOn
    rw [Finset.sum_filter]
    have hm : ([0, 1] : List Int) ∈ cells [2, 2] := by decide
    rw [Finset.sum_eq_single_of_mem _ hm (fun v _ hne => by simp [hne])]
    simp
  rw [one, one] at h3
  exact h3

/-- Exact arithmetic, two by three categories, one cell doubled: the hypotheses of `C138_limit` are met by the example of C70. -/
example : ∃ (b : List Int → ℚ) (y : List Int → ℝ), (∀ v, InRange [2, 3] v → 0 ≤ b v) ∧ NonnegTable [2, 3] y ∧
    MeetsMarginals [2, 3] exQ y ∧ VanishesWith [2, 3] y (realTable b) ∧ RatOK [2, 3] exQ 3 ∧ ProperProb [2, 3] exQ ∧
    raised (fun v => v = [0, 0]) 2 b ≠ b := by
  refine ⟨fun v => if v.getD 0 0 = 0 then 1 else 5, realTable (fun v => if v.getD 0 0 = 0 then 1 / 3 else 2 / 3), ?_, ?_, ?_, ?_,
    exQ_ok, exQ_proper, ?_⟩
  · intro v _
    dsimp only
    split_ifs <;> norm_num
  · intro v _
    apply Rat.cast_nonneg.mpr
    dsimp only
    split_ifs <;> norm_num
  · intro q hq j hj
    rw [Ent.margin_cast, Rat.cast_inj]
    have : ∀ q ∈ exQ, ∀ j ∈ cells (projSizes q.1 [2, 3]),
        marginalSum [2, 3] q.1 (fun v => if v.getD 0 0 = 0 then (1 / 3 : ℚ) else 2 / 3) j = q.2 j := by decide +kernel
    exact this q hq j (mem_cells.mpr hj)
  · intro v _ h
    have := Rat.cast_eq_zero.mp h
    dsimp only at this
    split_ifs at this <;> norm_num at this
  · intro h
    have := congrFun h [0, 0]
    unfold raised at this
    norm_num at this

end HL

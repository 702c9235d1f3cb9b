import Verif.Props.IPFRaiseBound

/-
C141: how many people a change of the seed can move, whatever the marginals.
-/

namespace HL
open Ent Rate Micro Filter Topology

/-- `(a - c) log (a / c)` against the square of the difference -/
theorem sq_le_log {a c : ℝ} (ha : 0 < a) (hc : 0 < c) : 2 * (a - c) ^ 2 / (a + c) ≤ (a - c) * (Real.log a - Real.log c) := by
  have one : ∀ {u w : ℝ}, 0 < w → w ≤ u → 2 * (u - w) ^ 2 / (u + w) ≤ (u - w) * (Real.log u - Real.log w) := by
    intro u w hw huw
    have hu : 0 < u := hw.trans_le huw
    have h1 := Real.le_log_one_add_of_nonneg (x := (u - w) / w) (div_nonneg (by linarith) hw.le)
    have e1 : 1 + (u - w) / w = u / w := by field_simp; ring
    have e2 : 2 * ((u - w) / w) / ((u - w) / w + 2) = 2 * (u - w) / (u + w) := by
      have h3 : (u - w) / w + 2 = (u + w) / w := by field_simp; ring
      rw [h3]
      field_simp
    rw [e1, e2, Real.log_div hu.ne' hw.ne'] at h1
    have := mul_le_mul_of_nonneg_left h1 (show 0 ≤ u - w by linarith)
    refine le_trans (le_of_eq ?_) this
    ring
  rcases le_total c a with h | h
  · exact one hc h
  · have := one ha h
    rw [add_comm a c]
    have e : (a - c) ^ 2 = (c - a) ^ 2 := by ring
    rw [e]
    refine this.trans (le_of_eq ?_)
    ring

/-- two tables with the same total: the square of the change, against the two relative entropies -/
theorem moved_sq {s : List Nat} {x x' : List Int → ℝ} (hx : NonnegTable s x) (hx' : NonnegTable s x') (h1 : VanishesWith s x x')
    (h2 : VanishesWith s x' x) {T : ℝ} (ht : total s x = T) (ht' : total s x' = T) :
    (∑ v ∈ cells s, |x' v - x v|) ^ 2 ≤ T * (relEntropy s x' x + relEntropy s x x') := by
  have key : ∀ v ∈ cells s, 2 * ((x' v - x v) ^ 2 / (x' v + x v)) ≤ x' v * Real.log (x' v / x v) + x v * Real.log (x v / x' v) := by
    intro v hv
    have hv := mem_cells.mp hv
    by_cases hz : x v = 0
    · have hz' := h2 v hv hz
      rw [hz, hz']; simp
    · have hz' : x' v ≠ 0 := fun h => hz (h1 v hv h)
      have p := lt_of_le_of_ne (hx v hv) (Ne.symm hz)
      have p' := lt_of_le_of_ne (hx' v hv) (Ne.symm hz')
      have := sq_le_log p' p
      rw [Real.log_div hz' hz, Real.log_div hz hz']
      have e : 2 * ((x' v - x v) ^ 2 / (x' v + x v)) = 2 * (x' v - x v) ^ 2 / (x' v + x v) := by ring
      rw [e]
      linarith
  have hsum := Finset.sum_le_sum key
  rw [← Finset.mul_sum, Finset.sum_add_distrib] at hsum
  have hT0 : 0 ≤ T := by rw [← ht]; exact Finset.sum_nonneg fun v hv => hx v (mem_cells.mp hv)
  have cs : (∑ v ∈ cells s, |x' v - x v|) ^ 2 ≤ (∑ v ∈ cells s, (x' v - x v) ^ 2 / (x' v + x v)) * ∑ v ∈ cells s, (x' v + x v) := by
    refine Finset.sum_sq_le_sum_mul_sum_of_sq_le_mul _ (fun v hv => ?_) (fun v hv => ?_) (fun v hv => ?_)
    · exact div_nonneg (sq_nonneg _) (add_nonneg (hx' v (mem_cells.mp hv)) (hx v (mem_cells.mp hv)))
    · exact add_nonneg (hx' v (mem_cells.mp hv)) (hx v (mem_cells.mp hv))
    · rw [sq_abs]
      by_cases h0 : x' v + x v = 0
      · have p := hx v (mem_cells.mp hv)
        have p' := hx' v (mem_cells.mp hv)
        have e1 : x v = 0 := by linarith
        have e2 : x' v = 0 := by linarith
        rw [e1, e2]; simp
      · rw [div_mul_cancel₀ _ h0]
  have tot : ∑ v ∈ cells s, (x' v + x v) = 2 * T := by
    rw [Finset.sum_add_distrib]
    unfold total at ht ht'
    rw [ht, ht']; ring
  rw [tot] at cs
  unfold relEntropy
  have := mul_le_mul_of_nonneg_left hsum hT0
  linarith

/-- the two relative entropies of the closest tables for two seeds, in terms of the seeds -/
theorem closest_sym {s : List Nat} {Q : Prob ℚ} {pop : Int} (h : RatOK s Q pop) {b b' : List Int → ℚ} (hb : ∀ v, InRange s v → 0 ≤ b v)
    (hb' : ∀ v, InRange s v → 0 ≤ b' v) (hz : ∀ v, InRange s v → (b v = 0 ↔ b' v = 0)) {x x' : List Int → ℝ}
    (hx : IsClosest s Q b x) (hx' : IsClosest s Q b' x') : VanishesWith s x x' ∧ VanishesWith s x' x ∧
    relEntropy s x' x + relEntropy s x x' = ∑ v ∈ cells s, (x' v - x v) * (Real.log (b' v) - Real.log (b v)) := by
  have hvan : VanishesWith s x (realTable b') := fun v hv h0 => hx.vanishes v hv (by
    have h1 : b' v = 0 := Rat.cast_eq_zero.mp h0
    exact Rat.cast_eq_zero.mpr ((hz v hv).mpr h1))
  have hvan' : VanishesWith s x' (realTable b) := fun v hv h0 => hx'.vanishes v hv (by
    have h1 : b v = 0 := Rat.cast_eq_zero.mp h0
    exact Rat.cast_eq_zero.mpr ((hz v hv).mp h1))
  have pyth : ∀ {b : List Int → ℚ} {x y : List Int → ℝ}, (∀ v, InRange s v → 0 ≤ b v) → IsClosest s Q b x → NonnegTable s y →
      MeetsMarginals s Q y → VanishesWith s y (realTable b) →
      VanishesWith s y x ∧ relEntropy s y (realTable b) = relEntropy s y x + relEntropy s x (realTable b) := by
    intro b x y hb hx y1 y2 y3
    have hbR : NonnegTable s (realTable b) := fun v h => Rat.cast_nonneg.mpr (hb v h)
    obtain ⟨z, z1, z2, z3, -, zq⟩ := exists_limit (real_ne_nil h.toProbShape) (dims_real h.toProbShape) hbR hx.nonneg (meets_real.mp hx.meets) hx.vanishes
    obtain ⟨g1, g2⟩ := zq x hx.nonneg (meets_real.mp hx.meets) hx.vanishes
    have htot : total s x = total s z := by rw [total_pop h hx.meets, total_pop h (meets_real.mpr z2)]
    have g3 := hx.least z z1 (meets_real.mpr z2) z3
    have he := eq_of_sum_log_zero (cells s) (fun v hv => hx.nonneg v (mem_cells.mp hv)) (fun v hv => z1 v (mem_cells.mp hv))
      (fun v hv => g1 v (mem_cells.mp hv)) htot (by unfold relEntropy at g2 g3; linarith)
    obtain ⟨k1, k2⟩ := zq y y1 (meets_real.mp y2) y3
    refine ⟨fun v hv h0 => k1 v hv (by rw [← he v (mem_cells.mpr hv)]; exact h0), ?_⟩
    rw [k2]
    unfold relEntropy
    congr 1
    · exact Finset.sum_congr rfl fun v hv => by rw [he v hv]
    · exact Finset.sum_congr rfl fun v hv => by rw [he v hv]
  obtain ⟨a1, a2⟩ := pyth hb hx hx'.nonneg hx'.meets hvan'
  obtain ⟨a1', a2'⟩ := pyth hb' hx' hx.nonneg hx.meets hvan
  have diff : ∀ {y : List Int → ℝ}, VanishesWith s y (realTable b) → VanishesWith s y (realTable b') →
      relEntropy s y (realTable b) - relEntropy s y (realTable b') = ∑ v ∈ cells s, y v * (Real.log (b' v) - Real.log (b v)) := by
    intro y g1 g2
    unfold relEntropy
    rw [← Finset.sum_sub_distrib]
    refine Finset.sum_congr rfl fun v hv => ?_
    have hv := mem_cells.mp hv
    by_cases hy : y v = 0
    · rw [hy]; ring
    · have n1 : realTable b v ≠ 0 := fun h => hy (g1 v hv h)
      have n2 : realTable b' v ≠ 0 := fun h => hy (g2 v hv h)
      rw [Real.log_div hy n1, Real.log_div hy n2]
      unfold realTable
      ring
  have d1 := diff hx.vanishes hvan
  have d2 := diff hvan' hx'.vanishes
  refine ⟨a1', a1, ?_⟩
  have e : ∑ v ∈ cells s, (x' v - x v) * (Real.log (b' v) - Real.log (b v)) =
      ∑ v ∈ cells s, x' v * (Real.log (b' v) - Real.log (b v)) - ∑ v ∈ cells s, x v * (Real.log (b' v) - Real.log (b v)) := by
    rw [← Finset.sum_sub_distrib]
    exact Finset.sum_congr rfl fun v _ => by ring
  rw [e, ← d1, ← d2]
  linarith

/-- **C141** for the closest tables, any marginals, zeros in the seed included: if every cell of the seed changes by a factor between `m` and `M`,
the cells of the closest table change by at most `pop * log (M / m) / 2` altogether. -/
theorem C141_closest {s : List Nat} {Q : Prob ℚ} {pop : Int} (h : RatOK s Q pop) {b b' : List Int → ℚ} (hb : ∀ v, InRange s v → 0 ≤ b v)
    {m M : ℚ} (hm : 0 < m) (hmM : m ≤ M) (hbb : ∀ v, InRange s v → m * b v ≤ b' v ∧ b' v ≤ M * b v) {x x' : List Int → ℝ}
    (hx : IsClosest s Q b x) (hx' : IsClosest s Q b' x') : ∑ v ∈ cells s, |x' v - x v| ≤ pop * Real.log (M / m) / 2 := by
  have hb' : ∀ v, InRange s v → 0 ≤ b' v := fun v hv => (mul_nonneg hm.le (hb v hv)).trans (hbb v hv).1
  have hM : 0 < M := hm.trans_le hmM
  have hz : ∀ v, InRange s v → (b v = 0 ↔ b' v = 0) := by
    intro v hv
    obtain ⟨g1, g2⟩ := hbb v hv
    constructor
    · intro h0
      rw [h0] at g1 g2
      linarith
    · intro h0
      rw [h0] at g1
      have := hb v hv
      have h3 : m * b v = 0 := le_antisymm g1 (mul_nonneg hm.le this)
      exact (mul_eq_zero.mp h3).resolve_left hm.ne'
  obtain ⟨v1, v2, hsym⟩ := closest_sym h hb hb' hz hx hx'
  have ht := total_pop h hx.meets
  have ht' := total_pop h hx'.meets
  have hsq := moved_sq hx.nonneg hx'.nonneg v1 v2 ht ht'
  set D := ∑ v ∈ cells s, |x' v - x v| with hD
  have hD0 : 0 ≤ D := Finset.sum_nonneg fun _ _ => abs_nonneg _
  have hpop0 : (0 : ℝ) ≤ pop := by
    rw [← ht]
    exact Finset.sum_nonneg fun v hv => hx.nonneg v (mem_cells.mp hv)
  have hmR : (0 : ℝ) < m := by exact_mod_cast hm
  have hMR : (0 : ℝ) < M := by exact_mod_cast hM
  have hlog : 0 ≤ Real.log ((M : ℝ) / m) := Real.log_nonneg ((one_le_div hmR).mpr (by exact_mod_cast hmM))
  -- the middle of the range of the logarithms
  set g : ℝ := (Real.log M + Real.log m) / 2 with hg
  have hzero : ∑ v ∈ cells s, (x' v - x v) * g = 0 := by
    rw [← Finset.sum_mul, Finset.sum_sub_distrib]
    unfold total at ht ht'
    rw [ht, ht']; ring
  have hbound : relEntropy s x' x + relEntropy s x x' ≤ D * (Real.log (M / m) / 2) := by
    rw [hsym]
    have e : ∑ v ∈ cells s, (x' v - x v) * (Real.log (b' v) - Real.log (b v)) =
        ∑ v ∈ cells s, (x' v - x v) * (Real.log (b' v) - Real.log (b v) - g) := by
      have : ∑ v ∈ cells s, (x' v - x v) * (Real.log (b' v) - Real.log (b v) - g) =
          ∑ v ∈ cells s, (x' v - x v) * (Real.log (b' v) - Real.log (b v)) - ∑ v ∈ cells s, (x' v - x v) * g := by
        rw [← Finset.sum_sub_distrib]
        exact Finset.sum_congr rfl fun v _ => by ring
      rw [this, hzero, sub_zero]
    rw [e, hD, Finset.sum_mul]
    refine Finset.sum_le_sum fun v hv => ?_
    have hv := mem_cells.mp hv
    by_cases hbv : b v = 0
    · have z1 := hx.vanishes v hv (by unfold realTable; rw [hbv]; norm_num)
      have z2 := hx'.vanishes v hv (by unfold realTable; rw [(hz v hv).mp hbv]; norm_num)
      rw [z1, z2]; simp
    · have p : 0 < b v := lt_of_le_of_ne (hb v hv) (Ne.symm hbv)
      have p' : 0 < b' v := lt_of_lt_of_le (mul_pos hm p) (hbb v hv).1
      have pR : (0 : ℝ) < b v := by exact_mod_cast p
      have pR' : (0 : ℝ) < b' v := by exact_mod_cast p'
      have l1 : Real.log m + Real.log (b v) ≤ Real.log (b' v) := by
        rw [← Real.log_mul hmR.ne' pR.ne']
        exact Real.log_le_log (by positivity) (by exact_mod_cast (hbb v hv).1)
      have l2 : Real.log (b' v) ≤ Real.log M + Real.log (b v) := by
        rw [← Real.log_mul hMR.ne' pR.ne']
        exact Real.log_le_log pR' (by exact_mod_cast (hbb v hv).2)
      have hab : |Real.log (b' v) - Real.log (b v) - g| ≤ Real.log (M / m) / 2 := by
        rw [Real.log_div hMR.ne' hmR.ne', abs_le, hg]
        constructor <;> linarith
      calc (x' v - x v) * (Real.log (b' v) - Real.log (b v) - g) ≤ |(x' v - x v) * (Real.log (b' v) - Real.log (b v) - g)| := le_abs_self _
        _ = |x' v - x v| * |Real.log (b' v) - Real.log (b v) - g| := abs_mul _ _
        _ ≤ _ := mul_le_mul_of_nonneg_left hab (abs_nonneg _)
  have h2 : D ^ 2 ≤ D * (pop * Real.log (M / m) / 2) := by
    have := mul_le_mul_of_nonneg_left hbound hpop0
    linarith
  rcases hD0.eq_or_lt with h0 | h0
  · rw [← h0]; positivity
  · have : D * D ≤ D * (pop * Real.log (M / m) / 2) := by rw [← pow_two]; exact h2
    exact le_of_mul_le_mul_left this h0

/-- **C141**, raising the seed in some cells by the factor `t`: what moves altogether, against the rise of the total of these cells.  So the
total rises strictly unless the table stays as it is, in every cell. -/
theorem C141_raise {s : List Nat} {Q : Prob ℚ} {pop : Int} (h : RatOK s Q pop) {b : List Int → ℚ} (hb : ∀ v, InRange s v → 0 ≤ b v)
    (S : List Int → Bool) {t : ℚ} (ht : 1 < t) {x x' : List Int → ℝ} (hx : IsClosest s Q b x) (hx' : IsClosest s Q (raised S t b) x') :
    (∑ v ∈ cells s, |x' v - x v|) ^ 2 ≤ pop * Real.log t * (totalOn s S x' - totalOn s S x) ∧
    ((∀ v, InRange s v → x' v = x v) ∨ totalOn s S x < totalOn s S x') := by
  have hb' : ∀ v, InRange s v → 0 ≤ raised S t b v := by
    intro v hv
    unfold raised
    split
    · exact mul_nonneg (by linarith) (hb v hv)
    · exact hb v hv
  obtain ⟨v1, v2, hsym⟩ := closest_sym h hb hb' (fun v _ => raised_zero (S := S) ht.le v) hx hx'
  have hsq := moved_sq hx.nonneg hx'.nonneg v1 v2 (total_pop h hx.meets) (total_pop h hx'.meets)
  rw [hsym, raise_sum S ht hx hx'] at hsq
  have key : (∑ v ∈ cells s, |x' v - x v|) ^ 2 ≤ pop * Real.log t * (totalOn s S x' - totalOn s S x) := hsq.trans (le_of_eq (by ring))
  refine ⟨key, ?_⟩
  rcases (C138_closest S ht hx hx').eq_or_lt with h0 | h0
  · left
    rw [h0, sub_self, mul_zero] at key
    have h1 : ∑ v ∈ cells s, |x' v - x v| = 0 := pow_eq_zero_iff (two_ne_zero) |>.mp (le_antisymm key (sq_nonneg _))
    intro v hv
    have h2 := (Finset.sum_eq_zero_iff_of_nonneg fun v _ => abs_nonneg (x' v - x v)).mp h1 v (mem_cells.mpr hv)
    exact sub_eq_zero.mp (abs_eq_zero.mp h2)
  · exact Or.inr h0

/-- **C141** for `ipf` in exact arithmetic, any marginals on which it returns and for which some table fits: called again on its own result
often enough, it gives tables for the two seeds that differ by at most `pop * log (M / m) / 2` altogether, up to any `ε > 0`. -/
theorem C141_limit {s : List Nat} {Q : Prob ℚ} {pop : Int} (h : RatOK s Q pop) (hlt : pop < 2 ^ 62) (hp : ProperProb s Q)
    {b b' : List Int → ℚ} (hb : ∀ v, InRange s v → 0 ≤ b v) {m M : ℚ} (hm : 0 < m) (hmM : m ≤ M)
    (hbb : ∀ v, InRange s v → m * b v ≤ b' v ∧ b' v ≤ M * b v) {y : List Int → ℝ} (hy : NonnegTable s y) (hym : MeetsMarginals s Q y)
    (hv : VanishesWith s y (realTable b)) :
    ∃ c c' : Nat → List Int → ℚ, (∀ k, ∃ r, ipfCalls s Q b k = .ok r ∧ r.micro.array = finArr s (c k)) ∧
      (∀ k, ∃ r, ipfCalls s Q b' k = .ok r ∧ r.micro.array = finArr s (c' k)) ∧
      ∀ ε > 0, ∃ N, ∀ k ≥ N, ∑ v ∈ cells s, |(c' k v : ℝ) - c k v| ≤ pop * Real.log (M / m) / 2 + ε := by
  have hb' : ∀ v, InRange s v → 0 ≤ b' v := fun v hv => (mul_nonneg hm.le (hb v hv)).trans (hbb v hv).1
  have hv' : VanishesWith s y (realTable b') := fun v hr h0 => hv v hr (by
    have h1 : b' v = 0 := Rat.cast_eq_zero.mp h0
    have h2 := (hbb v hr).1
    rw [h1] at h2
    have h3 : m * b v = 0 := le_antisymm h2 (mul_nonneg hm.le (hb v hr))
    exact Rat.cast_eq_zero.mpr ((mul_eq_zero.mp h3).resolve_left hm.ne'))
  obtain ⟨c, x, h1, h2, h3, h4, h5, h6⟩ := C70_limit h hlt hp hb hy hym hv
  obtain ⟨c', x', h1', h2', h3', h4', h5', h6'⟩ := C70_limit h hlt hp hb' hy hym hv'
  have key := C141_closest h hb hm hmM hbb (⟨h3, h4, h5, fun q g1 g2 g3 => (h6 q g1 g2 g3).1⟩ : IsClosest s Q b x)
    ⟨h3', h4', h5', fun q g1 g2 g3 => (h6' q g1 g2 g3).1⟩
  refine ⟨c, c', h1, h1', fun ε hε => ?_⟩
  have lim : Tendsto (fun k => ∑ v ∈ cells s, |(c' k v : ℝ) - c k v|) atTop (𝓝 (∑ v ∈ cells s, |x' v - x v|)) :=
    tendsto_finsetSum _ fun v hv => ((h2' v (mem_cells.mp hv)).sub (h2 v (mem_cells.mp hv))).abs
  obtain ⟨N, hN⟩ := eventually_atTop.mp (lim.eventually (eventually_lt_nhds
    (show ∑ v ∈ cells s, |x' v - x v| < pop * Real.log (M / m) / 2 + ε by linarith)))
  exact ⟨N, fun k hk => (hN k hk).le⟩

variable {fp : FP}

/-- **C141** for a single call of `ipf` in rounded arithmetic, under the conditions of C136 for both seeds: the two tables differ by at most
`pop * (log (M / m) / 2 + 2 E)` altogether, with `E` the error bound of C136. -/
theorem C141_odds {s : List Nat} {Q : Prob ℚ} {pop : Int} (h : RatOK s Q pop) (hd : (Q.map Prod.fst).flatten.Nodup) {b b' : List Int → ℚ}
    {lo hi ρ lo' hi' ρ' : ℚ} {f : Nat} {m M : ℚ} (hm : 0 < m) (hmM : m ≤ M) (hbb : ∀ v, InRange s v → m * b v ≤ b' v ∧ b' v ≤ M * b v)
    (hmo : Modest s Q pop b lo hi ρ f) (hmo' : Modest s Q pop b' lo' hi' ρ' f) (hfp : fp.Good)
    {R R' : ℚ} (hR1 : 1 ≤ R) (hodds : ∀ k (hk : k < Q.length), OddsAtMost (R ^ 2) s Q[k].1 (restDims Q k) b)
    (hnear : ((Q.length - 1 : Nat) : ℚ) * (R - 1) ≤ 9 / 10) (hR1' : 1 ≤ R')
    (hodds' : ∀ k (hk : k < Q.length), OddsAtMost (R' ^ 2) s Q[k].1 (restDims Q k) b')
    (hnear' : ((Q.length - 1 : Nat) : ℚ) * (R' - 1) ≤ 9 / 10)
    (hsmall : pop * (4 * Q.length ^ 2 * (f + 2) + f + 1) ≤ 89000000)
    (hone : ∀ q ∈ Q, ∀ j, InRange (projSizes q.1 s) j → 1 ≤ q.2 j)
    {E : ℝ} (hE : E = (8 * Q.length + 4) * (22 / 10 ^ 9 + 13 / 10 ^ 15 * (Q.length * (f + 2)))) {r r' : IPF Fl}
    (hr : IPF.run false fp (numFl fp) (indicesOf (finProb Q)) (marginalsOf s (finProb Q)) (finArr s b) = .ok r)
    (hr' : IPF.run false fp (numFl fp) (indicesOf (finProb Q)) (marginalsOf s (finProb Q)) (finArr s b') = .ok r') :
    ∃ c c' : List Int → ℚ, r.micro.array = finArr s c ∧ r'.micro.array = finArr s c' ∧
      ∑ v ∈ cells s, |(c' v : ℝ) - c v| ≤ pop * (Real.log (M / m) / 2 + 2 * E) := by
  have hb0 : ∀ v, InRange s v → 0 < b v := fun v hv => hmo.lo_pos.trans_le (hmo.seed v hv).1
  have hb0' : ∀ v, InRange s v → 0 < b' v := fun v hv => hmo'.lo_pos.trans_le (hmo'.seed v hv).1
  have hpopp : (0 : Int) < pop := by
    have : (0 : ℚ) < (pop : ℚ) := pop_pos h hmo.pos
    exact_mod_cast this
  obtain ⟨x, hx, -⟩ := C136_exists h hd hpopp hb0
  obtain ⟨x', hx', -⟩ := C136_exists h hd hpopp hb0'
  obtain ⟨c, h1, h2⟩ := C136_odds h hd hmo hfp hR1 hodds hnear hsmall hone hx hr
  obtain ⟨c', h1', h2'⟩ := C136_odds h hd hmo' hfp hR1' hodds' hnear' hsmall hone hx' hr'
  rw [← hE] at h2 h2'
  refine ⟨c, c', h1, h1', ?_⟩
  have key := C141_closest h (fun v hv => (hb0 v hv).le) hm hmM hbb hx hx'
  have ht := total_pop h hx.meets
  have ht' := total_pop h hx'.meets
  unfold total at ht ht'
  have step : ∑ v ∈ cells s, |(c' v : ℝ) - c v| ≤ ∑ v ∈ cells s, (|x' v - x v| + (E * x' v + E * x v)) := by
    refine Finset.sum_le_sum fun v hv => ?_
    have g := h2 v (mem_cells.mp hv)
    have g' := h2' v (mem_cells.mp hv)
    have e : (c' v : ℝ) - c v = (x' v - x v) + (((c' v : ℝ) - x' v) - ((c v : ℝ) - x v)) := by ring
    rw [e]
    have a1 := abs_add_le (x' v - x v) (((c' v : ℝ) - x' v) - ((c v : ℝ) - x v))
    have a2 := abs_sub ((c' v : ℝ) - x' v) ((c v : ℝ) - x v)
    linarith
  rw [Finset.sum_add_distrib, Finset.sum_add_distrib, ← Finset.mul_sum, ← Finset.mul_sum, ht, ht'] at step
  linarith

/-! ### The hypotheses are met -/

/-- A million people in two by two categories, binary64, one cell of the flat seed raised by a quarter: both calls run, and the two tables
differ by at most an eighth of a million, and a few parts in a million, altogether. -/
example (sqrt : Fl → Fl) : ∃ r r' c c', IPF.run false (FP.ieee sqrt) (numFl (FP.ieee sqrt)) (indicesOf (finProb (ratProb midProb)))
      (marginalsOf [2, 2] (finProb (ratProb midProb))) (finArr [2, 2] (fun _ => 1)) = .ok r ∧
      IPF.run false (FP.ieee sqrt) (numFl (FP.ieee sqrt)) (indicesOf (finProb (ratProb midProb)))
      (marginalsOf [2, 2] (finProb (ratProb midProb))) (finArr [2, 2] gentleSeed) = .ok r' ∧
      r.micro.array = finArr [2, 2] c ∧ r'.micro.array = finArr [2, 2] c' ∧
      ∑ v ∈ cells [2, 2], |(c' v : ℝ) - c v| ≤ 125001 := by
  have hok := ratOK_ratProb midProb_ok
  obtain ⟨r0, h0, -, -⟩ := mid_run sqrt
  have hp : ProperProb [2, 2] (ratProb midProb) := by unfold ProperProb; decide
  obtain ⟨pop, n, hok', -⟩ := ipf_run (FP.ieee sqrt) (numFl (FP.ieee sqrt)) (minOK_fl _)
    (probShape_congr (fst_finProb (ratProb midProb)).symm hok.toProbShape) (properProb_fin hp) _
    (by rw [fin_ratProb]; exact h0)
  obtain ⟨r', hr'⟩ := ipf_run_ok (FP.ieee sqrt) (numFl (FP.ieee sqrt)) (minOK_fl _) hok' (properProb_fin hp) (fun v => .fin (gentleSeed v))
  obtain ⟨r, hr⟩ := ipf_run_ok (FP.ieee sqrt) (numFl (FP.ieee sqrt)) (minOK_fl _) hok' (properProb_fin hp) (fun _ => .fin 1)
  have hs1 : ((1 : Nat) : ℚ) * (5 / 4 - 1) ≤ 9 / 10 * 1 := by norm_num
  have hs2 : (1000000 : Int) * (4 * ((2 : Nat) : Int) ^ 2 * (((2 : Nat) : Int) + 2) + ((2 : Nat) : Int) + 1) ≤ 89000000 := by norm_num
  obtain ⟨c, c', h1, h2, h3⟩ := C141_odds (m := 1) (M := 5 / 4) hok (by decide) (by norm_num) (by norm_num)
    (fun v _ => by unfold gentleSeed; split_ifs <;> norm_num) flat_modest gentle_modest (FP.ieee_good sqrt)
    ((one_le_div flat_modest.lo_pos).mpr flat_modest.seedOrder)
    (fun k hk => odds_of_spread flat_modest.lo_pos flat_modest.seed flat_modest.seedOrder _ _) (near_of_spread flat_modest.lo_pos hs1)
    ((one_le_div gentle_modest.lo_pos).mpr gentle_modest.seedOrder)
    (fun k hk => odds_of_spread gentle_modest.lo_pos gentle_modest.seed gentle_modest.seedOrder _ _)
    (near_of_spread gentle_modest.lo_pos hs1) hs2 mid_one rfl hr hr'
  refine ⟨r, r', c, c', hr, hr', h1, h2, h3.trans ?_⟩
  have hl : Real.log (((5 / 4 : ℚ) : ℝ) / ((1 : ℚ) : ℝ)) ≤ 1 / 4 := by
    have := Real.log_le_sub_one_of_pos (show (0 : ℝ) < ((5 / 4 : ℚ) : ℝ) / ((1 : ℚ) : ℝ) by norm_num)
    refine this.trans ?_
    norm_num
  have hlen : (((ratProb midProb).length : Nat) : ℝ) = 2 := by norm_num [ratProb, midProb]
  rw [hlen]
  push_cast at hl ⊢
  nlinarith

/-- Exact arithmetic, two by three categories, one cell doubled: the hypotheses of `C141_closest`, `C141_raise` and `C141_limit` are met,
with closest tables for both seeds. -/
example : ∃ (b : List Int → ℚ) (x x' : List Int → ℝ), (∀ v, InRange [2, 3] v → 0 ≤ b v) ∧ RatOK [2, 3] exQ 3 ∧
    IsClosest [2, 3] exQ b x ∧ IsClosest [2, 3] exQ (raised (fun v => v = [0, 0]) 2 b) x' ∧ raised (fun v => v = [0, 0]) 2 b ≠ b ∧
    ∀ v, InRange [2, 3] v → 1 * b v ≤ raised (fun v => v = [0, 0]) 2 b v ∧ raised (fun v => v = [0, 0]) 2 b v ≤ 2 * b v := by
  have hb0 : ∀ v, InRange [2, 3] v → (0 : ℚ) < (fun v : List Int => if v.getD 0 0 = 0 then (1 : ℚ) else 5) v := by
    intro v _
    dsimp only
    split_ifs <;> norm_num
  have hb0' : ∀ v, InRange [2, 3] v → (0 : ℚ) < raised (fun v => v = [0, 0]) 2 (fun v : List Int => if v.getD 0 0 = 0 then (1 : ℚ) else 5) v := by
    intro v hv
    have := hb0 v hv
    unfold raised
    split
    · exact mul_pos (by norm_num) this
    · exact this
  obtain ⟨x, hx, -⟩ := C136_exists exQ_ok (by decide) (by norm_num) hb0
  obtain ⟨x', hx', -⟩ := C136_exists exQ_ok (by decide) (by norm_num) hb0'
  refine ⟨_, x, x', fun v hv => (hb0 v hv).le, exQ_ok, hx, hx', ?_, ?_⟩
  · intro h
    have := congrFun h [0, 0]
    unfold raised at this
    norm_num at this
  · have mid : ∀ (c : Bool) {w : ℚ}, 0 < w → 1 * w ≤ (if c then 2 * w else w) ∧ (if c then 2 * w else w) ≤ 2 * w := by
      intro c w hw
      cases c <;> constructor <;> simp <;> linarith
    exact fun v hv => mid _ (hb0 v hv)

end HL

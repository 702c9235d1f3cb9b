import Verif.Props.IPFRaise
import Mathlib.Analysis.SpecialFunctions.Log.NegMulLog

/-
C139: raising the seed in some cells by a factor raises their fitted total by at most that factor.
-/

namespace HL
open Rate Micro Filter Topology

/-- the tangent of `x log x` -/
theorem mul_log_tangent {x y : ℝ} (hx : 0 ≤ x) (hy : 0 < y) : y * Real.log y - x * Real.log x ≤ (y - x) * (Real.log y + 1) := by
  rcases hx.eq_or_lt with rfl | hx
  · simp; linarith
  · have h1 := Real.log_le_sub_one_of_pos (div_pos hy hx)
    rw [Real.log_div hy.ne' hx.ne'] at h1
    have h2 := mul_le_mul_of_nonneg_left h1 hx.le
    have e : x * (y / x - 1) = y - x := by field_simp
    rw [e] at h2
    linarith

/-- the log-sum inequality, both ways at once -/
theorem log_sum_both {ι : Type} (A : Finset ι) {y z : ι → ℝ} (hy : ∀ i ∈ A, 0 < y i) (hz : ∀ i ∈ A, 0 < z i) (hne : A.Nonempty) :
    (∑ i ∈ A, z i - ∑ i ∈ A, y i) * (Real.log (∑ i ∈ A, z i) - Real.log (∑ i ∈ A, y i)) ≤
      ∑ i ∈ A, (z i - y i) * (Real.log (z i) - Real.log (y i)) := by
  have hY := Finset.sum_pos hy hne
  have hZ := Finset.sum_pos hz hne
  have half : ∀ {u w : ι → ℝ}, (∀ i ∈ A, 0 < u i) → (∀ i ∈ A, 0 < w i) →
      (∑ i ∈ A, w i) * (Real.log (∑ i ∈ A, w i) - Real.log (∑ i ∈ A, u i)) ≤ ∑ i ∈ A, w i * (Real.log (w i) - Real.log (u i)) := by
    intro u w hu hw
    have hU := Finset.sum_pos hu hne
    have hW := Finset.sum_pos hw hne
    set U := ∑ i ∈ A, u i with hUd
    set W := ∑ i ∈ A, w i with hWd
    have h1 : ∀ i ∈ A, w i * (Real.log W - Real.log U) + (w i - u i * (W / U)) ≤ w i * (Real.log (w i) - Real.log (u i)) := by
      intro i hi
      have pu := hu i hi
      have pw := hw i hi
      have h2 := Real.log_le_sub_one_of_pos (div_pos (mul_pos pu hW) (mul_pos pw hU))
      rw [Real.log_div (mul_pos pu hW).ne' (mul_pos pw hU).ne', Real.log_mul pu.ne' hW.ne', Real.log_mul pw.ne' hU.ne'] at h2
      have h3 := mul_le_mul_of_nonneg_left h2 pw.le
      have e : w i * (u i * W / (w i * U) - 1) = u i * (W / U) - w i := by field_simp
      rw [e] at h3
      linarith
    have h4 := Finset.sum_le_sum h1
    rw [Finset.sum_add_distrib, ← Finset.sum_mul, Finset.sum_sub_distrib, ← Finset.sum_mul, ← hUd, ← hWd] at h4
    have e : U * (W / U) = W := by field_simp
    rw [e] at h4
    linarith
  have h1 := half hy hz
  have h2 := half hz hy
  have e : ∑ i ∈ A, (z i - y i) * (Real.log (z i) - Real.log (y i)) =
      ∑ i ∈ A, z i * (Real.log (z i) - Real.log (y i)) + ∑ i ∈ A, y i * (Real.log (y i) - Real.log (z i)) := by
    rw [← Finset.sum_add_distrib]
    exact Finset.sum_congr rfl fun i _ => by ring
  rw [e]
  linarith

/-- the change of the seed against any table -/
theorem raised_log {s : List Nat} (S : List Int → Bool) {t : ℚ} (ht : 1 < t) {b : List Int → ℚ} {d : List Int → ℝ}
    (hd : VanishesWith s d (realTable b)) :
    ∑ v ∈ cells s, d v * (Real.log (raised S t b v) - Real.log (b v)) = totalOn s S d * Real.log t := by
  unfold totalOn
  rw [Finset.sum_mul, Finset.sum_filter]
  refine Finset.sum_congr rfl fun v hv => ?_
  have hv := mem_cells.mp hv
  by_cases hS : S v = true
  · rw [if_pos hS]
    by_cases hb : b v = 0
    · rw [hd v hv (by unfold realTable; rw [hb]; norm_num)]; ring
    · have hb' : (b v : ℝ) ≠ 0 := by exact_mod_cast hb
      have ht0 : (t : ℝ) ≠ 0 := by
        have : t ≠ 0 := by linarith
        exact_mod_cast this
      have e : ((raised S t b v : ℚ) : ℝ) = (t : ℝ) * (b v : ℝ) := by unfold raised; rw [if_pos hS]; push_cast; rfl
      rw [e, Real.log_mul ht0 hb']
      ring
  · rw [if_neg hS]
    have e : raised S t b v = b v := by unfold raised; rw [if_neg hS]
    rw [e]; ring

/-- relative entropy, split -/
theorem relEntropy_split {s : List Nat} {b : List Int → ℚ} {y : List Int → ℝ} (hy : VanishesWith s y (realTable b)) :
    relEntropy s y (realTable b) = ∑ v ∈ cells s, y v * Real.log (y v) - ∑ v ∈ cells s, y v * Real.log (b v) := by
  unfold relEntropy
  rw [← Finset.sum_sub_distrib]
  refine Finset.sum_congr rfl fun v hv => ?_
  by_cases h0 : y v = 0
  · rw [h0]; ring
  · rw [Real.log_div h0 (fun h => h0 (hy v (mem_cells.mp hv) h))]
    unfold realTable
    ring

/-- **C139** for the closest tables: multiplying the cells of the seed in `S` by `t > 1` multiplies their total in the closest table by at
most `t`.  Any marginals, zeros in the seed included. -/
theorem C139_closest {s : List Nat} {Q : Prob ℚ} {b : List Int → ℚ} (S : List Int → Bool) {t : ℚ} (ht : 1 < t) {x x' : List Int → ℝ}
    (hx : IsClosest s Q b x) (hx' : IsClosest s Q (raised S t b) x') : totalOn s S x' ≤ t * totalOn s S x := by
  have htR : (1 : ℝ) < t := by exact_mod_cast ht
  set d : List Int → ℝ := fun v => x' v - x v with hd
  have hvan' : VanishesWith s x' (realTable b) := fun v hv h0 => hx'.vanishes v hv (by
    have h1 : b v = 0 := Rat.cast_eq_zero.mp h0
    exact Rat.cast_eq_zero.mpr ((raised_zero ht.le v).mp h1))
  have hdv : VanishesWith s d (realTable b) := fun v hv h0 => by rw [hd]; simp only; rw [hx.vanishes v hv h0, hvan' v hv h0, sub_zero]
  have key : ∀ l : ℝ, 0 < l → l < 1 / 2 → totalOn s S x' - l * totalOn s S d ≤ t * (totalOn s S x + l * totalOn s S d) := by
    intro l hl0 hl1
    set y : List Int → ℝ := fun v => x v + l * d v with hy
    set z : List Int → ℝ := fun v => x' v - l * d v with hz
    have ey : ∀ v, y v = (1 - l) * x v + l * x' v := fun v => by rw [hy, hd]; ring
    have ez : ∀ v, z v = l * x v + (1 - l) * x' v := fun v => by rw [hz, hd]; ring
    have y0 : NonnegTable s y := fun v hv => by
      rw [ey]; exact add_nonneg (mul_nonneg (by linarith) (hx.nonneg v hv)) (mul_nonneg hl0.le (hx'.nonneg v hv))
    have z0 : NonnegTable s z := fun v hv => by
      rw [ez]; exact add_nonneg (mul_nonneg hl0.le (hx.nonneg v hv)) (mul_nonneg (by linarith) (hx'.nonneg v hv))
    have ms : ∀ {a c : ℝ} {w : List Int → ℝ}, (∀ v, w v = a * x v + c * x' v) → a + c = 1 → MeetsMarginals s Q w := by
      intro a c w hw hac q hq j hj
      have e : marginalSum s q.1 w j = a * marginalSum s q.1 x j + c * marginalSum s q.1 x' j := by
        unfold marginalSum
        rw [Finset.mul_sum, Finset.mul_sum, ← Finset.sum_add_distrib]
        exact Finset.sum_congr rfl fun v _ => hw v
      rw [e, hx.meets q hq j hj, hx'.meets q hq j hj, ← add_mul, hac, one_mul]
    have yv : VanishesWith s y (realTable b) := fun v hv h0 => by rw [ey, hx.vanishes v hv h0, hvan' v hv h0]; ring
    have zv : VanishesWith s z (realTable (raised S t b)) := fun v hv h0 => by
      have h1 : realTable b v = 0 := by
        have h1 : raised S t b v = 0 := Rat.cast_eq_zero.mp h0
        exact Rat.cast_eq_zero.mpr ((raised_zero ht.le v).mpr h1)
      rw [ez, hx.vanishes v hv h1, hvan' v hv h1]; ring
    have h1 := hx.least y y0 (ms ey (by ring)) yv
    have h2 := hx'.least z z0 (ms ez (by ring)) zv
    rw [relEntropy_split hx.vanishes, relEntropy_split yv] at h1
    rw [relEntropy_split hx'.vanishes, relEntropy_split zv] at h2
    have h3 := raised_log S ht hdv
    -- the linear part
    have e1 : ∑ v ∈ cells s, y v * Real.log (b v) = ∑ v ∈ cells s, x v * Real.log (b v) + l * ∑ v ∈ cells s, d v * Real.log (b v) := by
      rw [Finset.mul_sum, ← Finset.sum_add_distrib]
      exact Finset.sum_congr rfl fun v _ => by rw [hy]; ring
    have e2 : ∑ v ∈ cells s, z v * Real.log (raised S t b v) =
        ∑ v ∈ cells s, x' v * Real.log (raised S t b v) - l * ∑ v ∈ cells s, d v * Real.log (raised S t b v) := by
      rw [Finset.mul_sum, ← Finset.sum_sub_distrib]
      exact Finset.sum_congr rfl fun v _ => by rw [hz]; ring
    have e3 : ∑ v ∈ cells s, d v * (Real.log (raised S t b v) - Real.log (b v)) =
        ∑ v ∈ cells s, d v * Real.log (raised S t b v) - ∑ v ∈ cells s, d v * Real.log (b v) := by
      rw [← Finset.sum_sub_distrib]
      exact Finset.sum_congr rfl fun v _ => by ring
    -- the convex part
    have h4 : ∑ v ∈ cells s, (y v * Real.log (y v) + z v * Real.log (z v) - x v * Real.log (x v) - x' v * Real.log (x' v)) ≤
        ∑ v ∈ cells s, if S v = true then l * (d v * (Real.log (y v) - Real.log (z v))) else 0 := by
      refine Finset.sum_le_sum fun v hv => ?_
      have hv := mem_cells.mp hv
      have x0 := hx.nonneg v hv
      have x0' := hx'.nonneg v hv
      split
      · by_cases hzero : x v + x' v = 0
        · have g1 : x v = 0 := by linarith
          have g2 : x' v = 0 := by linarith
          rw [ey, ez, g1, g2]; simp [hd, g1, g2]
        · have hp : 0 < x v + x' v := lt_of_le_of_ne (by linarith) (Ne.symm hzero)
          have yp : 0 < y v := by rw [ey]; nlinarith
          have zp : 0 < z v := by rw [ez]; nlinarith
          have g1 := mul_log_tangent x0 yp
          have g2 := mul_log_tangent x0' zp
          have g3 : y v - x v = l * d v := by rw [hy]; ring
          have g4 : z v - x' v = -(l * d v) := by rw [hz]; ring
          rw [g3] at g1
          rw [g4] at g2
          linarith
      · have hc := Real.convexOn_mul_log
        have g1 := hc.2 (show x v ∈ Set.Ici (0 : ℝ) from x0) (show x' v ∈ Set.Ici (0 : ℝ) from x0') (show 0 ≤ 1 - l by linarith) hl0.le (by ring)
        have g2 := hc.2 (show x v ∈ Set.Ici (0 : ℝ) from x0) (show x' v ∈ Set.Ici (0 : ℝ) from x0') hl0.le (show 0 ≤ 1 - l by linarith) (by ring)
        simp only [smul_eq_mul] at g1 g2
        rw [← ey] at g1
        rw [← ez] at g2
        linarith
    rw [← Finset.sum_filter, ← Finset.mul_sum, Finset.sum_sub_distrib, Finset.sum_sub_distrib, Finset.sum_add_distrib] at h4
    have h5 : 0 ≤ l * (∑ v ∈ cells s with S v = true, d v * (Real.log (y v) - Real.log (z v)) + totalOn s S d * Real.log t) := by
      rw [← h3, e3]
      linarith
    have h6 := nonneg_of_mul_nonneg_right h5 hl0
    -- on to the totals
    have eY : totalOn s S y = totalOn s S x + l * totalOn s S d := by
      unfold totalOn
      rw [Finset.mul_sum, ← Finset.sum_add_distrib]
    have eZ : totalOn s S z = totalOn s S x' - l * totalOn s S d := by
      unfold totalOn
      rw [Finset.mul_sum, ← Finset.sum_sub_distrib]
    rw [← eY, ← eZ]
    set A := (cells s).filter (fun v => S v = true ∧ 0 < x v + x' v) with hA
    have red : ∀ {f : List Int → ℝ}, (∀ v, InRange s v → x v = 0 → x' v = 0 → f v = 0) → ∑ v ∈ cells s with S v = true, f v = ∑ v ∈ A, f v := by
      intro f hf
      symm
      refine Finset.sum_subset (fun v hv => ?_) (fun v hv hnv => ?_)
      · obtain ⟨g1, g2, -⟩ := Finset.mem_filter.mp hv
        exact Finset.mem_filter.mpr ⟨g1, g2⟩
      · obtain ⟨g1, g2⟩ := Finset.mem_filter.mp hv
        have x0 := hx.nonneg v (mem_cells.mp g1)
        have x0' := hx'.nonneg v (mem_cells.mp g1)
        have g3 : ¬ 0 < x v + x' v := fun h => hnv (Finset.mem_filter.mpr ⟨g1, g2, h⟩)
        exact hf v (mem_cells.mp g1) (by linarith) (by linarith)
    have rY : totalOn s S y = ∑ v ∈ A, y v := red fun v _ g1 g2 => by rw [ey, g1, g2]; ring
    have rZ : totalOn s S z = ∑ v ∈ A, z v := red fun v _ g1 g2 => by rw [ez, g1, g2]; ring
    have rD : totalOn s S d = ∑ v ∈ A, d v := red fun v _ g1 g2 => by rw [hd]; simp only; rw [g1, g2]; ring
    rw [red (fun v _ g1 g2 => by rw [hd]; simp only; rw [g1, g2]; ring), rD] at h6
    by_cases hne : A.Nonempty
    · have yp : ∀ v ∈ A, 0 < y v := fun v hv => by
        obtain ⟨g1, g2, g3⟩ := Finset.mem_filter.mp hv
        have x0 := hx.nonneg v (mem_cells.mp g1)
        have x0' := hx'.nonneg v (mem_cells.mp g1)
        rw [ey]; nlinarith
      have zp : ∀ v ∈ A, 0 < z v := fun v hv => by
        obtain ⟨g1, g2, g3⟩ := Finset.mem_filter.mp hv
        have x0 := hx.nonneg v (mem_cells.mp g1)
        have x0' := hx'.nonneg v (mem_cells.mp g1)
        rw [ez]; nlinarith
      have hls := log_sum_both A yp zp hne
      have hYp := Finset.sum_pos yp hne
      have hZp := Finset.sum_pos zp hne
      have ezy : ∀ v, z v - y v = (1 - 2 * l) * d v := fun v => by rw [hy, hz, hd]; ring
      have e4 : ∑ v ∈ A, (z v - y v) * (Real.log (z v) - Real.log (y v)) =
          -((1 - 2 * l) * ∑ v ∈ A, d v * (Real.log (y v) - Real.log (z v))) := by
        rw [Finset.mul_sum, ← Finset.sum_neg_distrib]
        exact Finset.sum_congr rfl fun v _ => by rw [ezy]; ring
      have e5 : ∑ v ∈ A, z v - ∑ v ∈ A, y v = (1 - 2 * l) * ∑ v ∈ A, d v := by
        rw [← Finset.sum_sub_distrib, Finset.mul_sum]
        exact Finset.sum_congr rfl fun v _ => ezy v
      have h7 : (∑ v ∈ A, z v - ∑ v ∈ A, y v) * (Real.log (∑ v ∈ A, z v) - Real.log (∑ v ∈ A, y v)) ≤
          (∑ v ∈ A, z v - ∑ v ∈ A, y v) * Real.log t := by
        refine hls.trans ?_
        rw [e4, e5]
        have := mul_nonneg (show 0 ≤ 1 - 2 * l by linarith) h6
        linarith
      rw [rY, rZ]
      set Y := ∑ v ∈ A, y v
      set Z := ∑ v ∈ A, z v
      by_cases hZY : Z ≤ Y
      · refine hZY.trans ?_
        have := mul_le_mul_of_nonneg_right htR.le hYp.le
        linarith
      · push Not at hZY
        have h8 := le_of_mul_le_mul_left h7 (sub_pos.mpr hZY)
        have h9 : Real.log Z ≤ Real.log (t * Y) := by
          rw [Real.log_mul (by linarith) hYp.ne']
          linarith
        exact (Real.log_le_log_iff hZp (by positivity)).mp h9
    · rw [Finset.not_nonempty_iff_eq_empty] at hne
      rw [rY, rZ, hne]
      simp
  -- and the step goes to zero
  have c1 : Tendsto (fun l : ℝ => totalOn s S x' - l * totalOn s S d) (𝓝[>] 0) (𝓝 (totalOn s S x')) := by
    have : Continuous (fun l : ℝ => totalOn s S x' - l * totalOn s S d) := by fun_prop
    have := this.tendsto 0
    simp only [zero_mul, sub_zero] at this
    exact this.mono_left nhdsWithin_le_nhds
  have c2 : Tendsto (fun l : ℝ => (t : ℝ) * (totalOn s S x + l * totalOn s S d)) (𝓝[>] 0) (𝓝 (t * totalOn s S x)) := by
    have : Continuous (fun l : ℝ => (t : ℝ) * (totalOn s S x + l * totalOn s S d)) := by fun_prop
    have := this.tendsto 0
    simp only [zero_mul, add_zero] at this
    exact this.mono_left nhdsWithin_le_nhds
  refine le_of_tendsto_of_tendsto c1 c2 ?_
  filter_upwards [self_mem_nhdsWithin, mem_nhdsWithin_of_mem_nhds (eventually_lt_nhds (show (0 : ℝ) < 1 / 2 by norm_num))] with l h1 h2
  exact key l h1 h2

/-- **C139** for `ipf` in exact arithmetic, any marginals on which it returns and for which some table fits: called again on its own result
often enough, it gives tables in which the total of the cells in `S` is, up to any `ε > 0`, at most `t` times as large with the raised seed. -/
theorem C139_limit {s : List Nat} {Q : Prob ℚ} {pop : Int} (h : RatOK s Q pop) (hlt : pop < 2 ^ 62) (hp : ProperProb s Q) {b : List Int → ℚ}
    (hb : ∀ v, InRange s v → 0 ≤ b v) {y : List Int → ℝ} (hy : NonnegTable s y) (hm : MeetsMarginals s Q y)
    (hv : VanishesWith s y (realTable b)) (S : List Int → Bool) {t : ℚ} (ht : 1 < t) :
    ∃ c c' : Nat → List Int → ℚ, (∀ k, ∃ r, ipfCalls s Q b k = .ok r ∧ r.micro.array = finArr s (c k)) ∧
      (∀ k, ∃ r, ipfCalls s Q (raised S t b) k = .ok r ∧ r.micro.array = finArr s (c' k)) ∧
      ∀ ε > 0, ∃ N, ∀ k ≥ N, totalOn s S (realTable (c' k)) ≤ t * totalOn s S (realTable (c k)) + ε := by
  have hb' : ∀ v, InRange s v → 0 ≤ raised S t b v := by
    intro v hv
    unfold raised
    split
    · exact mul_nonneg (by linarith) (hb v hv)
    · exact hb v hv
  have hv' : VanishesWith s y (realTable (raised S t b)) := fun v hr h0 => hv v hr (by
    have h1 : raised S t b v = 0 := Rat.cast_eq_zero.mp h0
    exact Rat.cast_eq_zero.mpr ((raised_zero ht.le v).mpr h1))
  obtain ⟨c, x, h1, h2, h3, h4, h5, h6⟩ := C70_limit h hlt hp hb hy hm hv
  obtain ⟨c', x', h1', h2', h3', h4', h5', h6'⟩ := C70_limit h hlt hp hb' hy hm hv'
  have key := C139_closest S ht (⟨h3, h4, h5, fun q g1 g2 g3 => (h6 q g1 g2 g3).1⟩ : IsClosest s Q b x)
    ⟨h3', h4', h5', fun q g1 g2 g3 => (h6' q g1 g2 g3).1⟩
  refine ⟨c, c', h1, h1', fun ε hε => ?_⟩
  have lim : ∀ {a : Nat → List Int → ℚ} {z : List Int → ℝ}, (∀ v, InRange s v → Tendsto (fun k => (a k v : ℝ)) atTop (𝓝 (z v))) →
      Tendsto (fun k => totalOn s S (realTable (a k))) atTop (𝓝 (totalOn s S z)) := by
    intro a z hz
    unfold totalOn
    exact tendsto_finsetSum _ fun v hv => hz v (mem_cells.mp (Finset.mem_filter.mp hv).1)
  have l1 := (lim h2').eventually (eventually_lt_nhds (show totalOn s S x' < totalOn s S x' + ε / 2 by linarith))
  have l2 := ((lim h2).const_mul (t : ℝ)).eventually (eventually_gt_nhds (show t * totalOn s S x - ε / 2 < t * totalOn s S x by linarith))
  obtain ⟨N, hN⟩ := eventually_atTop.mp (l1.and l2)
  exact ⟨N, fun k hk => by
    have := hN k hk
    linarith [this.1, this.2]⟩

/-- **C139** for a single call of `ipf` in exact arithmetic, under the conditions of C136 for both seeds: with reported deviations `e` and
`e'` of at most `m / 2`, the total of the cells in `S` is at most `t` times as large with the raised seed, up to the factor
`exp ((2 K / (1 - lam) + 1) (2 e / m + 2 e' / m))`. -/
theorem C139_exact {s : List Nat} {Q : Prob ℚ} {pop : Int} (h : RatOK s Q pop) (hd : (Q.map Prod.fst).flatten.Nodup) (hpop : 0 < pop)
    {m : ℚ} (hm0 : 0 < m) (hm : ∀ q ∈ Q, ∀ j, InRange (projSizes q.1 s) j → m ≤ q.2 j) {b : List Int → ℚ}
    (hb : ∀ v, InRange s v → 0 < b v) {ρ : ℚ} (hρ : 1 ≤ ρ) (S : List Int → Bool) {t : ℚ} (ht : 1 < t)
    (hR : ∀ k (hk : k < Q.length), OddsAtMost (ρ ^ 2) s Q[k].1 (restDims Q k) b)
    (hR' : ∀ k (hk : k < Q.length), OddsAtMost (ρ ^ 2) s Q[k].1 (restDims Q k) (raised S t b)) {lam : ℚ}
    (hlam : lam = ((Q.length - 1 : Nat) : ℚ) * ((ρ - 1) / (ρ + 1))) (hlam1 : lam < 1) {r r' : IPF Fl} (hr : ipfExact s Q b = .ok r)
    (hr' : ipfExact s Q (raised S t b) = .ok r') :
    ∃ (c c' : List Int → ℚ) (e e' : ℚ), r.micro.array = finArr s c ∧ r.maxError = .fin e ∧ r'.micro.array = finArr s c' ∧
      r'.maxError = .fin e' ∧ (2 * e ≤ m → 2 * e' ≤ m → totalOn s S (realTable c') ≤
        Real.exp ((2 * Q.length / (1 - lam) + 1) * (2 * (e / m) + 2 * (e' / m))) * (t * totalOn s S (realTable c))) := by
  have hb' : ∀ v, InRange s v → 0 < raised S t b v := by
    intro v hv
    unfold raised
    split
    · exact mul_pos (by linarith) (hb v hv)
    · exact hb v hv
  obtain ⟨x, hx, -⟩ := C136_exists h hd hpop hb
  obtain ⟨x', hx', -⟩ := C136_exists h hd hpop hb'
  obtain ⟨c, e, h1, h2, h3⟩ := C136_exact h hd hm0 hm hb hρ hR hlam hlam1 hx hr
  obtain ⟨c', e', h1', h2', h3'⟩ := C136_exact h hd hm0 hm hb' hρ hR' hlam hlam1 hx' hr'
  refine ⟨c, c', e, e', h1, h2, h1', h2', fun he he' => ?_⟩
  have key := C139_closest S ht hx hx'
  set B := (2 * (Q.length : ℝ) / (1 - lam) + 1) * (2 * ((e : ℝ) / m)) with hB
  set B' := (2 * (Q.length : ℝ) / (1 - lam) + 1) * (2 * ((e' : ℝ) / m)) with hB'
  have n1 : Nr B (totalOn s S (realTable c)) (totalOn s S x) := by
    unfold totalOn
    exact Nr.sum fun v hv => h3 he v (mem_cells.mp (Finset.mem_filter.mp hv).1)
  have n2 : Nr B' (totalOn s S (realTable c')) (totalOn s S x') := by
    unfold totalOn
    exact Nr.sum fun v hv => h3' he' v (mem_cells.mp (Finset.mem_filter.mp hv).1)
  have eB : (2 * (Q.length : ℝ) / (1 - lam) + 1) * (2 * ((e : ℝ) / m) + 2 * ((e' : ℝ) / m)) = B + B' := by rw [hB, hB']; ring
  have htR : (0 : ℝ) ≤ t := by
    have : 0 ≤ t := by linarith
    exact_mod_cast this
  rw [eB, add_comm, Real.exp_add, mul_assoc]
  refine n2.1.trans (mul_le_mul_of_nonneg_left (key.trans ?_) (Real.exp_pos B').le)
  calc (t : ℝ) * totalOn s S x ≤ t * (Real.exp B * totalOn s S (realTable c)) := mul_le_mul_of_nonneg_left n1.2 htR
    _ = Real.exp B * (t * totalOn s S (realTable c)) := by ring

/-- **C139** in double precision, under the conditions of `C136_odds` for both seeds: up to the part `E` of C136 on either side, the total of the
cells in `S` is at most `t` times as large with the raised seed. -/
theorem C139_odds {s : List Nat} {Q : Prob ℚ} {pop : Int} (h : RatOK s Q pop) (hd : (Q.map Prod.fst).flatten.Nodup) {b : List Int → ℚ}
    {lo hi ρ lo' hi' ρ' : ℚ} {f : Nat} (S : List Int → Bool) {t : ℚ} (ht : 1 < t) (hmo : Modest s Q pop b lo hi ρ f)
    (hmo' : Modest s Q pop (raised S t b) lo' hi' ρ' f) (hfp : fp.Good)
    {R R' : ℚ} (hR1 : 1 ≤ R) (hodds : ∀ k (hk : k < Q.length), OddsAtMost (R ^ 2) s Q[k].1 (restDims Q k) b)
    (hnear : ((Q.length - 1 : Nat) : ℚ) * (R - 1) ≤ 9 / 10) (hR1' : 1 ≤ R')
    (hodds' : ∀ k (hk : k < Q.length), OddsAtMost (R' ^ 2) s Q[k].1 (restDims Q k) (raised S t b))
    (hnear' : ((Q.length - 1 : Nat) : ℚ) * (R' - 1) ≤ 9 / 10)
    (hsmall : pop * (4 * Q.length ^ 2 * (f + 2) + f + 1) ≤ 89000000)
    (hone : ∀ q ∈ Q, ∀ j, InRange (projSizes q.1 s) j → 1 ≤ q.2 j)
    {E : ℝ} (hE : E = (8 * Q.length + 4) * (22 / 10 ^ 9 + 13 / 10 ^ 15 * (Q.length * (f + 2)))) {r r' : IPF Fl}
    (hr : IPF.run false fp (numFl fp) (indicesOf (finProb Q)) (marginalsOf s (finProb Q)) (finArr s b) = .ok r)
    (hr' : IPF.run false fp (numFl fp) (indicesOf (finProb Q)) (marginalsOf s (finProb Q)) (finArr s (raised S t b)) = .ok r') :
    ∃ c c' : List Int → ℚ, r.micro.array = finArr s c ∧ r'.micro.array = finArr s c' ∧ E ≤ 1 ∧
      (1 - E) * totalOn s S (realTable c') ≤ (1 + E) * (t * totalOn s S (realTable c)) := by
  have hb0 : ∀ v, InRange s v → 0 < b v := fun v hv => hmo.lo_pos.trans_le (hmo.seed v hv).1
  have hb0' : ∀ v, InRange s v → 0 < raised S t b v := fun v hv => hmo'.lo_pos.trans_le (hmo'.seed v hv).1
  have hpopp : (0 : Int) < pop := by
    have : (0 : ℚ) < (pop : ℚ) := pop_pos h hmo.pos
    exact_mod_cast this
  obtain ⟨x, hx, -⟩ := C136_exists h hd hpopp hb0
  obtain ⟨x', hx', -⟩ := C136_exists h hd hpopp hb0'
  obtain ⟨c, h1, h2⟩ := C136_odds h hd hmo hfp hR1 hodds hnear hsmall hone hx hr
  obtain ⟨c', h1', h2'⟩ := C136_odds h hd hmo' hfp hR1' hodds' hnear' hsmall hone hx' hr'
  rw [← hE] at h2 h2'
  have hE0 : 0 ≤ E := by rw [hE]; positivity
  have hE1 : E ≤ 1 := by
    rw [hE]
    refine part_le_one h.lists ?_
    have g1 : (0 : Int) ≤ 4 * (Q.length : Int) ^ 2 * (f + 2) + f + 1 := by positivity
    have g2 : (4 * (Q.length : Int) ^ 2 * (f + 2) + f + 1) ≤ 89000000 := le_trans (le_mul_of_one_le_left g1 (by omega)) hsmall
    exact_mod_cast g2
  refine ⟨c, c', h1, h1', hE1, ?_⟩
  have key := C139_closest S ht hx hx'
  have up : totalOn s S (realTable c') ≤ (1 + E) * totalOn s S x' := by
    unfold totalOn
    rw [Finset.mul_sum]
    refine Finset.sum_le_sum fun v hv => ?_
    have := (abs_le.mp (h2' v (mem_cells.mp (Finset.mem_filter.mp hv).1))).2
    show (c' v : ℝ) ≤ _
    linarith
  have low : (1 - E) * totalOn s S x ≤ totalOn s S (realTable c) := by
    unfold totalOn
    rw [Finset.mul_sum]
    refine Finset.sum_le_sum fun v hv => ?_
    have := (abs_le.mp (h2 v (mem_cells.mp (Finset.mem_filter.mp hv).1))).1
    show _ ≤ (c v : ℝ)
    linarith
  have htR : (0 : ℝ) ≤ t := by
    have : 0 ≤ t := by linarith
    exact_mod_cast this
  have a1 := mul_le_mul_of_nonneg_left up (show 0 ≤ 1 - E by linarith)
  have a2 := mul_le_mul_of_nonneg_left key (mul_nonneg (show 0 ≤ 1 - E by linarith) (show 0 ≤ 1 + E by linarith))
  have a3 := mul_le_mul_of_nonneg_left low (mul_nonneg (show 0 ≤ 1 + E by linarith) htR)
  linarith

/-- **C139** in double precision, under the conditions of C136 for both seeds: up to the part `E` of C136 on either side, the total of the
cells in `S` is at most `t` times as large with the raised seed. -/
theorem C139_double {s : List Nat} {Q : Prob ℚ} {pop : Int} (h : RatOK s Q pop) (hd : (Q.map Prod.fst).flatten.Nodup) {b : List Int → ℚ}
    {lo hi ρ lo' hi' ρ' : ℚ} {f : Nat} (S : List Int → Bool) {t : ℚ} (ht : 1 < t) (hmo : Modest s Q pop b lo hi ρ f)
    (hmo' : Modest s Q pop (raised S t b) lo' hi' ρ' f) (hfp : fp.Good)
    (hspread : ((Q.length - 1 : Nat) : ℚ) * (hi - lo) ≤ 9 / 10 * lo) (hspread' : ((Q.length - 1 : Nat) : ℚ) * (hi' - lo') ≤ 9 / 10 * lo')
    (hsmall : pop * (4 * Q.length ^ 2 * (f + 2) + f + 1) ≤ 89000000)
    (hone : ∀ q ∈ Q, ∀ j, InRange (projSizes q.1 s) j → 1 ≤ q.2 j)
    {E : ℝ} (hE : E = (8 * Q.length + 4) * (22 / 10 ^ 9 + 13 / 10 ^ 15 * (Q.length * (f + 2)))) {r r' : IPF Fl}
    (hr : IPF.run false fp (numFl fp) (indicesOf (finProb Q)) (marginalsOf s (finProb Q)) (finArr s b) = .ok r)
    (hr' : IPF.run false fp (numFl fp) (indicesOf (finProb Q)) (marginalsOf s (finProb Q)) (finArr s (raised S t b)) = .ok r') :
    ∃ c c' : List Int → ℚ, r.micro.array = finArr s c ∧ r'.micro.array = finArr s c' ∧ E ≤ 1 ∧
      (1 - E) * totalOn s S (realTable c') ≤ (1 + E) * (t * totalOn s S (realTable c)) := by
  exact C139_odds h hd S ht hmo hmo' hfp ((one_le_div hmo.lo_pos).mpr hmo.seedOrder)
    (fun k hk => odds_of_spread hmo.lo_pos hmo.seed hmo.seedOrder _ _) (near_of_spread hmo.lo_pos hspread)
    ((one_le_div hmo'.lo_pos).mpr hmo'.seedOrder) (fun k hk => odds_of_spread hmo'.lo_pos hmo'.seed hmo'.seedOrder _ _)
    (near_of_spread hmo'.lo_pos hspread') hsmall hone hE hr hr'

/-! ### The hypotheses are met -/

/-- A million people in two by two categories, binary64: both calls run, and the cell raised by a quarter grows by at most a quarter and a part in
a million. -/
example (sqrt : Fl → Fl) : ∃ r r' c c', IPF.run false (FP.ieee sqrt) (numFl (FP.ieee sqrt)) (indicesOf (finProb (ratProb midProb)))
      (marginalsOf [2, 2] (finProb (ratProb midProb))) (finArr [2, 2] (fun _ => 1)) = .ok r ∧
      IPF.run false (FP.ieee sqrt) (numFl (FP.ieee sqrt)) (indicesOf (finProb (ratProb midProb)))
      (marginalsOf [2, 2] (finProb (ratProb midProb))) (finArr [2, 2] gentleSeed) = .ok r' ∧
      r.micro.array = finArr [2, 2] c ∧ r'.micro.array = finArr [2, 2] c' ∧
      (1 - (8 * ((ratProb midProb).length : ℝ) + 4) * (22 / 10 ^ 9 + 13 / 10 ^ 15 * ((ratProb midProb).length * ((2 : Nat) + 2)))) * (c' [0, 1] : ℝ) ≤
      (1 + (8 * ((ratProb midProb).length : ℝ) + 4) * (22 / 10 ^ 9 + 13 / 10 ^ 15 * ((ratProb midProb).length * ((2 : Nat) + 2)))) * (5 / 4 * (c [0, 1] : ℝ)) := by
  have hok := ratOK_ratProb midProb_ok
  obtain ⟨r0, h0, -, -⟩ := mid_run sqrt
  have hp : ProperProb [2, 2] (ratProb midProb) := by unfold ProperProb; decide
  obtain ⟨pop, n, hok', -⟩ := ipf_run (FP.ieee sqrt) (numFl (FP.ieee sqrt)) (minOK_fl _)
    (probShape_congr (fst_finProb (ratProb midProb)).symm hok.toProbShape) (properProb_fin hp) _
    (by rw [fin_ratProb]; exact h0)
  obtain ⟨r', hr'⟩ := ipf_run_ok (FP.ieee sqrt) (numFl (FP.ieee sqrt)) (minOK_fl _) hok' (properProb_fin hp) (fun v => .fin (gentleSeed v))
  obtain ⟨r, hr⟩ := ipf_run_ok (FP.ieee sqrt) (numFl (FP.ieee sqrt)) (minOK_fl _) hok' (properProb_fin hp) (fun _ => .fin 1)
  have hs1 : ((1 : Nat) : ℚ) * (5 / 4 - 1) ≤ 9 / 10 * 1 := by norm_num
  have hs2 : (1000000 : Int) * (4 * ((2 : Nat) : Int) ^ 2 * (((2 : Nat) : Int) + 2) + ((2 : Nat) : Int) + 1) ≤ 89000000 := by norm_num
  obtain ⟨c, c', h1, h2, -, h3⟩ := C139_double hok (by decide) (fun v => v = [0, 1]) (t := 5 / 4) (by norm_num) flat_modest
    (by rw [gentle_raised]; exact gentle_modest) (FP.ieee_good sqrt) hs1 hs1 hs2 mid_one rfl hr (by rw [gentle_raised]; exact hr')
  refine ⟨r, r', c, c', hr, hr', h1, h2, ?_⟩
  have one : ∀ y : List Int → ℝ, totalOn [2, 2] (fun v => v = [0, 1]) y = y [0, 1] := by
    intro y
    unfold totalOn
    rw [Finset.sum_filter]
    have hm : ([0, 1] : List Int) ∈ cells [2, 2] := by decide
    rw [Finset.sum_eq_single_of_mem _ hm (fun v _ hne => by simp [hne])]
    simp
  rw [one, one] at h3
  push_cast at h3
  exact_mod_cast h3

/-- The hypotheses of `C139_limit` are those of `C138_limit`, whose example is in `Props/IPFRaise.lean`; those of `C139_closest` are met
by the closest tables of a million people in two by two categories. -/
example : ∃ x x' : List Int → ℝ, IsClosest [2, 2] (ratProb midProb) (fun _ => 1) x ∧
    IsClosest [2, 2] (ratProb midProb) (raised (fun v => v = [0, 1]) (5 / 4) (fun _ => 1)) x' := by
  have hok := ratOK_ratProb midProb_ok
  obtain ⟨x, hx, -⟩ := C136_exists (b := fun _ => 1) hok (by decide) (by norm_num) (fun v _ => by norm_num)
  obtain ⟨x', hx', -⟩ := C136_exists (b := raised (fun v => v = [0, 1]) (5 / 4) (fun _ => 1)) hok (by decide) (by norm_num)
    (fun v _ => by unfold raised; split <;> norm_num)
  exact ⟨x, x', hx, hx'⟩

end HL

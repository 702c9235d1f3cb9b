import Verif.ClosestSpec
import Verif.Proof.IPFAccuracy
import Verif.Proof.QISIDisjoint
import Verif.Props.IPFClosest

/-
A run that nearly meets the marginals is near the closest table (for C136).
-/

namespace HL.Rate
open HL HL.Ent Filter Topology

variable {s : List Nat} {Q : Prob ℚ} {pop : Int}

/-- the closest table is the limit of the exact sweeps -/
theorem closest_limit (h : RatOK s Q pop) {b : List Int → ℚ} (hb : ∀ v, InRange s v → 0 ≤ b v) {x : List Int → ℝ} (hx : IsClosest s Q b x) :
    ∀ v, InRange s v → Tendsto (fun n => (((qsweep s Q)^[n] b v : ℚ) : ℝ)) atTop (𝓝 (x v)) := by
  have hbr : NonnegTable s (realTable b) := fun v h => Rat.cast_nonneg.mpr (hb v h)
  obtain ⟨x', hx0, hxm, hxb, hxl, hxq⟩ := exists_limit (real_ne_nil h.toProbShape) (dims_real h.toProbShape) hbr hx.nonneg
    (meets_real.mp hx.meets) hx.vanishes
  obtain ⟨h1, h2⟩ := hxq x hx.nonneg (meets_real.mp hx.meets) hx.vanishes
  have htot : total s x = total s x' := by rw [total_pop h hx.meets, total_pop h (meets_real.mpr hxm)]
  have h3 := hx.least x' hx0 (meets_real.mpr hxm) hxb
  have he := eq_of_sum_log_zero (cells s) (fun v hv => hx.nonneg v (mem_cells.mp hv)) (fun v hv => hx0 v (mem_cells.mp hv))
    (fun v hv => h1 v (mem_cells.mp hv)) htot (by unfold relEntropy at h2 h3; linarith)
  intro v hv
  rw [he v (mem_cells.mpr hv)]
  refine (hxl v hv).congr (fun n => ?_)
  rw [iterate_cast]
  rfl

theorem nr_of_tendsto {a : Nat → ℝ} {m : ℝ} (hm : 0 < m) (ha : Tendsto a atTop (𝓝 m)) {δ : ℝ} (hδ : 0 < δ) :
    ∀ᶠ n in atTop, Nr δ (a n) m := by
  have h1 : m < Real.exp δ * m := by
    have := Real.add_one_lt_exp hδ.ne'
    nlinarith
  have h2 : Real.exp (-δ) * m < m := by
    have : Real.exp (-δ) < Real.exp 0 := Real.exp_lt_exp.mpr (by linarith)
    rw [Real.exp_zero] at this
    nlinarith
  filter_upwards [ha.eventually (eventually_lt_nhds h1), ha.eventually (eventually_gt_nhds h2)] with n g1 g2
  refine ⟨g1.le, ?_⟩
  have := mul_le_mul_of_nonneg_left g2.le (Real.exp_pos δ).le
  rwa [← mul_assoc, ← Real.exp_add, add_neg_cancel, Real.exp_zero, one_mul] at this

/-- a table that is the seed times factors for the marginals, up to `β`, and meets the marginals up to `δ` -/
theorem closest_near_form (h : RatOK s Q pop) (hd : (Q.map Prod.fst).flatten.Nodup)
    (hm : ∀ q ∈ Q, ∀ j, InRange (projSizes q.1 s) j → 0 < q.2 j) {b : List Int → ℚ} (hb : ∀ v, InRange s v → 0 < b v) {ρ : ℚ} (hρ : 1 ≤ ρ)
    (hR : ∀ k (hk : k < Q.length), OddsAtMost (ρ ^ 2) s Q[k].1 (others Q k) b) {lam : ℝ}
    (hlam : ((Q.length - 1 : Nat) : ℝ) * (((ρ : ℝ) - 1) / ((ρ : ℝ) + 1)) = lam) (hl1 : lam < 1) {x : List Int → ℝ} (hx : IsClosest s Q b x)
    {y : List Int → ℝ} {g : Nat → List Int → ℝ} {β δ : ℝ} (hy : ∀ v, InRange s v → 0 < y v)
    (hg : ∀ k < Q.length, ∀ j, InRange (projSizes (stepQ Q k).1 s) j → 0 < g k j) (hβ : 0 ≤ β) (hδ : 0 ≤ δ)
    (hyb : ∀ v, InRange s v → Nr β (y v) ((b v : ℝ) * ∏ k ∈ Finset.range Q.length, g k (proj (stepQ Q k).1 v)))
    (hym : ∀ q ∈ Q, ∀ j, InRange (projSizes q.1 s) j → Nr δ (marginalSum s q.1 y j) (q.2 j : ℝ)) {v : List Int} (hv : InRange s v) :
    Nr (Q.length * (2 * (β + δ) / (1 - lam)) + 2 * β + δ) (y v) (x v) := by
  have hK := h.lists
  have hs : Splits s Q := splits_of_disjoint rfl h.toProbShape hd
  have hl : 0 < 1 - lam := by linarith
  have hlim := closest_limit h (fun v hv => (hb v hv).le) hx
  obtain ⟨q0, hq0⟩ : ∃ q, q ∈ Q := List.exists_mem_of_ne_nil Q (by rintro rfl; simp at hK)
  have hT0 : (0 : ℚ) < (pop : ℚ) := by
    rw [← h.total q0 hq0]
    exact Finset.sum_pos (fun j hj => hm q0 hq0 j (mem_cells.mp hj))
      ⟨proj q0.1 v, mem_cells.mpr (inRange_proj (dims_lt hs _ hq0) hv)⟩
  -- the margins of the sweeps
  have hmarg : ∀ δ' > 0, ∀ᶠ n in atTop, ∀ q ∈ Q, ∀ j, InRange (projSizes q.1 s) j →
      Nr δ' (marginalSum s q.1 (fun v => (((qsweep s Q)^[n] b v : ℚ) : ℝ)) j) (q.2 j : ℝ) := by
    intro δ' hδ'
    have h1 : ∀ q ∈ Q, ∀ j ∈ cells (projSizes q.1 s), ∀ᶠ n in atTop,
        Nr δ' (marginalSum s q.1 (fun v => (((qsweep s Q)^[n] b v : ℚ) : ℝ)) j) (q.2 j : ℝ) := by
      intro q hq j hj
      have hj := mem_cells.mp hj
      refine nr_of_tendsto (by exact_mod_cast hm q hq j hj) ?_ hδ'
      rw [← hx.meets q hq j hj]
      unfold marginalSum
      exact tendsto_finsetSum _ fun w hw => hlim w (mem_cells.mp (Finset.mem_filter.mp hw).1)
    have h2 : ∀ q ∈ Q, ∀ᶠ n in atTop, ∀ j ∈ cells (projSizes q.1 s),
        Nr δ' (marginalSum s q.1 (fun v => (((qsweep s Q)^[n] b v : ℚ) : ℝ)) j) (q.2 j : ℝ) := fun q hq =>
      (Filter.eventually_all_finset _).mpr (h1 q hq)
    have h3 : ∀ᶠ n in atTop, ∀ q ∈ {q | q ∈ Q}, ∀ j ∈ cells (projSizes q.1 s),
        Nr δ' (marginalSum s q.1 (fun v => (((qsweep s Q)^[n] b v : ℚ) : ℝ)) j) (q.2 j : ℝ) :=
      (Filter.eventually_all_finite (List.finite_toSet Q)).mpr h2
    filter_upwards [h3] with n hn q hq j hj
    exact hn q hq j (mem_cells.mpr hj)
  have hclose : ∀ δ' > 0, Nr (Q.length * (2 * (β + δ + δ') / (1 - lam)) + 2 * β + δ + δ') (y v) (x v) := by
    intro δ' hδ'
    have hev : ∀ᶠ n in atTop, Nr (Q.length * (2 * (β + δ + δ') / (1 - lam)) + 2 * β + δ + δ') (y v)
        (((qsweep s Q)^[n] b v : ℚ) : ℝ) := by
      filter_upwards [hmarg δ' hδ'] with n hn
      have hz := steps_run hs hK hm hb hR (n * Q.length)
      have hzf := fun v hv => run_form hs hK h.pos hm hz (v := v) hv
      simp only [mul_zero, steps_sweep] at hzf
      have htied : ∀ v, InRange s v → Nr β (y v) ((((qsweep s Q)^[n] b v : ℚ) : ℝ) * ∏ k ∈ Finset.range Q.length,
          (g k (proj (stepQ Q k).1 v) / runFac s Q (fun i v => ((steps s Q b i v : ℚ) : ℝ)) (n * Q.length) k (proj (stepQ Q k).1 v))) := by
        intro v hv
        have hr : ∀ k, InRange (projSizes (stepQ Q k).1 s) (proj (stepQ Q k).1 v) := fun k =>
          inRange_proj (dims_lt hs _ (stepQ_mem (by omega) k)) hv
        have p1 : 0 < ∏ k ∈ Finset.range Q.length, g k (proj (stepQ Q k).1 v) :=
          Finset.prod_pos fun k hk => hg k (Finset.mem_range.mp hk) _ (hr k)
        have p2 : 0 < ∏ k ∈ Finset.range Q.length,
            runFac s Q (fun i v => ((steps s Q b i v : ℚ) : ℝ)) (n * Q.length) k (proj (stepQ Q k).1 v) :=
          Finset.prod_pos fun k _ => runFac_pos hs hK h.pos hm hz (hr k)
        have h2 := hzf v hv
        rw [Finset.prod_div_distrib]
        set A := ∏ k ∈ Finset.range Q.length, g k (proj (stepQ Q k).1 v)
        set B := ∏ k ∈ Finset.range Q.length,
            runFac s Q (fun i v => ((steps s Q b i v : ℚ) : ℝ)) (n * Q.length) k (proj (stepQ Q k).1 v)
        have h3 := h2.symm.mul_right (div_pos p1 p2).le
        have e : ((steps s Q b 0 v : ℚ) : ℝ) * B * (A / B) = (b v : ℝ) * A := by
          change (b v : ℝ) * B * (A / B) = _
          field_simp
        rw [e] at h3
        have := (hyb v hv).trans h3
        rwa [add_zero] at this
      have hzp := hz.pos _ le_rfl
      have hzo := hz.odds _ le_rfl
      simp only [steps_sweep] at hzp hzo
      exact static_near hs hK h.pos hm h.total hT0 hy hzp
        (g := fun k j => g k j / runFac s Q (fun i v => ((steps s Q b i v : ℚ) : ℝ)) (n * Q.length) k j)
        (fun k hk j hj => div_pos (hg k hk j hj) (runFac_pos hs hK h.pos hm hz hj))
        hβ hδ hδ'.le htied hym hn hzo (by exact_mod_cast hρ) hlam hl1 hv
    constructor
    · exact ge_of_tendsto ((hlim v hv).const_mul _) (hev.mono fun n hn => hn.1)
    · exact le_of_tendsto (hlim v hv) (hev.mono fun n hn => hn.2)
  -- and the margin of the sweeps vanishes
  have hcont : Tendsto (fun δ' : ℝ => Real.exp (Q.length * (2 * (β + δ + δ') / (1 - lam)) + 2 * β + δ + δ')) (𝓝[>] 0)
      (𝓝 (Real.exp (Q.length * (2 * (β + δ) / (1 - lam)) + 2 * β + δ))) := by
    have hc : Continuous (fun δ' : ℝ => Real.exp (Q.length * (2 * (β + δ + δ') / (1 - lam)) + 2 * β + δ + δ')) := by fun_prop
    have := hc.tendsto 0
    simp only [add_zero] at this
    exact this.mono_left nhdsWithin_le_nhds
  constructor
  · refine ge_of_tendsto (hcont.mul_const (x v)) ?_
    filter_upwards [self_mem_nhdsWithin] with δ' hδ'
    exact (hclose δ' hδ').1
  · refine ge_of_tendsto (hcont.mul_const (y v)) ?_
    filter_upwards [self_mem_nhdsWithin] with δ' hδ'
    exact (hclose δ' hδ').2

theorem closest_near (h : RatOK s Q pop) (hd : (Q.map Prod.fst).flatten.Nodup)
    (hm : ∀ q ∈ Q, ∀ j, InRange (projSizes q.1 s) j → 0 < q.2 j) {b : List Int → ℚ} (hb : ∀ v, InRange s v → 0 < b v) {ρ : ℚ} (hρ : 1 ≤ ρ)
    (hR : ∀ k (hk : k < Q.length), OddsAtMost (ρ ^ 2) s Q[k].1 (others Q k) b) {lam : ℝ}
    (hlam : ((Q.length - 1 : Nat) : ℝ) * (((ρ : ℝ) - 1) / ((ρ : ℝ) + 1)) = lam) (hl1 : lam < 1) {x : List Int → ℝ} (hx : IsClosest s Q b x)
    {y : Nat → List Int → ℝ} {N : Nat} {ε ρ' δ : ℝ} (hy : NearRun s Q y N ε ρ') (hε : 0 ≤ ε) (hδ : 0 ≤ δ)
    (h0 : ∀ v, InRange s v → y 0 v = (b v : ℝ))
    (hym : ∀ q ∈ Q, ∀ j, InRange (projSizes q.1 s) j → Nr δ (marginalSum s q.1 (y N) j) (q.2 j : ℝ)) {v : List Int} (hv : InRange s v) :
    Nr (Q.length * (2 * (N * ε + δ) / (1 - lam)) + 2 * (N * ε) + δ) (y N v) (x v) := by
  have hK := h.lists
  have hs : Splits s Q := splits_of_disjoint rfl h.toProbShape hd
  refine closest_near_form h hd hm hb hρ hR hlam hl1 hx (g := fun k j => runFac s Q y N k j) (hy.pos N le_rfl)
    (fun k _ j hj => runFac_pos hs hK h.pos hm hy hj) (by positivity) hδ (fun v hv => ?_) hym hv
  rw [← h0 v hv]
  exact run_form hs hK h.pos hm hy hv

end HL.Rate

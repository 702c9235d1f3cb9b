import Verif.Proof.EntropySweep
import Mathlib.Topology.Order.MonotoneConvergence
import Mathlib.Topology.MetricSpace.Sequences
import Mathlib.Topology.MetricSpace.Bounded
import Mathlib.Topology.Metrizable.Basic

/-
Repeated sweeps converge to the solution that is closest to the seed.
-/

namespace HL.Ent
open Real Filter Topology

variable {s : List Nat} {t b : List Int → ℝ} {R : Prob ℝ}

theorem devs_tend (hR : R ≠ []) (hd : DimsOK s R) (hb : NonnegTable s b) (ht : NonnegTable s t) (hm : Meets s R t)
    (hv : VanishesWith s t b) (hT : 0 < total s t) {q : List Nat × (List Int → ℝ)} (hq : q ∈ R) {j : List Int}
    (hj : InRange (projSizes q.1 s) j) :
    Tendsto (fun n => marginalSum s q.1 ((rsweep s R)^[n] b) j) atTop (𝓝 (q.2 j)) := by
  have hD : Antitone (fun n => relEntropy s t ((rsweep s R)^[n + 1] b)) :=
    antitone_nat_of_succ_le (fun n => iterate_antitone hR hd hb ht hm hv hT (by omega))
  have hbdd : BddBelow (Set.range (fun n => relEntropy s t ((rsweep s R)^[n + 1] b))) := by
    refine ⟨0, ?_⟩
    rintro _ ⟨n, rfl⟩
    obtain ⟨h2, h3⟩ := iterate_keeps hd hb ht hm hv (n + 1)
    exact entropy_nonneg ht h2 h3 (iterate_total hR hd hb ht hm hv (by omega)).symm
  have hl := tendsto_atTop_ciInf hD hbdd
  have hl' := hl.comp (tendsto_add_atTop_nat 1)
  have hg : Tendsto (fun n => 4 * total s t * R.length * (relEntropy s t ((rsweep s R)^[n + 1] b) -
      relEntropy s t ((rsweep s R)^[n + 1 + 1] b))) atTop (𝓝 0) := by
    have := (hl.sub hl').const_mul (4 * total s t * (R.length : ℝ))
    rw [sub_self, mul_zero] at this
    exact this
  have hsq : Tendsto (fun n => |marginalSum s q.1 ((rsweep s R)^[n + 1] b) j - q.2 j| ^ 2) atTop (𝓝 0) := by
    refine squeeze_zero (fun n => sq_nonneg _) (fun n => ?_) hg
    obtain ⟨h2, h3⟩ := iterate_keeps hd hb ht hm hv (n + 1)
    obtain ⟨δ, hδ0, hδ, -, hδq⟩ := sweep_gain ht R hd hm h2 h3 (iterate_total hR hd hb ht hm hv (by omega))
    rw [← Function.iterate_succ_apply' (rsweep s R)] at hδ
    exact (pow_le_pow_left₀ (abs_nonneg _) (hδq q hq j hj) 2).trans hδ
  have habs : Tendsto (fun n => |marginalSum s q.1 ((rsweep s R)^[n + 1] b) j - q.2 j|) atTop (𝓝 0) := by
    have := hsq.sqrt
    simp only [Real.sqrt_sq_eq_abs, abs_abs, Real.sqrt_zero] at this
    exact this
  rw [← tendsto_add_atTop_iff_nat 1]
  have h5 := (tendsto_zero_iff_abs_tendsto_zero _).mpr habs
  have h6 := h5.add_const (q.2 j)
  simpa using h6

theorem relEntropy_congr {t t' c c' : List Int → ℝ} (h : ∀ v, InRange s v → t v = t' v) (h' : ∀ v, InRange s v → c v = c' v) :
    relEntropy s t c = relEntropy s t' c' :=
  Finset.sum_congr rfl (fun v hv => by rw [h v (mem_cells.mp hv), h' v (mem_cells.mp hv)])

/-- entropy is continuous in its second argument where it is finite -/
theorem entropy_tend {x c : List Int → ℝ} {X : Nat → List Int → ℝ} {φ : Nat → Nat}
    (hX : ∀ v, InRange s v → Tendsto (fun n => X (φ n) v) atTop (𝓝 (c v))) (hxc : VanishesWith s x c) :
    Tendsto (fun n => relEntropy s x (X (φ n))) atTop (𝓝 (relEntropy s x c)) := by
  unfold relEntropy
  apply tendsto_finsetSum
  intro v hv
  rw [mem_cells] at hv
  by_cases h0 : x v = 0
  · simp [h0]
  · have hc : c v ≠ 0 := fun e => h0 (hxc v hv e)
    have h1 : Tendsto (fun n => x v / X (φ n) v) atTop (𝓝 (x v / c v)) := tendsto_const_nhds.div (hX v hv) hc
    exact (h1.log (div_ne_zero h0 hc)).const_mul _

theorem iterate_zero_mono {v : List Int} {n m : Nat} (hnm : n ≤ m) (h : (rsweep s R)^[n] b v = 0) : (rsweep s R)^[m] b v = 0 := by
  induction m, hnm using Nat.le_induction with
  | base => exact h
  | succ m _ ih => rw [Function.iterate_succ_apply']; exact rsweep_zero R ih

/-- **the limit**: when some solution exists that vanishes with the seed, the sweeps converge to the one closest to the seed -/
theorem exists_limit_pos (hR : R ≠ []) (hd : DimsOK s R) (hb : NonnegTable s b) (ht : NonnegTable s t) (hm : Meets s R t)
    (hv : VanishesWith s t b) (hT : 0 < total s t) :
    ∃ x : List Int → ℝ, NonnegTable s x ∧ Meets s R x ∧ VanishesWith s x b ∧
      (∀ v, InRange s v → Tendsto (fun n => (rsweep s R)^[n] b v) atTop (𝓝 (x v))) ∧
      ∀ q, NonnegTable s q → Meets s R q → VanishesWith s q b →
        VanishesWith s q x ∧ relEntropy s q b = relEntropy s q x + relEntropy s x b := by
  classical
  set X := fun n => (rsweep s R)^[n] b with hX
  have hnn : ∀ n, NonnegTable s (X n) := fun n => (iterate_keeps hd hb ht hm hv n).1
  -- a subsequence converges
  let Y : Nat → List Int → ℝ := fun n v => if v ∈ cells s then X (n + 1) v else 0
  have hY : ∀ n, Y n ∈ Set.pi Set.univ (fun _ : List Int => Set.Icc (0 : ℝ) (total s t)) := by
    intro n v _
    show (if v ∈ cells s then X (n + 1) v else 0) ∈ Set.Icc (0 : ℝ) (total s t)
    by_cases h : v ∈ cells s
    · rw [if_pos h]
      refine ⟨hnn _ v (mem_cells.mp h), ?_⟩
      rw [← iterate_total hR hd hb ht hm hv (n := n + 1) (by omega)]
      exact Finset.single_le_sum (f := X (n + 1)) (fun w hw => hnn _ w (mem_cells.mp hw)) h
    · rw [if_neg h]; exact ⟨le_rfl, hT.le⟩
  have hcomp : IsCompact (Set.pi Set.univ (fun _ : List Int => Set.Icc (0 : ℝ) (total s t))) :=
    isCompact_univ_pi (fun _ => isCompact_Icc)
  obtain ⟨x, -, φ, hφ, hlim⟩ := hcomp.tendsto_subseq hY
  have hsub : ∀ v, InRange s v → Tendsto (fun n => X (φ n + 1) v) atTop (𝓝 (x v)) := by
    intro v h
    have h1 := (tendsto_pi_nhds.mp hlim) v
    refine h1.congr (fun n => ?_)
    show (if v ∈ cells s then X (φ n + 1) v else 0) = _
    rw [if_pos (mem_cells.mpr h)]
  -- it is a solution
  have hx0 : NonnegTable s x := fun v h => ge_of_tendsto' (hsub v h) (fun n => hnn _ v h)
  have hφt : Tendsto (fun n => φ n + 1) atTop atTop := (tendsto_add_atTop_nat 1).comp hφ.tendsto_atTop
  have hxm : Meets s R x := by
    intro q hq j hj
    have h1 := (devs_tend hR hd hb ht hm hv hT hq hj).comp hφt
    have h2 : Tendsto (fun n => marginalSum s q.1 (X (φ n + 1)) j) atTop (𝓝 (marginalSum s q.1 x j)) := by
      unfold marginalSum
      exact tendsto_finsetSum _ (fun v hv => hsub v (mem_cells.mp (Finset.mem_filter.mp hv).1))
    exact tendsto_nhds_unique h2 h1
  have hxX : ∀ n, VanishesWith s x (X n) := by
    intro n v h h0
    have h1 : Tendsto (fun n => X (φ n + 1) v) atTop (𝓝 0) := by
      apply tendsto_const_nhds.congr'
      filter_upwards [hφt.eventually_ge_atTop n] with k hk
      exact (iterate_zero_mono hk h0).symm
    exact tendsto_nhds_unique (hsub v h) h1
  have hxb : VanishesWith s x b := hxX 0
  have hxT : total s x = total s t := by
    obtain ⟨q, hq⟩ : ∃ q, q ∈ R := List.exists_mem_of_ne_nil R hR
    exact total_eq (hd q hq) (fun j hj => by rw [hxm q hq j hj, hm q hq j hj])
  have hxTpos : 0 < total s x := hxT ▸ hT
  -- its distance goes to zero
  have hDsub : Tendsto (fun n => relEntropy s x (X (φ n + 1))) atTop (𝓝 0) := by
    have h1 := entropy_tend (s := s) (x := x) (c := x) (X := X) (φ := fun n => φ n + 1) hsub (fun v _ h => h)
    have h2 : relEntropy s x x = 0 := by
      unfold relEntropy
      apply Finset.sum_eq_zero
      intro v _
      by_cases h : x v = 0
      · simp [h]
      · rw [div_self h]; simp
    rwa [h2] at h1
  have hanti : Antitone (fun n => relEntropy s x (X (n + 1))) :=
    antitone_nat_of_succ_le (fun n => iterate_antitone hR hd hb hx0 hxm hxb hxTpos (by omega))
  have hpos : ∀ n, 0 ≤ relEntropy s x (X (n + 1)) := fun n =>
    entropy_nonneg hx0 (hnn _) (hxX _) (iterate_total hR hd hb hx0 hxm hxb (by omega)).symm
  have hDlim : Tendsto (fun n => relEntropy s x (X (n + 1))) atTop (𝓝 0) := by
    have hbdd : BddBelow (Set.range (fun n => relEntropy s x (X (n + 1)))) := ⟨0, by rintro _ ⟨n, rfl⟩; exact hpos n⟩
    have h1 := tendsto_atTop_ciInf hanti hbdd
    have h2 := h1.comp hφ.tendsto_atTop
    rw [tendsto_nhds_unique h2 hDsub] at h1
    exact h1
  have hconv : ∀ v, InRange s v → Tendsto (fun n => X n v) atTop (𝓝 (x v)) := by
    intro v h
    rw [← tendsto_add_atTop_iff_nat 1]
    have h1 : Tendsto (fun n => (X (n + 1) v - x v) ^ 2) atTop (𝓝 0) := by
      have h2 := hDlim.const_mul (4 * total s x)
      rw [mul_zero] at h2
      refine squeeze_zero (fun n => sq_nonneg _) (fun n => ?_) h2
      have h3 := sq_sum_abs_le (cells s) (p := x) (r := X (n + 1)) (fun v hv => hx0 v (mem_cells.mp hv))
        (fun v hv => hnn _ v (mem_cells.mp hv)) (fun v hv => hxX _ v (mem_cells.mp hv)) (T := total s x) rfl
        (iterate_total hR hd hb hx0 hxm hxb (by omega))
      refine le_trans ?_ h3
      rw [← sq_abs, abs_sub_comm]
      exact pow_le_pow_left₀ (abs_nonneg _) (Finset.single_le_sum (f := fun v => |x v - X (n + 1) v|)
        (fun _ _ => abs_nonneg _) (mem_cells.mpr h)) 2
    have h4 := h1.sqrt
    simp only [Real.sqrt_sq_eq_abs, Real.sqrt_zero] at h4
    have h5 := ((tendsto_zero_iff_abs_tendsto_zero _).mpr h4).add_const (x v)
    simpa using h5
  refine ⟨x, hx0, hxm, hxb, hconv, ?_⟩
  intro q hq0 hqm hqb
  -- the distance of `q`
  have hqe : ∀ n, relEntropy s q (X n) = relEntropy s q b - relEntropy s x b + relEntropy s x (X n) := by
    intro n
    have := iterate_gain hd hb hq0 hqm hqb hx0 hxm hxb n
    show relEntropy s q ((rsweep s R)^[n] b) = _
    linarith
  have hqlim : Tendsto (fun n => relEntropy s q (X (n + 1))) atTop (𝓝 (relEntropy s q b - relEntropy s x b)) := by
    have := hDlim.const_add (relEntropy s q b - relEntropy s x b)
    rw [add_zero] at this
    exact this.congr (fun n => (hqe _).symm)
  have hqX : ∀ n, VanishesWith s q (X n) := fun n => (iterate_keeps hd hb hq0 hqm hqb n).2
  have hqx : VanishesWith s q x := by
    intro v h h0
    by_contra hne
    have hqv : 0 < q v := lt_of_le_of_ne (hq0 v h) (Ne.symm hne)
    -- the term of `v` is unbounded, the others are bounded below
    have h1 : ∀ n, q v * log (q v / X (n + 1) v) ≤ relEntropy s q (X (n + 1)) + total s t := by
      intro n
      have h2 : relEntropy s q (X (n + 1)) = q v * log (q v / X (n + 1) v) +
          ∑ w ∈ (cells s).erase v, q w * log (q w / X (n + 1) w) := (Finset.add_sum_erase _ _ (mem_cells.mpr h)).symm
      have h3 := sum_log_ge ((cells s).erase v) (p := q) (r := X (n + 1))
        (fun w hw => hq0 w (mem_cells.mp (Finset.mem_of_mem_erase hw)))
        (fun w hw => hnn _ w (mem_cells.mp (Finset.mem_of_mem_erase hw)))
        (fun w hw => hqX _ w (mem_cells.mp (Finset.mem_of_mem_erase hw)))
      have h4 : 0 ≤ ∑ w ∈ (cells s).erase v, (√(q w) - √(X (n + 1) w)) ^ 2 := Finset.sum_nonneg (fun _ _ => sq_nonneg _)
      have h5 : 0 ≤ ∑ w ∈ (cells s).erase v, q w :=
        Finset.sum_nonneg (fun w hw => hq0 w (mem_cells.mp (Finset.mem_of_mem_erase hw)))
      have h6 : ∑ w ∈ (cells s).erase v, X (n + 1) w ≤ total s t := by
        rw [← iterate_total hR hd hb ht hm hv (n := n + 1) (by omega)]
        exact Finset.sum_le_sum_of_subset_of_nonneg (Finset.erase_subset _ _) (fun w hw _ => hnn _ w (mem_cells.mp hw))
      linarith
    have h7 : Tendsto (fun n => X (n + 1) v) atTop (𝓝[>] 0) := by
      have h8 := (hconv v h).comp (tendsto_add_atTop_nat 1)
      rw [h0] at h8
      apply tendsto_nhdsWithin_iff.mpr
      refine ⟨h8, Eventually.of_forall (fun n => ?_)⟩
      exact lt_of_le_of_ne (hnn _ v h) (fun e => hne (hqX _ v h e.symm))
    have h9 : Tendsto (fun n => q v * log (q v / X (n + 1) v)) atTop atTop := by
      apply Tendsto.const_mul_atTop hqv
      apply Real.tendsto_log_atTop.comp
      have h10 : Tendsto (fun n => (X (n + 1) v)⁻¹) atTop atTop := tendsto_inv_nhdsGT_zero.comp h7
      exact (h10.const_mul_atTop hqv).congr (fun n => (div_eq_mul_inv _ _).symm)
    have h11 : Tendsto (fun n => relEntropy s q (X (n + 1)) + total s t) atTop atTop := tendsto_atTop_mono h1 h9
    exact not_tendsto_nhds_of_tendsto_atTop h11 _ (hqlim.add_const _)
  refine ⟨hqx, ?_⟩
  have h1 := entropy_tend (s := s) (x := q) (c := x) (X := X) (φ := fun n => n + 1)
    (fun v h => (hconv v h).comp (tendsto_add_atTop_nat 1)) hqx
  have := tendsto_nhds_unique h1 hqlim
  linarith

theorem zero_of_total (ht : NonnegTable s t) (h : total s t = 0) : ∀ v, InRange s v → t v = 0 := fun v hv =>
  (Finset.sum_eq_zero_iff_of_nonneg (fun v hv => ht v (mem_cells.mp hv))).mp h v (mem_cells.mpr hv)

theorem exists_limit (hR : R ≠ []) (hd : DimsOK s R) (hb : NonnegTable s b) (ht : NonnegTable s t) (hm : Meets s R t)
    (hv : VanishesWith s t b) :
    ∃ x : List Int → ℝ, NonnegTable s x ∧ Meets s R x ∧ VanishesWith s x b ∧
      (∀ v, InRange s v → Tendsto (fun n => (rsweep s R)^[n] b v) atTop (𝓝 (x v))) ∧
      ∀ q, NonnegTable s q → Meets s R q → VanishesWith s q b →
        VanishesWith s q x ∧ relEntropy s q b = relEntropy s q x + relEntropy s x b := by
  have h0 : 0 ≤ total s t := Finset.sum_nonneg (fun v hv => ht v (mem_cells.mp hv))
  rcases h0.lt_or_eq with hT | hT
  · exact exists_limit_pos hR hd hb ht hm hv hT
  · have hz : ∀ c, NonnegTable s c → total s c = total s t → ∀ v, InRange s v → c v = 0 := fun c hc he =>
      zero_of_total hc (he.trans hT.symm)
    refine ⟨t, ht, hm, hv, ?_, ?_⟩
    · intro v h
      rw [hz t ht rfl v h, ← tendsto_add_atTop_iff_nat 1]
      apply tendsto_const_nhds.congr
      intro n
      exact (hz _ (iterate_keeps hd hb ht hm hv (n + 1)).1 (iterate_total hR hd hb ht hm hv (by omega)) v h).symm
    · intro q hq0 hqm hqb
      obtain ⟨p, hp⟩ : ∃ p, p ∈ R := List.exists_mem_of_ne_nil R hR
      have hq := hz q hq0 (total_eq (hd p hp) (fun j hj => by rw [hqm p hp j hj, hm p hp j hj]))
      refine ⟨fun v h _ => hq v h, ?_⟩
      have hze : ∀ (f c : List Int → ℝ), (∀ v, InRange s v → f v = 0) → relEntropy s f c = 0 := fun f c hf =>
        Finset.sum_eq_zero (fun v hv => by rw [hf v (mem_cells.mp hv), zero_mul])
      rw [hze q b hq, hze q t hq, hze t b (hz t ht rfl), add_zero]

end HL.Ent

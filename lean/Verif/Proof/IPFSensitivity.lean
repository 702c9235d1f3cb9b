import Verif.Proof.IPFAccuracyLimit

/-
Tables of nearby problems (for C137).
-/

namespace HL.Rate
open HL HL.Ent Filter Topology

variable {s : List Nat} {Q Q' : Prob ℚ} {pop pop' : Int}

/-- a positive seed has some bound on its cross-product ratios -/
theorem some_odds {b : List Int → ℚ} (hb : ∀ v, InRange s v → 0 < b v) :
    ∃ ρ : ℚ, ∀ ds es, OddsAtMost (ρ ^ 2) s ds es b := by
  obtain ⟨M, hM⟩ := Finset.exists_le ((cells s ×ˢ cells s ×ˢ cells s ×ˢ cells s).image
    (fun p => b p.1 * b p.2.1 / (b p.2.2.1 * b p.2.2.2)))
  refine ⟨max M 1, fun ds es v v' w w' hv hv' hw hw' _ _ _ _ => ?_⟩
  have h1 := hM _ (Finset.mem_image_of_mem _ (show (v, v', w, w') ∈ cells s ×ˢ cells s ×ˢ cells s ×ˢ cells s by
    simp only [Finset.mem_product, mem_cells]; exact ⟨hv, hv', hw, hw'⟩))
  have hp := mul_pos (hb w hw) (hb w' hw')
  have h2 : b v * b v' / (b w * b w') ≤ M := h1
  rw [div_le_iff₀ hp] at h2
  have h3 : M ≤ max M 1 ^ 2 := by
    have g1 := le_max_left M 1
    have g2 := le_max_right M 1
    nlinarith
  exact h2.trans (mul_le_mul_of_nonneg_right h3 hp.le)

/-- the marginals of one problem against those of another over the same dimensions -/
theorem dims_same (hdim : Q'.map Prod.fst = Q.map Prod.fst) : Q'.length = Q.length := by
  simpa using congrArg List.length hdim

theorem stepQ_same (hK : 0 < Q.length) (hdim : Q'.map Prod.fst = Q.map Prod.fst) (k : Nat) : (stepQ Q' k).1 = (stepQ Q k).1 := by
  have hl := dims_same hdim
  rw [stepQ_eq hK, stepQ_eq (by omega)]
  have hk : k % Q.length < Q.length := Nat.mod_lt _ hK
  have h1 : (Q'.map Prod.fst)[k % Q.length]'(by simp; omega) = (Q.map Prod.fst)[k % Q.length]'(by simpa using hk) := by
    simp only [hdim]
  simp only [List.getElem_map] at h1
  rw [← h1]
  simp only [hl]

theorem near_same {δ δ' : ℝ} (hdim : Q'.map Prod.fst = Q.map Prod.fst)
    (hm : ∀ k (hk : k < Q.length) (hk' : k < Q'.length), ∀ j, InRange (projSizes Q[k].1 s) j → Nr δ (Q'[k].2 j : ℝ) (Q[k].2 j : ℝ))
    {y : List Int → ℝ} (hy : ∀ q ∈ Q', ∀ j, InRange (projSizes q.1 s) j → Nr δ' (marginalSum s q.1 y j) (q.2 j : ℝ)) :
    ∀ q ∈ Q, ∀ j, InRange (projSizes q.1 s) j → Nr (δ' + δ) (marginalSum s q.1 y j) (q.2 j : ℝ) := by
  have hl := dims_same hdim
  intro q hq j hj
  obtain ⟨k, hk, rfl⟩ := List.getElem_of_mem hq
  have hk' : k < Q'.length := by omega
  have e : Q'[k].1 = Q[k].1 := by
    have h1 : (Q'.map Prod.fst)[k]'(by simpa using hk') = (Q.map Prod.fst)[k]'(by simpa using hk) := by simp only [hdim]
    simpa using h1
  have h2 := hy Q'[k] (List.getElem_mem _) j (by rw [e]; exact hj)
  rw [e] at h2
  exact h2.trans (hm k hk hk' j hj)

section
variable (h : RatOK s Q pop) (hd : (Q.map Prod.fst).flatten.Nodup)
    (hm : ∀ q ∈ Q, ∀ j, InRange (projSizes q.1 s) j → 0 < q.2 j) {b : List Int → ℚ} (hb : ∀ v, InRange s v → 0 < b v) {ρ : ℚ} (hρ : 1 ≤ ρ)
    (hR : ∀ k (hk : k < Q.length), OddsAtMost (ρ ^ 2) s Q[k].1 (others Q k) b) {lam : ℝ}
    (hlam : ((Q.length - 1 : Nat) : ℝ) * (((ρ : ℝ) - 1) / ((ρ : ℝ) + 1)) = lam) (hl1 : lam < 1) {x : List Int → ℝ} (hx : IsClosest s Q b x)
    (h' : RatOK s Q' pop') (hdim : Q'.map Prod.fst = Q.map Prod.fst)
    (hm' : ∀ q ∈ Q', ∀ j, InRange (projSizes q.1 s) j → 0 < q.2 j) {b' : List Int → ℚ} (hb' : ∀ v, InRange s v → 0 < b' v) {β δ : ℝ}
    (hβ : 0 ≤ β) (hδ : 0 ≤ δ) (hbb : ∀ v, InRange s v → Nr β (b' v : ℝ) (b v : ℝ))
    (hmm : ∀ k (hk : k < Q.length) (hk' : k < Q'.length), ∀ j, InRange (projSizes Q[k].1 s) j → Nr δ (Q'[k].2 j : ℝ) (Q[k].2 j : ℝ))
include h hd hm hb hρ hR hlam hl1 hx h' hdim hm' hb' hβ hδ hbb hmm

/-- a sweep of the other problem that nearly meets its marginals -/
theorem sweep_near {n : Nat} {δ' : ℝ} (hδ' : 0 ≤ δ')
    (hn : ∀ q ∈ Q', ∀ j, InRange (projSizes q.1 s) j →
      Nr δ' (marginalSum s q.1 (fun v => (((qsweep s Q')^[n] b' v : ℚ) : ℝ)) j) (q.2 j : ℝ)) {v : List Int} (hv : InRange s v) :
    Nr (Q.length * (2 * (β + (δ' + δ)) / (1 - lam)) + 2 * β + (δ' + δ)) (((qsweep s Q')^[n] b' v : ℚ) : ℝ) (x v) := by
  have hK := h.lists
  have hK' := h'.lists
  have hl := dims_same hdim
  have hs' : Splits s Q' := splits_of_disjoint rfl h'.toProbShape (by rw [hdim]; exact hd)
  obtain ⟨ρ', hρ'⟩ := some_odds hb'
  have hz := steps_run hs' hK' hm' hb' (ρ := ρ') (fun k hk => hρ' _ _) (n * Q'.length)
  have hzp := hz.pos _ le_rfl
  have hzf := fun v hv => run_form hs' hK' h'.pos hm' hz (v := v) hv
  simp only [mul_zero, steps_sweep] at hzf hzp
  refine closest_near_form h hd hm hb hρ hR hlam hl1 hx (y := fun v => (((qsweep s Q')^[n] b' v : ℚ) : ℝ))
    (g := fun k j => runFac s Q' (fun i v => ((steps s Q' b' i v : ℚ) : ℝ)) (n * Q'.length) k j) hzp
    (fun k _ j hj => runFac_pos hs' hK' h'.pos hm' hz (by rw [stepQ_same (by omega) hdim]; exact hj)) hβ (by linarith)
    (fun v hv => ?_) (near_same hdim hmm hn) hv
  have h1 := hzf v hv
  simp only [stepQ_same (show 0 < Q.length by omega) hdim, hl] at h1
  have p : 0 < ∏ k ∈ Finset.range Q.length,
      runFac s Q' (fun i v => ((steps s Q' b' i v : ℚ) : ℝ)) (n * Q.length) k (proj (stepQ Q k).1 v) :=
    Finset.prod_pos fun k _ => by
      have := runFac_pos hs' hK' h'.pos hm' hz (k := k) (j := proj (stepQ Q k).1 v) (by
        rw [stepQ_same (show 0 < Q.length by omega) hdim]
        exact inRange_proj ((h.dims _ (stepQ_mem (by omega) k)).2) hv)
      rwa [hl] at this
  have h2 := (hbb v hv).mul_right p.le
  have h3 := h1.trans h2
  rw [zero_add] at h3
  simp only [hl]
  exact h3

/-- the closest tables of the two problems -/
theorem closest_closest {x' : List Int → ℝ} (hx' : IsClosest s Q' b' x') {v : List Int} (hv : InRange s v) :
    Nr (Q.length * (2 * (β + δ) / (1 - lam)) + 2 * β + δ) (x' v) (x v) := by
  have hlim := closest_limit h' (fun v hv => (hb' v hv).le) hx'
  have hmarg : ∀ δ' > 0, ∀ᶠ n in atTop, ∀ q ∈ Q', ∀ j, InRange (projSizes q.1 s) j →
      Nr δ' (marginalSum s q.1 (fun v => (((qsweep s Q')^[n] b' v : ℚ) : ℝ)) j) (q.2 j : ℝ) := by
    intro δ' hδ'
    have h1 : ∀ q ∈ Q', ∀ j ∈ cells (projSizes q.1 s), ∀ᶠ n in atTop,
        Nr δ' (marginalSum s q.1 (fun v => (((qsweep s Q')^[n] b' v : ℚ) : ℝ)) j) (q.2 j : ℝ) := by
      intro q hq j hj
      have hj := mem_cells.mp hj
      refine nr_of_tendsto (by exact_mod_cast hm' q hq j hj) ?_ hδ'
      rw [← hx'.meets q hq j hj]
      unfold marginalSum
      exact tendsto_finsetSum _ fun w hw => hlim w (mem_cells.mp (Finset.mem_filter.mp hw).1)
    have h2 : ∀ q ∈ Q', ∀ᶠ n in atTop, ∀ j ∈ cells (projSizes q.1 s),
        Nr δ' (marginalSum s q.1 (fun v => (((qsweep s Q')^[n] b' v : ℚ) : ℝ)) j) (q.2 j : ℝ) := fun q hq =>
      (Filter.eventually_all_finset _).mpr (h1 q hq)
    have h3 : ∀ᶠ n in atTop, ∀ q ∈ {q | q ∈ Q'}, ∀ j ∈ cells (projSizes q.1 s),
        Nr δ' (marginalSum s q.1 (fun v => (((qsweep s Q')^[n] b' v : ℚ) : ℝ)) j) (q.2 j : ℝ) :=
      (Filter.eventually_all_finite (List.finite_toSet Q')).mpr h2
    filter_upwards [h3] with n hn q hq j hj
    exact hn q hq j (mem_cells.mpr hj)
  have hclose : ∀ δ' > 0, Nr (Q.length * (2 * (β + (δ' + δ)) / (1 - lam)) + 2 * β + (δ' + δ)) (x' v) (x v) := by
    intro δ' hδ'
    have hev : ∀ᶠ n in atTop, Nr (Q.length * (2 * (β + (δ' + δ)) / (1 - lam)) + 2 * β + (δ' + δ))
        (((qsweep s Q')^[n] b' v : ℚ) : ℝ) (x v) := by
      filter_upwards [hmarg δ' hδ'] with n hn
      exact sweep_near h hd hm hb hρ hR hlam hl1 hx h' hdim hm' hb' hβ hδ hbb hmm hδ'.le hn hv
    constructor
    · exact le_of_tendsto (hlim v hv) (hev.mono fun n hn => hn.1)
    · exact ge_of_tendsto ((hlim v hv).const_mul _) (hev.mono fun n hn => hn.2)
  have hcont : Tendsto (fun δ' : ℝ => Real.exp (Q.length * (2 * (β + (δ' + δ)) / (1 - lam)) + 2 * β + (δ' + δ))) (𝓝[>] 0)
      (𝓝 (Real.exp (Q.length * (2 * (β + δ) / (1 - lam)) + 2 * β + δ))) := by
    have hc : Continuous (fun δ' : ℝ => Real.exp (Q.length * (2 * (β + (δ' + δ)) / (1 - lam)) + 2 * β + (δ' + δ))) := by fun_prop
    have := hc.tendsto 0
    simp only [zero_add] at this
    exact this.mono_left nhdsWithin_le_nhds
  constructor
  · refine ge_of_tendsto (hcont.mul_const (x v)) ?_
    filter_upwards [self_mem_nhdsWithin] with δ' hδ'
    exact (hclose δ' hδ').1
  · refine ge_of_tendsto (hcont.mul_const (x' v)) ?_
    filter_upwards [self_mem_nhdsWithin] with δ' hδ'
    exact (hclose δ' hδ').2

end

end HL.Rate

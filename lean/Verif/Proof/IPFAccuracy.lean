import Verif.Proof.IPFRateDouble

/-
Two tables that come from the same seed by multiplying with factors for the marginals, and meet the marginals nearly, are near each
other (for C136).
-/

set_option linter.unusedSectionVars false

namespace HL.Rate
open HL

variable {s : List Nat} {Q : Prob ℚ}

theorem Nr.mul {ε δ a b c d : ℝ} (h : Nr ε a b) (h' : Nr δ c d) (hb : 0 ≤ b) (hc : 0 ≤ c) :
    Nr (ε + δ) (a * c) (b * d) := by
  have h1 := h.mul_right hc
  have h2 := h'.mul_right hb
  rw [mul_comm c b, mul_comm d b] at h2
  exact h1.trans h2

section static
variable {T : ℚ} (hs : Splits s Q) (hK : 2 ≤ Q.length) (hpos : ∀ n ∈ s, 0 < n)
  (hm : ∀ q ∈ Q, ∀ j, InRange (projSizes q.1 s) j → 0 < q.2 j) (hT : ∀ q ∈ Q, ∑ j ∈ cells (projSizes q.1 s), q.2 j = T) (hT0 : 0 < T)
  {y z : List Int → ℝ} (hy : ∀ v, InRange s v → 0 < y v) (hz : ∀ v, InRange s v → 0 < z v) {g : Nat → List Int → ℝ}
  (hg : ∀ k < Q.length, ∀ j, InRange (projSizes (stepQ Q k).1 s) j → 0 < g k j) {β δ δ' ρ : ℝ} (hβ : 0 ≤ β) (hδ : 0 ≤ δ) (hδ' : 0 ≤ δ')
  (hyz : ∀ v, InRange s v → Nr β (y v) (z v * ∏ k ∈ Finset.range Q.length, g k (proj (stepQ Q k).1 v)))
  (hym : ∀ q ∈ Q, ∀ j, InRange (projSizes q.1 s) j → Nr δ (marginalSum s q.1 y j) (q.2 j : ℝ))
  (hzm : ∀ q ∈ Q, ∀ j, InRange (projSizes q.1 s) j → Nr δ' (marginalSum s q.1 z j) (q.2 j : ℝ))
  (hodds : ∀ k (hk : k < Q.length), ∀ v v' w w', InRange s v → InRange s v' → InRange s w → InRange s w' →
    proj Q[k].1 w = proj Q[k].1 v → proj (others Q k) w = proj (others Q k) v' →
    proj Q[k].1 w' = proj Q[k].1 v' → proj (others Q k) w' = proj (others Q k) v → z v * z v' ≤ ρ ^ 2 * (z w * z w'))
  (hρ : 1 ≤ ρ) {lam : ℝ} (hlam : ((Q.length - 1 : Nat) : ℝ) * ((ρ - 1) / (ρ + 1)) = lam) (hl1 : lam < 1)
include hs hK hpos hm hT hT0 hy hz hg hβ hδ hδ' hyz hym hzm hodds hρ hlam hl1

/-- one marginal's factors against those of the others -/
theorem static_ratio {S : ℝ} (hS : ∀ k < Q.length, ∀ j j', InRange (projSizes (stepQ Q k).1 s) j → InRange (projSizes (stepQ Q k).1 s) j' →
      g k j ≤ Real.exp S * g k j') {k : Nat} (hk : k < Q.length) {j j' : List Int} (hj : InRange (projSizes (stepQ Q k).1 s) j)
    (hj' : InRange (projSizes (stepQ Q k).1 s) j') :
    g k j ≤ Real.exp (lam * S + 2 * (β + δ + δ')) * g k j' := by
  have hq := stepQ_mem (Q := Q) (by omega) k
  have hkm : k % Q.length = k := Nat.mod_eq_of_lt hk
  have h2 := two_others hs hk
  have eq : stepQ Q k = Q[k] := by rw [stepQ_eq (by omega)]; simp [hkm]
  have hodds := hodds k hk
  rw [← eq] at h2 hodds
  set O := others Q k with hO
  set d := (stepQ Q k).1 with hd
  set W := cells (projSizes O s) with hW
  set G : List Int → ℝ := fun v => ∏ l ∈ (Finset.range Q.length).erase k, g l (proj (stepQ Q l).1 v) with hG
  have hG0 : ∀ v, InRange s v → 0 < G v := fun v hv => Finset.prod_pos fun l hl => by
    have hl := Finset.mem_range.mp (Finset.mem_erase.mp hl).2
    exact hg l hl _ (inRange_proj (dims_lt hs _ (stepQ_mem (by omega) l)) hv)
  have hGe : ∀ v, ∏ l ∈ Finset.range Q.length, g l (proj (stepQ Q l).1 v) = g k (proj d v) * G v := fun v =>
    (Finset.mul_prod_erase _ _ (Finset.mem_range.mpr hk)).symm
  have hGs : ∀ v w, InRange s v → InRange s w → G v ≤ Real.exp (((Q.length - 1 : Nat) : ℝ) * S) * G w := by
    intro v w hv hw
    have hc : ((Finset.range Q.length).erase k).card = Q.length - 1 := by
      rw [Finset.card_erase_of_mem (Finset.mem_range.mpr hk), Finset.card_range]
    have e : Real.exp (((Q.length - 1 : Nat) : ℝ) * S) = ∏ l ∈ (Finset.range Q.length).erase k, Real.exp S := by
      rw [Finset.prod_const, hc, ← Real.exp_nat_mul]
    rw [e, hG, ← Finset.prod_mul_distrib]
    refine Finset.prod_le_prod (fun l hl => ?_) (fun l hl => ?_)
    · have hl := Finset.mem_range.mp (Finset.mem_erase.mp hl).2
      exact (hg l hl _ (inRange_proj (dims_lt hs _ (stepQ_mem (by omega) l)) hv)).le
    · have hl := Finset.mem_range.mp (Finset.mem_erase.mp hl).2
      have hr := dims_lt hs _ (stepQ_mem (Q := Q) (by omega) l)
      exact hS l hl _ _ (inRange_proj hr hv) (inRange_proj hr hw)
  have hGg : ∀ w ∈ W, G (glue s d O j' w) = G (glue s d O j w) := by
    intro w hw
    refine Finset.prod_congr rfl fun l hl => ?_
    have hl1 := (Finset.mem_erase.mp hl).1
    have hl2 := Finset.mem_range.mp (Finset.mem_erase.mp hl).2
    have hsub := stepQ_others (Q := Q) (i := k) (t := l) (by omega) (by rw [hkm, Nat.mod_eq_of_lt hl2]; exact hl1)
    rw [hkm] at hsub
    have he : proj O (glue s d O j' w) = proj O (glue s d O j w) := by
      rw [(h2.proj_app hj' (mem_cells.mp hw)).2, (h2.proj_app hj (mem_cells.mp hw)).2]
    rw [proj_sub hsub he]
  set μ : List Int → ℝ := fun w => z (glue s d O j' w) with hμd
  set ν : List Int → ℝ := fun w => z (glue s d O j w) with hνd
  set GR : List Int → ℝ := fun w => G (glue s d O j w) with hGR
  have s1 : Nr δ' (∑ w ∈ W, ν w) ((stepQ Q k).2 j : ℝ) := by
    have := hzm _ hq j hj
    rwa [rowSumR h2 _ hj] at this
  have s2 : Nr δ' (∑ w ∈ W, μ w) ((stepQ Q k).2 j' : ℝ) := by
    have := hzm _ hq j' hj'
    rwa [rowSumR h2 _ hj'] at this
  have s3 : Nr (δ + β) ((stepQ Q k).2 j : ℝ) (g k j * ∑ w ∈ W, ν w * GR w) := by
    have h3 := hym _ hq j hj
    rw [rowSumR h2 _ hj] at h3
    refine h3.symm.trans ?_
    rw [Finset.mul_sum]
    refine Nr.sum fun w hw => ?_
    have := hyz _ (h2.glue_inRange hj (mem_cells.mp hw))
    rw [hGe, (h2.proj_app hj (mem_cells.mp hw)).1] at this
    rwa [mul_left_comm] at this
  have s4 : Nr (δ + β) ((stepQ Q k).2 j' : ℝ) (g k j' * ∑ w ∈ W, μ w * GR w) := by
    have h3 := hym _ hq j' hj'
    rw [rowSumR h2 _ hj'] at h3
    refine h3.symm.trans ?_
    rw [Finset.mul_sum]
    refine Nr.sum fun w hw => ?_
    have := hyz _ (h2.glue_inRange hj' (mem_cells.mp hw))
    rw [hGe, (h2.proj_app hj' (mem_cells.mp hw)).1, hGg w hw] at this
    rwa [mul_left_comm] at this
  have hμ : ∀ w ∈ W, 0 < μ w := fun w hw => hz _ (h2.glue_inRange hj' (mem_cells.mp hw))
  have hν : ∀ w ∈ W, 0 < ν w := fun w hw => hz _ (h2.glue_inRange hj (mem_cells.mp hw))
  have hGR0 : ∀ w ∈ W, 0 < GR w := fun w hw => hG0 _ (h2.glue_inRange hj (mem_cells.mp hw))
  have hc : ∀ w ∈ W, ∀ w' ∈ W, μ w * ν w' ≤ ρ ^ 2 * (μ w' * ν w) := by
    intro w hw w' hw'
    have hw := mem_cells.mp hw
    have hw' := mem_cells.mp hw'
    exact hodds (glue s d O j' w) (glue s d O j w') (glue s d O j' w') (glue s d O j w)
      (h2.glue_inRange hj' hw) (h2.glue_inRange hj hw') (h2.glue_inRange hj' hw') (h2.glue_inRange hj hw)
      ((h2.proj_app hj' hw').1.trans (h2.proj_app hj' hw).1.symm) ((h2.proj_app hj' hw').2.trans (h2.proj_app hj hw').2.symm)
      ((h2.proj_app hj hw).1.trans (h2.proj_app hj hw').1.symm) ((h2.proj_app hj hw).2.trans (h2.proj_app hj' hw).2.symm)
  have m0 : (0 : ℝ) < (stepQ Q k).2 j := by exact_mod_cast hm _ hq j hj
  have m0' : (0 : ℝ) < (stepQ Q k).2 j' := by exact_mod_cast hm _ hq j' hj'
  have hW0 : W.Nonempty := by
    by_contra h
    rw [Finset.not_nonempty_iff_eq_empty] at h
    have := s1.2
    rw [h, Finset.sum_empty, mul_zero] at this
    linarith
  have n0 : 0 < ∑ w ∈ W, ν w := Finset.sum_pos hν hW0
  have n0' : 0 < ∑ w ∈ W, μ w := Finset.sum_pos hμ hW0
  have a0 : 0 < ∑ w ∈ W, ν w * GR w := Finset.sum_pos (fun w hw => mul_pos (hν w hw) (hGR0 w hw)) hW0
  have b0 : 0 < ∑ w ∈ W, μ w * GR w := Finset.sum_pos (fun w hw => mul_pos (hμ w hw) (hGR0 w hw)) hW0
  have hmr := mean_ratio hρ (fun w hw => (hμ w hw).le) (fun w hw => (hν w hw).le) n0' n0 hc hGR0
      (L := ((Q.length - 1 : Nat) : ℝ) * S)
      (fun w hw w' hw' => hGs _ _ (h2.glue_inRange hj (mem_cells.mp hw)) (h2.glue_inRange hj (mem_cells.mp hw')))
  have e2 : lam * S + 2 * (β + δ + δ') = (ρ - 1) / (ρ + 1) * (((Q.length - 1 : Nat) : ℝ) * S) + ((δ + β) + (δ + β)) + (δ' + δ') := by
    rw [← hlam]; ring
  rw [e2, Real.exp_add, Real.exp_add, Real.exp_add (δ + β), Real.exp_add δ']
  set c := Real.exp ((ρ - 1) / (ρ + 1) * (((Q.length - 1 : Nat) : ℝ) * S))
  set E := Real.exp (δ + β)
  set F := Real.exp δ'
  have hc0 : 0 < c := Real.exp_pos _
  have hE : 0 < E := Real.exp_pos _
  have hF : 0 < F := Real.exp_pos _
  set a := ∑ w ∈ W, ν w * GR w
  set b := ∑ w ∈ W, μ w * GR w
  set n := ∑ w ∈ W, ν w
  set n' := ∑ w ∈ W, μ w
  have gk := hg k hk j hj
  have gk' := hg k hk j' hj'
  -- g j * a ≤ E m, m ≤ F n, n' ≤ F m', m' ≤ E g' b
  have t1 : g k j * a ≤ E * (F * n) := s3.2.trans (mul_le_mul_of_nonneg_left s1.2 hE.le)
  have t2 : n' ≤ F * (E * (g k j' * b)) := s2.1.trans (mul_le_mul_of_nonneg_left s4.1 hF.le)
  refine le_of_mul_le_mul_right ?_ (mul_pos a0 n0')
  calc g k j * (a * n') = (g k j * a) * n' := by ring
    _ ≤ (E * (F * n)) * (F * (E * (g k j' * b))) := mul_le_mul t1 t2 n0'.le (by positivity)
    _ = (E * E * (F * F) * g k j') * (b * n) := by ring
    _ ≤ (E * E * (F * F) * g k j') * (c * (a * n')) := mul_le_mul_of_nonneg_left hmr (by positivity)
    _ = _ := by ring

/-- all factors of a marginal are nearly the same -/
theorem static_spread : ∃ S, 0 ≤ S ∧ S ≤ 2 * (β + δ + δ') / (1 - lam) ∧ ∀ k < Q.length, ∀ j j', InRange (projSizes (stepQ Q k).1 s) j →
    InRange (projSizes (stepQ Q k).1 s) j' → g k j ≤ Real.exp S * g k j' := by
  have hl : 0 < 1 - lam := by linarith
  set A : Finset (Σ _ : Nat, List Int × List Int) := (Finset.range Q.length).sigma
    (fun k => cells (projSizes (stepQ Q k).1 s) ×ˢ cells (projSizes (stepQ Q k).1 s)) with hA
  have memA : ∀ {k : Nat} {j j' : List Int}, (⟨k, (j, j')⟩ : Σ _ : Nat, List Int × List Int) ∈ A ↔
      k < Q.length ∧ InRange (projSizes (stepQ Q k).1 s) j ∧ InRange (projSizes (stepQ Q k).1 s) j' := by
    intro k j j'
    rw [hA, Finset.mem_sigma, Finset.mem_product, mem_cells, mem_cells, Finset.mem_range]
  by_cases hne : A.Nonempty
  · obtain ⟨⟨k, j, j'⟩, hx, hmax⟩ := Finset.exists_max_image A (fun x => Real.log (g x.1 x.2.1) - Real.log (g x.1 x.2.2)) hne
    obtain ⟨hk, hj, hj'⟩ := memA.mp hx
    set S := Real.log (g k j) - Real.log (g k j') with hS
    have hall : ∀ k < Q.length, ∀ j j', InRange (projSizes (stepQ Q k).1 s) j →
        InRange (projSizes (stepQ Q k).1 s) j' → g k j ≤ Real.exp S * g k j' := by
      intro l hl i i' hi hi'
      have h1 := hmax ⟨l, (i, i')⟩ (memA.mpr ⟨hl, hi, hi'⟩)
      dsimp only at h1
      have g1 := hg l hl i hi
      have g2 := hg l hl i' hi'
      have h2 := Real.exp_le_exp.mpr (show Real.log (g l i) ≤ S + Real.log (g l i') by linarith)
      rwa [Real.exp_add, Real.exp_log g1, Real.exp_log g2] at h2
    have g1 := hg k hk j hj
    have g2 := hg k hk j' hj'
    have h0 : 0 ≤ S := by
      have h1 := hmax ⟨k, (j, j)⟩ (memA.mpr ⟨hk, hj, hj⟩)
      dsimp only at h1
      linarith
    refine ⟨S, h0, ?_, hall⟩
    have h3 := static_ratio hs hK hpos hm hT hT0 hy hz hg hβ hδ hδ' hyz hym hzm hodds hρ hlam hl1 hall hk hj hj'
    have h4 := Real.log_le_log g1 h3
    rw [Real.log_mul (Real.exp_pos _).ne' g2.ne', Real.log_exp] at h4
    rw [le_div_iff₀ hl]
    linarith
  · refine ⟨0, le_rfl, by positivity, ?_⟩
    intro k hk j j' hj hj'
    exact absurd ⟨_, memA.mpr ⟨hk, hj, hj'⟩⟩ hne

omit hy hz hg hβ hδ hδ' hyz hym hzm hodds hρ hlam hl1 hT0 hm hpos in
theorem total_near {δ : ℝ} (hym : ∀ q ∈ Q, ∀ j, InRange (projSizes q.1 s) j → Nr δ (marginalSum s q.1 y j) (q.2 j : ℝ)) :
    Nr δ (∑ v ∈ cells s, y v) (T : ℝ) := by
  have hq := stepQ_mem (Q := Q) (by omega) 0
  have e : (T : ℝ) = ∑ j ∈ cells (projSizes (stepQ Q 0).1 s), ((stepQ Q 0).2 j : ℝ) := by
    rw [← hT _ hq]; push_cast; rfl
  rw [e, ← Finset.sum_fiberwise_of_maps_to (t := cells (projSizes (stepQ Q 0).1 s)) (g := proj (stepQ Q 0).1)
    (fun v hv => mem_cells.mpr (inRange_proj (dims_lt hs _ hq) (mem_cells.mp hv)))]
  exact Nr.sum fun j hj => hym _ hq j (mem_cells.mp hj)

/-- the two tables are near each other -/
theorem static_near {v : List Int} (hv : InRange s v) :
    Nr (Q.length * (2 * (β + δ + δ') / (1 - lam)) + 2 * β + δ + δ') (y v) (z v) := by
  obtain ⟨S, hS0, hS, hsp⟩ := static_spread hs hK hpos hm hT hT0 hy hz hg hβ hδ hδ' hyz hym hzm hodds hρ hlam hl1
  set P : List Int → ℝ := fun v => ∏ k ∈ Finset.range Q.length, g k (proj (stepQ Q k).1 v) with hP
  have hP0 : ∀ v, InRange s v → 0 < P v := fun v hv => Finset.prod_pos fun l hl =>
    hg l (Finset.mem_range.mp hl) _ (inRange_proj (dims_lt hs _ (stepQ_mem (by omega) l)) hv)
  have hPs : ∀ v w, InRange s v → InRange s w → P v ≤ Real.exp (Q.length * S) * P w := by
    intro v w hv hw
    have e : Real.exp (Q.length * S) = ∏ l ∈ Finset.range Q.length, Real.exp S := by
      rw [Finset.prod_const, Finset.card_range, ← Real.exp_nat_mul]
    rw [e, hP, ← Finset.prod_mul_distrib]
    refine Finset.prod_le_prod (fun l hl => ?_) (fun l hl => ?_)
    · exact (hg l (Finset.mem_range.mp hl) _ (inRange_proj (dims_lt hs _ (stepQ_mem (by omega) l)) hv)).le
    · have hr := dims_lt hs _ (stepQ_mem (Q := Q) (by omega) l)
      exact hsp l (Finset.mem_range.mp hl) _ _ (inRange_proj hr hv) (inRange_proj hr hw)
  have ty := total_near hs hK hT hym
  have tz := total_near hs hK hT hzm
  have hyP : Nr β (∑ w ∈ cells s, y w) (∑ w ∈ cells s, z w * P w) := Nr.sum fun w hw => hyz w (mem_cells.mp hw)
  set Z := ∑ w ∈ cells s, z w with hZ
  have hZ0 : 0 < Z := Finset.sum_pos (fun w hw => hz w (mem_cells.mp hw)) ⟨v, mem_cells.mpr hv⟩
  -- the sum with the factors against the sum
  have hZP : Nr (Q.length * S) (∑ w ∈ cells s, z w * P w) (P v * Z) := by
    constructor
    · rw [hZ, Finset.mul_sum, Finset.mul_sum]
      refine Finset.sum_le_sum fun w hw => ?_
      have h1 := mul_le_mul_of_nonneg_left (hPs w v (mem_cells.mp hw) hv) (hz w (mem_cells.mp hw)).le
      linarith
    · rw [hZ, Finset.mul_sum, Finset.mul_sum]
      refine Finset.sum_le_sum fun w hw => ?_
      have h1 := mul_le_mul_of_nonneg_left (hPs v w hv (mem_cells.mp hw)) (hz w (mem_cells.mp hw)).le
      linarith
  have h1 : Nr (Q.length * S + β + δ + δ') (P v * Z) Z := by
    have := ((hZP.symm.trans hyP.symm).trans ty).trans tz.symm
    exact this
  have h2 : Nr (Q.length * S + β + δ + δ') (P v) 1 := by
    constructor
    · refine le_of_mul_le_mul_right ?_ hZ0
      linarith [h1.1]
    · refine le_of_mul_le_mul_right ?_ hZ0
      linarith [h1.2]
  have h3 := h2.mul_right (hz v hv).le
  rw [one_mul, mul_comm (P v)] at h3
  have h4 := (hyz v hv).trans h3
  refine h4.mono (hy v hv).le (hz v hv).le ?_
  have := mul_le_mul_of_nonneg_left hS (show (0 : ℝ) ≤ Q.length from Nat.cast_nonneg _)
  linarith

end static

/-! ### Runs -/

/-- all factors of one marginal in a run -/
noncomputable def runFac (s : List Nat) (Q : Prob ℚ) (y : Nat → List Int → ℝ) (N k : Nat) (j : List Int) : ℝ :=
  ∏ u ∈ (Finset.range N).filter (fun u => u % Q.length = k), cf s Q y u j

section runs
variable {T : ℚ} (hs : Splits s Q) (hK : 2 ≤ Q.length) (hpos : ∀ n ∈ s, 0 < n)
  (hm : ∀ q ∈ Q, ∀ j, InRange (projSizes q.1 s) j → 0 < q.2 j)
  {y : Nat → List Int → ℝ} {N : Nat} {ε ρ : ℝ} (hy : NearRun s Q y N ε ρ) (hε : 0 ≤ ε)
include hs hK hpos hm hy

theorem stepQ_mod (u : Nat) : stepQ Q (u % Q.length) = stepQ Q u := by
  unfold stepQ; rw [Nat.mod_mod]

theorem runFac_pos {k : Nat} {j : List Int} (hj : InRange (projSizes (stepQ Q k).1 s) j) :
    0 < runFac s Q y N k j := by
  refine Finset.prod_pos fun u hu => ?_
  obtain ⟨h1, h2⟩ := Finset.mem_filter.mp hu
  refine cf_pos hs hK hpos hm hy (Finset.mem_range.mp h1).le ?_
  rw [← stepQ_mod hs hK hpos hm hy u, h2]
  exact hj

theorem run_form {v : List Int} (hv : InRange s v) :
    Nr (N * ε) (y N v) (y 0 v * ∏ k ∈ Finset.range Q.length, runFac s Q y N k (proj (stepQ Q k).1 v)) := by
  have e : ∏ k ∈ Finset.range Q.length, runFac s Q y N k (proj (stepQ Q k).1 v) = ∏ u ∈ Finset.range N, cf s Q y u (proj (stepQ Q u).1 v) := by
    rw [← Finset.prod_fiberwise_of_maps_to (s := Finset.range N) (t := Finset.range Q.length) (g := fun u => u % Q.length)
      (fun u _ => Finset.mem_range.mpr (Nat.mod_lt _ (by omega)))]
    refine Finset.prod_congr rfl fun k _ => Finset.prod_congr rfl fun u hu => ?_
    rw [← (Finset.mem_filter.mp hu).2, stepQ_mod hs hK hpos hm hy]
  rw [e]
  have key : ∀ n ≤ N, Nr (n * ε) (y n v) (y 0 v * ∏ u ∈ Finset.range n, cf s Q y u (proj (stepQ Q u).1 v)) := by
    intro n
    induction n with
    | zero => intro _; simpa using Nr.refl _
    | succ n ih =>
      intro hn
      have h1 := ih (by omega)
      have h2 := hy.step n (by omega) v hv
      have h3 := h1.mul_right (cf_pos hs hK hpos hm hy (i := n) (by omega) (inRange_proj (dims_lt hs _ (stepQ_mem (by omega) _)) hv)).le
      have h4 := h2.trans h3
      rw [mul_assoc, ← Finset.prod_range_succ] at h4
      convert h4 using 1
      push_cast
      ring
  exact key N le_rfl

end runs

/-- two runs from the same seed -/
theorem runs_tied (hs : Splits s Q) (hK : 2 ≤ Q.length) (hpos : ∀ n ∈ s, 0 < n)
    (hm : ∀ q ∈ Q, ∀ j, InRange (projSizes q.1 s) j → 0 < q.2 j) {y z : Nat → List Int → ℝ} {N N' : Nat} {ε ε' ρ ρ' : ℝ}
    (hy : NearRun s Q y N ε ρ) (hz : NearRun s Q z N' ε' ρ') (h0 : ∀ v, InRange s v → y 0 v = z 0 v) {v : List Int} (hv : InRange s v) :
    Nr (N * ε + N' * ε') (y N v)
      (z N' v * ∏ k ∈ Finset.range Q.length, (runFac s Q y N k (proj (stepQ Q k).1 v) / runFac s Q z N' k (proj (stepQ Q k).1 v))) := by
  have hr : ∀ k, InRange (projSizes (stepQ Q k).1 s) (proj (stepQ Q k).1 v) := fun k =>
    inRange_proj (dims_lt hs _ (stepQ_mem (by omega) k)) hv
  have h1 := run_form hs hK hpos hm hy hv
  have h2 := run_form hs hK hpos hm hz hv
  rw [Finset.prod_div_distrib]
  have p1 : 0 < ∏ k ∈ Finset.range Q.length, runFac s Q y N k (proj (stepQ Q k).1 v) :=
    Finset.prod_pos fun k _ => runFac_pos hs hK hpos hm hy (hr k)
  have p2 : 0 < ∏ k ∈ Finset.range Q.length, runFac s Q z N' k (proj (stepQ Q k).1 v) :=
    Finset.prod_pos fun k _ => runFac_pos hs hK hpos hm hz (hr k)
  set A := ∏ k ∈ Finset.range Q.length, runFac s Q y N k (proj (stepQ Q k).1 v)
  set B := ∏ k ∈ Finset.range Q.length, runFac s Q z N' k (proj (stepQ Q k).1 v)
  rw [h0 v hv] at h1
  have h3 := h2.symm.mul_right (div_pos p1 p2).le
  have e : z 0 v * B * (A / B) = z 0 v * A := by field_simp
  rw [e] at h3
  exact h1.trans h3

/-- exact runs -/
theorem steps_run (hs : Splits s Q) (hK : 2 ≤ Q.length) (hm : ∀ q ∈ Q, ∀ j, InRange (projSizes q.1 s) j → 0 < q.2 j) {b : List Int → ℚ}
    (hb : ∀ v, InRange s v → 0 < b v) {ρ : ℚ} (hR : ∀ k (hk : k < Q.length), OddsAtMost (ρ ^ 2) s Q[k].1 (others Q k) b) (N : Nat) :
    NearRun s Q (fun i v => ((steps s Q b i v : ℚ) : ℝ)) N 0 (ρ : ℝ) where
  pos := by
    intro i _ v hv
    exact_mod_cast (steps_sign hs hK (fun q hq j hj => (hm q hq j hj).le) hb i v hv).2
      (fun q hq => hm q hq _ (inRange_proj (dims_lt hs _ hq) hv))
  step := by
    intro i _ v hv
    have hsg := fun w hw => (steps_sign hs hK (fun q hq j hj => (hm q hq j hj).le) hb i w hw).2
      (fun q hq => hm q hq _ (inRange_proj (dims_lt hs _ hq) hw))
    have hm0 : 0 < marginalSum s (stepQ Q i).1 (steps s Q b i) (proj (stepQ Q i).1 v) :=
      Finset.sum_pos (fun u hu => hsg u (mem_cells.mp (Finset.mem_filter.mp hu).1))
        ⟨v, Finset.mem_filter.mpr ⟨mem_cells.mpr hv, rfl⟩⟩
    have hmar : mar s Q (fun i v => ((steps s Q b i v : ℚ) : ℝ)) i (proj (stepQ Q i).1 v) =
        ((marginalSum s (stepQ Q i).1 (steps s Q b i) (proj (stepQ Q i).1 v) : ℚ) : ℝ) := by
      unfold mar marginalSum
      push_cast
      rfl
    have e : ((steps s Q b (i + 1) v : ℚ) : ℝ) = (steps s Q b i v : ℝ) * cf s Q (fun i v => ((steps s Q b i v : ℚ) : ℝ)) i (proj (stepQ Q i).1 v) := by
      rw [cf, hmar, steps, qscaled, if_neg hm0.ne']
      push_cast
      rfl
    show Nr 0 ((steps s Q b (i + 1) v : ℚ) : ℝ) _
    rw [e]
    exact Nr.refl _
  odds := by
    intro i _ k hk v v' w w' hv hv' hw hw' e1 e2 e3 e4
    have := (steps_odds hs hK (fun q hq j hj => (hm q hq j hj).le) hk (fun v hv => (hb v hv).le) (hR k hk) i).2
      v v' w w' hv hv' hw hw' e1 e2 e3 e4
    exact_mod_cast this

end HL.Rate

import Verif.Proof.IPFRateMany

/-
The contraction of `IPFRateMany`, for a run with a small relative error in every cell after every scaling (for C135).
-/

set_option linter.unusedSectionVars false

namespace HL.Rate
open HL

/-- equal up to a factor `e^ε` -/
def Nr (ε a b : ℝ) : Prop := a ≤ Real.exp ε * b ∧ b ≤ Real.exp ε * a

theorem Nr.symm {ε a b : ℝ} (h : Nr ε a b) : Nr ε b a := ⟨h.2, h.1⟩

theorem Nr.refl (a : ℝ) : Nr 0 a a := by simp [Nr]

theorem Nr.trans {ε δ a b c : ℝ} (h : Nr ε a b) (h' : Nr δ b c) : Nr (ε + δ) a c := by
  have h1 := mul_le_mul_of_nonneg_left h'.1 (Real.exp_pos ε).le
  have h2 := mul_le_mul_of_nonneg_left h.2 (Real.exp_pos δ).le
  rw [Nr, Real.exp_add]
  exact ⟨by linarith [h.1, mul_assoc (Real.exp ε) (Real.exp δ) c],
    by linarith [h'.2, mul_left_comm (Real.exp ε) (Real.exp δ) a, mul_assoc (Real.exp ε) (Real.exp δ) a]⟩

theorem Nr.mono {ε δ a b : ℝ} (h : Nr ε a b) (ha : 0 ≤ a) (hb : 0 ≤ b) (hl : ε ≤ δ) : Nr δ a b :=
  ⟨h.1.trans (mul_le_mul_of_nonneg_right (Real.exp_le_exp.mpr hl) hb), h.2.trans (mul_le_mul_of_nonneg_right (Real.exp_le_exp.mpr hl) ha)⟩

theorem Nr.mul_right {ε a b c : ℝ} (h : Nr ε a b) (hc : 0 ≤ c) : Nr ε (a * c) (b * c) := by
  have h1 := mul_le_mul_of_nonneg_right h.1 hc
  have h2 := mul_le_mul_of_nonneg_right h.2 hc
  exact ⟨by linarith [mul_assoc (Real.exp ε) b c], by linarith [mul_assoc (Real.exp ε) a c]⟩

theorem Nr.sum {ι : Type} {S : Finset ι} {ε : ℝ} {f g : ι → ℝ} (h : ∀ i ∈ S, Nr ε (f i) (g i)) : Nr ε (∑ i ∈ S, f i) (∑ i ∈ S, g i) := by
  rw [Nr, Finset.mul_sum, Finset.mul_sum]
  exact ⟨Finset.sum_le_sum fun i hi => (h i hi).1, Finset.sum_le_sum fun i hi => (h i hi).2⟩

variable {s : List Nat} {Q : Prob ℚ}

/-- the margin scaling number `i` looks at -/
noncomputable def mar (s : List Nat) (Q : Prob ℚ) (y : Nat → List Int → ℝ) (i : Nat) (j : List Int) : ℝ := marginalSum s (stepQ Q i).1 (y i) j

/-- the exact factors of scaling number `i` -/
noncomputable def cf (s : List Nat) (Q : Prob ℚ) (y : Nat → List Int → ℝ) (i : Nat) (j : List Int) : ℝ := (stepQ Q i).2 j / mar s Q y i j

/-- the product of the factors of `n` scalings after number `i` -/
noncomputable def cfs (s : List Nat) (Q : Prob ℚ) (y : Nat → List Int → ℝ) (i n : Nat) (v : List Int) : ℝ :=
  ∏ u ∈ Finset.range n, cf s Q y (i + 1 + u) (proj (stepQ Q (i + 1 + u)).1 v)

/-- A run of `N` scalings, each with a relative error of at most `e^ε` in every cell. -/
structure NearRun (s : List Nat) (Q : Prob ℚ) (y : Nat → List Int → ℝ) (N : Nat) (ε ρ : ℝ) : Prop where
  pos : ∀ i ≤ N, ∀ v, InRange s v → 0 < y i v
  step : ∀ i < N, ∀ v, InRange s v → Nr ε (y (i + 1) v) (y i v * cf s Q y i (proj (stepQ Q i).1 v))
  odds : ∀ i ≤ N, ∀ k (hk : k < Q.length), ∀ v v' w w', InRange s v → InRange s v' → InRange s w → InRange s w' →
    proj Q[k].1 w = proj Q[k].1 v → proj (others Q k) w = proj (others Q k) v' →
    proj Q[k].1 w' = proj Q[k].1 v' → proj (others Q k) w' = proj (others Q k) v → y i v * y i v' ≤ ρ ^ 2 * (y i w * y i w')

section run
variable {T : ℚ} (hs : Splits s Q) (hK : 2 ≤ Q.length) (hpos : ∀ n ∈ s, 0 < n)
  (hm : ∀ q ∈ Q, ∀ j, InRange (projSizes q.1 s) j → 0 < q.2 j) (hT : ∀ q ∈ Q, ∑ j ∈ cells (projSizes q.1 s), q.2 j = T) (hT0 : 0 < T)
  {y : Nat → List Int → ℝ} {N : Nat} {ε ρ : ℝ} (hy : NearRun s Q y N ε ρ) (hε : 0 ≤ ε)
include hs hK hpos hm hT hT0 hy hε


omit hT hT0 hε hm in
theorem mar_pos {i : Nat} (hi : i ≤ N) {j : List Int} (hj : InRange (projSizes (stepQ Q i).1 s) j) : 0 < mar s Q y i j := by
  have hq := stepQ_mem (Q := Q) (by omega) i
  obtain ⟨A, B, e⟩ := List.append_of_mem hq
  obtain ⟨v, hv, hvj⟩ := exists_proj hpos (loose_of_nodup (splits_mid (e ▸ hs))) (dims_lt hs _ hq) hj
  exact Finset.sum_pos (fun u hu => hy.pos i hi u (mem_cells.mp (Finset.mem_filter.mp hu).1))
    ⟨v, Finset.mem_filter.mpr ⟨mem_cells.mpr hv, hvj⟩⟩

omit hT hT0 hε in
theorem cf_pos {i : Nat} (hi : i ≤ N) {j : List Int} (hj : InRange (projSizes (stepQ Q i).1 s) j) : 0 < cf s Q y i j := by
  have hq := stepQ_mem (Q := Q) (by omega) i
  have h1 : (0 : ℝ) < (stepQ Q i).2 j := by exact_mod_cast hm _ hq j hj
  exact div_pos h1 (mar_pos hs hK hpos hy hi hj)

omit hT hT0 hε in
theorem cfs_pos {i n : Nat} (hi : i + n ≤ N) {v : List Int} (hv : InRange s v) : 0 < cfs s Q y i n v := by
  refine Finset.prod_pos (fun u hu => ?_)
  have := Finset.mem_range.mp hu
  exact cf_pos hs hK hpos hm hy (by omega) (inRange_proj (dims_lt hs _ (stepQ_mem (by omega) _)) hv)

/-- a scaling meets its marginal up to the error -/
theorem near_meets {i : Nat} (hi : i < N) {j : List Int} (hj : InRange (projSizes (stepQ Q i).1 s) j) :
    Nr ε (marginalSum s (stepQ Q i).1 (y (i + 1)) j) ((stepQ Q i).2 j : ℝ) := by
  have e : ∑ v ∈ (cells s).filter (fun v => proj (stepQ Q i).1 v = j), y i v * cf s Q y i (proj (stepQ Q i).1 v) = ((stepQ Q i).2 j : ℝ) := by
    have h1 : ∀ v ∈ (cells s).filter (fun v => proj (stepQ Q i).1 v = j), y i v * cf s Q y i (proj (stepQ Q i).1 v) = y i v * cf s Q y i j := by
      intro v hv
      rw [(Finset.mem_filter.mp hv).2]
    rw [Finset.sum_congr rfl h1, ← Finset.sum_mul]
    show mar s Q y i j * _ = _
    rw [cf, mul_div_cancel₀ _ (mar_pos hs hK hpos hy hi.le hj).ne']
  rw [← e]
  exact Nr.sum (fun v hv => hy.step i hi v (mem_cells.mp (Finset.mem_filter.mp hv).1))

/-- the total -/
theorem near_total {i : Nat} (hi : i < N) : Nr ε (∑ v ∈ cells s, y (i + 1) v) (T : ℝ) := by
  have hq := stepQ_mem (Q := Q) (by omega) i
  have e : (T : ℝ) = ∑ j ∈ cells (projSizes (stepQ Q i).1 s), ((stepQ Q i).2 j : ℝ) := by
    rw [← hT _ hq]; push_cast; rfl
  rw [e, ← Finset.sum_fiberwise_of_maps_to (t := cells (projSizes (stepQ Q i).1 s)) (g := proj (stepQ Q i).1)
    (fun v hv => mem_cells.mpr (inRange_proj (dims_lt hs _ hq) (mem_cells.mp hv)))]
  exact Nr.sum fun j hj => near_meets hs hK hpos hm hT hT0 hy hε hi (mem_cells.mp hj)

/-- several scalings -/
theorem near_facs {i : Nat} {v : List Int} (hv : InRange s v) : ∀ n, i + 1 + n ≤ N →
    Nr (n * ε) (y (i + 1 + n) v) (y (i + 1) v * cfs s Q y i n v)
  | 0, _ => by simpa [cfs] using Nr.refl _
  | n + 1, hn => by
    have h1 := near_facs (i := i) hv n (by omega)
    have h2 := hy.step (i + 1 + n) (by omega) v hv
    have h3 := h1.mul_right (cf_pos hs hK hpos hm hy (i := i + 1 + n) (by omega)
      (inRange_proj (dims_lt hs _ (stepQ_mem (by omega) _)) hv)).le
    have h4 := h2.trans h3
    rw [mul_assoc] at h4
    have e : cfs s Q y i (n + 1) v = cfs s Q y i n v * cf s Q y (i + 1 + n) (proj (stepQ Q (i + 1 + n)).1 v) := by
      unfold cfs; rw [Finset.prod_range_succ]
    rw [e, ← add_assoc]
    convert h4 using 1
    push_cast
    ring

/-- the factors of scaling number `i` differ by at most a factor `e^L` -/
def Spr (s : List Nat) (Q : Prob ℚ) (y : Nat → List Int → ℝ) (i : Nat) (L : ℝ) : Prop :=
  ∀ j j', InRange (projSizes (stepQ Q i).1 s) j → InRange (projSizes (stepQ Q i).1 s) j' → cf s Q y i j ≤ Real.exp L * cf s Q y i j'

/-- then they are near one -/
theorem near_one {i : Nat} (hi : i + 1 ≤ N) {L : ℝ} (h : Spr s Q y (i + 1) L) {j : List Int} (hj : InRange (projSizes (stepQ Q (i + 1)).1 s) j) :
    Nr (L + ε) (cf s Q y (i + 1) j) 1 := by
  have hq := stepQ_mem (Q := Q) (by omega) (i + 1)
  have ht := near_total hs hK hpos hm hT hT0 hy hε (i := i) (by omega)
  rw [← Finset.sum_fiberwise_of_maps_to (t := cells (projSizes (stepQ Q (i + 1)).1 s)) (g := proj (stepQ Q (i + 1)).1)
    (fun v hv => mem_cells.mpr (inRange_proj (dims_lt hs _ hq) (mem_cells.mp hv)))] at ht
  change Nr ε (∑ j ∈ cells (projSizes (stepQ Q (i + 1)).1 s), mar s Q y (i + 1) j) _ at ht
  set M := ∑ j ∈ cells (projSizes (stepQ Q (i + 1)).1 s), mar s Q y (i + 1) j with hM
  have hp : ∀ j ∈ cells (projSizes (stepQ Q (i + 1)).1 s), 0 < mar s Q y (i + 1) j := fun j hj =>
    mar_pos hs hK hpos hy hi (mem_cells.mp hj)
  have e : (T : ℝ) = ∑ j ∈ cells (projSizes (stepQ Q (i + 1)).1 s), cf s Q y (i + 1) j * mar s Q y (i + 1) j := by
    rw [← hT _ hq]
    push_cast
    refine Finset.sum_congr rfl fun j hj => ?_
    rw [cf, div_mul_cancel₀ _ (hp j hj).ne']
  have hM0 : 0 < M := Finset.sum_pos hp ⟨j, mem_cells.mpr hj⟩
  have hc := cf_pos hs hK hpos hm hy hi hj
  have hT' : (0 : ℝ) < T := by exact_mod_cast hT0
  have h1 : cf s Q y (i + 1) j * M ≤ Real.exp L * T := by
    rw [e, hM, Finset.mul_sum, Finset.mul_sum]
    refine Finset.sum_le_sum fun j' hj' => ?_
    have := mul_le_mul_of_nonneg_right (h j j' hj (mem_cells.mp hj')) (hp j' hj').le
    linarith
  have h2 : T ≤ Real.exp L * cf s Q y (i + 1) j * M := by
    rw [e, hM, Finset.mul_sum]
    refine Finset.sum_le_sum fun j' hj' => ?_
    exact mul_le_mul_of_nonneg_right (h j' j (mem_cells.mp hj') hj) (hp j' hj').le
  have hL := Real.exp_pos L
  have hE := Real.exp_pos ε
  rw [Nr, Real.exp_add]
  constructor
  · refine le_of_mul_le_mul_right ?_ hM0
    have := mul_le_mul_of_nonneg_left ht.2 hL.le
    linarith
  · refine le_of_mul_le_mul_right ?_ hT'
    have := mul_le_mul_of_nonneg_left ht.1 (mul_pos hL hc).le
    linarith

omit hm hT hT0 hε hy hpos in
theorem cfs_congr {i n : Nat} (hnK : n < Q.length) {v w : List Int}
    (he : proj (others Q (i % Q.length)) v = proj (others Q (i % Q.length)) w) : cfs s Q y i n v = cfs s Q y i n w := by
  refine Finset.prod_congr rfl fun u hu => ?_
  have hu' := Finset.mem_range.mp hu
  rw [proj_sub (stepQ_others (by omega) (mod_ne (K := Q.length) (by omega))) he]

omit hs hK hpos hm hT hT0 hε hy in
theorem rowSumR {d1 d2 : List Nat} (h : Two s d1 d2) (B : List Int → ℝ) {i : List Int} (hi : InRange (projSizes d1 s) i) :
    marginalSum s d1 B i = ∑ j ∈ cells (projSizes d2 s), B (glue s d1 d2 i j) := by
  unfold marginalSum
  refine Finset.sum_nbij' (fun v => proj d2 v) (fun j => glue s d1 d2 i j) ?_ ?_ ?_ ?_ ?_
  · intro v hv
    exact mem_cells.mpr (inRange_proj (fun d hd => h.lt d (by simp [hd])) (mem_cells.mp (Finset.mem_filter.mp hv).1))
  · intro j hj
    exact Finset.mem_filter.mpr ⟨mem_cells.mpr (h.glue_inRange hi (mem_cells.mp hj)), (h.proj_app hi (mem_cells.mp hj)).1⟩
  · intro v hv
    obtain ⟨hv', rfl⟩ := Finset.mem_filter.mp hv
    exact h.glue_proj (mem_cells.mp hv')
  · intro j hj
    exact (h.proj_app hi (mem_cells.mp hj)).2
  · intro v hv
    obtain ⟨hv', rfl⟩ := Finset.mem_filter.mp hv
    show B v = B (glue s d1 d2 (proj d1 v) (proj d2 v))
    rw [h.glue_proj (mem_cells.mp hv')]

/-- the factors of a scaling and those of the same marginal one iteration later -/
theorem near_ratio (hρ : 1 ≤ ρ) {i : Nat} (hi : i + Q.length ≤ N) {j j' : List Int} (hj : InRange (projSizes (stepQ Q i).1 s) j)
    (hj' : InRange (projSizes (stepQ Q i).1 s) j') :
    cf s Q y (i + Q.length) j ≤ Real.exp (2 * Real.log ρ + 2 * Q.length * ε) * cf s Q y (i + Q.length) j' ∧
    ∀ L : ℝ, (∀ v w, InRange s v → InRange s w → cfs s Q y i (Q.length - 1) v ≤ Real.exp L * cfs s Q y i (Q.length - 1) w) →
      cf s Q y (i + Q.length) j ≤ Real.exp ((ρ - 1) / (ρ + 1) * L + 2 * Q.length * ε) * cf s Q y (i + Q.length) j' := by
  have hq := stepQ_mem (Q := Q) (by omega) i
  have hk : i % Q.length < Q.length := Nat.mod_lt _ (by omega)
  have h2 := two_others hs hk
  have eq := stepQ_eq (Q := Q) (by omega) i
  have hodds := hy.odds (i + 1) (by omega) _ hk
  rw [← eq] at h2 hodds
  set O := others Q (i % Q.length) with hO
  set d := (stepQ Q i).1 with hd
  set W := cells (projSizes O s) with hW
  set G := cfs s Q y i (Q.length - 1) with hG
  have hGg : ∀ w ∈ W, G (glue s d O j' w) = G (glue s d O j w) := by
    intro w hw
    refine cfs_congr hs hK (by omega) ?_
    rw [← hO, (h2.proj_app hj' (mem_cells.mp hw)).2, (h2.proj_app hj (mem_cells.mp hw)).2]
  set μ : List Int → ℝ := fun w => y (i + 1) (glue s d O j' w) with hμd
  set ν : List Int → ℝ := fun w => y (i + 1) (glue s d O j w) with hνd
  set GR : List Int → ℝ := fun w => G (glue s d O j w) with hGR
  have e : i + Q.length = i + 1 + (Q.length - 1) := by omega
  have ed : (stepQ Q (i + Q.length)) = stepQ Q i := stepQ_add i
  set K1 : ℝ := ((Q.length - 1 : Nat) : ℝ) * ε with hK1
  -- the four sums
  have s1 : Nr ε (∑ w ∈ W, ν w) ((stepQ Q i).2 j : ℝ) := by
    have := near_meets hs hK hpos hm hT hT0 hy hε (i := i) (by omega) hj
    rwa [rowSumR h2 _ hj] at this
  have s2 : Nr ε (∑ w ∈ W, μ w) ((stepQ Q i).2 j' : ℝ) := by
    have := near_meets hs hK hpos hm hT hT0 hy hε (i := i) (by omega) hj'
    rwa [rowSumR h2 _ hj'] at this
  have s3 : Nr K1 (mar s Q y (i + Q.length) j) (∑ w ∈ W, ν w * GR w) := by
    unfold mar
    rw [ed, rowSumR h2 _ hj, e]
    exact Nr.sum fun w hw => near_facs hs hK hpos hm hT hT0 hy hε (h2.glue_inRange hj (mem_cells.mp hw)) _ (by omega)
  have s4 : Nr K1 (mar s Q y (i + Q.length) j') (∑ w ∈ W, μ w * GR w) := by
    unfold mar
    rw [ed, rowSumR h2 _ hj', e]
    refine Nr.sum fun w hw => ?_
    have := near_facs hs hK hpos hm hT hT0 hy hε (i := i) (h2.glue_inRange hj' (mem_cells.mp hw)) (Q.length - 1) (by omega)
    rw [← hG, hGg w hw] at this
    exact this
  have hμ : ∀ w ∈ W, 0 < μ w := fun w hw => hy.pos _ (by omega) _ (h2.glue_inRange hj' (mem_cells.mp hw))
  have hν : ∀ w ∈ W, 0 < ν w := fun w hw => hy.pos _ (by omega) _ (h2.glue_inRange hj (mem_cells.mp hw))
  have hG0 : ∀ w ∈ W, 0 < GR w := fun w hw => cfs_pos hs hK hpos hm hy (by omega) (h2.glue_inRange hj (mem_cells.mp hw))
  have hc : ∀ w ∈ W, ∀ w' ∈ W, μ w * ν w' ≤ ρ ^ 2 * (μ w' * ν w) := by
    intro w hw w' hw'
    have hw := mem_cells.mp hw
    have hw' := mem_cells.mp hw'
    exact hodds (glue s d O j' w) (glue s d O j w') (glue s d O j' w') (glue s d O j w)
      (h2.glue_inRange hj' hw) (h2.glue_inRange hj hw') (h2.glue_inRange hj' hw') (h2.glue_inRange hj hw)
      ((h2.proj_app hj' hw').1.trans (h2.proj_app hj' hw).1.symm) ((h2.proj_app hj' hw').2.trans (h2.proj_app hj hw').2.symm)
      ((h2.proj_app hj hw).1.trans (h2.proj_app hj hw').1.symm) ((h2.proj_app hj hw).2.trans (h2.proj_app hj' hw).2.symm)
  have m0 : (0 : ℝ) < (stepQ Q i).2 j := by exact_mod_cast hm _ hq j hj
  have m0' : (0 : ℝ) < (stepQ Q i).2 j' := by exact_mod_cast hm _ hq j' hj'
  have A0 : 0 < mar s Q y (i + Q.length) j := mar_pos hs hK hpos hy hi (by rw [ed]; exact hj)
  have B0 : 0 < mar s Q y (i + Q.length) j' := mar_pos hs hK hpos hy hi (by rw [ed]; exact hj')
  have hW0 : W.Nonempty := by
    by_contra h
    rw [Finset.not_nonempty_iff_eq_empty] at h
    have := s1.2
    rw [h, Finset.sum_empty, mul_zero] at this
    linarith
  have n0 : 0 < ∑ w ∈ W, ν w := Finset.sum_pos hν hW0
  have n0' : 0 < ∑ w ∈ W, μ w := Finset.sum_pos hμ hW0
  have fin : ∀ c : ℝ, 0 ≤ c → (∑ w ∈ W, μ w * GR w) * (∑ w ∈ W, ν w) ≤ c * ((∑ w ∈ W, ν w * GR w) * (∑ w ∈ W, μ w)) →
      cf s Q y (i + Q.length) j ≤ c * Real.exp (2 * Q.length * ε) * cf s Q y (i + Q.length) j' := by
    intro c hc0 h
    unfold cf
    rw [ed, ← mul_div_assoc, div_le_div_iff₀ A0 B0]
    have e2 : (2 : ℝ) * Q.length * ε = (ε + K1) + (ε + K1) := by
      rw [hK1, Nat.cast_sub (by omega)]; push_cast; ring
    rw [e2, Real.exp_add, Real.exp_add]
    set E := Real.exp ε
    set F := Real.exp K1
    have hE : 0 < E := Real.exp_pos _
    have hF : 0 < F := Real.exp_pos _
    set A := mar s Q y (i + Q.length) j
    set B := mar s Q y (i + Q.length) j'
    set a := ∑ w ∈ W, ν w * GR w
    set b := ∑ w ∈ W, μ w * GR w
    have ha0 : 0 ≤ a := Finset.sum_nonneg fun w hw => (mul_pos (hν w hw) (hG0 w hw)).le
    have g1 : ((stepQ Q i).2 j : ℝ) * B ≤ (E * ∑ w ∈ W, ν w) * (F * b) := mul_le_mul s1.2 s4.1 B0.le (by positivity)
    have g2 : a * (∑ w ∈ W, μ w) ≤ (F * A) * (E * ((stepQ Q i).2 j' : ℝ)) := mul_le_mul s3.2 s2.1 n0'.le (by positivity)
    have g3 := mul_le_mul_of_nonneg_left h (mul_pos hE hF).le
    have g4 := mul_le_mul_of_nonneg_left g2 (mul_nonneg (mul_pos hE hF).le hc0)
    calc ((stepQ Q i).2 j : ℝ) * B ≤ (E * ∑ w ∈ W, ν w) * (F * b) := g1
      _ = E * F * (b * ∑ w ∈ W, ν w) := by ring
      _ ≤ _ := g3
      _ = E * F * c * (a * ∑ w ∈ W, μ w) := by ring
      _ ≤ _ := g4
      _ = _ := by ring
  constructor
  · have := fin (ρ ^ 2) (by positivity) (mean_ratio_le hc (fun w hw => (hG0 w hw).le))
    rwa [Real.exp_add, two_mul, Real.exp_add, Real.exp_log (by linarith), ← pow_two]
  · intro L hL
    have := fin _ (Real.exp_pos _).le (mean_ratio hρ (fun w hw => (hμ w hw).le) (fun w hw => (hν w hw).le) n0' n0 hc hG0
      (L := L) (fun w hw w' hw' => hL _ _ (h2.glue_inRange hj (mem_cells.mp hw)) (h2.glue_inRange hj (mem_cells.mp hw'))))
    rwa [Real.exp_add]

/-- the bound on the logarithm of the spread of scaling number `t` -/
noncomputable def nbound (K : Nat) (lam ε ρ : ℝ) (t : Nat) : ℝ := lam ^ ((t - K) / (K - 1)) * (2 * Real.log ρ) + 2 * K * ε / (1 - lam)

section contraction
variable (hρ : 1 ≤ ρ) {lam : ℝ} (hlam : ((Q.length - 1 : Nat) : ℝ) * ((ρ - 1) / (ρ + 1)) = lam) (hl1 : lam < 1)
include hρ hlam hl1

omit hs hK hpos hm hT hT0 hy in
theorem nbound_anti {t e : Nat} (ht : e ≤ (t - Q.length) / (Q.length - 1)) :
    0 ≤ lam ∧ nbound Q.length lam ε ρ t ≤ lam ^ e * (2 * Real.log ρ) + 2 * Q.length * ε / (1 - lam) := by
  have h2 := Real.log_nonneg hρ
  have h3 : 0 ≤ (ρ - 1) / (ρ + 1) := div_nonneg (by linarith) (by linarith)
  have h4 : 0 ≤ lam := by rw [← hlam]; positivity
  refine ⟨h4, ?_⟩
  unfold nbound
  have := mul_le_mul_of_nonneg_right (pow_le_pow_of_le_one h4 hl1.le ht) (show 0 ≤ 2 * Real.log ρ by linarith)
  linarith

theorem near_spread : ∀ t, Q.length ≤ t → t ≤ N → Spr s Q y t (nbound Q.length lam ε ρ t) := by
  intro t
  induction t using Nat.strong_induction_on with
  | _ t ih =>
    intro ht htN
    obtain ⟨i, rfl⟩ : ∃ k, t = k + Q.length := ⟨t - Q.length, by omega⟩
    have h2 := Real.log_nonneg hρ
    have h3 : 0 ≤ (ρ - 1) / (ρ + 1) := div_nonneg (by linarith) (by linarith)
    have hl0 : 0 ≤ lam := by rw [← hlam]; positivity
    have h1l : 0 < 1 - lam := by linarith
    set D := 2 * (Q.length : ℝ) * ε / (1 - lam) with hD
    have hDe : lam * D + 2 * Q.length * ε = D := by rw [hD]; field_simp; ring
    have hD0 : 0 ≤ D := by rw [hD]; positivity
    intro j j' hj hj'
    have hjc := hj'
    rw [stepQ_add] at hj hj'
    obtain ⟨c1, c2⟩ := near_ratio hs hK hpos hm hT hT0 hy hε hρ htN hj hj'
    have hcp := (cf_pos hs hK hpos hm hy htN hjc).le
    by_cases hi : i + 1 < Q.length
    · refine c1.trans (mul_le_mul_of_nonneg_right (Real.exp_le_exp.mpr ?_) hcp)
      unfold nbound
      rw [Nat.add_sub_cancel, Nat.div_eq_of_lt (by omega), pow_zero, one_mul, ← hD]
      nlinarith
    · have hqt : ∀ u, stepQ Q (i + 1 + u) ∈ Q := fun u => stepQ_mem (by omega) _
      have c3 := c2 (∑ u ∈ Finset.range (Q.length - 1), nbound Q.length lam ε ρ (i + 1 + u)) (by
        intro v w hv hw
        unfold cfs
        rw [Real.exp_sum, ← Finset.prod_mul_distrib]
        refine Finset.prod_le_prod (fun u hu => ?_) (fun u hu => ?_)
        · have hu := Finset.mem_range.mp hu
          exact (cf_pos hs hK hpos hm hy (i := i + 1 + u) (by omega) (inRange_proj (dims_lt hs _ (hqt u)) hv)).le
        · have hu := Finset.mem_range.mp hu
          exact (ih (i + 1 + u) (by omega) (by omega) (by omega)) _ _ (inRange_proj (dims_lt hs _ (hqt u)) hv)
            (inRange_proj (dims_lt hs _ (hqt u)) hw))
      refine c3.trans (mul_le_mul_of_nonneg_right (Real.exp_le_exp.mpr ?_) hcp)
      have hp0 : 0 < Q.length - 1 := by omega
      have hdiv : 1 ≤ i / (Q.length - 1) := (Nat.le_div_iff_mul_le hp0).mpr (by omega)
      have h4 : ∀ u ∈ Finset.range (Q.length - 1), nbound Q.length lam ε ρ (i + 1 + u) ≤
          lam ^ (i / (Q.length - 1) - 1) * (2 * Real.log ρ) + D := by
        intro u _
        refine (nbound_anti hε hρ hlam hl1 ?_).2
        have e1 : i / (Q.length - 1) - 1 = (i - (Q.length - 1)) / (Q.length - 1) := by
          have := Nat.sub_mul_div i (Q.length - 1) 1
          rw [mul_one] at this
          exact this.symm
        rw [e1]
        exact Nat.div_le_div_right (by omega)
      have h5 := Finset.sum_le_card_nsmul _ _ _ h4
      rw [Finset.card_range, nsmul_eq_mul] at h5
      have h6 := mul_le_mul_of_nonneg_left h5 h3
      have e7 : (ρ - 1) / (ρ + 1) * (((Q.length - 1 : Nat) : ℝ) * (lam ^ (i / (Q.length - 1) - 1) * (2 * Real.log ρ) + D)) =
          lam * (lam ^ (i / (Q.length - 1) - 1) * (2 * Real.log ρ) + D) := by rw [← hlam]; ring
      rw [e7] at h6
      obtain ⟨m, hm'⟩ : ∃ m, i / (Q.length - 1) = m + 1 := ⟨i / (Q.length - 1) - 1, by omega⟩
      have e0 : nbound Q.length lam ε ρ (i + Q.length) = lam ^ m * lam * (2 * Real.log ρ) + D := by
        unfold nbound
        rw [Nat.add_sub_cancel, ← hD, hm', pow_succ]
      rw [hm', Nat.add_sub_cancel] at h6
      rw [e0]
      have e8 : lam * (lam ^ m * (2 * Real.log ρ) + D) = lam ^ m * lam * (2 * Real.log ρ) + lam * D := by ring
      rw [e8] at h6
      linarith

/-- the marginals after `n + 2` iterations -/
theorem near_error {n : Nat} (hnN : (n + 2) * Q.length ≤ N) {q : List Nat × (List Int → ℚ)} (hq : q ∈ Q) {j : List Int}
    (hj : InRange (projSizes q.1 s) j) :
    Nr ((Q.length - 1 : Nat) * (lam ^ ((n * Q.length + 1) / (Q.length - 1)) * (2 * Real.log ρ) + 2 * Q.length * ε / (1 - lam) + 2 * ε) + ε)
      (marginalSum s q.1 (y ((n + 2) * Q.length)) j) (q.2 j : ℝ) := by
  obtain ⟨k, hk, rfl⟩ := List.getElem_of_mem hq
  set i := (n + 1) * Q.length + k with hi
  have hmod : i % Q.length = k := by rw [hi, Nat.mul_add_mod', Nat.mod_eq_of_lt hk]
  have eq : stepQ Q i = Q[k] := by rw [stepQ_eq (by omega)]; simp [hmod]
  rw [← eq] at hj ⊢
  have en : (n + 1) * Q.length = n * Q.length + Q.length := by ring
  have hexp : (n + 2) * Q.length = i + 1 + (Q.length - 1 - k) := by
    have : (n + 2) * Q.length = (n + 1) * Q.length + Q.length := by ring
    omega
  rw [hexp] at hnN ⊢
  set M := Q.length - 1 - k with hM
  have hl0 := (nbound_anti (Q := Q) (t := 0) (e := 0) hε hρ hlam hl1 (Nat.zero_le _)).1
  have h1l : 0 < 1 - lam := by linarith
  have h2 := Real.log_nonneg hρ
  set δ := lam ^ ((n * Q.length + 1) / (Q.length - 1)) * (2 * Real.log ρ) + 2 * Q.length * ε / (1 - lam) with hδ
  have hδ0 : 0 ≤ δ := by rw [hδ]; positivity
  have hfac : ∀ u ∈ Finset.range M, ∀ v, InRange s v → Nr (δ + ε) (cf s Q y (i + 1 + u) (proj (stepQ Q (i + 1 + u)).1 v)) 1 := by
    intro u hu v hv
    have hu := Finset.mem_range.mp hu
    have hr := inRange_proj (dims_lt hs _ (stepQ_mem (by omega) (i + 1 + u))) hv
    have e : i + 1 + u = (i + u) + 1 := by omega
    have h3 := near_spread hs hK hpos hm hT hT0 hy hε hρ hlam hl1 (i + 1 + u) (by omega) (by omega)
    have h4 := (nbound_anti (Q := Q) (t := i + 1 + u) (e := (n * Q.length + 1) / (Q.length - 1)) hε hρ hlam hl1
      (Nat.div_le_div_right (by omega))).2
    rw [e] at h3 h4 hr ⊢
    have h5 := near_one hs hK hpos hm hT hT0 hy hε (i := i + u) (by omega) h3 hr
    exact h5.mono (cf_pos hs hK hpos hm hy (by omega) hr).le zero_le_one (by linarith)
  have hprod : ∀ v, InRange s v → ∀ m ≤ M, Nr (m * (δ + ε)) (cfs s Q y i m v) 1 := by
    intro v hv m
    induction m with
    | zero => intro _; simpa [cfs] using Nr.refl 1
    | succ m ihm =>
      intro hmM
      have h3 := (hfac m (Finset.mem_range.mpr (by omega)) v hv).mul_right (cfs_pos hs hK hpos hm hy (i := i) (n := m) (by omega) hv).le
      rw [one_mul] at h3
      have h4 := h3.trans (ihm (by omega))
      have e : cfs s Q y i (m + 1) v = cf s Q y (i + 1 + m) (proj (stepQ Q (i + 1 + m)).1 v) * cfs s Q y i m v := by
        unfold cfs; rw [Finset.prod_range_succ, mul_comm]
      rw [e]
      convert h4 using 1
      push_cast
      ring
  have hcell : ∀ v ∈ (cells s).filter (fun v => proj (stepQ Q i).1 v = j), Nr (M * ε + M * (δ + ε)) (y (i + 1 + M) v) (y (i + 1) v) := by
    intro v hv
    have hv := mem_cells.mp (Finset.mem_filter.mp hv).1
    have h3 := near_facs hs hK hpos hm hT hT0 hy hε (i := i) hv M hnN
    have h4 := (hprod v hv M le_rfl).mul_right (hy.pos (i + 1) (by omega) v hv).le
    rw [one_mul, mul_comm (cfs s Q y i M v)] at h4
    exact h3.trans h4
  have h6 := (Nr.sum hcell).trans (near_meets hs hK hpos hm hT hT0 hy hε (i := i) (by omega) hj)
  have hy0 : 0 ≤ marginalSum s (stepQ Q i).1 (y (i + 1 + M)) j :=
    Finset.sum_nonneg fun v hv => (hy.pos _ hnN v (mem_cells.mp (Finset.mem_filter.mp hv).1)).le
  have hm0 : (0 : ℝ) ≤ (stepQ Q i).2 j := by exact_mod_cast (hm _ (stepQ_mem (by omega) i) j hj).le
  refine Nr.mono h6 hy0 hm0 ?_
  have hMK : (M : ℝ) ≤ ((Q.length - 1 : Nat) : ℝ) := by exact_mod_cast (by omega : M ≤ Q.length - 1)
  have h7 := mul_le_mul_of_nonneg_right hMK (show 0 ≤ δ + 2 * ε by linarith)
  have e9 : (M : ℝ) * ε + M * (δ + ε) + ε = M * (δ + 2 * ε) + ε := by ring
  rw [e9]
  linarith

end contraction

end run
end HL.Rate

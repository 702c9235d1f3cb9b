import Verif.Proof.IPFRateMatrix
import Verif.Proof.IPFProduct

/-
Two marginals without a common dimension: the table is a matrix, and sweeps are those of IPFRateMatrix.lean (for C95).
-/

namespace HL.Rate
open HL

/-- two groups of dimensions that partition the dimensions of the table -/
structure Two (s d1 d2 : List Nat) : Prop where
  nodup : (d1 ++ d2).Nodup
  lt : ∀ d ∈ d1 ++ d2, d < s.length
  all : ∀ d < s.length, d ∈ d1 ++ d2

/-- the cell in row `i` and column `j` -/
def glue (s d1 d2 : List Nat) (i j : List Int) : List Int := writeAt (d1 ++ d2) (i ++ j) (zerosI s.length)

variable {s d1 d2 : List Nat}

theorem inRange_app {a b : List Nat} {i j : List Int} (h : InRange a i) (h' : InRange b j) : InRange (a ++ b) (i ++ j) :=
  List.rel_append h h'

theorem projSizes_app : projSizes (d1 ++ d2) s = projSizes d1 s ++ projSizes d2 s := by simp [projSizes]

theorem Two.glue_inRange (h : Two s d1 d2) {i j : List Int} (hi : InRange (projSizes d1 s) i) (hj : InRange (projSizes d2 s) j) :
    InRange s (glue s d1 d2 i j) := by
  rw [← mem_writeAll (loose_of_nodup h.nodup) h.lt h.all]
  refine List.mem_map.mpr ⟨i ++ j, mem_allIdx.mpr ?_, rfl⟩
  rw [projSizes_app]
  exact inRange_app hi hj

theorem Two.proj_app (h : Two s d1 d2) {i j : List Int} (hi : InRange (projSizes d1 s) i) (hj : InRange (projSizes d2 s) j) :
    proj d1 (glue s d1 d2 i j) = i ∧ proj d2 (glue s d1 d2 i j) = j := by
  have hl1 : d1.length = i.length := by have := inRange_length hi; simpa [projSizes] using this.symm
  have hl2 : d2.length = j.length := by have := inRange_length hj; simpa [projSizes] using this.symm
  have h1 : (d1 ++ d2).map (fun p => (glue s d1 d2 i j).getD p 0) = i ++ j :=
    map_writeAt h.nodup (by simp [hl1, hl2]) (by simpa [zerosI] using h.lt)
  rw [List.map_append] at h1
  exact List.append_inj h1 (by simpa [proj] using hl1)

theorem Two.glue_proj (h : Two s d1 d2) {v : List Int} (hv : InRange s v) : glue s d1 d2 (proj d1 v) (proj d2 v) = v := by
  have h1 : InRange (projSizes d1 s) (proj d1 v) := inRange_proj (fun d hd => h.lt d (by simp [hd])) hv
  have h2 : InRange (projSizes d2 s) (proj d2 v) := inRange_proj (fun d hd => h.lt d (by simp [hd])) hv
  have hg := h.glue_inRange h1 h2
  obtain ⟨e1, e2⟩ := h.proj_app h1 h2
  apply ext_getD
  · rw [inRange_length hv, inRange_length hg]
  · intro d hd
    rw [inRange_length hg] at hd
    rcases List.mem_append.mp (h.all d hd) with hd' | hd'
    · exact List.map_inj_left.mp e1 d hd'
    · exact List.map_inj_left.mp e2 d hd'

theorem Two.rowSum (h : Two s d1 d2) (B : List Int → ℚ) {i : List Int} (hi : InRange (projSizes d1 s) i) :
    marginalSum s d1 B i = ∑ j ∈ cells (projSizes d2 s), B (glue s d1 d2 i j) := by
  unfold marginalSum
  refine Finset.sum_nbij' (fun v => proj d2 v) (fun j => glue s d1 d2 i j) ?_ ?_ ?_ ?_ ?_
  · intro v hv
    exact mem_cells.mpr (inRange_proj (fun d hd => h.lt d (by simp [hd])) (mem_cells.mp (Finset.mem_filter.mp hv).1))
  · intro j hj
    exact Finset.mem_filter.mpr ⟨mem_cells.mpr (h.glue_inRange hi (mem_cells.mp hj)), (h.proj_app hi (mem_cells.mp hj)).1⟩
  · intro v hv
    obtain ⟨hv', rfl⟩ := Finset.mem_filter.mp hv
    exact h.glue_proj (mem_cells.mp hv')
  · intro j hj
    exact (h.proj_app hi (mem_cells.mp hj)).2
  · intro v hv
    obtain ⟨hv', rfl⟩ := Finset.mem_filter.mp hv
    show B v = B (glue s d1 d2 (proj d1 v) (proj d2 v))
    rw [h.glue_proj (mem_cells.mp hv')]

theorem Two.colSum (h : Two s d1 d2) (B : List Int → ℚ) {j : List Int} (hj : InRange (projSizes d2 s) j) :
    marginalSum s d2 B j = ∑ i ∈ cells (projSizes d1 s), B (glue s d1 d2 i j) := by
  unfold marginalSum
  refine Finset.sum_nbij' (fun v => proj d1 v) (fun i => glue s d1 d2 i j) ?_ ?_ ?_ ?_ ?_
  · intro v hv
    exact mem_cells.mpr (inRange_proj (fun d hd => h.lt d (by simp [hd])) (mem_cells.mp (Finset.mem_filter.mp hv).1))
  · intro i hi
    exact Finset.mem_filter.mpr ⟨mem_cells.mpr (h.glue_inRange (mem_cells.mp hi) hj), (h.proj_app (mem_cells.mp hi) hj).2⟩
  · intro v hv
    obtain ⟨hv', rfl⟩ := Finset.mem_filter.mp hv
    exact h.glue_proj (mem_cells.mp hv')
  · intro i hi
    exact (h.proj_app (mem_cells.mp hi) hj).1
  · intro v hv
    obtain ⟨hv', rfl⟩ := Finset.mem_filter.mp hv
    show B v = B (glue s d1 d2 (proj d1 v) (proj d2 v))
    rw [h.glue_proj (mem_cells.mp hv')]

/-- the table as a matrix -/
def mat (s d1 d2 : List Nat) (B : List Int → ℚ) (i j : List Int) : ℚ := B (glue s d1 d2 i j)

theorem Two.mat_row (h : Two s d1 d2) (r B : List Int → ℚ) {i j : List Int} (hi : i ∈ cells (projSizes d1 s))
    (hj : j ∈ cells (projSizes d2 s)) :
    mat s d1 d2 (qscaled s d1 r B) i j = rowScale (cells (projSizes d2 s)) r (mat s d1 d2 B) i j := by
  unfold mat qscaled rowScale
  rw [(h.proj_app (mem_cells.mp hi) (mem_cells.mp hj)).1, h.rowSum B (mem_cells.mp hi)]

theorem Two.mat_col (h : Two s d1 d2) (c B : List Int → ℚ) {i j : List Int} (hi : i ∈ cells (projSizes d1 s))
    (hj : j ∈ cells (projSizes d2 s)) :
    mat s d1 d2 (qscaled s d2 c B) i j = colScale (cells (projSizes d1 s)) c (mat s d1 d2 B) i j := by
  unfold mat qscaled colScale
  rw [(h.proj_app (mem_cells.mp hi) (mem_cells.mp hj)).2, h.colSum B (mem_cells.mp hj)]

theorem Two.mat_sweep (h : Two s d1 d2) (r c B : List Int → ℚ) {i j : List Int} (hi : i ∈ cells (projSizes d1 s))
    (hj : j ∈ cells (projSizes d2 s)) :
    mat s d1 d2 (qsweep s [(d1, r), (d2, c)] B) i j =
      colScale (cells (projSizes d1 s)) c (rowScale (cells (projSizes d2 s)) r (mat s d1 d2 B)) i j := by
  show mat s d1 d2 (qscaled s d2 c (qscaled s d1 r B)) i j = _
  rw [h.mat_col c _ hi hj]
  unfold colScale
  rw [Finset.sum_congr rfl (fun k hk => h.mat_row r B hk hj), h.mat_row r B hi hj]

theorem HInv.congr {ι κ : Type*} {R ρ : ℚ} {I : Finset ι} {J : Finset κ} {r : ι → ℚ} {c : κ → ℚ} {Y X : ι → κ → ℚ}
    (h : HInv R ρ I J r c Y) (he : ∀ i ∈ I, ∀ j ∈ J, X i j = Y i j) : HInv R ρ I J r c X := by
  refine ⟨?_, ?_, ?_, ?_, ?_, ?_⟩
  · intro i hi j hj; rw [he i hi j hj]; exact h.nonneg i hi j hj
  · intro i hi j hj; rw [he i hi j hj]; exact h.live i hi j hj
  · intro i hi j hj; rw [he i hi j hj]; exact h.dead i hi j hj
  · intro i hi k hk j hj l hl
    rw [he i hi j hj, he k hk l hl, he i hi l hl, he k hk j hj]
    exact h.odds i hi k hk j hj l hl
  · intro j hj
    rw [Finset.sum_congr rfl (fun i hi => he i hi j hj)]
    exact h.sums j hj
  · intro i hi k hk
    rw [Finset.sum_congr rfl (fun j hj => he i hi j hj), Finset.sum_congr rfl (fun j hj => he k hk j hj)]
    exact h.spread i hi k hk

/-- the spread after `n + 1` sweeps -/
theorem Two.run (h : Two s d1 d2) {R : ℚ} (hR : 1 ≤ R) {r c b : List Int → ℚ}
    (hr : ∀ i ∈ cells (projSizes d1 s), 0 ≤ r i) (hc : ∀ j ∈ cells (projSizes d2 s), 0 ≤ c j)
    (hrc : ∑ i ∈ cells (projSizes d1 s), r i = ∑ j ∈ cells (projSizes d2 s), c j)
    (hb : ∀ i ∈ cells (projSizes d1 s), ∀ j ∈ cells (projSizes d2 s), 0 < mat s d1 d2 b i j)
    (ho : Odds R (cells (projSizes d1 s)) (cells (projSizes d2 s)) (mat s d1 d2 b)) (n : Nat) :
    HInv R (1 + ((R - 1) / (R + 1)) ^ (2 * n) * (R - 1)) (cells (projSizes d1 s)) (cells (projSizes d2 s)) r c
      (mat s d1 d2 ((qsweep s [(d1, r), (d2, c)])^[n + 1] b)) := by
  have hk0 : 0 ≤ (R - 1) / (R + 1) := div_nonneg (by linarith) (by linarith)
  induction n with
  | zero =>
    have := (first_sweep hR hr hc hrc hb ho).congr (fun i hi j hj => h.mat_sweep r c b hi hj)
    simpa using this
  | succ n ih =>
    have h1 : (0 : ℚ) ≤ ((R - 1) / (R + 1)) ^ (2 * n) * (R - 1) := mul_nonneg (pow_nonneg hk0 _) (by linarith)
    have := (ih.sweep hR (by linarith) hr hc hrc).congr (fun i hi j hj => h.mat_sweep r c _ hi hj)
    rw [Function.iterate_succ_apply']
    have e : 1 + ((R - 1) / (R + 1)) ^ 2 * (1 + ((R - 1) / (R + 1)) ^ (2 * n) * (R - 1) - 1) =
        1 + ((R - 1) / (R + 1)) ^ (2 * (n + 1)) * (R - 1) := by ring
    rwa [e] at this

end HL.Rate

import Verif.Proof.Entropy
import Mathlib.Topology.Algebra.Order.LiminfLimsup
import Mathlib.Topology.Sequences
import Mathlib.Analysis.SpecialFunctions.Log.Basic
import Mathlib.Analysis.RCLike.Basic

/-
Sweeps over all marginals: every sweep brings the table closer to every solution; the tables converge.
-/

namespace HL.Ent
open Real Filter Topology

/-! ### Sweeps in reals -/

/-- one sweep over the marginals, in reals -/
noncomputable def rsweep (s : List Nat) (R : Prob ℝ) (b : List Int → ℝ) : List Int → ℝ :=
  R.foldl (fun b q => rscaled s q.1 q.2 b) b

/-- a problem in reals -/
def realProb (Q : Prob ℚ) : Prob ℝ := Q.map (fun q => (q.1, fun j => (q.2 j : ℝ)))

theorem margin_cast (s ds : List Nat) (b : List Int → ℚ) (j : List Int) :
    marginalSum s ds (realTable b) j = ((marginalSum s ds b j : ℚ) : ℝ) := by
  unfold marginalSum realTable
  rw [Rat.cast_sum]

theorem scaled_cast (s ds : List Nat) (m b : List Int → ℚ) :
    rscaled s ds (fun j => (m j : ℝ)) (realTable b) = realTable (qscaled s ds m b) := by
  funext v
  unfold rscaled qscaled
  rw [margin_cast]
  show _ = ((if _ then _ else _ : ℚ) : ℝ)
  by_cases h : marginalSum s ds b (proj ds v) = 0
  · rw [if_pos h, if_pos (by exact_mod_cast h)]; norm_num
  · rw [if_neg h, if_neg (by exact_mod_cast h)]
    push_cast
    rfl

theorem sweep_cast (s : List Nat) : ∀ (Q : Prob ℚ) (b : List Int → ℚ),
    rsweep s (realProb Q) (realTable b) = realTable (qsweep s Q b)
  | [], _ => rfl
  | q :: Q, b => by
    show rsweep s (realProb Q) (rscaled s q.1 (fun j => (q.2 j : ℝ)) (realTable b)) = realTable (qsweep s Q (qscaled s q.1 q.2 b))
    rw [scaled_cast, sweep_cast s Q]

theorem iterate_cast (s : List Nat) (Q : Prob ℚ) (b : List Int → ℚ) (n : Nat) :
    (rsweep s (realProb Q))^[n] (realTable b) = realTable ((qsweep s Q)^[n] b) := by
  induction n with
  | zero => rfl
  | succ n ih => rw [Function.iterate_succ_apply', Function.iterate_succ_apply', ih, sweep_cast]

/-- `t` meets the marginals of `R` -/
def Meets (s : List Nat) (R : Prob ℝ) (t : List Int → ℝ) : Prop :=
  ∀ q ∈ R, ∀ j, InRange (projSizes q.1 s) j → marginalSum s q.1 t j = q.2 j

/-- the dimensions of the marginals exist -/
def DimsOK (s : List Nat) (R : Prob ℝ) : Prop := ∀ q ∈ R, ∀ d ∈ q.1, d < s.length

theorem meets_real {s : List Nat} {Q : Prob ℚ} {t : List Int → ℝ} : MeetsMarginals s Q t ↔ Meets s (realProb Q) t := by
  unfold MeetsMarginals Meets realProb
  simp only [List.mem_map, forall_exists_index, and_imp]
  constructor
  · rintro h _ q hq rfl; exact h q hq
  · intro h q hq; exact h _ q hq rfl

/-- the total of a table -/
noncomputable def total (s : List Nat) (t : List Int → ℝ) : ℝ := ∑ v ∈ cells s, t v

variable {s : List Nat} {t b : List Int → ℝ}

theorem total_eq {q : List Nat × (List Int → ℝ)} (hd : ∀ d ∈ q.1, d < s.length) {t t' : List Int → ℝ}
    (h : ∀ j, InRange (projSizes q.1 s) j → marginalSum s q.1 t j = marginalSum s q.1 t' j) : total s t = total s t' := by
  unfold total
  rw [sum_proj hd, sum_proj hd]
  exact Finset.sum_congr rfl (fun j hj => h j (mem_cells.mp hj))

theorem entropy_nonneg (ht : NonnegTable s t) (hb : NonnegTable s b) (hv : VanishesWith s t b)
    (h : total s t = total s b) : 0 ≤ relEntropy s t b :=
  sum_log_nonneg _ (fun v hv => ht v (mem_cells.mp hv)) (fun v hv => hb v (mem_cells.mp hv))
    (fun v hv' => hv v (mem_cells.mp hv')) h

/-- what a sweep keeps -/
theorem sweep_keeps (ht : NonnegTable s t) : ∀ (R : Prob ℝ), DimsOK s R → Meets s R t → ∀ {b : List Int → ℝ}, NonnegTable s b →
    VanishesWith s t b → NonnegTable s (rsweep s R b) ∧ VanishesWith s t (rsweep s R b) ∧
      (R ≠ [] → total s (rsweep s R b) = total s t)
  | [], _, _, b, hb, hv => ⟨hb, hv, fun h => absurd rfl h⟩
  | q :: R, hd, hm, b, hb, hv => by
    have hdq := hd q (by simp)
    have hmq := hm q (by simp)
    have h1 := step_nonneg hdq hb ht hmq
    have h2 := step_vanishes hdq hb ht hv hmq
    have h3 : ∀ j, InRange (projSizes q.1 s) j → marginalSum s q.1 (rscaled s q.1 q.2 b) j = q.2 j :=
      fun j hj => step_margin hdq hb ht hv hmq hj
    obtain ⟨h4, h5, h6⟩ := sweep_keeps ht R (fun q' h => hd q' (by simp [h])) (fun q' h => hm q' (by simp [h])) h1 h2
    refine ⟨h4, h5, fun _ => ?_⟩
    show total s (rsweep s R (rscaled s q.1 q.2 b)) = _
    by_cases hR : R = []
    · subst hR
      exact total_eq hdq (fun j hj => by
        show marginalSum s q.1 (rscaled s q.1 q.2 b) j = _
        rw [h3 j hj, hmq j hj])
    · exact h6 hR

theorem margin_sub_le (s ds : List Nat) (x y : List Int → ℝ) (j : List Int) :
    |marginalSum s ds x j - marginalSum s ds y j| ≤ ∑ v ∈ cells s, |x v - y v| := by
  unfold marginalSum
  rw [← Finset.sum_sub_distrib]
  refine (Finset.abs_sum_le_sum_abs _ _).trans ?_
  exact Finset.sum_le_sum_of_subset_of_nonneg (Finset.filter_subset _ _) (fun _ _ _ => abs_nonneg _)

/-- a sweep over a table with the right total: its deviations from the marginals are bounded by the entropy gained -/
theorem sweep_gain (ht : NonnegTable s t) : ∀ (R : Prob ℝ), DimsOK s R → Meets s R t → ∀ {b : List Int → ℝ}, NonnegTable s b →
    VanishesWith s t b → total s b = total s t →
    ∃ δ : ℝ, 0 ≤ δ ∧ δ ^ 2 ≤ 4 * total s t * R.length * (relEntropy s t b - relEntropy s t (rsweep s R b)) ∧
      (∑ v ∈ cells s, |rsweep s R b v - b v| ≤ δ) ∧
      ∀ q ∈ R, ∀ j, InRange (projSizes q.1 s) j → |marginalSum s q.1 b j - q.2 j| ≤ δ
  | [], _, _, b, hb, hv, _ => ⟨0, le_rfl, by simp, by simp [rsweep], by simp⟩
  | q :: R, hd, hm, b, hb, hv, htot => by
    have hdq := hd q (by simp)
    have hmq := hm q (by simp)
    have h1 := step_nonneg hdq hb ht hmq
    have h2 := step_vanishes hdq hb ht hv hmq
    have h3 : ∀ j, InRange (projSizes q.1 s) j → marginalSum s q.1 (rscaled s q.1 q.2 b) j = q.2 j :=
      fun j hj => step_margin hdq hb ht hv hmq hj
    have h4 : total s (rscaled s q.1 q.2 b) = total s t := total_eq hdq (fun j hj => by rw [h3 j hj, hmq j hj])
    obtain ⟨δ, hδ0, hδ, hδm, hδq⟩ := sweep_gain ht R (fun q' h => hd q' (by simp [h])) (fun q' h => hm q' (by simp [h])) h1 h2 h4
    have h5 := step_moves hdq hb ht hv hmq
    have h6 := step_entropy hdq hb ht hv hmq
    -- the deviation from this marginal
    set a := ∑ v ∈ cells s, |rscaled s q.1 q.2 b v - b v| with ha
    have ha0 : 0 ≤ a := Finset.sum_nonneg (fun v _ => abs_nonneg _)
    have hT : 0 ≤ total s t := Finset.sum_nonneg (fun v hv => ht v (mem_cells.mp hv))
    have h7 : a ^ 2 ≤ 4 * total s t * (relEntropy s t b - relEntropy s t (rscaled s q.1 q.2 b)) := by
      rw [h5, show relEntropy s t b - relEntropy s t (rscaled s q.1 q.2 b) =
        ∑ j ∈ cells (projSizes q.1 s), q.2 j * log (q.2 j / marginalSum s q.1 b j) by linarith]
      apply sq_sum_abs_le
      · intro j hj; rw [← hmq j (mem_cells.mp hj)]; exact margin_nonneg ht _
      · intro j hj; exact margin_nonneg hb _
      · intro j hj h0; rw [← hmq j (mem_cells.mp hj)]; exact margin_zero hv hb h0
      · rw [← Finset.sum_congr rfl (fun j hj => hmq j (mem_cells.mp hj)), ← sum_proj hdq]; rfl
      · rw [← sum_proj hdq]; exact htot
    have hab : ∀ j, InRange (projSizes q.1 s) j → |marginalSum s q.1 b j - q.2 j| ≤ a := by
      intro j hj
      rw [← h3 j hj]
      refine (margin_sub_le s q.1 b _ j).trans_eq ?_
      rw [ha]
      exact Finset.sum_congr rfl (fun v _ => abs_sub_comm _ _)
    refine ⟨a + δ, by positivity, ?_, ?_, ?_⟩
    · show (a + δ) ^ 2 ≤ 4 * total s t * ((R.length + 1 : ℕ) : ℝ) *
        (relEntropy s t b - relEntropy s t (rsweep s R (rscaled s q.1 q.2 b)))
      set D0 := relEntropy s t b
      set D1 := relEntropy s t (rscaled s q.1 q.2 b)
      set D2 := relEntropy s t (rsweep s R (rscaled s q.1 q.2 b))
      have hA : a ^ 2 ≤ 4 * total s t * (D0 - D1) := h7
      have hB : δ ^ 2 ≤ R.length * (4 * total s t * (D1 - D2)) := by
        have : 4 * total s t * R.length * (D1 - D2) = R.length * (4 * total s t * (D1 - D2)) := by ring
        rw [← this]; exact hδ
      rw [show 4 * total s t * ((R.length + 1 : ℕ) : ℝ) * (D0 - D2) =
        ((R.length : ℝ) + 1) * (4 * total s t * (D0 - D1) + 4 * total s t * (D1 - D2)) by push_cast; ring]
      generalize 4 * total s t * (D0 - D1) = A at hA
      generalize hBe : 4 * total s t * (D1 - D2) = B at hB
      rcases Nat.eq_zero_or_pos R.length with hR | hR
      · have hR' : R = [] := List.length_eq_zero_iff.mp hR
        have hB0 : B = 0 := by
          rw [← hBe]
          have : D2 = D1 := by
            show relEntropy s t (rsweep s R (rscaled s q.1 q.2 b)) = _
            rw [hR']; rfl
          rw [this]; ring
        rw [hR] at hB ⊢
        have hδz : δ = 0 := by
          have : δ ^ 2 ≤ 0 := by simpa using hB
          exact pow_eq_zero_iff (two_ne_zero) |>.mp (le_antisymm this (sq_nonneg _))
        rw [hδz, hB0]
        simpa using hA
      generalize (R.length) = k at hB hR
      have hk : (0 : ℝ) < k := by exact_mod_cast hR
      have h8 : 2 * a * δ ≤ k * A + B := by
        have h9 : k * (2 * a * δ) ≤ k * (k * A + B) := by
          have h10 := sq_nonneg ((k : ℝ) * a - δ)
          have h11 : (k : ℝ) ^ 2 * a ^ 2 ≤ (k : ℝ) ^ 2 * A := mul_le_mul_of_nonneg_left hA (by positivity)
          nlinarith
        exact le_of_mul_le_mul_left h9 hk
      have h12 : (a + δ) ^ 2 = a ^ 2 + 2 * a * δ + δ ^ 2 := by ring
      have h13 : ((k : ℝ) + 1) * (A + B) = A + (k * A + B) + k * B := by ring
      rw [h12, h13]
      linarith
    · calc ∑ v ∈ cells s, |rsweep s (q :: R) b v - b v| ≤
          ∑ v ∈ cells s, (|rscaled s q.1 q.2 b v - b v| + |rsweep s R (rscaled s q.1 q.2 b) v - rscaled s q.1 q.2 b v|) := by
            apply Finset.sum_le_sum
            intro v _
            show |rsweep s R (rscaled s q.1 q.2 b) v - b v| ≤ _
            have : rsweep s R (rscaled s q.1 q.2 b) v - b v = (rscaled s q.1 q.2 b v - b v) +
              (rsweep s R (rscaled s q.1 q.2 b) v - rscaled s q.1 q.2 b v) := by ring
            rw [this]
            exact abs_add_le _ _
        _ ≤ a + δ := by rw [Finset.sum_add_distrib]; linarith
    · intro p hp j hj
      rcases List.mem_cons.mp hp with rfl | hp
      · exact (hab j hj).trans (by linarith)
      · have h8 := hδq p hp j hj
        have h9 := margin_sub_le s p.1 b (rscaled s q.1 q.2 b) j
        have h10 : ∑ v ∈ cells s, |b v - rscaled s q.1 q.2 b v| = a := Finset.sum_congr rfl (fun v _ => abs_sub_comm _ _)
        rw [h10] at h9
        have : marginalSum s p.1 b j - p.2 j = (marginalSum s p.1 b j - marginalSum s p.1 (rscaled s q.1 q.2 b) j) +
          (marginalSum s p.1 (rscaled s q.1 q.2 b) j - p.2 j) := by ring
        rw [this]
        exact (abs_add_le _ _).trans (by linarith)

/-- the entropy gained by a sweep is the same with respect to every solution -/
theorem gain_const {t' : List Int → ℝ} (ht : NonnegTable s t) (ht' : NonnegTable s t') : ∀ (R : Prob ℝ), DimsOK s R →
    Meets s R t → Meets s R t' → ∀ {b : List Int → ℝ}, NonnegTable s b → VanishesWith s t b → VanishesWith s t' b →
    relEntropy s t b - relEntropy s t (rsweep s R b) = relEntropy s t' b - relEntropy s t' (rsweep s R b)
  | [], _, _, _, b, _, _, _ => by show _ - relEntropy s t b = _ - relEntropy s t' b; ring
  | q :: R, hd, hm, hm', b, hb, hv, hv' => by
    have hdq := hd q (by simp)
    have h1 := step_entropy hdq hb ht hv (hm q (by simp))
    have h2 := step_entropy hdq hb ht' hv' (hm' q (by simp))
    have h3 := gain_const ht ht' R (fun q' h => hd q' (by simp [h])) (fun q' h => hm q' (by simp [h]))
      (fun q' h => hm' q' (by simp [h])) (step_nonneg hdq hb ht (hm q (by simp)))
      (step_vanishes hdq hb ht hv (hm q (by simp))) (step_vanishes hdq hb ht' hv' (hm' q (by simp)))
    show _ - relEntropy s t (rsweep s R (rscaled s q.1 q.2 b)) = _ - relEntropy s t' (rsweep s R (rscaled s q.1 q.2 b))
    linarith

theorem rscaled_zero {ds : List Nat} {m : List Int → ℝ} {v : List Int} (h : b v = 0) : rscaled s ds m b v = 0 := by
  unfold rscaled; rw [h]; simp

theorem rsweep_zero : ∀ (R : Prob ℝ) {b : List Int → ℝ} {v : List Int}, b v = 0 → rsweep s R b v = 0
  | [], _, _, h => h
  | q :: R, b, v, h => rsweep_zero R (b := rscaled s q.1 q.2 b) (rscaled_zero h)

theorem rscaled_smul {ds : List Nat} {m : List Int → ℝ} {k : ℝ} (hk : k ≠ 0) (b : List Int → ℝ) :
    rscaled s ds m (fun v => k * b v) = rscaled s ds m b := by
  funext v
  unfold rscaled
  have : marginalSum s ds (fun v => k * b v) (proj ds v) = k * marginalSum s ds b (proj ds v) := by
    unfold marginalSum; rw [Finset.mul_sum]
  rw [this]
  by_cases h0 : marginalSum s ds b (proj ds v) = 0
  · simp [h0]
  · rw [if_neg (mul_ne_zero hk h0), if_neg h0]
    field_simp

theorem rsweep_smul {R : Prob ℝ} (hR : R ≠ []) {k : ℝ} (hk : k ≠ 0) (b : List Int → ℝ) :
    rsweep s R (fun v => k * b v) = rsweep s R b := by
  cases R with
  | nil => exact absurd rfl hR
  | cons q R =>
    show rsweep s R (rscaled s q.1 q.2 _) = rsweep s R (rscaled s q.1 q.2 b)
    rw [rscaled_smul hk]

/-! ### Repeated sweeps -/

section iterate
variable {R : Prob ℝ} (hR : R ≠ []) (hd : DimsOK s R) (hb : NonnegTable s b)
include hd hb

theorem iterate_keeps (ht : NonnegTable s t) (hm : Meets s R t) (hv : VanishesWith s t b) (n : Nat) :
    NonnegTable s ((rsweep s R)^[n] b) ∧ VanishesWith s t ((rsweep s R)^[n] b) := by
  induction n with
  | zero => exact ⟨hb, hv⟩
  | succ n ih =>
    rw [Function.iterate_succ_apply']
    obtain ⟨h1, h2, -⟩ := sweep_keeps ht R hd hm ih.1 ih.2
    exact ⟨h1, h2⟩

theorem iterate_gain {t' : List Int → ℝ} (ht : NonnegTable s t) (hm : Meets s R t) (hv : VanishesWith s t b)
    (ht' : NonnegTable s t') (hm' : Meets s R t') (hv' : VanishesWith s t' b) (n : Nat) :
    relEntropy s t b - relEntropy s t ((rsweep s R)^[n] b) = relEntropy s t' b - relEntropy s t' ((rsweep s R)^[n] b) := by
  induction n with
  | zero => show relEntropy s t b - relEntropy s t b = relEntropy s t' b - relEntropy s t' b; ring
  | succ n ih =>
    rw [Function.iterate_succ_apply']
    obtain ⟨h1, h2⟩ := iterate_keeps hd hb ht hm hv n
    obtain ⟨-, h3⟩ := iterate_keeps hd hb ht' hm' hv' n
    have := gain_const ht ht' R hd hm hm' h1 h2 h3
    linarith

include hR

theorem iterate_total (ht : NonnegTable s t) (hm : Meets s R t) (hv : VanishesWith s t b) {n : Nat} (hn : 0 < n) :
    total s ((rsweep s R)^[n] b) = total s t := by
  obtain ⟨n, rfl⟩ : ∃ k, n = k + 1 := ⟨n - 1, by omega⟩
  rw [Function.iterate_succ_apply']
  obtain ⟨h1, h2⟩ := iterate_keeps hd hb ht hm hv n
  exact (sweep_keeps ht R hd hm h1 h2).2.2 hR

/-- the deviations from the marginals are small often -/
theorem iterate_rate (ht : NonnegTable s t) (hm : Meets s R t) (hv : VanishesWith s t b) {ε : ℝ} (hε : 0 ≤ ε) (N : Nat)
    (h : ∀ n, 0 < n → n ≤ N → ∃ q ∈ R, ∃ j, InRange (projSizes q.1 s) j ∧ ε ≤ |marginalSum s q.1 ((rsweep s R)^[n] b) j - q.2 j|) :
    N * ε ^ 2 ≤ 4 * total s t * R.length * (relEntropy s t ((rsweep s R)^[1] b) - relEntropy s t ((rsweep s R)^[N + 1] b)) := by
  induction N with
  | zero => simp
  | succ N ih =>
    have h1 := ih (fun n hn hn' => h n hn (by omega))
    obtain ⟨q, hq, j, hj, he⟩ := h (N + 1) (by omega) le_rfl
    obtain ⟨h2, h3⟩ := iterate_keeps hd hb ht hm hv (N + 1)
    obtain ⟨δ, hδ0, hδ, -, hδq⟩ := sweep_gain ht R hd hm h2 h3 (iterate_total hR hd hb ht hm hv (by omega))
    have h4 : ε ^ 2 ≤ δ ^ 2 := pow_le_pow_left₀ hε (he.trans (hδq q hq j hj)) 2
    rw [← Function.iterate_succ_apply' (rsweep s R)] at hδ
    push_cast
    have h5 : ((N : ℝ) + 1) * ε ^ 2 = N * ε ^ 2 + ε ^ 2 := by ring
    rw [h5]
    have h6 : 4 * total s t * R.length * (relEntropy s t ((rsweep s R)^[1] b) - relEntropy s t ((rsweep s R)^[N + 1 + 1] b)) =
      4 * total s t * R.length * (relEntropy s t ((rsweep s R)^[1] b) - relEntropy s t ((rsweep s R)^[N + 1] b)) +
      4 * total s t * R.length * (relEntropy s t ((rsweep s R)^[N + 1] b) - relEntropy s t ((rsweep s R)^[N + 1 + 1] b)) := by ring
    rw [h6]
    exact add_le_add h1 (h4.trans hδ)

theorem iterate_antitone (ht : NonnegTable s t) (hm : Meets s R t) (hv : VanishesWith s t b) (hT : 0 < total s t) {n : Nat} (hn : 0 < n) :
    relEntropy s t ((rsweep s R)^[n + 1] b) ≤ relEntropy s t ((rsweep s R)^[n] b) := by
  obtain ⟨h2, h3⟩ := iterate_keeps hd hb ht hm hv n
  obtain ⟨δ, hδ0, hδ, -, -⟩ := sweep_gain ht R hd hm h2 h3 (iterate_total hR hd hb ht hm hv hn)
  rw [← Function.iterate_succ_apply' (rsweep s R)] at hδ
  have hk : (0 : ℝ) < R.length := by exact_mod_cast List.length_pos_iff.mpr hR
  have h4 : 0 ≤ 4 * total s t * R.length * (relEntropy s t ((rsweep s R)^[n] b) - relEntropy s t ((rsweep s R)^[n + 1] b)) :=
    (sq_nonneg δ).trans hδ
  have := nonneg_of_mul_nonneg_right h4 (by positivity)
  linarith

/-- the first sweep: relative to the seed scaled to the right total -/
theorem first_sweep (ht : NonnegTable s t) (hm : Meets s R t) (hv : VanishesWith s t b) (hT : 0 < total s t) :
    0 < total s b ∧ relEntropy s t ((rsweep s R)^[1] b) ≤ relEntropy s t (fun v => total s t / total s b * b v) := by
  have hB : 0 < total s b := by
    refine lt_of_le_of_ne (Finset.sum_nonneg (fun v hv => hb v (mem_cells.mp hv))) ?_
    intro h0
    have h1 := (Finset.sum_eq_zero_iff_of_nonneg (fun v hv => hb v (mem_cells.mp hv))).mp h0.symm
    have : total s t = 0 := Finset.sum_eq_zero (fun v hv' => hv v (mem_cells.mp hv') (h1 v hv'))
    linarith
  refine ⟨hB, ?_⟩
  have hk : total s t / total s b ≠ 0 := (div_pos hT hB).ne'
  have hb' : NonnegTable s (fun v => total s t / total s b * b v) := fun v h => mul_nonneg (div_pos hT hB).le (hb v h)
  have hv' : VanishesWith s t (fun v => total s t / total s b * b v) :=
    fun v h h0 => hv v h ((mul_eq_zero.mp h0).resolve_left hk)
  have htot : total s (fun v => total s t / total s b * b v) = total s t := by
    unfold total
    rw [← Finset.mul_sum]
    exact div_mul_cancel₀ _ hB.ne'
  obtain ⟨δ, hδ0, hδ, -, -⟩ := sweep_gain ht R hd hm hb' hv' htot
  rw [rsweep_smul hR hk] at hδ
  have hk : (0 : ℝ) < R.length := by exact_mod_cast List.length_pos_iff.mpr hR
  have := nonneg_of_mul_nonneg_right ((sq_nonneg δ).trans hδ) (by positivity)
  show relEntropy s t (rsweep s R b) ≤ _
  linarith

end iterate

end HL.Ent

import Verif.Proof.IPFPartwayRound
import Verif.Props.IPFPartway
import Verif.Props.IPFBackward
import Verif.Props.IPFDecomp

/-
C131 in double precision: the marginal that comes last in the list is met to within rounding, converged or not.
-/

namespace HL
open Micro Integerise Ent
variable {fp : FP}

/-- **C131**, double precision: seed and marginals of moderate size (or zero), no more than `f` cells in the sum for one entry of a
marginal, and no tiny number in the run.  If some non-negative table meets all the marginals and vanishes where the seed does, then,
converged or not, every sum for the marginal that comes last in the list is the requested number up to a relative error of
`(f + 2) / 2^53`, and so is the total. -/
theorem C131_double (hfp : fp.Good) {s : List Nat} {Q : Prob ℚ} {p : List Nat × (List Int → ℚ)} {pop : Int}
    (h : RatOK s (Q ++ [p]) pop) (hp : ProperProb s (Q ++ [p])) {b : List Int → ℚ} {f : Nat}
    (hb : ∀ v, InRange s v → b v = 0 ∨ MidSize (b v))
    (hq : ∀ q ∈ Q ++ [p], ∀ j, InRange (projSizes q.1 s) j → q.2 j = 0 ∨ MidSize (q.2 j))
    (hf : ∀ q ∈ Q ++ [p], ∀ j, ((cells s).filter (fun v => proj q.1 v = j)).card ≤ f) (hf' : f ≤ 2 ^ 50)
    {t : List Int → ℝ} (ht : NonnegTable s t) (hm : MeetsMarginals s (Q ++ [p]) t) (hv : VanishesWith s t (realTable b)) {r : IPF Fl}
    (hr : IPF.run false fp (numFl fp) (indicesOf (finProb (Q ++ [p]))) (marginalsOf s (finProb (Q ++ [p]))) (finArr s b) = .ok r)
    (hn : NoTiny fp s (Q ++ [p]) b r.iters) :
    ∃ c : List Int → ℚ, r.micro.array = finArr s c ∧ (∀ v, InRange s v → 0 ≤ c v) ∧
      (∀ j, InRange (projSizes p.1 s) j →
        (1 - (f + 2 : Nat) / 2 ^ 53) * p.2 j ≤ marginalSum s p.1 c j ∧ (1 - (f + 2 : Nat) / 2 ^ 53) * marginalSum s p.1 c j ≤ p.2 j) ∧
      (1 - (f + 2 : Nat) / 2 ^ 53) * pop ≤ ∑ v ∈ cells s, c v ∧ (1 - (f + 2 : Nat) / 2 ^ 53) * ∑ v ∈ cells s, c v ≤ pop := by
  have hmem : p ∈ Q ++ [p] := by simp
  have hd : ∀ q ∈ Q ++ [p], ∀ d ∈ q.1, d < s.length := fun q hq => (h.dims q hq).2
  obtain ⟨pop', n, -, h1, -, -, -, rfl⟩ := ipf_run fp (numFl fp) (minOK_fl _)
    (probShape_congr (fst_finProb (Q ++ [p])).symm h.toProbShape) (properProb_fin hp) _ hr
  obtain ⟨n, rfl⟩ : ∃ k, n = k + 1 := ⟨n - 1, by omega⟩
  have hn' : NoTiny fp s (Q ++ [p]) b (n + 1) := hn
  obtain ⟨x0, hx0⟩ := mid_run' hd hq hf hf' hfp hb n (fun m hm => hn' m (by omega))
  obtain ⟨x, hx⟩ := mid_take hd hq hf hf' hfp hx0 (hn' n (by omega)) Q.length (by simp)
  have hlen : (finProb (Q ++ [p])).length = Q.length + 1 := by simp [finProb]
  -- the last scaling
  have e := sweep_take fp (numFl fp) s (finProb (Q ++ [p])) Q.length (by omega)
    ((sweep fp (numFl fp) s (finProb (Q ++ [p])))^[n] (fun v => .fin (b v)))
  have e2 : (finProb (Q ++ [p]))[Q.length]'(by omega) = (p.1, fun j => .fin (p.2 j)) := by simp [finProb]
  rw [e2] at e
  have h2 := hn' n (by omega) (Q.length + 1) (by simp)
  rw [e] at h2
  obtain ⟨c, hc, hrel⟩ := mid_step hd hq hf hf' hfp hx hmem h2
  rw [← e, List.take_of_length_le (by omega), ← Function.iterate_succ_apply' (sweep fp (numFl fp) s (finProb (Q ++ [p])))] at hc
  refine ⟨c, arr_congr hc.agree, hc.nonneg, ?_⟩
  have hpn : ∀ j, InRange (projSizes p.1 s) j → 0 ≤ p.2 j := h.nonneg p hmem
  have hqn : ∀ v, InRange s v → 0 ≤ qscaled s p.1 p.2 x v := qscaled_nonneg (hd p hmem) hpn hx.nonneg
  have key : ∀ j, InRange (projSizes p.1 s) j → Rel (f + 2) (marginalSum s p.1 c j) (p.2 j) := by
    intro j hj
    have h3 : Rel (f + 2) (marginalSum s p.1 c j) (marginalSum s p.1 (qscaled s p.1 p.2 x) j) :=
      Rel.sum (fun v hv => hrel v (mem_cells.mp (Finset.mem_filter.mp hv).1))
    rcases qscaled_margin s p x j with h4 | h4
    · rwa [h4] at h3
    · -- nothing is left: the solution has nothing there either
      have h5 : ∀ v, InRange s v → proj p.1 v = j → t v = 0 := by
        intro v hvr hvj
        by_contra hne
        have hcz : c v = 0 := ((hrel v hvr).zero_iff (hqn v hvr)).mpr (h4 v hvj)
        refine hc.live v hvr ?_ ?_ hcz
        · intro hbz
          exact hne (hv v hvr (by show ((b v : ℚ) : ℝ) = 0; rw [hbz, Rat.cast_zero]))
        · intro q hq' hqz
          refine hne (zero_of_margin (ds := q.1) ht hvr ?_)
          rw [hm q hq' _ (inRange_proj (hd q hq') hvr), hqz, Rat.cast_zero]
      have h6 : marginalSum s p.1 t j = 0 := Finset.sum_eq_zero (fun v hv' => by
        obtain ⟨hv1, hv2⟩ := Finset.mem_filter.mp hv'
        exact h5 v (mem_cells.mp hv1) hv2)
      rw [hm p hmem j hj] at h6
      rw [Rat.cast_eq_zero.mp h6]
      have h7 : marginalSum s p.1 (qscaled s p.1 p.2 x) j = 0 :=
        Finset.sum_eq_zero (fun v hv' => h4 v (Finset.mem_filter.mp hv').2)
      rwa [h7] at h3
  have hu := uu_pow_ge (f + 2)
  have hcm : ∀ j, 0 ≤ marginalSum s p.1 c j := fun j => marginalSum_nonneg hc.nonneg j
  have esum : ∑ v ∈ cells s, c v = ∑ j ∈ cells (projSizes p.1 s), marginalSum s p.1 c j :=
    (Finset.sum_fiberwise_of_maps_to (fun v hv => mem_cells.mpr (inRange_proj (hd p hmem) (mem_cells.mp hv))) c).symm
  have htot : Rel (f + 2) (∑ v ∈ cells s, c v) (pop : ℚ) := by
    rw [esum, ← h.total p hmem]
    exact Rel.sum (fun j hj => key j (mem_cells.mp hj))
  have hpop : (0 : ℚ) ≤ pop := by
    rw [← h.total p hmem]
    exact Finset.sum_nonneg (fun j hj => hpn j (mem_cells.mp hj))
  have hcs : 0 ≤ ∑ v ∈ cells s, c v := Finset.sum_nonneg (fun v hv => hc.nonneg v (mem_cells.mp hv))
  refine ⟨fun j hj => ⟨(mul_le_mul_of_nonneg_right hu (hpn j hj)).trans (key j hj).1,
    (mul_le_mul_of_nonneg_right hu (hcm j)).trans (key j hj).2⟩,
    (mul_le_mul_of_nonneg_right hu hpop).trans htot.1, (mul_le_mul_of_nonneg_right hu hcs).trans htot.2⟩

/-! ### The hypotheses are met, in binary64: the run of C94's example -/

theorem mid_noTiny (sqrt : Fl → Fl) : NoTiny (FP.ieee sqrt) [2, 2] (ratProb midProb) (fun _ => 1) 1 := by
  intro m hm i hi v hv x hx
  obtain ⟨y, hy, h1⟩ := mid_regular sqrt m hm i hi v hv
  obtain rfl : m = 0 := by omega
  have hi' : i ≤ 2 := hi
  have h2 := mid_stages i (List.mem_range.mpr (by omega)) v (mem_allIdx.mpr hv)
  have h3 : midStage i v = .fin x := hx
  rw [h3] at h2
  simp only [regularFl, Bool.and_eq_true, decide_eq_true_eq] at h2
  right
  refine le_trans ?_ h2.1
  norm_num

example (sqrt : Fl → Fl) : ∃ Q p r, ratProb midProb = Q ++ [p] ∧
    IPF.run false (FP.ieee sqrt) (numFl (FP.ieee sqrt)) (indicesOf (finProb (Q ++ [p])))
      (marginalsOf [2, 2] (finProb (Q ++ [p]))) (finArr [2, 2] (fun _ => 1)) = .ok r ∧
    NoTiny (FP.ieee sqrt) [2, 2] (Q ++ [p]) (fun _ => 1) r.iters ∧
    (∀ q ∈ Q ++ [p], ∀ j, InRange (projSizes q.1 [2, 2]) j → q.2 j = 0 ∨ MidSize (q.2 j)) ∧
    ∀ q ∈ Q ++ [p], ∀ j, ((cells [2, 2]).filter (fun v => proj q.1 v = j)).card ≤ 4 := by
  obtain ⟨r, h1, -, h3⟩ := mid_run sqrt
  refine ⟨[(ratProb midProb).head (by simp [ratProb, midProb])], (ratProb midProb).getLast (by simp [ratProb, midProb]), r, rfl, ?_, ?_, ?_, ?_⟩
  · show IPF.run false (FP.ieee sqrt) (numFl (FP.ieee sqrt)) (indicesOf (finProb (ratProb midProb)))
      (marginalsOf [2, 2] (finProb (ratProb midProb))) (finArr [2, 2] (fun _ => 1)) = .ok r
    rw [fin_ratProb]
    exact h1
  · rw [h3]; exact mid_noTiny sqrt
  · have key : ∀ q ∈ ratProb midProb, ∀ j ∈ allIdx (projSizes q.1 [2, 2]), 1 / 2 ^ 200 ≤ q.2 j ∧ q.2 j ≤ 2 ^ 200 := by
      decide +kernel
    intro q hq j hj
    exact .inr (key q hq j (mem_allIdx.mpr hj))
  · intro q _ j
    exact (Finset.card_filter_le _ _).trans (by decide)

/-- the table that meets the marginals -/
def midTable : List Int → ℚ := fun v => midRows [v.getD 0 0] * midCols [v.getD 1 0] / 1000000

example : RatOK [2, 2] (ratProb midProb) 1000000 ∧ ProperProb [2, 2] (ratProb midProb) ∧
    NonnegTable [2, 2] (realTable midTable) ∧ MeetsMarginals [2, 2] (ratProb midProb) (realTable midTable) ∧
    VanishesWith [2, 2] (realTable midTable) (realTable (fun _ => 1)) := by
  refine ⟨ratOK_ratProb midProb_ok, by unfold ProperProb; decide, ?_, ?_, ?_⟩
  · have key : ∀ v ∈ allIdx [2, 2], 0 ≤ midTable v := by decide +kernel
    intro v hv
    exact Rat.cast_nonneg.mpr (key v (mem_allIdx.mpr hv))
  · have key : ∀ q ∈ ratProb midProb, ∀ j ∈ allIdx (projSizes q.1 [2, 2]), marginalSum [2, 2] q.1 midTable j = q.2 j := by
      decide +kernel
    intro q hq j hj
    rw [margin_cast, key q hq j (mem_allIdx.mpr hj)]
  · intro v _ h0
    simp [realTable] at h0

end HL

import Verif.Proof.QISIDecompFit
import Verif.Props.IPF
import Verif.Props.QISI
import Verif.Props.Decomp

/-
C101, C102: IPF and QISI with a constant seed and marginals that fit together.
-/

namespace HL
open QISI

/-- **C101**: with a constant positive seed and marginals listed so that each has an earlier one that names all the dimensions
it shares with those before it and agrees with it there, `ipf` needs one iteration (in exact arithmetic), meets every
marginal exactly and returns the table of the chain rule: the population times, for each marginal in order, the share of the
cell among the cells of the marginal with the same entries at the dimensions named before. -/
theorem C101_ipf_decomposable {s : List Nat} {Q : Prob ℚ} {pop : Int} (h : RatOK s Q pop) (hlt : pop < 2 ^ 62)
    (hp : ProperProb s Q) (ht : Decomposable s Q) {c : ℚ} (hc : 0 < c) :
    ∃ r, ipfExact s Q (fun _ => c) = .ok r ∧ r.conv = true ∧ r.iters = 1 ∧ r.maxError = .fin 0 ∧
      r.micro.array = finArr s (fun v => pop * chainAt s [] Q v) ∧
      ∀ q ∈ Q, ∀ j, InRange (projSizes q.1 s) j → marginalSum s q.1 (fun v => pop * chainAt s [] Q v) j = q.2 j := by
  obtain ⟨r, hr⟩ := ipf_run_ok FP.exact (numFl FP.exact) (minOK_fl _) (ratOK_accepted h hlt)
    (properProb_fin hp) (fun _ => .fin c)
  refine ⟨r, hr, ?_⟩
  obtain ⟨pop', n, -, hn1, -, -, hn, hmi, hi, hcv, he⟩ := ipf_exact_fin h.toProbShape hp (b := fun _ => c) hr
  obtain ⟨-, h2, h3⟩ := sweep_decomp h.toProbShape h.nonneg ht h.total hc
  have hq0 : qmax s Q ((qsweep s Q)^[1] (fun _ => c)) = 0 := qmax_zero h.toProbShape h2
  have h1 : n = 1 := by
    by_contra hne
    have := hn 1 le_rfl (by omega)
    rw [hq0] at this
    norm_num at this
  subst h1
  rw [hq0] at hcv he
  refine ⟨by rw [hcv]; norm_num, hi, he, ?_, fun q hq j hj => ?_⟩
  · rw [hmi]
    exact arr_congr (fun v hv => congrArg Fl.fin (h3 v hv))
  · rw [← h2 q hq j hj]
    exact marginalSum_congr (fun v hv => (h3 v hv).symm) j

/-- **C102**: with a constant positive seed and marginals as in C101, `qisi` returns with `conv` true (in exact arithmetic),
for every number of skips from 0 to 2^31 and every population for which the Sobol sequence is long enough. -/
theorem C102_qisi_decomposable (lm : Libm) {s : List Nat} {P : Prob Int} {pop : Int} (h : ProbOK s P pop) (hpop : pop ≤ 2 ^ 32 - 1)
    (hp : ProperProb s P) (ht : Decomposable s P) (hl : s.length ≤ 1111) {k : ℚ} (hk : 0 < k) {skips : Int} (h0 : 0 ≤ skips)
    (h1 : skips ≤ 2 ^ 31) :
    ∃ x f, qisi FP.exact lm s P (fun _ => .fin k) skips = .ok x ∧ x.conv = true ∧ x.micro.array = arr s f ∧
      (∀ v, InRange s v → 0 ≤ f v) ∧ ∀ p ∈ P, ∀ j, InRange (projSizes p.1 s) j → marginalSum s p.1 f j = p.2 j := by
  obtain ⟨x, hx, hc⟩ := C44_conv lm h hpop hp hl h0 h1 (fitDone_decomp h hp ht hk)
  obtain ⟨f, hf, hnn, -, -, hm⟩ := C41_population_conv FP.exact_good h (by omega) hp hx
  exact ⟨x, f, hx, hc, hf, hnn, hm.mp hc⟩

/-! ### The hypotheses are met -/

theorem ratOK_ratProb {s : List Nat} {P : Prob Int} {pop : Int} (h : ProbOK s P pop) : RatOK s (ratProb P) pop := by
  refine ⟨probShape_congr (fst_ratProb P).symm h.toProbShape, ?_, ?_, ?_⟩
  · intro q hq j hj
    obtain ⟨p, hp, rfl⟩ := List.mem_map.mp hq
    show (0 : ℚ) ≤ (p.2 j : ℚ)
    exact_mod_cast h.nonneg p hp j hj
  · intro q hq
    obtain ⟨p, hp, rfl⟩ := List.mem_map.mp hq
    show ∑ j ∈ cells (projSizes p.1 s), (p.2 j : ℚ) = _
    rw [← h.total p hp]; push_cast; rfl
  · intro q hq q' hq' a b d ha hb x hx
    obtain ⟨p, hp, rfl⟩ := List.mem_map.mp hq
    obtain ⟨p', hp', rfl⟩ := List.mem_map.mp hq'
    have := h.partials p hp p' hp' a b d ha hb x hx
    unfold marginalSum at *
    show ∑ v ∈ _, (p.2 v : ℚ) = ∑ v ∈ _, (p'.2 v : ℚ)
    exact_mod_cast this

theorem bandProb_inRange : ProperProb [2, 2, 2, 2] bandProb := by unfold ProperProb bandProb; decide

/-- two marginals over three dimensions each, with two in common -/
example : ∃ r, ipfExact [2, 2, 2, 2] (ratProb bandProb) (fun _ => 1) = .ok r ∧ r.conv = true ∧ r.iters = 1 := by
  have hp : ProperProb [2, 2, 2, 2] (ratProb bandProb) := by
    intro q hq
    obtain ⟨p, hp, rfl⟩ := List.mem_map.mp hq
    exact bandProb_inRange p hp
  obtain ⟨r, h1, h2, h3, -⟩ := C101_ipf_decomposable (ratOK_ratProb bandProb_ok) (by norm_num) hp (decomposable_rat bandProb_decomposable) one_pos
  exact ⟨r, h1, h2, h3⟩

example (lm : Libm) : ∃ x, qisi FP.exact lm [2, 2, 2, 2] bandProb (fun _ => .fin 1) 0 = .ok x ∧ x.conv = true := by
  obtain ⟨x, f, h1, h2, -⟩ := C102_qisi_decomposable lm bandProb_ok (by norm_num) bandProb_inRange bandProb_decomposable (by decide) one_pos
    le_rfl (by norm_num)
  exact ⟨x, h1, h2⟩

/-- one value of the chain rule -/
example : 14 * chainAt [2, 2, 2, 2] [] (ratProb bandProb) [0, 1, 1, 0] = 2 * 2 / 5 := by
  have : weightOn [2, 2, 2, 2] ([0, 1, 2], fun j => ((1 + j.getD 0 0 + j.getD 1 0 * j.getD 2 0 : Int) : ℚ)) [] [0, 1, 1, 0] = 14 := by decide +kernel
  have h2 : weightOn [2, 2, 2, 2] ([3, 2, 1], fun j => ((1 + j.getD 0 0 + j.getD 1 0 * j.getD 2 0 : Int) : ℚ)) [2, 1] [0, 1, 1, 0] = 5 := by decide +kernel
  simp [chainAt, ratProb, bandProb, proj] at this h2 ⊢
  rw [this, h2]
  norm_num

end HL

import Verif.Proof.SumRound
import Verif.Props.IPF
import Verif.Props.Whole

/-
C29 in binary64: what `conv=true` says about the exact sums of the doubles returned.
-/

namespace HL
open Micro

/-- **C29** in binary64 (round to nearest even, gradual underflow, overflow to infinity), for non-negative seeds and finite
marginals: when `conv` is true and no cell of the result is NaN, every cell is finite and non-negative, and the exact sum
of the `n` doubles that belong to a marginal value `m` differs from `m` by at most `1e-8 (1 + 2^-50) + n (m + 1) 2^-53`:
the tolerance, plus half a unit in the last place of `m + 1` for each term of the sum. -/
theorem C29_conv_ieee (sqrt : Fl → Fl) {s : List Nat} {Q : Prob ℚ} (h : ProbShape s Q) (hp : ProperProb s Q)
    {a : List Int → Fl} (ha : ∀ v, InRange s v → FP.le (.fin 0) (a v) = true) {r : IPF Fl}
    (hr : IPF.run false (FP.ieee sqrt) (numFl (FP.ieee sqrt)) (indicesOf (finProb Q)) (marginalsOf s (finProb Q))
      (arr s a) = .ok r) (hc : r.conv = true) :
    ∃ c : List Int → Fl, r.micro.array = arr s c ∧ ((∀ v, InRange s v → c v ≠ .nan) →
      ∃ b : List Int → ℚ, r.micro.array = finArr s b ∧ (∀ v, InRange s v → 0 ≤ b v) ∧
        ∀ q ∈ Q, ∀ j, InRange (projSizes q.1 s) j →
          |marginalSum s q.1 b j - q.2 j| ≤ 1 / 10 ^ 8 * (1 + 1 / 2 ^ 50) +
            ((cells s).filter (fun v => proj q.1 v = j)).card * (q.2 j + 1) / 2 ^ 53) := by
  have h' : ProbShape s (finProb Q) :=
    { lists := by simpa [finProb] using h.lists
      two := h.two
      pos := h.pos
      dims := by
        intro p hp
        obtain ⟨q, hq, rfl⟩ := mem_finProb.mp hp
        exact h.dims q hq
      cover := by
        intro d hd
        obtain ⟨q, hq, hdq⟩ := h.cover d hd
        exact ⟨_, mem_finProb.mpr ⟨q, hq, rfl⟩, hdq⟩ }
  have hp' : ProperProb s (finProb Q) := properProb_fin hp
  obtain ⟨c, hca, hcd⟩ := C29_conv_rounded_partial (FP.ieee sqrt) (numFl (FP.ieee sqrt)) (minOK_fl _) h' hp' a hr
  obtain ⟨c', hca', -, hcn⟩ := C31_zeros_and_signs_partial (ieee_zero sqrt) (ieee_nonneg sqrt) h' hp' a hr
  obtain ⟨pop, n, hok, -, -, -, -, -⟩ := ipf_run _ _ (minOK_fl _) h' hp' a hr
  refine ⟨c, hca, fun hnn => ?_⟩
  have hcn' : ∀ v, InRange s v → c v ≠ .nan ∧ FP.le (.fin 0) (c v) = true := by
    intro v hv
    have he := arr_inj (hca.symm.trans hca') v hv
    refine ⟨hnn v hv, ?_⟩
    rcases hcn ha v hv with h1 | h1
    · exact absurd (he.trans h1) (hnn v hv)
    · rw [he]; exact h1
  let g : List Int → ℚ := fun v => match c v with
    | .fin q => q
    | _ => 0
  have hg : ∀ v q, c v = .fin q → g v = q := by
    intro v q hq
    show (match c v with | .fin q => q | _ => 0) = q
    rw [hq]
  have key : ∀ q ∈ Q, ∀ j, InRange (projSizes q.1 s) j →
      (∀ v, InRange s v → proj q.1 v = j → c v = .fin (g v)) ∧
      |marginalSum s q.1 g j - q.2 j| ≤ 1 / 10 ^ 8 * (1 + 1 / 2 ^ 50) +
        ((cells s).filter (fun v => proj q.1 v = j)).card * (q.2 j + 1) / 2 ^ 53 := by
    intro q hq j hj
    have hmem : (q.1, fun j => Fl.fin (q.2 j)) ∈ finProb Q := mem_finProb.mpr ⟨q, hq, rfl⟩
    have hm : 0 ≤ q.2 j := by
      have := hok.nonneg _ hmem j hj
      simpa [numFl, FP.lt] using this
    exact conv_err sqrt hm hcn' (hcd hc _ hmem j hj) g hg
  have hfin : ∀ v, InRange s v → c v = .fin (g v) := by
    intro v hv
    obtain ⟨q, hq⟩ := List.exists_mem_of_length_pos (by have := h.lists; omega : 0 < Q.length)
    exact (key q hq (proj q.1 v) (inRange_proj (h.dims q hq).2 hv)).1 v hv rfl
  refine ⟨g, by rw [hca]; exact arr_congr hfin, ?_, fun q hq j hj => (key q hq j hj).2⟩
  intro v hv
  have := (hcn' v hv).2
  rw [hfin v hv] at this
  simpa [FP.le] using this

/-- The whole-number problem `[1, 2]`, `[1, 1, 1]` with the seed `[[1, 0, 0], [0, 1, 1]]` converges in binary64, without NaN. -/
example (sqrt : Fl → Fl) : ∃ (s : List Nat) (Q : Prob ℚ) (a : List Int → Fl) (r : IPF Fl), ProbShape s Q ∧ ProperProb s Q ∧
    (∀ v, InRange s v → FP.le (.fin 0) (a v) = true) ∧
    IPF.run false (FP.ieee sqrt) (numFl (FP.ieee sqrt)) (indicesOf (finProb Q)) (marginalsOf s (finProb Q))
      (arr s a) = .ok r ∧ r.conv = true ∧ r.micro.array = arr s (intFl exWhole) := by
  have hn : ∀ v, InRange [2, 3] v → 0 ≤ exWhole v := fun v _ => by unfold exWhole; split <;> omega
  have key : ∀ p ∈ exProb, ∀ j ∈ allIdx (projSizes p.1 [2, 3]), marginalSum [2, 3] p.1 exWhole j = p.2 j := by decide
  obtain ⟨r, hr, h1, h2, -⟩ := C72_ipf (FP.ieee_good sqrt) exProb_ok (by norm_num) exProb_proper hn
    (fun p hp j hj => key p hp j (mem_allIdx.mpr hj))
  refine ⟨[2, 3], exProb.map (fun p => (p.1, fun j => (p.2 j : ℚ))), intFl exWhole, r, ?_, ?_, ?_, ?_, h2, h1⟩
  · refine ⟨by decide, by decide, by decide, by simp [exProb], ?_⟩
    intro d hd
    simp only [List.length_cons, List.length_nil] at hd
    interval_cases d <;> simp [exProb]
  · intro p hp
    obtain ⟨q, hq, rfl⟩ := List.mem_map.mp hp
    exact exProb_proper q hq
  · intro v hv
    have := hn v hv
    simp only [intFl, FP.le, decide_eq_true_eq]
    exact_mod_cast this
  · have he : finProb (exProb.map (fun p => (p.1, fun j => (p.2 j : ℚ)))) = dblProb exProb := by
      simp only [finProb, dblProb, List.map_map]
      rfl
    rw [he]
    exact hr

end HL

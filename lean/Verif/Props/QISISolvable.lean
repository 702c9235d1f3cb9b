import Verif.Proof.QISISlowDraw
import Verif.Proof.QISIProductSeed
import Verif.Props.QISI

/-
C100: does `qisi` succeed whenever the problem has a solution?  No in general; yes for product seeds.
-/

namespace HL
open QISI

/-- a population with the given marginals that is zero wherever the seed is -/
def SolvedBy (s : List Nat) (P : Prob Int) (sd : List Int → Fl) (f : List Int → ℕ) : Prop :=
  (∀ v, InRange s v → sd v = .fin 0 → f v = 0) ∧
  ∀ p ∈ P, ∀ j, InRange (projSizes p.1 s) j → ((marginalSum s p.1 f j : ℕ) : Int) = p.2 j

theorem seedFactors_of_solved {s : List Nat} {sd : List Int → Fl} {f : List Int → ℕ} {G0 : Prob ℚ}
    (hsd : ∀ v, InRange s v → sd v = .fin (prodAt G0 v)) (hz : ∀ v, InRange s v → sd v = .fin 0 → f v = 0) :
    ∀ {P : Prob Int} {G : Prob ℚ}, (∀ g ∈ G, g ∈ G0) → G.map Prod.fst = P.map Prod.fst →
      (∀ g ∈ G, ∀ j, InRange (projSizes g.1 s) j → 0 ≤ g.2 j) →
      (∀ p ∈ P, ∀ j, InRange (projSizes p.1 s) j → ((marginalSum s p.1 f j : ℕ) : Int) = p.2 j) →
      List.Forall₂ (SeedFactor s) P G
  | [], [], _, _, _, _ => .nil
  | [], _ :: _, _, h, _, _ => by simp at h
  | _ :: _, [], _, h, _, _ => by simp at h
  | p :: P, g :: G, hsub, h, hnn, hm => by
    simp only [List.map_cons, List.cons.injEq] at h
    refine .cons ⟨h.1, fun j hj => ⟨hnn g (by simp) j (by rw [h.1]; exact hj), fun h0 => ?_⟩⟩
      (seedFactors_of_solved hsd hz (fun g hg => hsub g (by simp [hg])) h.2 (fun g hg => hnn g (by simp [hg])) (fun p hp => hm p (by simp [hp])))
    rw [← hm p (by simp) j hj]
    have : marginalSum s p.1 f j = 0 := by
      refine Finset.sum_eq_zero fun v hv => ?_
      obtain ⟨hv, hvj⟩ := Finset.mem_filter.mp hv
      refine hz v (mem_cells.mp hv) ?_
      rw [hsd v (mem_cells.mp hv)]
      congr 1
      unfold prodAt
      refine List.prod_eq_zero (List.mem_map.mpr ⟨g, hsub g (by simp), ?_⟩)
      rw [h.1, hvj, h0]
    rw [this]; rfl

/-- **C100** (the part that holds): in exact arithmetic, if no two marginals share a dimension and the seed is a product of
non-negative factors, one for each marginal, then `qisi` returns with `conv` true whenever the problem has a solution: a
population with these marginals that is zero wherever the seed is.  Missing: seeds that are not products, where it is false
(`C100_solvable_false`), and double precision. -/
theorem C100_solvable_partial (lm : Libm) {s : List Nat} {P : Prob Int} {pop : Int} (h : ProbOK s P pop) (hpop : pop ≤ 2 ^ 32 - 1)
    (hd : (P.map Prod.fst).flatten.Nodup) (hl : s.length ≤ 1111) {G : Prob ℚ} (hG : G.map Prod.fst = P.map Prod.fst)
    (hnn : ∀ g ∈ G, ∀ j, InRange (projSizes g.1 s) j → 0 ≤ g.2 j) {sd : List Int → Fl}
    (hsd : ∀ v, InRange s v → sd v = .fin (G.map (fun g => g.2 (proj g.1 v))).prod) {f : List Int → ℕ} (hf : SolvedBy s P sd f)
    {skips : Int} (h0 : 0 ≤ skips) (h1 : skips ≤ 2 ^ 31) :
    ∃ x, qisi FP.exact lm s P sd skips = .ok x ∧ x.conv = true :=
  C44_conv lm h hpop (properProb_of_disjoint h.toProbShape hd) hl h0 h1
    (fitDone_factors h hd (seedFactors_of_solved hsd hf.1 (fun _ hg => hg) hG hnn hf.2) hsd)

/-- the seed `exRowSeed`, zero in the first row, is a product, and the problem `exRow` has a solution -/
theorem exRow_solved : SolvedBy [2, 3] exRow exRowSeed (fun v => if v.getD 0 0 = 1 then 1 else 0) := by
  refine ⟨fun v _ h0 => ?_, ?_⟩
  · simp only [exRowSeed, exRowB] at h0
    split at h0
    · simp at h0
    · rename_i h; exact if_neg h
  · unfold exRow
    simp only [List.forall_mem_cons, List.not_mem_nil, IsEmpty.forall_iff, implies_true, and_true]
    refine ⟨?_, ?_⟩
    · intro j hj
      have : j ∈ allIdx [2] := mem_allIdx.mpr hj
      have e : allIdx [2] = [[0], [1]] := by decide
      rw [e] at this
      simp only [List.mem_cons, List.not_mem_nil, or_false] at this
      rcases this with rfl | rfl <;> decide
    · intro j hj
      have : j ∈ allIdx [3] := mem_allIdx.mpr hj
      have e : allIdx [3] = [[0], [1], [2]] := by decide
      rw [e] at this
      simp only [List.mem_cons, List.not_mem_nil, or_false] at this
      rcases this with rfl | rfl | rfl <;> decide

/-- The hypotheses are met: three individuals in the second row, a seed that is zero in the first. -/
example (lm : Libm) : ∃ x, qisi FP.exact lm [2, 3] exRow exRowSeed 0 = .ok x ∧ x.conv = true := by
  refine C100_solvable_partial lm exRow_ok (by norm_num) (by decide) (by decide)
    (G := [([0], fun j => if j = [1] then 1 else 0), ([1], fun _ => 1)]) rfl ?_ ?_ exRow_solved le_rfl (by norm_num)
  · intro g hg j _
    simp only [List.mem_cons, List.not_mem_nil, or_false] at hg
    rcases hg with rfl | rfl
    · simp only; split <;> norm_num
    · simp
  · intro v _
    simp [exRowSeed, exRowB, proj]

theorem slow_solved : SolvedBy [2, 2] slowProb (fun v => .fin (slowSeed v)) slowSolution := by
  refine ⟨fun v hv h0 => ?_, ?_⟩
  · rcases inRange22 hv with rfl | rfl | rfl | rfl <;> simp_all [slowSeed, slowSolution]
  · obtain ⟨s1, s2, s3, s4⟩ := sums22 slowSolution
    unfold slowProb
    simp only [List.forall_mem_cons, List.not_mem_nil, IsEmpty.forall_iff, implies_true, and_true]
    have e : allIdx [2] = [[0], [1]] := by decide
    refine ⟨fun j hj => ?_, fun j hj => ?_⟩ <;>
    · have : j ∈ allIdx [2] := mem_allIdx.mpr hj
      rw [e] at this
      simp only [List.mem_cons, List.not_mem_nil, or_false] at this
      rcases this with rfl | rfl <;> simp [s1, s2, s3, s4, slowSolution]

/-- **C100** is false as stated, in exact arithmetic and in double precision: there are a problem with two marginals that
share no dimension, a seed of zeros and ones and a population with these marginals that is zero where the seed is, for which
`qisi` succeeds with no number of skips.  (16384 people in each row and column of a 2x2 table, and a seed that is zero in
one corner: after 1000 iterations the fit still has 8 people in the opposite corner, where there can be none.) -/
theorem C100_solvable_false {fp : FP} (hsg : fp = FP.exact ∨ ∃ sqrt, fp = FP.ieee sqrt) :
    ∃ (s : List Nat) (P : Prob Int) (sd : List Int → Fl) (f : List Int → ℕ),
      ProbOK s P 32768 ∧ (P.map Prod.fst).flatten.Nodup ∧ (∀ v, sd v = .fin 0 ∨ sd v = .fin 1) ∧ SolvedBy s P sd f ∧
      ∀ lm skips, ¬ ∃ x, qisi fp lm s P sd skips = .ok x ∧ x.conv = true :=
  ⟨[2, 2], slowProb, fun v => .fin (slowSeed v), slowSolution, slow_ok, slow_nodup,
    fun v => by show Fl.fin (slowSeed v) = _ ∨ Fl.fin (slowSeed v) = _; unfold slowSeed; split <;> simp, slow_solved, fun lm skips => slow_fails hsg lm skips⟩

end HL

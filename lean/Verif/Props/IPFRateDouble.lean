import Verif.Proof.IPFRateRound
import Verif.Props.IPFRate
import Verif.Props.IPFDouble

/-
C95 in double precision: how many iterations ipf needs, for two marginals without a common dimension.
-/

namespace HL
open Rate Integerise
variable {fp : FP}

/-- **C95**, in double precision.  Two whole-number marginals without a common dimension, a population of up to `2^40`, a seed with
cells between `2^-100` and `2^100` and cross-product ratios up to `R`, at most `f` cells in the sum for one marginal value: `ipf`
converges within `n` iterations as soon as `pop (R λ^(2 (n - 1)) + (f + 2) (R + 2) / 2^50)` is below the tolerance, with
`λ = R / (R + 2)`.  The second summand bounds what rounding can keep alive for ever. -/
theorem C95_double (hfp : fp.Good) {s : List Nat} {p q : List Nat × (List Int → Int)} {pop : Int} (h : ProbOK s [p, q] pop)
    (h0 : 0 < pop) (hpop : pop ≤ 2 ^ 40) (hd : (p.1 ++ q.1).Nodup) {f : Nat} (hf1 : f ≤ 2 ^ 20)
    (hf : ∀ p' ∈ [p, q], ∀ j, ((cells s).filter (fun v => proj p'.1 v = j)).card ≤ f) {b : List Int → ℚ}
    (hb : ∀ v, InRange s v → 1 / 2 ^ 100 ≤ b v ∧ b v ≤ 2 ^ 100) {R : ℚ} (hR2 : R ≤ 2 ^ 13) (hR : OddsAtMost R s p.1 q.1 b)
    {n : Nat} (hn1 : 1 ≤ n) (hn2 : n ≤ 1000)
    (hn : pop * (R * (R / (R + 2)) ^ (2 * (n - 1)) + (f + 2) * (R + 2) / 2 ^ 50) ≤ 98 / 10 ^ 10) :
    ∃ r, IPF.run false fp (numFl fp) (indicesOf (dblProb [p, q])) (marginalsOf s (dblProb [p, q])) (finArr s b) = .ok r ∧
      r.conv = true ∧ r.iters ≤ n := by
  have hw := whole_ratProb h
  have hbp : ∀ v, InRange s v → 0 < b v := fun v hv => lt_of_lt_of_le (by positivity) (hb v hv).1
  have hR1 : 1 ≤ R := by
    obtain ⟨v, hv⟩ := exists_inRange h.toProbShape.pos
    have h1 := hR v v v v hv hv hv hv rfl rfl rfl rfl
    have h3 : 0 < b v * b v := mul_pos (hbp v hv) (hbp v hv)
    by_contra hlt
    nlinarith
  have h2 : Two s p.1 q.1 := by
    refine ⟨hd, ?_, ?_⟩
    · intro d hdm
      rcases List.mem_append.mp hdm with hdm | hdm
      · exact (h.dims p (by simp)).2 d hdm
      · exact (h.dims q (by simp)).2 d hdm
    · intro d hdn
      obtain ⟨q', hq', hdq⟩ := h.cover d hdn
      simp only [List.mem_cons, List.not_mem_nil, or_false] at hq'
      rcases hq' with rfl | rfl <;> simp [hdq]
  have hpq : (p.1, fun j => (p.2 j : ℚ)) ∈ ratProb [p, q] := List.mem_map.mpr ⟨p, by simp, rfl⟩
  have hqq : (q.1, fun j => (q.2 j : ℚ)) ∈ ratProb [p, q] := List.mem_map.mpr ⟨q, by simp, rfl⟩
  have hP : Params s p.1 q.1 (fun j => (p.2 j : ℚ)) (fun j => (q.2 j : ℚ)) pop R f :=
    ⟨h2, fun i hi => hw.ent _ hpq i hi, fun j hj => hw.ent _ hqq j hj, hw.tot _ hpq, hw.tot _ hqq,
     hf p (by simp), hf q (by simp), hf1, by exact_mod_cast h0, by exact_mod_cast hpop, hR1, hR2⟩
  have hodds : Odds R (cells (projSizes p.1 s)) (cells (projSizes q.1 s)) (mat s p.1 q.1 b) := by
    intro i hi k hk j hj l hl
    have hi := mem_cells.mp hi
    have hk := mem_cells.mp hk
    have hj := mem_cells.mp hj
    have hl := mem_cells.mp hl
    exact hR _ _ _ _ (h2.glue_inRange hi hj) (h2.glue_inRange hk hl) (h2.glue_inRange hi hl) (h2.glue_inRange hk hj)
      ((h2.proj_app hi hl).1.trans (h2.proj_app hi hj).1.symm) ((h2.proj_app hi hl).2.trans (h2.proj_app hk hl).2.symm)
      ((h2.proj_app hk hj).1.trans (h2.proj_app hk hl).1.symm) ((h2.proj_app hk hj).2.trans (h2.proj_app hi hj).2.symm)
  have hlam0 : 0 ≤ R / (R + 2) := div_nonneg (by linarith) (by linarith)
  have hlam1 : R / (R + 2) ≤ 1 := by rw [div_le_one (by linarith)]; linarith
  obtain ⟨Y, ρ, h3, h4, h5, h6⟩ := GS.run hfp hP hb hodds (n - 1) (by omega)
  have hn' : n - 1 + 1 = n := by omega
  rw [hn'] at h3 h4
  have hcv := h4.conv hfp hP (by omega) h5 (E := (R / (R + 2)) ^ (2 * (n - 1)) * R)
    (by have := pow_le_one₀ hlam0 hlam1 (n := 2 * (n - 1)); nlinarith) h6 (mul_nonneg (pow_nonneg hlam0 _) (by linarith))
    (by rw [mul_comm _ R]; exact hn) h3
  have e : finProb [(p.1, fun j => (p.2 j : ℚ)), (q.1, fun j => (q.2 j : ℚ))] = dblProb [p, q] := fin_ratProb [p, q]
  rw [e] at hcv
  have hp := proper_of_disjoint h.toProbShape (by simpa using hd)
  obtain ⟨r, hr⟩ := ipf_run_ok fp (numFl fp) (minOK_fl fp) (dblProb_ok hfp h (by omega)) (dblProb_proper hp) (fun v => .fin (b v))
  refine ⟨r, hr, ?_⟩
  obtain ⟨pop', m, -, hm1, hm2, hm3, hm4, rfl⟩ := ipf_run fp (numFl fp) (minOK_fl fp) (dblProb_shape h.toProbShape) (dblProb_proper hp) _ hr
  have hle : m ≤ n := by
    by_contra hlt
    exact hm4 n hn1 (by omega) hcv
  refine ⟨?_, hle⟩
  rcases hm3 with h7 | h7
  · exact h7
  · have : n = m := by omega
    rw [← this]
    exact hcv

/-- **C95**, in double precision within the limit of 1000 iterations: cross-product ratios up to 80, and `pop (f + 2)` up to
130000. -/
theorem C95_double_converges (hfp : fp.Good) {s : List Nat} {p q : List Nat × (List Int → Int)} {pop : Int}
    (h : ProbOK s [p, q] pop) (h0 : 0 < pop) (hd : (p.1 ++ q.1).Nodup) {f : Nat}
    (hf : ∀ p' ∈ [p, q], ∀ j, ((cells s).filter (fun v => proj p'.1 v = j)).card ≤ f) (hpf : pop * (f + 2) ≤ 130000)
    {b : List Int → ℚ} (hb : ∀ v, InRange s v → 1 / 2 ^ 100 ≤ b v ∧ b v ≤ 2 ^ 100) (hR : OddsAtMost 80 s p.1 q.1 b) :
    ∃ r, IPF.run false fp (numFl fp) (indicesOf (dblProb [p, q])) (marginalsOf s (dblProb [p, q])) (finArr s b) = .ok r ∧
      r.conv = true := by
  have hpf' : (pop : ℚ) * (f + 2) ≤ 130000 := by exact_mod_cast hpf
  have hp1 : (1 : ℚ) ≤ pop := by exact_mod_cast h0
  have hf0 : (0 : ℚ) ≤ f := Nat.cast_nonneg f
  have hpop : pop ≤ 130000 := by nlinarith
  have hpop' : (pop : ℚ) ≤ 130000 := by exact_mod_cast hpop
  have hf1 : (f : Int) ≤ 130000 := by nlinarith
  obtain ⟨r, h1, h2, -⟩ := C95_double hfp h h0 (by omega) hd (by omega : f ≤ 2 ^ 20) hf hb (by norm_num) hR (n := 1000)
    (by norm_num) le_rfl (by
      have g2 : ((80 : ℚ) / (80 + 2)) ^ (2 * (1000 - 1)) ≤ (1 / 2) ^ 60 := by
        have g1 : ((80 : ℚ) / (80 + 2)) ^ 30 ≤ 1 / 2 := by norm_num
        have e : 2 * (1000 - 1) = 30 * 60 + 198 := by norm_num
        rw [e, pow_add, pow_mul]
        have g3 : (((80 : ℚ) / (80 + 2)) ^ 30) ^ 60 ≤ (1 / 2) ^ 60 := pow_le_pow_left₀ (by positivity) g1 60
        have g4 : ((80 : ℚ) / (80 + 2)) ^ 198 ≤ 1 := pow_le_one₀ (by norm_num) (by norm_num)
        have g5 : (0 : ℚ) ≤ (((80 : ℚ) / (80 + 2)) ^ 30) ^ 60 := by positivity
        nlinarith
      have h3 : (pop : ℚ) * (80 * ((80 : ℚ) / (80 + 2)) ^ (2 * (1000 - 1))) ≤ 130000 * (80 * (1 / 2) ^ 60) :=
        mul_le_mul hpop' (mul_le_mul_of_nonneg_left g2 (by norm_num)) (by positivity) (by norm_num)
      rw [mul_add]
      have e : (pop : ℚ) * ((f + 2) * (80 + 2) / 2 ^ 50) = pop * (f + 2) * (82 / 2 ^ 50) := by ring
      rw [e]
      have h4 := mul_le_mul_of_nonneg_right hpf' (show (0 : ℚ) ≤ 82 / 2 ^ 50 by norm_num)
      refine (add_le_add h3 h4).trans ?_
      norm_num)
  exact ⟨r, h1, h2⟩

/-- The hypotheses are met: a 2x2 problem with a population of 1000 and the seed with a 5 in one corner. -/
def smallRows (j : List Int) : Int := if j = [0] then 300 else 700
def smallCols (j : List Int) : Int := if j = [0] then 600 else 400

theorem small_ok : ProbOK [2, 2] [([0], smallRows), ([1], smallCols)] 1000 where
  lists := by simp
  two := by decide
  pos := by decide
  dims := by simp
  cover := by
    intro d hd
    simp only [List.length_cons, List.length_nil] at hd
    interval_cases d <;> simp
  nonneg := by
    intro p hp j _
    simp only [List.mem_cons, List.not_mem_nil, or_false] at hp
    rcases hp with rfl | rfl
    · show 0 ≤ smallRows j
      unfold smallRows; split <;> norm_num
    · show 0 ≤ smallCols j
      unfold smallCols; split <;> norm_num
  total := by
    simp only [List.mem_cons, List.not_mem_nil, or_false, forall_eq_or_imp, forall_eq]
    decide
  partials := by
    intro p hp q hq a b d h1 h2
    simp only [List.mem_cons, List.not_mem_nil, or_false] at hp hq
    rcases hp with rfl | rfl <;> rcases hq with rfl | rfl <;> rcases a with _ | a <;> rcases b with _ | b <;>
      simp at h1 h2 <;> intro x hx <;> first | rfl | omega

theorem small_fibre : ∀ d ∈ [0, 1], ∀ j, ((cells [2, 2]).filter (fun v => proj [d] v = j)).card ≤ 2 := by
  intro d hd j
  by_cases hj : j = [0] ∨ j = [1]
  · rcases hj with rfl | rfl <;> revert d <;> decide
  · have : (cells [2, 2]).filter (fun v => proj [d] v = j) = ∅ := by
      rw [Finset.filter_eq_empty_iff]
      intro v hv he
      have h1 : ∀ v ∈ cells [2, 2], ∀ d ∈ [0, 1], proj [d] v = [0] ∨ proj [d] v = [1] := by decide
      rw [← he] at hj
      exact hj (h1 v hv d hd)
    rw [this]; simp

example (sqrt : Fl → Fl) : ∃ r, IPF.run false (FP.ieee sqrt) (numFl (FP.ieee sqrt))
    (indicesOf (dblProb [([0], smallRows), ([1], smallCols)])) (marginalsOf [2, 2] (dblProb [([0], smallRows), ([1], smallCols)]))
    (finArr [2, 2] cornerSeed) = .ok r ∧ r.conv = true ∧ r.iters ≤ 250 := by
  refine C95_double (FP.ieee_good sqrt) small_ok (by norm_num) (by norm_num) (by decide) (f := 2) (by norm_num) ?_ ?_ (by norm_num)
    (cornerSeed_odds _ _ _) (by norm_num) (by norm_num) ?_
  · intro p' hp j
    simp only [List.mem_cons, List.not_mem_nil, or_false] at hp
    rcases hp with rfl | rfl <;> exact small_fibre _ (by simp) j
  · intro v _
    unfold cornerSeed
    split <;> norm_num
  · have g1 : ((25 : ℚ) / (25 + 2)) ^ 10 ≤ 1 / 2 := by norm_num
    have g2 : ((25 : ℚ) / (25 + 2)) ^ (2 * (250 - 1)) ≤ (1 / 2) ^ 49 := by
      have e : 2 * (250 - 1) = 10 * 49 + 8 := by norm_num
      rw [e, pow_add, pow_mul]
      have g3 : (((25 : ℚ) / (25 + 2)) ^ 10) ^ 49 ≤ (1 / 2) ^ 49 := pow_le_pow_left₀ (by positivity) g1 49
      have g4 : ((25 : ℚ) / (25 + 2)) ^ 8 ≤ 1 := pow_le_one₀ (by norm_num) (by norm_num)
      have g5 : (0 : ℚ) ≤ (((25 : ℚ) / (25 + 2)) ^ 10) ^ 49 := by positivity
      nlinarith
    have h3 : ((1000 : Int) : ℚ) * (25 * ((25 : ℚ) / (25 + 2)) ^ (2 * (250 - 1))) ≤ 1000 * (25 * (1 / 2) ^ 49) := by
      push_cast
      exact mul_le_mul_of_nonneg_left (mul_le_mul_of_nonneg_left g2 (by norm_num)) (by norm_num)
    rw [mul_add]
    refine (add_le_add_left h3 _).trans ?_
    norm_num

end HL

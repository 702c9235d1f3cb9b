import Verif.Props.PipelineIPF
import Verif.Props.IPFRounded
import Verif.Props.IPFPad

/-
C119 in rounded arithmetic.
-/

namespace HL
open Integerise
variable {fp : FP}

theorem nearInt_of_fit (hfp : fp.Good) (hnn : ∀ q, fp.rnd q ≠ .nan) {x : Fl} {m n : Int} (hn : NearInt fp x n)
    (h : fp.sub x (.fin m) = .nan ∨ FP.lt (FP.abs (fp.sub x (.fin m))) (fp.rnd (1 / 10 ^ 8)) = true) : n = m := by
  obtain ⟨h1, -⟩ := hn
  cases x with
  | nan => cases h1
  | pinf => cases h1
  | ninf => cases h1
  | fin q =>
    have hlt : |q - m| < 1 / 2 := by
      have e : fp.sub (.fin q) (.fin m) = fp.rnd (q - m) := by
        show fp.rnd (q + -(m : ℚ)) = _
        rw [sub_eq_add_neg]
      rw [e] at h
      rcases h with h | h
      · exact absurd h (hnn _)
      obtain ⟨t, ht, ht'⟩ := hfp.near (1 / 10 ^ 8) (by
        rw [abs_of_pos (by norm_num)]
        have h2 : (2 : ℚ) ^ (-1022 : ℤ) ≤ 2 ^ (-27 : ℤ) := zpow_le_zpow_right₀ (by norm_num) (by norm_num)
        exact h2.trans (by norm_num)) (by
        rw [abs_of_pos (by norm_num)]
        exact le_trans (by norm_num) (one_le_pow₀ (by norm_num : (1 : ℚ) ≤ 2) (n := 1023)))
      have ht2 : t < 1 / 4 := by
        have := (abs_le.mp ht').2
        norm_num at this
        linarith
      rw [ht] at h
      cases hz : fp.rnd (q - m) with
      | nan => exact absurd hz (hnn _)
      | pinf => rw [hz] at h; simp [FP.abs, FP.lt] at h
      | ninf => rw [hz] at h; simp [FP.abs, FP.lt] at h
      | fin z =>
        rw [hz] at h
        have h' : |z| < t := by simpa [FP.abs, FP.lt] using h
        have hq1 : fp.rnd (1 / 4) = .fin (1 / 4) := by
          have := hfp.dyadic 1 2 (by norm_num) (by norm_num)
          norm_num at this ⊢
          exact this
        have hq2 : fp.rnd (-1 / 4) = .fin (-1 / 4) := by
          have := hfp.dyadic (-1) 2 (by norm_num) (by norm_num)
          norm_num at this ⊢
          exact this
        obtain ⟨z1, z2⟩ := abs_lt.mp h'
        rw [abs_lt]
        constructor
        · by_contra hc
          have := hfp.mono _ _ _ _ (show q - m ≤ -1 / 4 by linarith) hz hq2
          linarith
        · by_contra hc
          have := hfp.mono _ _ _ _ (show 1 / 4 ≤ q - m by linarith) hq1 hz
          linarith
    rw [round_fin, roundHalfAway_eq hlt] at h1
    injection h1 with h1
    exact_mod_cast h1.symm

/-- **C119**, rounded arithmetic (binary64 among others), marginals that include one for each attribute: if `ipf` reports convergence and
`integerise` of its result returns, the result is a population of the right size, and `conv` is true exactly when the total of every
category is what the marginals say. -/
theorem C119_rounded (hfp : fp.Good) (hnn : ∀ q, fp.rnd q ≠ .nan) {lm : Libm} {s : List Nat} {P : Prob Int} {pop : Int} (h : ProbOK s P pop)
    (hpop : pop < 2 ^ 52) (hp : ProperProb s P) (hax : ∀ d < s.length, ∃ p ∈ P, p.1 = [d]) {a : List Int → Fl} {r : IPF Fl}
    (hr : IPF.run false fp (numFl fp) (indicesOf (dblProb P)) (marginalsOf s (dblProb P)) (arr s a) = .ok r) (hc : r.conv = true)
    {R : Result} (hR : run false fp lm r.micro.array = .ok R) :
    ∃ f : List Int → Int, R.result = arr s f ∧ (∀ v, InRange s v → 0 ≤ f v) ∧ ∑ v ∈ cells s, f v = pop ∧
      (R.conv = true ↔ ∀ p ∈ P, ∀ d, p.1 = [d] → ∀ i : Nat, i < s.getD d 0 → marginalSum s [d] f [(i : Int)] = p.2 [(i : Int)]) := by
  have hs' : ProbShape s (dblProb P) :=
    ⟨by simpa [dblProb] using h.lists, h.two, h.pos,
      by
        intro q hq
        obtain ⟨p, hpp, rfl⟩ := List.mem_map.mp hq
        exact h.dims p hpp,
      by
        intro d hd
        obtain ⟨p, hpp, hdp⟩ := h.cover d hd
        exact ⟨_, List.mem_map.mpr ⟨p, hpp, rfl⟩, hdp⟩⟩
  have hp' : ProperProb s (dblProb P) := by
    intro q hq
    obtain ⟨p, hpp, rfl⟩ := List.mem_map.mp hq
    exact hp p hpp
  obtain ⟨c, h1, h2⟩ := C29_conv_rounded_partial fp (numFl fp) (minOK_fl _) hs' hp' a hr
  rw [h1] at hR
  have key : ∀ p ∈ P, ∀ d, p.1 = [d] → ∀ i : Nat, i < s.getD d 0 → ∀ n, NearInt fp (fsum fp s [d] c [(i : Int)]) n → n = p.2 [(i : Int)] := by
    intro p hpp d hd i hi n hn
    apply nearInt_of_fit hfp hnn hn
    have := h2 hc _ (List.mem_map.mpr ⟨p, hpp, rfl⟩) [(i : Int)] (by
      show InRange (projSizes p.1 s) _
      rw [hd]; show InRange [s.getD d 0] _; simp [InRange]; simpa using hi)
    rw [← hd]
    exact this
  have htot : ∀ p ∈ P, ∀ d, p.1 = [d] → ∑ i ∈ Finset.range (s.getD d 0), p.2 [(i : Int)] = pop := by
    intro p hpp d hd
    rw [← h.total p hpp, hd]
    show _ = ∑ j ∈ cells [s.getD d 0], p.2 j
    rw [cells_one, Finset.sum_image]
    intro i _ j _ hij
    simpa using hij
  have hpop0 : 0 ≤ pop := h.pop_nonneg
  obtain ⟨T, N, f, -, k2, k3, k4, k5, k6⟩ := C51_returns hfp h.good h.two hR (by
    intro d hd N hN
    obtain ⟨p, hpp, hpd⟩ := hax d hd
    rw [Finset.sum_congr rfl (fun i hi => key p hpp d hpd i (Finset.mem_range.mp hi) (N i) (hN i (Finset.mem_range.mp hi))), htot p hpp d hpd,
      abs_of_nonneg hpop0]
    exact hpop)
  have hNp : ∀ p ∈ P, ∀ d, p.1 = [d] → ∀ i : Nat, i < s.getD d 0 → N d i = p.2 [(i : Int)] := by
    intro p hpp d hd i hi
    have hdl : d < s.length := (h.dims p hpp).2 d (by rw [hd]; simp)
    exact key p hpp d hd i hi _ (k2 d hdl i hi)
  refine ⟨f, k3, k4, ?_, ?_⟩
  · have h0 : 0 < s.length := by have := h.two; omega
    obtain ⟨p, hpp, hpd⟩ := hax 0 h0
    rw [k5 0 h0, Finset.sum_congr rfl (fun i hi => hNp p hpp 0 hpd i (Finset.mem_range.mp hi)), htot p hpp 0 hpd]
  · rw [k6]
    constructor
    · intro hm p hpp d hd i hi
      have hdl : d < s.length := (h.dims p hpp).2 d (by rw [hd]; simp)
      rw [hm d hdl i hi, hNp p hpp d hd i hi]
    · intro hm d hd i hi
      obtain ⟨p, hpp, hpd⟩ := hax d hd
      rw [hm p hpp d hpd i hi, hNp p hpp d hpd i hi]

/-- a marginal for each attribute, and a converged fit, in binary64: the whole-number table meets its own marginals -/
example (sqrt : Fl → Fl) (lm : Libm) : (∀ q, (FP.ieee sqrt).rnd q ≠ .nan) ∧ (∀ d < 2, ∃ p ∈ exProb, p.1 = [d]) ∧
    ∃ r, IPF.run false (FP.ieee sqrt) (numFl (FP.ieee sqrt)) (indicesOf (dblProb exProb)) (marginalsOf [2, 3] (dblProb exProb))
      (arr [2, 3] (intFl exWhole)) = .ok r ∧ r.conv = true ∧ ∃ R, run false (FP.ieee sqrt) lm r.micro.array = .ok R := by
  refine ⟨ieee_ne_nan sqrt, by unfold exProb; simp; omega, ?_⟩
  have hn : ∀ v, InRange [2, 3] v → 0 ≤ exWhole v := fun v _ => by unfold exWhole; split <;> omega
  have key : ∀ p ∈ exProb, ∀ j ∈ allIdx (projSizes p.1 [2, 3]), marginalSum [2, 3] p.1 exWhole j = p.2 j := by decide
  obtain ⟨r, hr, h1, h2, -⟩ := C72_ipf (FP.ieee_good sqrt) exProb_ok (by norm_num) exProb_proper hn
    (fun p hp j hj => key p hp j (mem_allIdx.mpr hj))
  exact ⟨r, hr, h2, _, by rw [h1]; exact C72_integerise (FP.ieee_good sqrt) lm exProb_ok.good (by decide) (by decide) hn (by decide) (by decide)⟩

end HL

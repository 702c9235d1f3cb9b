import Verif.Props.IPFStages
import Verif.Props.IPFSensitivity
import Verif.Props.IPFBackward

/-
C140 in double precision: a table that `ipf` has fitted in double precision is nearly as good a seed as the one it was fitted from.
-/

namespace HL
open Ent Rate Micro

variable {s : List Nat} {Q Q₀ : Prob ℚ} {pop pop₀ : Int}

/-- the factors of a positive table may be taken to be positive -/
theorem factored_pos {b c : List Int → ℚ} (hF : Factored s Q₀ b c) (hb : ∀ v, InRange s v → 0 < b v) (hc : ∀ v, InRange s v → 0 < c v) :
    ∃ F : Prob ℚ, (∀ f ∈ F, (∃ q ∈ Q₀, q.1 = f.1) ∧ ∀ j, InRange (projSizes f.1 s) j → 0 < f.2 j) ∧ ∀ v, InRange s v → c v = timesFactors F b v := by
  obtain ⟨F, hF⟩ := hF
  refine ⟨List.ofFn fun k : Fin Q₀.length => (Q₀[k].1, fun j => if F k j = 0 then 1 else |F k j|), ?_, ?_⟩
  · intro f hf
    obtain ⟨k, rfl⟩ := List.mem_ofFn' _ _ |>.mp hf
    refine ⟨⟨Q₀[k], List.getElem_mem _, rfl⟩, fun j _ => ?_⟩
    dsimp only
    split
    · exact one_pos
    · rename_i h0; exact abs_pos.mpr h0
  · intro v hv
    have h1 := hF v hv
    have hP : 0 < ∏ k, F k (proj Q₀[k].1 v) := by
      have := hc v hv
      rw [h1] at this
      exact (pos_iff_pos_of_mul_pos this).mp (hb v hv)
    unfold timesFactors
    rw [h1]
    congr 1
    rw [List.map_ofFn, List.prod_ofFn]
    conv_lhs => rw [← abs_of_pos hP, Finset.abs_prod]
    refine Finset.prod_congr rfl fun k _ => ?_
    simp only [Function.comp]
    rw [if_neg]
    intro h0
    exact hP.ne' (Finset.prod_eq_zero (Finset.mem_univ k) h0)

/-- the numbers of `C140_double` -/
theorem stage_part {K N : Nat} {θ : ℚ} (hK : K ≤ 4000) (hN : N ≤ 10 ^ 9) (hθ : 1 ≤ θ) (h2 : 2 ≤ K) (hnear : ((K - 1 : Nat) : ℚ) * (θ - 1) ≤ 8 / 10) :
    1 ≤ θ / uu ^ (2 * N) ∧ ((K - 1 : Nat) : ℚ) * (θ / uu ^ (2 * N) - 1) ≤ 9 / 10 := by
  have hU0 : 0 < uu ^ (2 * N) := uu_pow_pos _
  have hU1 : uu ^ (2 * N) ≤ 1 := uu_pow_le _
  have hU2 : 1 - 1 / 2 ^ 22 ≤ uu ^ (2 * N) := by
    refine le_trans ?_ (uu_pow_ge _)
    have : ((2 * N : Nat) : ℚ) ≤ 2 * 10 ^ 9 := by exact_mod_cast (by omega : 2 * N ≤ 2 * 10 ^ 9)
    have h2 : ((2 * N : Nat) : ℚ) / 2 ^ 53 ≤ 2 * 10 ^ 9 / 2 ^ 53 := by gcongr
    have h3 : (2 * 10 ^ 9 : ℚ) / 2 ^ 53 ≤ 1 / 2 ^ 22 := by norm_num
    linarith
  have hK1 : (1 : ℚ) ≤ ((K - 1 : Nat) : ℚ) := by exact_mod_cast (by omega : 1 ≤ K - 1)
  have hK4 : ((K - 1 : Nat) : ℚ) ≤ 4000 := by exact_mod_cast (by omega : K - 1 ≤ 4000)
  generalize uu ^ (2 * N) = U at *
  generalize ((K - 1 : Nat) : ℚ) = k at *
  have hθ2 : θ ≤ 9 / 5 := by nlinarith
  constructor
  · rw [le_div_iff₀ hU0]; linarith
  · have h3 : θ / U ≤ θ * (1 + 1 / 2 ^ 21) := by
      rw [div_le_iff₀ hU0]
      have h4 : 1 ≤ (1 + 1 / 2 ^ 21) * U := by
        have := mul_le_mul_of_nonneg_left hU2 (show (0 : ℚ) ≤ 1 + 1 / 2 ^ 21 by norm_num)
        refine le_trans ?_ this
        norm_num
      have := mul_le_mul_of_nonneg_left h4 (by linarith : 0 ≤ θ)
      linarith
    have h4 : θ / U - 1 ≤ (θ - 1) + 1 / 10 ^ 6 := by norm_num at h3 ⊢; linarith
    have h5 := mul_le_mul_of_nonneg_left h4 (by linarith : 0 ≤ k)
    have h6 : k * (1 / 10 ^ 6) ≤ 4000 * (1 / 10 ^ 6) := mul_le_mul_of_nonneg_right hK4 (by norm_num)
    norm_num at h5 h6 ⊢
    linarith

theorem eta_le_52 : eta ≤ 1 / 2 ^ 52 := eta_le.trans (by norm_num)

/-- **C140** in double precision.  First `ipf` fits the marginals `Q₀` from the seed `b`, converged or not, in a run in which no number comes
near the ends of the range of doubles; the dimensions of each of these marginals are among those of one marginal of `Q`.  Then `ipf` fits the
marginals `Q` (`K` of them, without common dimensions, the conditions being those of C136) from the table `c₀` so obtained.  The result is that of
fitting `Q` from `b` directly, up to a factor `exp ((4 K + 2) N / 2^52) (1 + E) / (1 - E)` in every cell, where `N` is the number of scalings in
the first stage and `E = (8 K + 4) (2.2e-8 + 1.3e-14 K (f + 2))`. -/
theorem C140_double (hfp : fp.Good) (h₀ : ProbShape s Q₀) (hp₀ : ProperProb s Q₀) (hlen₀ : Q₀.length ≤ 10 ^ 6)
    (hsub : ∀ q₀ ∈ Q₀, ∃ q ∈ Q, ∀ d ∈ q₀.1, d ∈ q.1) (h : RatOK s Q pop) (hd : (Q.map Prod.fst).flatten.Nodup) {b c₀ : List Int → ℚ}
    {r₀ : IPF Fl} (hr₀ : IPF.run false fp (numFl fp) (indicesOf (finProb Q₀)) (marginalsOf s (finProb Q₀)) (finArr s b) = .ok r₀)
    (hreg : RegularRun fp s Q₀ b r₀.iters) (hc₀ : r₀.micro.array = finArr s c₀) {lo hi ρ lo' hi' ρ' : ℚ} {f : Nat}
    (hmo : Modest s Q pop b lo hi ρ f) (hmo' : Modest s Q pop c₀ lo' hi' ρ' f) {θ : ℚ} (hθ : 1 ≤ θ)
    (hodds : ∀ k (hk : k < Q.length), OddsAtMost (θ ^ 2) s Q[k].1 (restDims Q k) b) (hnear : ((Q.length - 1 : Nat) : ℚ) * (θ - 1) ≤ 8 / 10)
    (hsmall : pop * (4 * Q.length ^ 2 * (f + 2) + f + 1) ≤ 89000000) (hone : ∀ q ∈ Q, ∀ j, InRange (projSizes q.1 s) j → 1 ≤ q.2 j)
    {E : ℝ} (hE : E = (8 * Q.length + 4) * (22 / 10 ^ 9 + 13 / 10 ^ 15 * (Q.length * (f + 2)))) {N : Nat} (hN : N = r₀.iters * Q₀.length)
    {r r' : IPF Fl} (hr : IPF.run false fp (numFl fp) (indicesOf (finProb Q)) (marginalsOf s (finProb Q)) (finArr s b) = .ok r)
    (hr' : IPF.run false fp (numFl fp) (indicesOf (finProb Q)) (marginalsOf s (finProb Q)) (finArr s c₀) = .ok r') :
    ∃ c c' : List Int → ℚ, r.micro.array = finArr s c ∧ r'.micro.array = finArr s c' ∧ E ≤ 1 ∧ ∀ v, InRange s v → 0 ≤ c v ∧ 0 ≤ c' v ∧
      (1 - E) * c' v ≤ (1 + E) * Real.exp ((4 * Q.length + 2) * (N / 2 ^ 52)) * c v ∧
      (1 - E) * c v ≤ (1 + E) * Real.exp ((4 * Q.length + 2) * (N / 2 ^ 52)) * c' v := by
  have hK := h.lists
  have hdq : ∀ q ∈ Q, ∀ d ∈ q.1, d < s.length := fun q hq => (h.dims q hq).2
  have hb0 : ∀ v, InRange s v → 0 < b v := fun v hv => hmo.lo_pos.trans_le (hmo.seed v hv).1
  have hc0 : ∀ v, InRange s v → 0 < c₀ v := fun v hv => hmo'.lo_pos.trans_le (hmo'.seed v hv).1
  obtain ⟨hRN, hlen⟩ := small_len h hmo hsmall
  -- the first stage
  obtain ⟨c1, b', g1, -, g3, g4⟩ := ipf_backward hfp h₀ hp₀ (fun v hv => (hb0 v hv).le) hr₀ hreg
  rw [← hN] at g3
  have ec : ∀ v, InRange s v → c1 v = c₀ v := by
    intro v hv
    exact Fl.fin.inj (arr_inj (g1.symm.trans hc₀) v hv)
  have g4' : Factored s Q₀ b' c₀ := by
    obtain ⟨F, hF⟩ := g4
    exact ⟨F, fun v hv => by rw [← ec v hv]; exact hF v hv⟩
  have hb0' : ∀ v, InRange s v → 0 < b' v := fun v hv =>
    lt_of_lt_of_le (mul_pos (uu_pow_pos N) (hb0 v hv)) (g3 v hv).2.1
  have hN9 : N ≤ 10 ^ 9 := by
    have hit : r₀.iters ≤ 1000 := by
      obtain ⟨pop', n, -, -, h2, -, -, rfl⟩ := ipf_run fp (numFl fp) (minOK_fl _) (probShape_congr (fst_finProb Q₀).symm h₀) (properProb_fin hp₀) _ hr₀
      exact h2
    rw [hN]
    calc r₀.iters * Q₀.length ≤ 1000 * 10 ^ 6 := Nat.mul_le_mul hit hlen₀
      _ = 10 ^ 9 := by norm_num
  obtain ⟨F₀, f1, f2⟩ := factored_pos g4' hb0' hc0
  obtain ⟨F, f3, f4⟩ := lift_factors (Q₀ := Q₀) hdq hsub F₀ f1
  have f5 : ∀ v, InRange s v → c₀ v = timesFactors F b' v := by
    intro v hv
    rw [f2 v hv]
    unfold timesFactors
    rw [f4 v hv]
  -- the cross-product ratios
  obtain ⟨hθ', hnear'⟩ := stage_part hlen hN9 hθ hK hnear
  have hodds' : ∀ k (hk : k < Q.length), OddsAtMost ((θ / uu ^ (2 * N)) ^ 2) s Q[k].1 (restDims Q k) b' := by
    intro k hk v v' w w' hv hv' hw hw' e1 e2 e3 e4
    have key := hodds k hk v v' w w' hv hv' hw hw' e1 e2 e3 e4
    have a1 := (g3 v hv).2.2
    have a2 := (g3 v' hv').2.2
    have a3 := (g3 w hw).2.1
    have a4 := (g3 w' hw').2.1
    have hu := uu_pow_pos N
    have p1 := hb0' v hv
    have p2 := hb0' v' hv'
    have p3 := hb0 w hw
    have p4 := hb0 w' hw'
    have q1 := hb0 v hv
    have q3 := hb0' w hw
    have m1 := mul_le_mul a1 a2 (by positivity) q1.le
    have m2 := mul_le_mul a3 a4 (by positivity) q3.le
    have e : (uu ^ (2 * N) : ℚ) = uu ^ N * uu ^ N := by rw [two_mul, pow_add]
    rw [e]
    generalize uu ^ N = U at *
    have m3 := mul_le_mul_of_nonneg_left m2 (sq_nonneg θ)
    have m4 : U ^ 2 * (U ^ 2 * (b' v * b' v')) ≤ θ ^ 2 * (b' w * b' w') := by
      have := mul_le_mul_of_nonneg_left (m1.trans key) (sq_nonneg U)
      refine le_trans (le_of_eq ?_) (this.trans (le_trans (le_of_eq ?_) m3)) <;> ring
    have e2 : (θ / (U * U)) ^ 2 * (b' w * b' w') = θ ^ 2 * (b' w * b' w') / (U ^ 2 * U ^ 2) := by field_simp
    rw [e2, le_div_iff₀ (by positivity)]
    refine le_trans (le_of_eq ?_) m4
    ring
  have hodds'' := odds_of_times hdq f3 f5 hodds'
  -- the closest tables
  have hpopp : (0 : Int) < pop := by
    have : (0 : ℚ) < (pop : ℚ) := pop_pos h hmo.pos
    exact_mod_cast this
  obtain ⟨x, hx, -⟩ := C136_exists h hd hpopp hb0
  obtain ⟨x', hx', -⟩ := C136_exists h hd hpopp hb0'
  have hx'' := (closest_of_times hdq f3 f5 x').mpr hx'
  obtain ⟨c, h1, h2⟩ := C136_odds h hd hmo hfp hθ hodds (hnear.trans (by norm_num)) hsmall hone hx hr
  obtain ⟨c', h1', h2'⟩ := C136_odds h hd hmo' hfp hθ' hodds'' hnear' hsmall hone hx'' hr'
  rw [← hE] at h2 h2'
  have hE0 : 0 ≤ E := by rw [hE]; positivity
  have hE1 : E ≤ 1 := by rw [hE]; exact part_le_one hK hRN
  refine ⟨c, c', h1, h1', hE1, fun v hv => ?_⟩
  set lam : ℚ := ((Q.length - 1 : Nat) : ℚ) * ((θ - 1) / (θ + 1)) with hlam
  have hl2 : lam ≤ 1 / 2 := by
    rw [hlam, ← mul_div_assoc, div_le_iff₀ (by linarith)]
    linarith
  have heta0 : 0 < eta := lt_of_lt_of_le (by norm_num) eta_ge
  set β : ℝ := (N : ℝ) / 2 ^ 52 with hβ
  have hβ0 : 0 ≤ β := by positivity
  have key := C137_closest h h hd hmo.pos hmo.pos hb0 hb0' hθ hodds hlam (by linarith) (β := β) (δ := 0) hβ0 le_rfl (by
    intro v hv
    have n1 : Nr (N * eta) ((b' v : ℚ) : ℝ) ((b v : ℚ) : ℝ) := nr_iff_rel.mpr (g3 v hv).2
    refine n1.mono (by exact_mod_cast (hb0' v hv).le) (by exact_mod_cast (hb0 v hv).le) ?_
    rw [hβ, div_eq_mul_one_div]
    exact mul_le_mul_of_nonneg_left eta_le_52 (Nat.cast_nonneg _)) ⟨rfl, fun k hk hk' j hj => by simp⟩ hx hx' hv
  have hl2R : (lam : ℝ) ≤ 1 / 2 := by
    have : (lam : ℝ) ≤ ((1 / 2 : ℚ) : ℝ) := by exact_mod_cast hl2
    push_cast at this
    exact this
  have hC : 2 * (Q.length : ℝ) / (1 - lam) ≤ 4 * Q.length := by
    rw [div_le_iff₀ (by linarith)]
    have : (0 : ℝ) ≤ Q.length := Nat.cast_nonneg _
    nlinarith
  have hB : Real.exp ((2 * Q.length / (1 - lam) + 2) * β + (2 * Q.length / (1 - lam) + 1) * 0) ≤ Real.exp ((4 * Q.length + 2) * β) := by
    refine Real.exp_le_exp.mpr ?_
    have g1 := mul_le_mul_of_nonneg_right hC hβ0
    linarith
  have hx0 := hx.nonneg v hv
  have hx0' := hx'.nonneg v hv
  exact two_near hE0 hE1 (Real.exp_pos _) (h2 v hv) (h2' v hv) (key.1.trans (mul_le_mul_of_nonneg_right hB hx0))
    (key.2.trans (mul_le_mul_of_nonneg_right hB hx0')) hx0 hx0'

/-! ### The hypotheses are met, in binary64 -/

theorem nudged_run (sqrt : Fl → Fl) : ∃ r, IPF.run false (FP.ieee sqrt) (numFl (FP.ieee sqrt)) (indicesOf (dblProb nudged))
    (marginalsOf [2, 2] (dblProb nudged)) (arr [2, 2] (fun _ => .fin 1)) = .ok r ∧ r.conv = true ∧ r.iters = 1 := by
  obtain ⟨r, -, h1, h2, h3, -⟩ := C93_unit_partial (FP.ieee_good sqrt) nudged_ok (by norm_num) (by decide) (f := 2) (by
      have : prodSizes [2, 2] = 4 := by decide
      rw [this]
      show ((1000000 : Int) : ℚ) ^ 2 * _ ≤ _
      refine le_trans ?_ (pow_le_pow_right₀ (show (1 : ℚ) ≤ 2 by norm_num) (show 100 ≤ 800 by norm_num))
      norm_num) (by
      intro p hp j
      have hp : p.1 = [0] ∨ p.1 = [1] := by
        simp only [nudged, List.mem_cons, List.not_mem_nil, or_false] at hp
        rcases hp with rfl | rfl <;> simp
      have key : ∀ d ∈ [0, 1], ∀ j, ((cells [2, 2]).filter (fun v => proj [d] v = j)).card ≤ 2 := by
        intro d hd j
        by_cases hj : j = [0] ∨ j = [1]
        · rcases hj with rfl | rfl <;> revert d <;> decide
        · have : (cells [2, 2]).filter (fun v => proj [d] v = j) = ∅ := by
            rw [Finset.filter_eq_empty_iff]
            intro v hv he
            have h1 : ∀ v ∈ cells [2, 2], ∀ d ∈ [0, 1], proj [d] v = [0] ∨ proj [d] v = [1] := by decide
            rw [← he] at hj
            exact hj (h1 v hv d hd)
          rw [this]; simp
      rcases hp with h | h <;> rw [h] <;> exact key _ (by simp) j) (by decide) (c := 1) (by norm_num) (by norm_num)
  exact ⟨r, h1, h2, h3⟩

/-- the table fitted to the rows `[400, 600]` and columns `[300, 700]` thousand from a seed of ones, in binary64 -/
def midFitted (v : List Int) : ℚ := flVal (midStage 2 v)

theorem midFitted_fin {v : List Int} (hv : InRange [2, 2] v) : midStage 2 v = .fin (midFitted v) ∧ 1 ≤ midFitted v ∧ midFitted v ≤ 1000000 := by
  have key : ∀ v ∈ allIdx [2, 2], midStage 2 v = .fin (midFitted v) ∧ 1 ≤ midFitted v ∧ midFitted v ≤ 1000000 := by decide +kernel
  exact key v (mem_allIdx.mpr hv)

theorem nudged_modest {b : List Int → ℚ} (hb : ∀ v, InRange [2, 2] v → 1 ≤ b v ∧ b v ≤ 1000000) :
    Modest [2, 2] (ratProb nudged) 1000000 b 1 1000000 (1 / 10) 2 where
  seed := hb
  seedLow := by norm_num
  seedOrder := by norm_num
  seedHigh := by norm_num
  partPos := by norm_num
  part := by
    have key : ∀ q ∈ ratProb nudged, ∀ j ∈ allIdx (projSizes q.1 [2, 2]), (1 / 10 : ℚ) * ((1000000 : Int) : ℚ) ≤ q.2 j := by
      decide +kernel
    exact fun q hq j hj => key q hq j (mem_allIdx.mpr hj)
  mid := by
    have key : ∀ q ∈ ratProb nudged, ∀ j ∈ allIdx (projSizes q.1 [2, 2]), 1 / 2 ^ 200 ≤ q.2 j ∧ q.2 j ≤ 2 ^ 200 := by
      decide +kernel
    exact fun q hq j hj => key q hq j (mem_allIdx.mpr hj)
  cellsPer := by
    intro q hq j
    obtain ⟨q', hq', e⟩ : ∃ q' ∈ ratProb midProb, q'.1 = q.1 := by
      simp only [ratProb, nudged, List.map_cons, List.map_nil, List.mem_cons, List.not_mem_nil, or_false] at hq
      rcases hq with rfl | rfl
      · exact ⟨(ratProb midProb)[0], by simp, rfl⟩
      · exact ⟨(ratProb midProb)[1], by simp, rfl⟩
    rw [← e]
    exact uneven_modest.cellsPer q' hq' j
  few := by simp [ratProb, nudged]
  size := by
    show (4 * (1000000 / 1) * (2 * (1000000 / 1) / (1 / 10)) ^ 2 : ℚ) ≤ 2 ^ 200 * ((1000000 : Int) : ℚ)
    norm_num

/-- Last year's rows and columns first, then this year's, against this year's directly: the tables agree to a part in a million. -/
example (sqrt : Fl → Fl) : ∃ r₀ r r' c c',
    IPF.run false (FP.ieee sqrt) (numFl (FP.ieee sqrt)) (indicesOf (finProb (ratProb midProb)))
      (marginalsOf [2, 2] (finProb (ratProb midProb))) (finArr [2, 2] (fun _ => 1)) = .ok r₀ ∧ r₀.micro.array = finArr [2, 2] midFitted ∧
    IPF.run false (FP.ieee sqrt) (numFl (FP.ieee sqrt)) (indicesOf (finProb (ratProb nudged)))
      (marginalsOf [2, 2] (finProb (ratProb nudged))) (finArr [2, 2] (fun _ => 1)) = .ok r ∧
    IPF.run false (FP.ieee sqrt) (numFl (FP.ieee sqrt)) (indicesOf (finProb (ratProb nudged)))
      (marginalsOf [2, 2] (finProb (ratProb nudged))) (finArr [2, 2] midFitted) = .ok r' ∧
    r.micro.array = finArr [2, 2] c ∧ r'.micro.array = finArr [2, 2] c' ∧
    ∀ v, InRange [2, 2] v → (1 - 5 / 10 ^ 7) * (c' v : ℝ) ≤ (1 + 5 / 10 ^ 7) * Real.exp (20 / 2 ^ 52) * c v := by
  have hok := ratOK_ratProb midProb_ok
  have hok' := ratOK_ratProb nudged_ok
  have hp : ProperProb [2, 2] (ratProb midProb) := by unfold ProperProb; decide
  have hp' : ProperProb [2, 2] (ratProb nudged) := by unfold ProperProb; decide
  obtain ⟨r₀, h0, -, hit⟩ := mid_run sqrt
  have hr₀ : IPF.run false (FP.ieee sqrt) (numFl (FP.ieee sqrt)) (indicesOf (finProb (ratProb midProb)))
      (marginalsOf [2, 2] (finProb (ratProb midProb))) (finArr [2, 2] (fun _ => 1)) = .ok r₀ := by rw [fin_ratProb]; exact h0
  have hc₀ : r₀.micro.array = finArr [2, 2] midFitted := by
    obtain ⟨pop, n, -, -, -, -, -, rfl⟩ := ipf_run (FP.ieee sqrt) (numFl (FP.ieee sqrt)) (minOK_fl _)
      (probShape_congr (fst_finProb (ratProb midProb)).symm hok.toProbShape) (properProb_fin hp) _ hr₀
    have hn : n = 1 := hit
    subst hn
    exact arr_congr fun v hv => (midFitted_fin hv).1
  obtain ⟨r1, h1, -, -⟩ := nudged_run sqrt
  obtain ⟨pop, n, hacc, -⟩ := ipf_run (FP.ieee sqrt) (numFl (FP.ieee sqrt)) (minOK_fl _)
    (probShape_congr (fst_finProb (ratProb nudged)).symm hok'.toProbShape) (properProb_fin hp') _
    (by rw [fin_ratProb]; exact h1)
  obtain ⟨r, hr⟩ := ipf_run_ok (FP.ieee sqrt) (numFl (FP.ieee sqrt)) (minOK_fl _) hacc (properProb_fin hp') (fun _ => .fin 1)
  obtain ⟨r', hr'⟩ := ipf_run_ok (FP.ieee sqrt) (numFl (FP.ieee sqrt)) (minOK_fl _) hacc (properProb_fin hp') (fun v => .fin (midFitted v))
  obtain ⟨c, c', k1, k2, -, k3⟩ := C140_double (FP.ieee_good sqrt) hok.toProbShape hp (by show (2 : Nat) ≤ 10 ^ 6; norm_num) (by
      intro q₀ hq₀
      simp only [ratProb, midProb, List.map_cons, List.map_nil, List.mem_cons, List.not_mem_nil, or_false] at hq₀
      rcases hq₀ with rfl | rfl
      · exact ⟨(ratProb nudged)[0], by simp, fun d hd => hd⟩
      · exact ⟨(ratProb nudged)[1], by simp, fun d hd => hd⟩) hok' (by decide) hr₀ (by rw [hit]; exact mid_regular sqrt) hc₀
    (nudged_modest fun _ _ => by norm_num) (nudged_modest fun v hv => (midFitted_fin hv).2) (θ := 1) le_rfl
    (fun k hk v v' w w' _ _ _ _ _ _ _ _ => by norm_num) (by norm_num)
    (by show (1000000 : Int) * (4 * ((2 : Nat) : Int) ^ 2 * (((2 : Nat) : Int) + 2) + ((2 : Nat) : Int) + 1) ≤ 89000000; norm_num)
    nudged_one rfl rfl hr hr'
  refine ⟨r₀, r, r', c, c', hr₀, hc₀, hr, hr', k1, k2, fun v hv => ?_⟩
  obtain ⟨p1, p2, key, -⟩ := k3 v hv
  have e : (4 * ((ratProb nudged).length : ℝ) + 2) * (((r₀.iters * (ratProb midProb).length : Nat) : ℝ) / 2 ^ 52) = 20 / 2 ^ 52 := by
    rw [hit]
    show (4 * ((2 : Nat) : ℝ) + 2) * (((1 * 2 : Nat) : ℝ) / 2 ^ 52) = _
    norm_num
  rw [e] at key
  have hE : ((8 : ℝ) * ((ratProb nudged).length : ℝ) + 4) * (22 / 10 ^ 9 + 13 / 10 ^ 15 * (((ratProb nudged).length : ℝ) * (((2 : Nat) : ℝ) + 2))) ≤
      5 / 10 ^ 7 := by
    show ((8 : ℝ) * ((2 : Nat) : ℝ) + 4) * (22 / 10 ^ 9 + 13 / 10 ^ 15 * (((2 : Nat) : ℝ) * (((2 : Nat) : ℝ) + 2))) ≤ 5 / 10 ^ 7
    norm_num
  have p1' : (0 : ℝ) ≤ c v := by exact_mod_cast p1
  have p2' : (0 : ℝ) ≤ c' v := by exact_mod_cast p2
  have hB := Real.exp_pos (20 / 2 ^ 52)
  have m1 := mul_le_mul_of_nonneg_right hE p2'
  have m2 := mul_le_mul_of_nonneg_right hE (mul_nonneg hB.le p1')
  push_cast at key m1 m2 ⊢
  nlinarith

end HL

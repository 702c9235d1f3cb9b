import Verif.Proof.IPFOddsRun
import Verif.Props.IPFRateMany

/-
C135: ipf converges in double precision, for marginals without common dimensions and a positive seed.
-/

namespace HL
open Rate Micro

section double
variable {s : List Nat} {Q : Prob ℚ} {pop : Int} (h : RatOK s Q pop) (hd : (Q.map Prod.fst).flatten.Nodup) {b : List Int → ℚ}
  {lo hi ρ : ℚ} {f : Nat} (hmo : Modest s Q pop b lo hi ρ f)
include h hd hmo

/-- the margins of the double-precision table after 100 iterations, given a bound on the cross-product ratios of the tables -/
theorem hundred_of {R : ℝ} (hR1R : 1 ≤ R) (hKRR : ((Q.length - 1 : Nat) : ℝ) * (R - 1) ≤ 1)
    (hrun : NearRun s Q (fun i v => ((flVal (dtab fp s Q b i v) : ℚ) : ℝ)) (100 * Q.length) (((f + 2 : Nat) : ℝ) * eta) R)
    {x : List Int → ℚ} (hx : Agree s ((sweep fp (numFl fp) s (finProb Q))^[100] (fun v => .fin (b v))) x) :
    ∀ q ∈ Q, ∀ j, InRange (projSizes q.1 s) j → Rel (4 * Q.length ^ 2 * (f + 2) + 1) (marginalSum s q.1 x j) (q.2 j) := by
  intro q hq j hj
  have hK := h.lists
  set K := Q.length with hKd
  have hs : Splits s Q := splits_of_disjoint rfl h.toProbShape hd
  have hpopp := pop_pos h hmo.pos
  set lam : ℝ := ((K - 1 : Nat) : ℝ) * ((R - 1) / (R + 1)) with hlam
  have hl2 : lam ≤ 1 / 2 := by
    rw [hlam, ← mul_div_assoc, div_le_iff₀ (by linarith)]
    linarith
  have hl0 : 0 ≤ lam := by
    rw [hlam]
    exact mul_nonneg (Nat.cast_nonneg _) (div_nonneg (by linarith) (by linarith))
  have heta := eta_ge
  have heta0 : 0 < eta := lt_of_lt_of_le (by norm_num) heta
  have hT0 : (0 : ℚ) < (pop : ℚ) := hpopp
  have hε0 : (0 : ℝ) ≤ ((f + 2 : Nat) : ℝ) * eta := by positivity
  have key := near_error hs hK h.pos hmo.pos h.total hT0 hrun hε0 hR1R (lam := lam) rfl (by linarith) (n := 98) (by omega) hq hj
  set ε := ((f + 2 : Nat) : ℝ) * eta with hε
  have e1 : (98 + 2) * Q.length = 100 * Q.length + 0 := by omega
  have hmar : marginalSum s q.1 (fun v => ((flVal (dtab fp s Q b ((98 + 2) * Q.length) v) : ℚ) : ℝ)) j = ((marginalSum s q.1 x j : ℚ) : ℝ) := by
    unfold marginalSum
    push_cast
    refine Finset.sum_congr rfl fun w hw => ?_
    rw [e1, dtab_at 100 (Nat.zero_le _) (by omega)]
    have : sweep fp (numFl fp) s ((finProb Q).take 0) ((sweep fp (numFl fp) s (finProb Q))^[100] (fun v => .fin (b v))) w =
      .fin (x w) := hx w (mem_cells.mp (Finset.mem_filter.mp hw).1)
    rw [this]
    rfl
  rw [hmar] at key
  have hx0 : ∀ v, InRange s v → 0 ≤ x v := by
    intro v hv
    have h1 := hrun.pos (100 * K) le_rfl v hv
    have e2 : 100 * K = 100 * Q.length + 0 := by omega
    rw [e2, dtab_at 100 (Nat.zero_le _) (by omega)] at h1
    have : sweep fp (numFl fp) s ((finProb Q).take 0) ((sweep fp (numFl fp) s (finProb Q))^[100] (fun v => .fin (b v))) v =
      .fin (x v) := hx v hv
    rw [this] at h1
    have h2 : (0 : ℝ) < ((x v : ℚ) : ℝ) := h1
    exact_mod_cast h2.le
  refine nr_iff_rel.mp (key.mono ?_ ?_ ?_)
  · exact_mod_cast marginalSum_nonneg hx0 j
  · exact_mod_cast (hmo.pos q hq j hj).le
  -- the exponent
  rw [← hKd]
  have hKr : (2 : ℝ) ≤ (K : ℝ) := by exact_mod_cast hK
  have eK : ((K - 1 : Nat) : ℝ) = K - 1 := by rw [Nat.cast_sub (by omega)]; simp
  have he : 98 ≤ (98 * K + 1) / (K - 1) := (Nat.le_div_iff_mul_le (by omega)).mpr (by omega)
  have g2 : lam ^ ((98 * K + 1) / (K - 1)) ≤ (1 / 2) ^ 98 :=
    (pow_le_pow_of_le_one hl0 (by linarith) he).trans (pow_le_pow_left₀ hl0 hl2 98)
  have hlog : Real.log R ≤ R - 1 := Real.log_le_sub_one_of_pos (by linarith)
  have hlog0 := Real.log_nonneg hR1R
  have g3 : ((K - 1 : Nat) : ℝ) * (lam ^ ((98 * K + 1) / (K - 1)) * (2 * Real.log R)) ≤ 2 * (1 / 2) ^ 98 := by
    have h1 : ((K - 1 : Nat) : ℝ) * Real.log R ≤ 1 := (mul_le_mul_of_nonneg_left hlog (Nat.cast_nonneg _)).trans hKRR
    have h2 := mul_le_mul g2 h1 (mul_nonneg (Nat.cast_nonneg _) hlog0) (by positivity)
    linarith
  have g4 : 2 * (K : ℝ) * ε / (1 - lam) ≤ 4 * K * ε := by
    rw [div_le_iff₀ (by linarith)]
    have h1 : 0 ≤ K * ε := mul_nonneg (by linarith) hε0
    nlinarith
  have g5 := mul_le_mul_of_nonneg_left g4 (show 0 ≤ ((K - 1 : Nat) : ℝ) from Nat.cast_nonneg _)
  have g6 : (2 : ℝ) * (1 / 2) ^ 98 ≤ eta := le_trans (by norm_num) heta
  have g7 : ((K - 1 : Nat) : ℝ) * (4 * K * ε) + ((K - 1 : Nat) : ℝ) * (2 * ε) + ε ≤ 4 * (K : ℝ) ^ 2 * ε := by
    rw [eK]
    nlinarith
  calc _ = ((K - 1 : Nat) : ℝ) * (lam ^ ((98 * K + 1) / (K - 1)) * (2 * Real.log R)) +
        ((K - 1 : Nat) : ℝ) * (2 * (K : ℝ) * ε / (1 - lam)) + ((K - 1 : Nat) : ℝ) * (2 * ε) + ε := by ring
    _ ≤ eta + 4 * (K : ℝ) ^ 2 * ε := by linarith
    _ = _ := by rw [hε]; push_cast; ring

/-- the margins of the double-precision table after 100 iterations -/
theorem hundred (hfp : fp.Good) (hspread : ((Q.length - 1 : Nat) : ℚ) * (hi - lo) ≤ 9 / 10 * lo) (hlen : Q.length ≤ 4000)
    {x : List Int → ℚ} (hx : Agree s ((sweep fp (numFl fp) s (finProb Q))^[100] (fun v => .fin (b v))) x) :
    ∀ q ∈ Q, ∀ j, InRange (projSizes q.1 s) j → Rel (4 * Q.length ^ 2 * (f + 2) + 1) (marginalSum s q.1 x j) (q.2 j) := by
  have hK := h.lists
  set K := Q.length with hKd
  have hs : Splits s Q := splits_of_disjoint rfl h.toProbShape hd
  have hlo := hmo.lo_pos
  have hlh := hmo.seedOrder
  have hpopp := pop_pos h hmo.pos
  set U := uu ^ (2 * (100 * K)) with hU
  have hU0 : 0 < U := uu_pow_pos _
  have hU1 : U ≤ 1 := uu_pow_le _
  have hU2 : 1 - 1 / 2 ^ 33 ≤ U := by
    refine le_trans ?_ (uu_pow_ge _)
    have : ((2 * (100 * K) : Nat) : ℚ) ≤ 800000 := by exact_mod_cast (by omega : 2 * (100 * K) ≤ 800000)
    have h2 : ((2 * (100 * K) : Nat) : ℚ) / 2 ^ 53 ≤ 800000 / 2 ^ 53 := by gcongr
    have h3 : (800000 : ℚ) / 2 ^ 53 ≤ 1 / 2 ^ 33 := by norm_num
    linarith
  -- the bound on the seed's spread, with the roundings
  set R : ℚ := hi / lo / U with hR
  have hr0 : 1 ≤ hi / lo := (one_le_div hlo).mpr hlh
  have hR1 : 1 ≤ R := by
    rw [hR, le_div_iff₀ hU0]; linarith
  have hK1 : (1 : ℚ) ≤ ((K - 1 : Nat) : ℚ) := by exact_mod_cast (by omega : 1 ≤ K - 1)
  have hK4 : ((K - 1 : Nat) : ℚ) ≤ 4000 := by exact_mod_cast (by omega : K - 1 ≤ 4000)
  have hsp : ((K - 1 : Nat) : ℚ) * (hi / lo - 1) ≤ 9 / 10 := by
    have e : hi / lo - 1 = (hi - lo) / lo := by field_simp
    rw [e, ← mul_div_assoc, div_le_iff₀ hlo]
    exact hspread
  have hr2 : hi / lo ≤ 19 / 10 := by nlinarith
  have hKR : ((K - 1 : Nat) : ℚ) * (R - 1) ≤ 1 := by
    have h2 : R ≤ hi / lo * (1 + 1 / 2 ^ 32) := by
      rw [hR, div_le_iff₀ hU0]
      have h3 : 1 ≤ (1 + 1 / 2 ^ 32) * U := by
        have := mul_le_mul_of_nonneg_left hU2 (show (0 : ℚ) ≤ 1 + 1 / 2 ^ 32 by norm_num)
        refine le_trans ?_ this
        norm_num
      have := mul_le_mul_of_nonneg_left h3 (by linarith : 0 ≤ hi / lo)
      linarith
    have h3 : R - 1 ≤ (hi / lo - 1) + 1 / 2 ^ 31 := by linarith
    have h4 := mul_le_mul_of_nonneg_left h3 (by linarith : 0 ≤ ((K - 1 : Nat) : ℚ))
    have h5 : ((K - 1 : Nat) : ℚ) * (1 / 2 ^ 31) ≤ 4000 * (1 / 2 ^ 31) := mul_le_mul_of_nonneg_right hK4 (by norm_num)
    have h6 : (4000 : ℚ) * (1 / 2 ^ 31) ≤ 1 / 10 := by norm_num
    linarith
  have hR1R : (1 : ℝ) ≤ (R : ℝ) := by exact_mod_cast hR1
  have hKRR : ((K - 1 : Nat) : ℝ) * ((R : ℝ) - 1) ≤ 1 := by exact_mod_cast hKR
  refine hundred_of h hd hmo hR1R hKRR ?_ hx
  exact near_run h hd hmo hfp (N := 100 * K) (by omega)

/-- convergence, from the margins after 100 iterations -/
theorem converges_of (hfp : fp.Good) (hsmall : pop * (4 * Q.length ^ 2 * (f + 2) + f + 1) ≤ 89000000)
    (hh : ∀ {x : List Int → ℚ}, Agree s ((sweep fp (numFl fp) s (finProb Q))^[100] (fun v => .fin (b v))) x →
      ∀ q ∈ Q, ∀ j, InRange (projSizes q.1 s) j → Rel (4 * Q.length ^ 2 * (f + 2) + 1) (marginalSum s q.1 x j) (q.2 j)) {r : IPF Fl}
    (hr : IPF.run false fp (numFl fp) (indicesOf (finProb Q)) (marginalsOf s (finProb Q)) (finArr s b) = .ok r) :
    r.conv = true ∧ r.iters ≤ 100 := by
  have hK := h.lists
  have hpopp := pop_pos h hmo.pos
  have hpop1 : (1 : Int) ≤ pop := by
    have : (0 : ℚ) < (pop : ℚ) := hpopp
    have : (0 : Int) < pop := by exact_mod_cast this
    omega
  obtain ⟨pop', n, -, h1, h2, h3, h4, rfl⟩ := ipf_run fp (numFl fp) (minOK_fl _)
    (probShape_congr (fst_finProb Q).symm h.toProbShape) (properProb_fin (properProb_of_disjoint h.toProbShape hd)) _ hr
  obtain ⟨x, W', hW, -, hx⟩ := modest_run h hd hmo hfp (n := 100) (by omega)
  have hrel := hh hx.agree
  have hcv : convAt fp (numFl fp) s (finProb Q) ((sweep fp (numFl fp) s (finProb Q))^[100] (fun v => .fin (b v))) := by
    unfold convAt
    apply maxDev_lt' _ _ _ (lt_tol8 hfp)
    intro p' hp' j hj
    obtain ⟨q, hq, rfl⟩ := mem_finProb.mp hp'
    have hf' : f ≤ 2 ^ 50 := by have := hmo.few; omega
    have hB : marginalSum s q.1 x j ≤ 2 ^ 251 := by
      have h5 : marginalSum s q.1 x j ≤ ((cells s).filter (fun w => proj q.1 w = j)).card • (2 : ℚ) ^ 201 :=
        Finset.sum_le_card_nsmul _ _ _ (fun w hw => (hx.size w (mem_cells.mp (Finset.mem_filter.mp hw).1)).2)
      rw [nsmul_eq_mul] at h5
      have h6 : ((((cells s).filter (fun w => proj q.1 w = j)).card : ℕ) : ℚ) ≤ 2 ^ 50 := by
        exact_mod_cast (hmo.cellsPer q hq j).trans hf'
      refine h5.trans ((mul_le_mul_of_nonneg_right h6 (by positivity)).trans (le_of_eq ?_))
      rw [← pow_add]
    obtain ⟨S, hS1, hS2⟩ := fsum_rel hfp (s := s) (ds := q.1) (j := j) (K := 0) (f := f)
      (a := (sweep fp (numFl fp) s (finProb Q))^[100] (fun v => .fin (b v))) (y := x) (lo := 1 / 2 ^ 200) (B := 2 ^ 251)
      (by
        have := tinyQ_le_mid
        refine le_trans (mul_le_mul_of_nonneg_left this (by norm_num)) ?_
        rw [← mul_div_assoc, div_le_div_iff₀ (by positivity) (by positivity), mul_one, one_mul, ← pow_succ']
        exact pow_le_pow_right₀ (by norm_num) (by norm_num))
      (by
        refine le_trans ?_ hugeQ_ge_mid
        rw [← pow_succ']
        exact pow_le_pow_right₀ (by norm_num) (by norm_num))
      (fun v hv => ⟨x v, hx.agree v hv, Rel.refl _, .inr (hx.size v hv).1⟩) (hmo.cellsPer q hq j) (by omega) hB
    have hS3 := hS2.trans (hrel q hq j hj)
    show FP.lt (FP.abs (fp.sub (fsum fp s q.1 _ j) (.fin (q.2 j)))) (tol8 fp) = true
    rw [hS1]
    refine dev_small hfp hS3 (h.nonneg q hq j hj) (T := pop) ?_ (by exact_mod_cast hpop1) ?_
    · rw [← h.total q hq]
      exact Finset.single_le_sum (f := q.2) (fun j hj => h.nonneg q hq j (mem_cells.mp hj)) (mem_cells.mpr hj)
    · have h7 : (pop : ℚ) * (4 * (Q.length : ℚ) ^ 2 * (f + 2) + f + 1) ≤ 89000000 := by exact_mod_cast hsmall
      push_cast
      linarith
  have hn : n ≤ 100 := by
    by_contra hlt
    exact h4 100 (by norm_num) (by omega) hcv
  refine ⟨?_, hn⟩
  rcases h3 with h3 | h3
  · exact h3
  · omega

omit hd in
/-- the sizes that `89000000` allows -/
theorem small_len (hsmall : pop * (4 * Q.length ^ 2 * (f + 2) + f + 1) ≤ 89000000) :
    4 * Q.length ^ 2 * (f + 2) + f + 1 ≤ 89000000 ∧ Q.length ≤ 4000 := by
  have hpopp := pop_pos h hmo.pos
  have hpop1 : (1 : Int) ≤ pop := by
    have : (0 : ℚ) < (pop : ℚ) := hpopp
    have : (0 : Int) < pop := by exact_mod_cast this
    omega
  have hRN : 4 * Q.length ^ 2 * (f + 2) + f + 1 ≤ 89000000 := by
    have h1 : (0 : Int) ≤ 4 * (Q.length : Int) ^ 2 * (f + 2) + f + 1 := by positivity
    have h2 : (4 * (Q.length : Int) ^ 2 * (f + 2) + f + 1) ≤ 89000000 := le_trans (le_mul_of_one_le_left h1 hpop1) hsmall
    exact_mod_cast h2
  have hlen : Q.length ≤ 4000 := by
    by_contra hlt
    have h1 : 4001 ≤ Q.length := by omega
    have h2 : 4001 * 4001 ≤ Q.length ^ 2 := by rw [pow_two]; exact Nat.mul_le_mul h1 h1
    have h3 : Q.length ^ 2 * 2 ≤ Q.length ^ 2 * (f + 2) := Nat.mul_le_mul_left _ (by omega)
    have e : 4 * Q.length ^ 2 * (f + 2) = 4 * (Q.length ^ 2 * (f + 2)) := by ring
    omega
  exact ⟨hRN, hlen⟩

/-- **C135.**  Marginals without common dimensions (`K` of them), all entries positive, at most `f` cells in the sum for one entry, and a
positive seed whose cells differ from each other by no more than the part `9 / (10 (K - 1))`, none of the numbers extreme.  If the
population times `4 K² (f + 2) + f + 1` is at most 89 million, `ipf` in double precision converges, in at most 100 iterations. -/
theorem C135_converges (hfp : fp.Good) (hspread : ((Q.length - 1 : Nat) : ℚ) * (hi - lo) ≤ 9 / 10 * lo)
    (hsmall : pop * (4 * Q.length ^ 2 * (f + 2) + f + 1) ≤ 89000000) {r : IPF Fl}
    (hr : IPF.run false fp (numFl fp) (indicesOf (finProb Q)) (marginalsOf s (finProb Q)) (finArr s b) = .ok r) :
    r.conv = true ∧ r.iters ≤ 100 := by
  exact converges_of h hd hmo hfp hsmall (fun hx => hundred h hd hmo hfp hspread (small_len h hmo hsmall).2 hx) hr

omit h hd hmo in
/-- the numbers of `C135_odds` -/
theorem odds_part {Kn fn : Nat} {ρ : ℚ} (hK : 2 ≤ Kn) (hsm : 4 * Kn ^ 2 * (fn + 2) + fn + 1 ≤ 89000000) (hρ : 1 ≤ ρ)
    (hodds : ((Kn - 1 : Nat) : ℚ) * (ρ - 1) ≤ 9 / 10) :
    1 ≤ (ρ : ℝ) * Real.exp (2 * ((100 * Kn : Nat) : ℝ) * (((fn + 2 : Nat) : ℝ) * eta)) ∧
      ((Kn - 1 : Nat) : ℝ) * ((ρ : ℝ) * Real.exp (2 * ((100 * Kn : Nat) : ℝ) * (((fn + 2 : Nat) : ℝ) * eta)) - 1) ≤ 1 := by
  have heta := eta_ge
  have heta0 : 0 < eta := lt_of_lt_of_le (by norm_num) heta
  have heta1 := eta_le
  have g1 : ((4 * Kn ^ 2 * (fn + 2) + fn + 1 : Nat) : ℝ) ≤ 89000000 := by exact_mod_cast hsm
  have hKr : (2 : ℝ) ≤ Kn := by exact_mod_cast hK
  have hf0 : (0 : ℝ) ≤ fn := Nat.cast_nonneg fn
  have eK : ((Kn - 1 : Nat) : ℝ) = Kn - 1 := by rw [Nat.cast_sub (by omega)]; simp
  have hρr : (1 : ℝ) ≤ ρ := by exact_mod_cast hρ
  have ho : ((Kn - 1 : Nat) : ℝ) * ((ρ : ℝ) - 1) ≤ 9 / 10 := by
    have : ((((Kn - 1 : Nat) : ℚ) * (ρ - 1) : ℚ) : ℝ) ≤ ((9 / 10 : ℚ) : ℝ) := by exact_mod_cast hodds
    push_cast at this
    exact this
  rw [eK] at ho ⊢
  push_cast at g1 ⊢
  generalize (Kn : ℝ) = K at *
  generalize (fn : ℝ) = f at *
  generalize (ρ : ℝ) = ρ at *
  generalize eta = η at *
  set t := 2 * (100 * K) * ((f + 2) * η) with ht
  have hKF : 0 ≤ K * (f + 2) := mul_nonneg (by linarith) (by linarith)
  have ht0 : 0 ≤ t := by
    rw [ht]
    have := mul_nonneg hKF heta0.le
    linarith
  have hKKF : K * (K * (f + 2)) ≤ 22250000 := by nlinarith
  have hKt : K * t ≤ 1 / 100000 := by
    have g2 := mul_le_mul_of_nonneg_right hKKF heta0.le
    have e : K * t = 200 * (K * (K * (f + 2)) * η) := by rw [ht]; ring
    rw [e]
    norm_num at heta1 ⊢
    linarith
  have ht1 : t ≤ 1 := by nlinarith
  have hE := Real.add_one_le_exp t
  have hE2 : Real.exp t - 1 ≤ 2 * t := by
    have := Real.abs_exp_sub_one_le (x := t) (by rwa [abs_of_nonneg ht0])
    rw [abs_of_nonneg ht0] at this
    exact (le_abs_self _).trans this
  have hρ2 : ρ ≤ 19 / 10 := by nlinarith
  constructor
  · nlinarith
  · have e : (K - 1) * (ρ * Real.exp t - 1) = (K - 1) * (ρ - 1) + (K - 1) * (ρ * (Real.exp t - 1)) := by ring
    have g3 : ρ * (Real.exp t - 1) ≤ 19 / 10 * (2 * t) := mul_le_mul hρ2 hE2 (by linarith) (by norm_num)
    have g4 := mul_le_mul_of_nonneg_left g3 (show 0 ≤ K - 1 by linarith)
    have g5 : (K - 1) * (19 / 10 * (2 * t)) ≤ 1 / 10 := by nlinarith
    rw [e]
    linarith

/-- **C135** for a seed whose cells may differ much: what counts is the cross-product ratios of the seed between the dimensions of one
marginal and those of the others.  If they are at most `θ²`, with `θ` above one by no more than `9 / (10 (K - 1))`, then `ipf` in double
precision converges in at most 100 iterations, the other conditions being those of `C135_converges`. -/
theorem C135_odds (hfp : fp.Good) {θ : ℚ} (hθ : 1 ≤ θ) (hodds : ∀ k (hk : k < Q.length), OddsAtMost (θ ^ 2) s Q[k].1 (restDims Q k) b)
    (hnear : ((Q.length - 1 : Nat) : ℚ) * (θ - 1) ≤ 9 / 10)
    (hsmall : pop * (4 * Q.length ^ 2 * (f + 2) + f + 1) ≤ 89000000) {r : IPF Fl}
    (hr : IPF.run false fp (numFl fp) (indicesOf (finProb Q)) (marginalsOf s (finProb Q)) (finArr s b) = .ok r) :
    r.conv = true ∧ r.iters ≤ 100 := by
  have hK := h.lists
  obtain ⟨hRN, hlen⟩ := small_len h hmo hsmall
  have hs : Splits s Q := splits_of_disjoint rfl h.toProbShape hd
  have heta0 : 0 < eta := lt_of_lt_of_le (by norm_num) eta_ge
  obtain ⟨g1, g2⟩ := odds_part hK hRN hθ hnear
  refine converges_of h hd hmo hfp hsmall (fun hx => hundred_of h hd hmo g1 g2 ?_ hx) hr
  exact nearRun_of_odds hs hK hmo.pos (near_run h hd hmo hfp (N := 100 * Q.length) (by omega)) h.pos (by positivity) hθ
    (fun v hv => by
      have e2 : (0 : Nat) = 0 * Q.length + 0 := by omega
      show ((flVal (dtab fp s Q b 0 v) : ℚ) : ℝ) = _
      rw [e2, dtab_at 0 (Nat.zero_le _) (by omega)]
      rfl) hodds

end double

/-! ### The hypotheses are met, in binary64 -/

/-- a seed with one cell a quarter above the others -/
def gentleSeed : List Int → ℚ := fun v => if v = [0, 1] then 5 / 4 else 1

theorem gentle_modest : Modest [2, 2] (ratProb midProb) 1000000 gentleSeed 1 (5 / 4) (1 / 10) 2 where
  seed := by
    have key : ∀ v ∈ allIdx [2, 2], 1 ≤ gentleSeed v ∧ gentleSeed v ≤ 5 / 4 := by decide +kernel
    exact fun v hv => key v (mem_allIdx.mpr hv)
  seedLow := by norm_num
  seedOrder := by norm_num
  seedHigh := by norm_num
  partPos := by norm_num
  part := uneven_modest.part
  mid := uneven_modest.mid
  cellsPer := uneven_modest.cellsPer
  few := uneven_modest.few
  size := by
    show (4 * (5 / 4 / 1) * (2 * (5 / 4 / 1) / (1 / 10)) ^ 2 : ℚ) ≤ 2 ^ 200 * ((1000000 : Int) : ℚ)
    norm_num

/-- A population of a million in two by two categories. -/
example (sqrt : Fl → Fl) : ∃ r, IPF.run false (FP.ieee sqrt) (numFl (FP.ieee sqrt)) (indicesOf (finProb (ratProb midProb)))
      (marginalsOf [2, 2] (finProb (ratProb midProb))) (finArr [2, 2] gentleSeed) = .ok r ∧ r.conv = true ∧ r.iters ≤ 100 := by
  obtain ⟨r0, h0, -, -⟩ := mid_run sqrt
  have hp : ProperProb [2, 2] (ratProb midProb) := by unfold ProperProb; decide
  obtain ⟨pop, n, hok, -⟩ := ipf_run (FP.ieee sqrt) (numFl (FP.ieee sqrt)) (minOK_fl _)
    (probShape_congr (fst_finProb (ratProb midProb)).symm (ratOK_ratProb midProb_ok).toProbShape) (properProb_fin hp) _
    (by rw [fin_ratProb]; exact h0)
  obtain ⟨r, hr⟩ := ipf_run_ok (FP.ieee sqrt) (numFl (FP.ieee sqrt)) (minOK_fl _) hok (properProb_fin hp) (fun v => .fin (gentleSeed v))
  exact ⟨r, hr, C135_converges (ratOK_ratProb midProb_ok) (by decide) gentle_modest (FP.ieee_good sqrt)
    (by show ((1 : Nat) : ℚ) * (5 / 4 - 1) ≤ 9 / 10 * 1; norm_num)
    (by show (1000000 : Int) * (4 * ((2 : Nat) : Int) ^ 2 * (((2 : Nat) : Int) + 2) + ((2 : Nat) : Int) + 1) ≤ 89000000; norm_num) hr⟩

/-- a seed whose cells differ by a factor of 250, with cross-product ratio 5 / 4 -/
def tallSeed : List Int → ℚ := fun v => if v = [0, 0] then 1 else if v = [0, 1] then 10 else if v = [1, 0] then 20 else 250

theorem tall_modest : Modest [2, 2] (ratProb midProb) 1000000 tallSeed 1 250 (1 / 10) 2 where
  seed := by
    have key : ∀ v ∈ allIdx [2, 2], 1 ≤ tallSeed v ∧ tallSeed v ≤ 250 := by decide +kernel
    exact fun v hv => key v (mem_allIdx.mpr hv)
  seedLow := by norm_num
  seedOrder := by norm_num
  seedHigh := by norm_num
  partPos := by norm_num
  part := uneven_modest.part
  mid := uneven_modest.mid
  cellsPer := uneven_modest.cellsPer
  few := uneven_modest.few
  size := by
    show (4 * (250 / 1) * (2 * (250 / 1) / (1 / 10)) ^ 2 : ℚ) ≤ 2 ^ 200 * ((1000000 : Int) : ℚ)
    norm_num

theorem tall_odds : ∀ k (hk : k < (ratProb midProb).length),
    OddsAtMost ((6 / 5) ^ 2) [2, 2] (ratProb midProb)[k].1 (restDims (ratProb midProb) k) tallSeed := by
  have key : ∀ k : Fin (ratProb midProb).length, ∀ v ∈ allIdx [2, 2], ∀ v' ∈ allIdx [2, 2], ∀ w ∈ allIdx [2, 2], ∀ w' ∈ allIdx [2, 2],
      proj (ratProb midProb)[k].1 w = proj (ratProb midProb)[k].1 v → proj (restDims (ratProb midProb) k) w = proj (restDims (ratProb midProb) k) v' →
      proj (ratProb midProb)[k].1 w' = proj (ratProb midProb)[k].1 v' → proj (restDims (ratProb midProb) k) w' = proj (restDims (ratProb midProb) k) v →
      tallSeed v * tallSeed v' ≤ (6 / 5) ^ 2 * (tallSeed w * tallSeed w') := by
    decide +kernel
  exact fun k hk v v' w w' hv hv' hw hw' => key ⟨k, hk⟩ v (mem_allIdx.mpr hv) v' (mem_allIdx.mpr hv') w (mem_allIdx.mpr hw) w' (mem_allIdx.mpr hw')

/-- A population of a million with this seed: the cells of the seed are far apart, so only `C135_odds` applies. -/
example (sqrt : Fl → Fl) : ∃ r, IPF.run false (FP.ieee sqrt) (numFl (FP.ieee sqrt)) (indicesOf (finProb (ratProb midProb)))
      (marginalsOf [2, 2] (finProb (ratProb midProb))) (finArr [2, 2] tallSeed) = .ok r ∧ r.conv = true ∧ r.iters ≤ 100 := by
  obtain ⟨r0, h0, -, -⟩ := mid_run sqrt
  have hp : ProperProb [2, 2] (ratProb midProb) := by unfold ProperProb; decide
  obtain ⟨pop, n, hok, -⟩ := ipf_run (FP.ieee sqrt) (numFl (FP.ieee sqrt)) (minOK_fl _)
    (probShape_congr (fst_finProb (ratProb midProb)).symm (ratOK_ratProb midProb_ok).toProbShape) (properProb_fin hp) _
    (by rw [fin_ratProb]; exact h0)
  obtain ⟨r, hr⟩ := ipf_run_ok (FP.ieee sqrt) (numFl (FP.ieee sqrt)) (minOK_fl _) hok (properProb_fin hp) (fun v => .fin (tallSeed v))
  exact ⟨r, hr, C135_odds (ratOK_ratProb midProb_ok) (by decide) tall_modest (FP.ieee_good sqrt) (by norm_num) tall_odds
    (by show ((1 : Nat) : ℚ) * (6 / 5 - 1) ≤ 9 / 10; norm_num)
    (by show (1000000 : Int) * (4 * ((2 : Nat) : Int) ^ 2 * (((2 : Nat) : Int) + 2) + ((2 : Nat) : Int) + 1) ≤ 89000000; norm_num) hr⟩

end HL

import Verif.Proof.IPFRateDoubleRun

/-
The cross-product ratios of a table along a run with small errors: they stay those of the seed, up to the errors.
-/

namespace HL
open Rate Micro

/-- one scaling with an error of `e^ε` raises cross-product ratios by at most `e^{4 ε}` -/
theorem near_odds {s : List Nat} {Q : Prob ℚ} (hK : 2 ≤ Q.length) {y : Nat → List Int → ℝ} {N : Nat} {ε ρ : ℝ}
    (hpos : ∀ i ≤ N, ∀ v, InRange s v → 0 < y i v)
    (hcf : ∀ i < N, ∀ v, InRange s v → 0 < cf s Q y i (proj (stepQ Q i).1 v))
    (hstep : ∀ i < N, ∀ v, InRange s v → Nr ε (y (i + 1) v) (y i v * cf s Q y i (proj (stepQ Q i).1 v)))
    {k : Nat} (hk : k < Q.length) {v v' w w' : List Int} (hv : InRange s v) (hv' : InRange s v') (hw : InRange s w) (hw' : InRange s w')
    (e1 : proj Q[k].1 w = proj Q[k].1 v) (e2 : proj (others Q k) w = proj (others Q k) v') (e3 : proj Q[k].1 w' = proj Q[k].1 v')
    (e4 : proj (others Q k) w' = proj (others Q k) v) (h0 : y 0 v * y 0 v' ≤ ρ ^ 2 * (y 0 w * y 0 w')) :
    ∀ i ≤ N, y i v * y i v' ≤ (ρ * Real.exp (2 * i * ε)) ^ 2 * (y i w * y i w') := by
  intro i
  induction i with
  | zero => intro _; simpa using h0
  | succ i ih =>
    intro hi
    have ih := ih (by omega)
    have hfac : cf s Q y i (proj (stepQ Q i).1 v) * cf s Q y i (proj (stepQ Q i).1 v') =
        cf s Q y i (proj (stepQ Q i).1 w) * cf s Q y i (proj (stepQ Q i).1 w') := by
      have eq : stepQ Q i = Q[i % Q.length]'(Nat.mod_lt _ (by omega)) := stepQ_eq (by omega) i
      by_cases ht : i % Q.length = k
      · have eq' : stepQ Q i = Q[k] := by rw [eq]; congr 1
        rw [eq', e1, e3]
      · have hsub : ∀ d ∈ (stepQ Q i).1, d ∈ others Q k := by
          intro d hd
          rw [eq] at hd
          refine List.mem_flatten.mpr ⟨_, List.mem_map_of_mem ?_, hd⟩
          rw [List.mem_eraseIdx_iff_getElem]
          exact ⟨_, Nat.mod_lt _ (by omega), ht, rfl⟩
        rw [proj_sub hsub e2, proj_sub hsub e4, mul_comm]
    have g1 := (hstep i (by omega) v hv).1
    have g2 := (hstep i (by omega) v' hv').1
    have g3 := (hstep i (by omega) w hw).2
    have g4 := (hstep i (by omega) w' hw').2
    have p1 := hpos i (by omega) v hv
    have p2 := hpos i (by omega) v' hv'
    have p3 := hpos i (by omega) w hw
    have p4 := hpos i (by omega) w' hw'
    have q1 := hpos (i + 1) hi v hv
    have q2 := hpos (i + 1) hi v' hv'
    have q3 := hpos (i + 1) hi w hw
    have q4 := hpos (i + 1) hi w' hw'
    have c1 := hcf i (by omega) v hv
    have c2 := hcf i (by omega) v' hv'
    have c3 := hcf i (by omega) w hw
    have c4 := hcf i (by omega) w' hw'
    have hexp : (ρ * Real.exp (2 * ((i + 1 : Nat) : ℝ) * ε)) ^ 2 = (ρ * Real.exp (2 * i * ε)) ^ 2 * (Real.exp ε) ^ 4 := by
      have : Real.exp (2 * ((i + 1 : Nat) : ℝ) * ε) = Real.exp (2 * i * ε) * Real.exp ε ^ 2 := by
        rw [← Real.exp_nat_mul, ← Real.exp_add]; congr 1; push_cast; ring
      rw [this]; ring
    rw [hexp]
    generalize cf s Q y i (proj (stepQ Q i).1 v) = C1 at *
    generalize cf s Q y i (proj (stepQ Q i).1 v') = C2 at *
    generalize cf s Q y i (proj (stepQ Q i).1 w) = C3 at *
    generalize cf s Q y i (proj (stepQ Q i).1 w') = C4 at *
    have hE := Real.exp_pos ε
    generalize Real.exp ε = E at *
    have hR : 0 ≤ (ρ * Real.exp (2 * i * ε)) ^ 2 := sq_nonneg _
    generalize (ρ * Real.exp (2 * i * ε)) ^ 2 = R at *
    have m1 := mul_le_mul g1 g2 q2.le (by positivity)
    have m2 := mul_le_mul g3 g4 (by positivity) (by positivity)
    have m3 := mul_le_mul_of_nonneg_right ih (mul_pos c3 c4).le
    calc y (i + 1) v * y (i + 1) v' ≤ E ^ 2 * (y i v * y i v' * (C1 * C2)) := by linarith
      _ = E ^ 2 * (y i v * y i v' * (C3 * C4)) := by rw [hfac]
      _ ≤ E ^ 2 * (R * (y i w * y i w') * (C3 * C4)) := mul_le_mul_of_nonneg_left m3 (by positivity)
      _ = E ^ 2 * R * (y i w * C3 * (y i w' * C4)) := by ring
      _ ≤ E ^ 2 * R * (E * y (i + 1) w * (E * y (i + 1) w')) := mul_le_mul_of_nonneg_left m2 (by positivity)
      _ = R * E ^ 4 * (y (i + 1) w * y (i + 1) w') := by ring

/-- a run with small errors from a seed of which the cross-product ratios are bounded -/
theorem nearRun_of_odds {s : List Nat} {Q : Prob ℚ} (hs : Splits s Q) (hK : 2 ≤ Q.length)
    (hm : ∀ q ∈ Q, ∀ j, InRange (projSizes q.1 s) j → 0 < q.2 j) {y : Nat → List Int → ℝ} {N : Nat} {ε ρ' : ℝ} (hy : NearRun s Q y N ε ρ')
    (hpos : ∀ n ∈ s, 0 < n) (hε : 0 ≤ ε)
    {ρ : ℚ} (hρ : 1 ≤ ρ) {b : List Int → ℚ} (hb : ∀ v, InRange s v → y 0 v = (b v : ℝ))
    (hR : ∀ k (hk : k < Q.length), OddsAtMost (ρ ^ 2) s Q[k].1 (others Q k) b) :
    NearRun s Q y N ε ((ρ : ℝ) * Real.exp (2 * N * ε)) where
  pos := hy.pos
  step := hy.step
  odds := by
    intro i hi k hk v v' w w' hv hv' hw hw' e1 e2 e3 e4
    have hρ0 : (0 : ℝ) ≤ ρ := by exact_mod_cast (zero_le_one.trans hρ)
    have key := near_odds (ρ := (ρ : ℝ)) hK hy.pos (fun i hi v hv => by
      have hq := stepQ_mem (Q := Q) (by omega) i
      have hj := inRange_proj (dims_lt hs _ hq) hv
      exact div_pos (by exact_mod_cast hm _ hq _ hj) (mar_pos hs hK hpos hy hi.le hj)) hy.step hk hv hv' hw hw' e1 e2 e3 e4 (by
        rw [hb v hv, hb v' hv', hb w hw, hb w' hw']
        exact_mod_cast hR k hk v v' w w' hv hv' hw hw' e1 e2 e3 e4) i hi
    refine key.trans (mul_le_mul_of_nonneg_right ?_ (mul_pos (hy.pos i hi w hw) (hy.pos i hi w' hw')).le)
    refine pow_le_pow_left₀ (by positivity) (mul_le_mul_of_nonneg_left (Real.exp_le_exp.mpr ?_) hρ0) 2
    have : (i : ℝ) ≤ N := by exact_mod_cast hi
    gcongr

theorem eta_le : eta ≤ 12 / 10 ^ 17 := by
  have h : (0 : ℝ) < (uu : ℝ) := by exact_mod_cast uu_pos
  have h1 := Real.one_sub_inv_le_log_of_pos h
  have e : (uu : ℝ) = 1 - 1 / 2 ^ 53 := by unfold uu; push_cast; rfl
  unfold eta
  rw [e] at h1 ⊢
  have : ((1 : ℝ) - 1 / 2 ^ 53)⁻¹ ≤ 1 + 12 / 10 ^ 17 := by norm_num
  linarith

end HL

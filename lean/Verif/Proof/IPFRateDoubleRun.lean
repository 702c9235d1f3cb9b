import Verif.Proof.IPFRateDouble
import Verif.Props.IPFPositive
import Verif.Props.IPFDouble

/-
A run of `ipf` in double precision is a run with small relative errors (for C135).
-/

namespace HL
open Rate Micro

/-- the value of a finite double -/
def flVal : Fl → ℚ
  | .fin q => q
  | _ => 0

/-- the table after `i` scalings, in double precision -/
def dtab (fp : FP) (s : List Nat) (Q : Prob ℚ) (b : List Int → ℚ) (i : Nat) : List Int → Fl :=
  sweep fp (numFl fp) s ((finProb Q).take (i % Q.length)) ((sweep fp (numFl fp) s (finProb Q))^[i / Q.length] (fun v => .fin (b v)))

theorem dtab_at {fp : FP} {s : List Nat} {Q : Prob ℚ} {b : List Int → ℚ} (n : Nat) {i : Nat} (hi : i ≤ Q.length) (hK : 0 < Q.length) :
    dtab fp s Q b (n * Q.length + i) = sweep fp (numFl fp) s ((finProb Q).take i) ((sweep fp (numFl fp) s (finProb Q))^[n] (fun v => .fin (b v))) := by
  unfold dtab
  rcases Nat.lt_or_eq_of_le hi with h | h
  · rw [Nat.mul_add_mod', Nat.mod_eq_of_lt h, mul_comm, Nat.mul_add_div hK, Nat.div_eq_of_lt h, add_zero]
  · have e : n * Q.length + i = (n + 1) * Q.length := by rw [h]; ring
    rw [e, Nat.mul_mod_left, Nat.mul_div_cancel _ hK, List.take_zero, h, List.take_of_length_le (by simp [finProb]),
      Function.iterate_succ_apply']
    rfl

/-- minus the logarithm of one rounding -/
noncomputable def eta : ℝ := -Real.log (uu : ℝ)

theorem eta_ge : 1 / 2 ^ 53 ≤ eta := by
  have h : (0 : ℝ) < (uu : ℝ) := by exact_mod_cast uu_pos
  have := Real.log_le_sub_one_of_pos h
  have e : (uu : ℝ) = 1 - 1 / 2 ^ 53 := by unfold uu; push_cast; rfl
  unfold eta
  rw [e] at this ⊢
  linarith

theorem exp_eta (k : Nat) : Real.exp (k * eta) * ((uu ^ k : ℚ) : ℝ) = 1 := by
  have h : (0 : ℝ) < (uu : ℝ) := by exact_mod_cast uu_pos
  have e : (k : ℝ) * eta = -(k * Real.log (uu : ℝ)) := by unfold eta; ring
  rw [e, Real.exp_neg, Real.exp_nat_mul, Real.exp_log h]
  push_cast
  exact inv_mul_cancel₀ (pow_pos h k).ne'

theorem nr_iff_rel {k : Nat} {x z : ℚ} : Nr (k * eta) (x : ℝ) (z : ℝ) ↔ Rel k x z := by
  have h1 := exp_eta k
  have hE := Real.exp_pos (k * eta)
  have hu : (0 : ℝ) < ((uu ^ k : ℚ) : ℝ) := by exact_mod_cast uu_pow_pos k
  have key : ∀ {a c : ℚ}, (a : ℝ) ≤ Real.exp (k * eta) * c ↔ uu ^ k * a ≤ c := by
    intro a c
    have e : uu ^ k * a ≤ c ↔ ((uu ^ k : ℚ) : ℝ) * (a : ℝ) ≤ (c : ℝ) := by
      rw [← Rat.cast_mul, Rat.cast_le]
    rw [e]
    constructor
    · intro h
      have := mul_le_mul_of_nonneg_left h hu.le
      have e2 : ((uu ^ k : ℚ) : ℝ) * (Real.exp (k * eta) * c) = (Real.exp (k * eta) * ((uu ^ k : ℚ) : ℝ)) * c := by ring
      rw [e2, h1, one_mul] at this
      exact this
    · intro h
      have := mul_le_mul_of_nonneg_left h hE.le
      rw [← mul_assoc, h1, one_mul] at this
      exact this
  unfold Nr Rel
  rw [key, key, and_comm]

/-- cross-product ratios of a table in a box -/
theorem box_odds {s : List Nat} {Q W : Prob ℚ} (hs : Splits s Q) (hW : W.map Prod.fst = Q.map Prod.fst) {lo hi L : ℚ} (hlo : 0 < lo)
    (hlh : lo ≤ hi) {x : List Int → ℚ} (h : Box s W lo hi L x) {k : Nat} (hk : k < Q.length) :
    OddsAtMost ((hi / lo) ^ 2) s Q[k].1 (others Q k) x := by
  obtain ⟨U, b, hU, hb⟩ := h
  have hfst := (tilt_fst hU).trans hW
  have hdW : DimsLt s W := by
    intro w hw d hd
    have : w.1 ∈ Q.map Prod.fst := hW ▸ List.mem_map_of_mem hw
    exact hs.lt d (List.mem_flatten.mpr ⟨w.1, this, hd⟩)
  intro v v' w w' hv hv' hw hw' e1 e2 e3 e4
  have hprod : prodAt U v * prodAt U v' = prodAt U w * prodAt U w' := by
    unfold prodAt
    rw [← List.prod_map_mul, ← List.prod_map_mul]
    congr 1
    refine List.map_congr_left fun u hu => ?_
    have hu1 : u.1 ∈ Q.map Prod.fst := hfst ▸ List.mem_map_of_mem hu
    obtain ⟨q, hq, e⟩ := List.mem_map.mp hu1
    obtain ⟨t, ht, rfl⟩ := List.getElem_of_mem hq
    by_cases htk : t = k
    · subst htk
      rw [← e, e1, e3]
    · have hsub : ∀ d ∈ u.1, d ∈ others Q k := by
        intro d hd
        rw [← e] at hd
        refine List.mem_flatten.mpr ⟨Q[t].1, List.mem_map_of_mem ?_, hd⟩
        rw [List.mem_eraseIdx_iff_getElem]
        exact ⟨t, ht, htk, rfl⟩
      rw [proj_sub hsub e2, proj_sub hsub e4, mul_comm]
  obtain ⟨a1, a2, a3⟩ := hb v hv
  obtain ⟨a1', a2', a3'⟩ := hb v' hv'
  obtain ⟨c1, c2, c3⟩ := hb w hw
  obtain ⟨c1', c2', c3'⟩ := hb w' hw'
  have hP : 0 < prodAt U w * prodAt U w' := mul_pos (prodAt_pos hw hdW hU) (prodAt_pos hw' hdW hU)
  rw [a3, a3', c3, c3']
  have h1 : b v * b v' ≤ hi * hi := mul_le_mul a2 a2' (hlo.le.trans a1') (hlo.le.trans hlh)
  have h2 : lo * lo ≤ b w * b w' := mul_le_mul c1 c1' hlo.le (hlo.le.trans c1)
  have h3 : hi * hi ≤ (hi / lo) ^ 2 * (b w * b w') := by
    have := mul_le_mul_of_nonneg_left h2 (sq_nonneg (hi / lo))
    refine le_trans (le_of_eq ?_) this
    field_simp
  calc b v * prodAt U v * (b v' * prodAt U v') = b v * b v' * (prodAt U v * prodAt U v') := by ring
    _ = b v * b v' * (prodAt U w * prodAt U w') := by rw [hprod]
    _ ≤ (hi / lo) ^ 2 * (b w * b w') * (prodAt U w * prodAt U w') := mul_le_mul_of_nonneg_right (h1.trans h3) hP.le
    _ = _ := by ring


section double
variable {s : List Nat} {Q : Prob ℚ} {pop : Int} (h : RatOK s Q pop) (hd : (Q.map Prod.fst).flatten.Nodup) {b : List Int → ℚ}
  {lo hi ρ : ℚ} {f : Nat} (hmo : Modest s Q pop b lo hi ρ f)
include h hd hmo

/-- two consecutive tables -/
theorem dtab_step (hfp : fp.Good) {i : Nat} (hi' : i < 1000 * Q.length) :
    ∃ x x' W W', W.map Prod.fst = Q.map Prod.fst ∧ W'.map Prod.fst = Q.map Prod.fst ∧ DInv s lo hi i W (dtab fp s Q b i) x ∧
      DInv s lo hi (i + 1) W' (dtab fp s Q b (i + 1)) x' ∧
      ∀ v, InRange s v → Rel (f + 2) (x' v) (qscaled s (stepQ Q i).1 (stepQ Q i).2 x v) := by
  have hlists := h.lists
  have hK : 0 < Q.length := by omega
  have hfew := hmo.few
  obtain ⟨n, k, hn, hk, rfl⟩ : ∃ n k, n < 1000 ∧ k < Q.length ∧ i = n * Q.length + k :=
    ⟨i / Q.length, i % Q.length, (Nat.div_lt_iff_lt_mul hK).mpr hi', Nat.mod_lt _ hK, (Nat.div_add_mod' i Q.length).symm⟩
  have h1 : (n + 1) * Q.length ≤ 1000 * Q.length := Nat.mul_le_mul_right _ hn
  have e : (n + 1) * Q.length = n * Q.length + Q.length := by ring
  have hs : Splits s Q := splits_of_disjoint rfl h.toProbShape hd
  have hdl : DimsLt s Q := fun q hq => (h.dims q hq).2
  have hg : ∀ w ∈ Q, ∃ j, InRange (projSizes w.1 s) j := fun w hw => exists_inRange (h.toProbShape.goodP hw).2
  obtain ⟨y, W, hW, -, hy⟩ := modest_run h hd hmo hfp hn.le
  obtain ⟨z, hz⟩ := dinv_take h.pos hs hdl hg hmo.mid h.total hmo.cellsPer hmo.lo_pos hmo.seedOrder hmo.partPos.le
    hmo.size' hfp (by omega) (by omega) hW (hmo.weights h) hy k hk.le
  obtain ⟨c, hc, hrel⟩ := dinv_succ h.pos hs hdl hg hmo.mid h.total hmo.cellsPer hmo.lo_pos hmo.seedOrder hmo.partPos.le
    hmo.size' hfp (by omega) hW (hmo.weights h) (i := k) hk (by omega) hz
  have es : stepQ Q (n * Q.length + k) = Q[k] := by
    rw [stepQ_eq hK]
    simp only [Nat.mul_add_mod', Nat.mod_eq_of_lt hk]
  rw [es, add_assoc, dtab_at n hk.le hK, dtab_at n (show k + 1 ≤ Q.length from hk) hK]
  exact ⟨z, c, _, _, (weights_mix hW (hmo.weights h) k).fst, (weights_mix hW (hmo.weights h) (k + 1)).fst, hz, hc, hrel⟩

omit h hd hmo in
theorem flVal_of {a : List Int → Fl} {x : List Int → ℚ} (ha : Agree s a x) {v : List Int} (hv : InRange s v) : flVal (a v) = x v := by
  rw [ha v hv]; rfl

theorem near_run (hfp : fp.Good) {N : Nat} (hN : N < 1000 * Q.length) :
    NearRun s Q (fun i v => ((flVal (dtab fp s Q b i v) : ℚ) : ℝ)) N (((f + 2 : Nat) : ℝ) * eta) (((hi / lo / uu ^ (2 * N) : ℚ)) : ℝ) where
  pos := by
    intro i hi' v hv
    obtain ⟨x, -, W, -, -, -, hx, -, -⟩ := dtab_step h hd hmo hfp (i := i) (by omega)
    rw [flVal_of hx.agree hv]
    exact_mod_cast lt_of_lt_of_le (by positivity) (hx.size v hv).1
  step := by
    intro i hi' v hv
    obtain ⟨x, x', W, W', -, -, hx, hx', hrel⟩ := dtab_step h hd hmo hfp (i := i) (by omega)
    have hq := stepQ_mem (Q := Q) (by have := h.lists; omega) i
    have hmar : mar s Q (fun i v => ((flVal (dtab fp s Q b i v) : ℚ) : ℝ)) i (proj (stepQ Q i).1 v) =
        ((marginalSum s (stepQ Q i).1 x (proj (stepQ Q i).1 v) : ℚ) : ℝ) := by
      unfold mar marginalSum
      push_cast
      exact Finset.sum_congr rfl fun w hw => by rw [flVal_of hx.agree (mem_cells.mp (Finset.mem_filter.mp hw).1)]
    have hxp : ∀ v, InRange s v → 0 < x v := fun v hv => lt_of_lt_of_le (by positivity) (hx.size v hv).1
    have hm0 : 0 < marginalSum s (stepQ Q i).1 x (proj (stepQ Q i).1 v) :=
      Finset.sum_pos (fun u hu => hxp u (mem_cells.mp (Finset.mem_filter.mp hu).1))
        ⟨v, Finset.mem_filter.mpr ⟨mem_cells.mpr hv, rfl⟩⟩
    have hr := nr_iff_rel.mpr (hrel v hv)
    unfold qscaled at hr
    rw [if_neg hm0.ne'] at hr
    unfold cf
    rw [hmar]
    rw [flVal_of hx.agree hv, flVal_of hx'.agree hv]
    push_cast at hr ⊢
    exact hr
  odds := by
    intro i hi' k hk v v' w w' hv hv' hw hw' e1 e2 e3 e4
    obtain ⟨x, -, W, -, hW, -, hx, -, -⟩ := dtab_step h hd hmo hfp (i := i) (by omega)
    have hlo := hmo.lo_pos
    have hhi : 0 < hi := hlo.trans_le hmo.seedOrder
    have hu := uu_pow_pos i
    have hu1 := uu_pow_le i
    have hb1 : uu ^ i * lo ≤ hi / uu ^ i := by
      rw [le_div_iff₀ hu]
      have h2 : uu ^ i * uu ^ i ≤ 1 := mul_le_one₀ hu1 hu.le hu1
      nlinarith [hmo.seedOrder]
    have := box_odds (splits_of_disjoint rfl h.toProbShape hd) hW (mul_pos hu hlo) hb1 hx.box hk
      v v' w w' hv hv' hw hw' e1 e2 e3 e4
    have hle : hi / uu ^ i / (uu ^ i * lo) ≤ hi / lo / uu ^ (2 * N) := by
      have e : hi / uu ^ i / (uu ^ i * lo) = hi / lo / uu ^ (2 * i) := by rw [two_mul, pow_add]; field_simp
      rw [e]
      refine div_le_div_of_nonneg_left (div_pos hhi hlo).le (uu_pow_pos _) ?_
      exact pow_le_pow_of_le_one uu_pos.le uu_le (by omega)
    have hxp : ∀ v, InRange s v → 0 < x v := fun v hv => lt_of_lt_of_le (by positivity) (hx.size v hv).1
    have h0 : 0 ≤ hi / uu ^ i / (uu ^ i * lo) := by positivity
    have h3 := this.trans (mul_le_mul_of_nonneg_right (pow_le_pow_left₀ h0 hle 2) (mul_pos (hxp w hw) (hxp w' hw')).le)
    rw [flVal_of hx.agree hv, flVal_of hx.agree hv', flVal_of hx.agree hw, flVal_of hx.agree hw']
    exact_mod_cast h3

end double

end HL

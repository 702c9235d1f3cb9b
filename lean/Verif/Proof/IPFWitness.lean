import Verif.Proof.MicroRat
import Mathlib.Tactic.IntervalCases

namespace HL
open Micro
variable {α : Type}

theorem tol8_good {fp : FP} (h : fp.Good) : ∃ t, tol8 fp = .fin t ∧ 0 < t := by
  have h1 : (2 : ℚ) ^ (-1022 : ℤ) ≤ |1 / 10 ^ 8| := by
    have : (2 : ℚ) ^ (-1022 : ℤ) ≤ 2 ^ (-27 : ℤ) := zpow_le_zpow_right₀ (by norm_num) (by norm_num)
    refine this.trans ?_
    rw [abs_of_pos (by norm_num)]
    norm_num
  have h2 : |(1 : ℚ) / 10 ^ 8| ≤ 2 ^ 1023 := by
    have : (2 : ℚ) ^ 0 ≤ 2 ^ 1023 := pow_le_pow_right₀ (by norm_num) (by norm_num)
    refine le_trans ?_ this
    rw [abs_of_pos (by norm_num)]
    norm_num
  obtain ⟨a, ha, hb⟩ := h.near _ h1 h2
  refine ⟨a, ha, ?_⟩
  rw [abs_of_pos (a := (1 : ℚ) / 10 ^ 8) (by norm_num)] at hb
  have := (abs_le.mp hb).1
  norm_num at this ⊢
  linarith

theorem lt_tol8 {fp : FP} (h : fp.Good) : FP.lt (.fin (-dblMax)) (tol8 fp) = true := by
  obtain ⟨t, ht, h0⟩ := tol8_good h
  rw [ht]
  simp only [FP.lt, decide_eq_true_eq]
  linarith [dblMax_pos]

theorem rnd_zero {fp : FP} (h : fp.Good) : fp.rnd 0 = .fin 0 := by
  have := h.dyadic 0 0 (by norm_num) (by norm_num)
  simpa using this

theorem stdMax_nan (m : Fl) : IPF.stdMax m .nan = m := by
  unfold IPF.stdMax
  rw [if_neg]
  cases m <;> simp [FP.lt]

theorem foldl_stdMax_nan {γ : Type} (f : γ → Fl) : ∀ (l : List γ) (m : Fl), (∀ v ∈ l, f v = .nan) →
    l.foldl (fun mx v => IPF.stdMax mx (f v)) m = m
  | [], _, _ => rfl
  | v :: l, m, h => by
    rw [List.foldl_cons, h v (by simp), stdMax_nan]
    exact foldl_stdMax_nan f l m (fun w hw => h w (by simp [hw]))

theorem maxDev_nan (fp : FP) (N : Num α) {s : List Nat} {a : List Int → Fl} : ∀ (P : Prob α) (mx : Fl),
    (∀ p ∈ P, ∀ j, InRange (projSizes p.1 s) j → fsum fp s p.1 a j = .nan) → maxDev fp N s P a mx = mx
  | [], _, _ => rfl
  | p :: P, mx, h => by
    have ih := maxDev_nan fp N P mx (fun q hq => h q (by simp [hq]))
    unfold maxDev at ih ⊢
    rw [List.foldl_cons, foldl_stdMax_nan (fun j => FP.abs (dev fp N s a p j))]
    · exact ih
    · intro j hj
      simp only [dev]
      rw [h p (by simp) j (mem_allIdx.mp hj)]
      cases N.toFl (p.2 j) <;> rfl

/-- if after the first sweep all sums are NaN, `solve` stops and reports convergence -/
theorem run_nan {fp : FP} (hfp : fp.Good) {N : Num α} (hN : MinOK N) {s : List Nat} {P : Prob α} {pop : Int}
    (h : ProbOKG fp N s P pop) (hp : ProperProb s P) {a : List Int → Fl}
    (hn : ∀ p ∈ P, ∀ j, InRange (projSizes p.1 s) j → fsum fp s p.1 (sweep fp N s P a) j = .nan) :
    ∃ r, IPF.run false fp N (indicesOf P) (marginalsOf s P) (arr s a) = .ok r ∧ r.conv = true ∧ r.iters = 1 ∧
      r.maxError = .fin (-dblMax) ∧ r.micro.array = arr s (sweep fp N s P a) := by
  obtain ⟨r, hr⟩ := ipf_run_ok fp N hN h hp a
  refine ⟨r, hr, ?_⟩
  obtain ⟨pop', n, -, h1, -, -, h3, rfl⟩ := ipf_run fp N hN h.toProbShape hp a hr
  have hm : maxDev fp N s P ((sweep fp N s P)^[1] a) (.fin (-dblMax)) = .fin (-dblMax) := maxDev_nan fp N P _ hn
  have hn1 : n = 1 := by
    by_contra hne
    apply h3 1 le_rfl (by omega)
    unfold convAt
    rw [hm]
    exact lt_tol8 hfp
  subst hn1
  refine ⟨?_, rfl, hm, rfl⟩
  show FP.lt (maxDev fp N s P ((sweep fp N s P)^[1] a) (.fin (-dblMax))) (tol8 fp) = true
  rw [hm]
  exact lt_tol8 hfp

theorem fsum_zero {fp : FP} (h0 : fp.rnd 0 = .fin 0) {s ds : List Nat} {a : List Int → Fl} {j : List Int}
    (h : ∀ v, InRange s v → proj ds v = j → a v = .fin 0) : fsum fp s ds a j = .fin 0 := by
  unfold fsum
  have : ∀ l : List (List Int), (∀ v ∈ l, a v = .fin 0) → l.foldl (fun acc v => fp.add acc (a v)) (.fin 0) = .fin 0 := by
    intro l
    induction l with
    | nil => intro _; rfl
    | cons v l ih =>
      intro hl
      rw [List.foldl_cons, hl v (by simp)]
      have : fp.add (.fin 0) (.fin 0) = .fin 0 := by
        show fp.rnd (0 + 0) = _
        rw [add_zero, h0]
      rw [this]
      exact ih (fun w hw => hl w (by simp [hw]))
  apply this
  intro v hv
  obtain ⟨h1, h2⟩ := List.mem_filter.mp hv
  exact h v (mem_allIdx.mp h1) (by simpa using h2)

/-! ### The seed `[[0, 2^-1074], [1, 1]]` in binary64 -/

def tinySeed : List Int → Fl := fun v =>
  if v = [0, 0] then .fin 0 else if v = [0, 1] then .fin (2 ^ (-1074 : ℤ)) else .fin 1

/-- The marginals `[1, 1]` and `[1, 1]`. -/
def unitProb : Prob Fl := [([0], fun _ => .fin 1), ([1], fun _ => .fin 1)]

theorem ieee_int (n : ℤ) (t : ℤ) (hn : |n| ≤ 2 ^ 53) (ht : -1074 ≤ t) (ht' : t ≤ 0) :
    FP.rndIeee ((n : ℚ) * (2 : ℚ) ^ t) = .fin ((n : ℚ) * (2 : ℚ) ^ t) := by
  apply FP.rndIeee_exact hn ht
  rw [abs_mul]
  have h1 : |(n : ℚ)| ≤ 2 ^ 53 := by exact_mod_cast hn
  have h2 : |(2 : ℚ) ^ t| ≤ 1 := by
    rw [abs_of_pos (by positivity)]
    calc (2 : ℚ) ^ t ≤ 2 ^ (0 : ℤ) := zpow_le_zpow_right₀ (by norm_num) ht'
      _ = 1 := by norm_num
  have h3 : (2 : ℚ) ^ 53 < 2 ^ 1024 := pow_lt_pow_right₀ (by norm_num) (by norm_num)
  calc |(n : ℚ)| * |(2 : ℚ) ^ t| ≤ 2 ^ 53 * 1 := mul_le_mul h1 h2 (abs_nonneg _) (by positivity)
    _ < 2 ^ 1024 := by rw [mul_one]; exact h3

theorem ieee_overflow (e : ℤ) (he : 1024 ≤ e) : FP.rndIeee ((2 : ℚ) ^ e) = .pinf := by
  have hpos : (0 : ℚ) < 2 ^ e := by positivity
  have hl : FP.ilog2 ((2 : ℚ) ^ e) = e := by
    apply FP.ilog2_unique
    · exact le_rfl
    · exact zpow_lt_zpow_right₀ (by norm_num) (by omega)
  have hu : FP.ulp ((2 : ℚ) ^ e) = 2 ^ (e - 52) := by
    unfold FP.ulp
    rw [hl, max_eq_left (by omega)]
  have hd : (2 : ℚ) ^ e / 2 ^ (e - 52) = ((2 ^ 52 : ℤ) : ℚ) := by
    rw [div_eq_iff (by positivity)]
    have h1 : (((2 : ℤ) ^ 52 : ℤ) : ℚ) = (2 : ℚ) ^ (52 : ℤ) := by norm_num
    rw [h1, ← zpow_add₀ (by norm_num)]
    congr 1; omega
  have hr : FP.rne (((2 ^ 52 : ℤ) : ℚ)) = 2 ^ 52 := by
    unfold FP.rne
    simp
  have h2 : (((2 : ℤ) ^ 52 : ℤ) : ℚ) * 2 ^ (e - 52) = 2 ^ e := by
    rw [← hd, div_mul_cancel₀ _ (by positivity)]
  rw [FP.rndIeee_pos hpos, hu, hd, hr, h2, if_pos]
  have h3 : (2 : ℚ) ^ (1024 : ℕ) = 2 ^ (1024 : ℤ) := (zpow_natCast 2 1024).symm
  rw [h3]
  exact zpow_le_zpow_right₀ (by norm_num) he

theorem ieee_small : ∀ n : ℤ, |n| ≤ 2 ^ 53 → FP.rndIeee (n : ℚ) = .fin n := by
  intro n hn
  have := ieee_int n 0 hn (by norm_num) le_rfl
  simpa using this

theorem ieee_half : FP.rndIeee (1 / 2) = .fin (1 / 2) := by
  have := ieee_int 1 (-1) (by norm_num) (by norm_num) (by norm_num)
  norm_num at this ⊢
  exact this

theorem ieee_denorm : FP.rndIeee ((2 : ℚ) ^ (-1074 : ℤ)) = .fin ((2 : ℚ) ^ (-1074 : ℤ)) := by
  have := ieee_int 1 (-1074) (by norm_num) (by norm_num) (by norm_num)
  simpa using this

theorem unitProb_shape : ProbShape [2, 2] unitProb where
  lists := by simp [unitProb]
  two := by decide
  pos := by decide
  dims := by simp [unitProb]
  cover := by
    intro d hd
    simp only [List.length_cons, List.length_nil] at hd
    interval_cases d <;> simp [unitProb]

theorem unitProb_proper : ProperProb [2, 2] unitProb := by
  simp only [ProperProb, unitProb, List.mem_cons, List.not_mem_nil, or_false, forall_eq_or_imp, forall_eq]
  decide

theorem unitProb_ok (sqrt : Fl → Fl) : ProbOKG (FP.ieee sqrt) (numFl (FP.ieee sqrt)) [2, 2] unitProb 2 := by
  have e1 : FP.rndIeee (0 + 1) = .fin 1 := by rw [zero_add]; exact_mod_cast ieee_small 1 (by norm_num)
  have e2 : FP.rndIeee (1 + 1) = .fin 2 := by
    have := ieee_small 2 (by norm_num)
    norm_num at this ⊢
    exact this
  have e3 : FP.rndIeee (2 + 1 / 2) = .fin (5 / 2) := by
    have := ieee_int 5 (-1) (by norm_num) (by norm_num) (by norm_num)
    norm_num at this ⊢
    exact this
  have hadd : ∀ x y : ℚ, (FP.ieee sqrt).add (.fin x) (.fin y) = FP.rndIeee (x + y) := fun _ _ => rfl
  have hs : ∀ p ∈ unitProb, seqSum (numFl (FP.ieee sqrt)) (projSizes p.1 [2, 2]) p.2 = .fin 2 := by
    intro p hp
    have hidx : allIdx [2] = [[0], [1]] := by decide
    simp only [unitProb, List.mem_cons, List.not_mem_nil, or_false] at hp
    rcases hp with rfl | rfl
    all_goals
      simp only [seqSum, projSizes, numFl, List.map_cons, List.map_nil, List.getD_cons_zero, List.getD_cons_succ, hidx,
        List.foldl_cons, List.foldl_nil]
      rw [hadd, e1, hadd, e2]
  refine ⟨unitProb_shape, ?_, ?_, ?_⟩
  · intro p hp j hj
    simp only [unitProb, List.mem_cons, List.not_mem_nil, or_false] at hp
    rcases hp with rfl | rfl <;> simp [numFl, FP.lt]
  · intro p hp
    rw [hs p hp]
    show FP.toInt64 ((FP.ieee sqrt).add (.fin 2) (.fin (1 / 2))) = _
    rw [hadd, e3]
    norm_num [FP.toInt64, FP.truncQ]
  · intro d hd p q hp hq
    simp only [List.length_cons, List.length_nil] at hd
    interval_cases d <;> simp [unitProb, places, placesIn] at hq

/-- after one sweep: `[[NaN, NaN], [NaN, 0]]` -/
theorem tiny_sweep (sqrt : Fl → Fl) :
    ∀ v, v = [0, 0] ∨ v = [0, 1] ∨ v = [1, 0] →
      sweep (FP.ieee sqrt) (numFl (FP.ieee sqrt)) [2, 2] unitProb tinySeed v = .nan := by
  have hadd : ∀ x y : ℚ, (FP.ieee sqrt).add (.fin x) (.fin y) = FP.rndIeee (x + y) := fun _ _ => rfl
  have hidx : allIdx [2, 2] = [[0, 0], [0, 1], [1, 0], [1, 1]] := by decide
  have r0 : fsum (FP.ieee sqrt) [2, 2] [0] tinySeed [0] = .fin (2 ^ (-1074 : ℤ)) := by
    have hf : (allIdx [2, 2]).filter (fun v => proj [0] v = [0]) = [[0, 0], [0, 1]] := by decide
    unfold fsum
    rw [hf]
    simp only [List.foldl_cons, List.foldl_nil]
    have t0 : tinySeed [0, 0] = .fin 0 := rfl
    have t1 : tinySeed [0, 1] = .fin (2 ^ (-1074 : ℤ)) := rfl
    rw [t0, t1, hadd, add_zero, FP.rndIeee_zero, hadd, zero_add, ieee_denorm]
  set b := scaled (FP.ieee sqrt) (numFl (FP.ieee sqrt)) [2, 2] [0] (fun _ => .fin 1) tinySeed with hb
  have hdiv : (FP.ieee sqrt).div (.fin 1) (.fin (2 ^ (-1074 : ℤ))) = .pinf := by
    have hne : (2 : ℚ) ^ (-1074 : ℤ) ≠ 0 := by positivity
    have : (FP.ieee sqrt).div (.fin 1) (.fin (2 ^ (-1074 : ℤ))) = FP.rndIeee (1 / 2 ^ (-1074 : ℤ)) := by
      show (if (2 : ℚ) ^ (-1074 : ℤ) = 0 then _ else _) = _
      rw [if_neg hne]
      rfl
    rw [this, show (1 : ℚ) / 2 ^ (-1074 : ℤ) = 2 ^ (1074 : ℤ) by rw [zpow_neg, one_div, inv_inv]]
    exact ieee_overflow 1074 (by norm_num)
  have hz : FP.feq (.fin ((2 : ℚ) ^ (-1074 : ℤ))) (.fin 0) = false := by
    have hne : (2 : ℚ) ^ (-1074 : ℤ) ≠ 0 := by positivity
    unfold FP.feq
    simpa using hne
  have b00 : b [0, 0] = .nan := by
    rw [hb]
    unfold scaled
    have hp : proj [0] [(0 : Int), 0] = [0] := rfl
    rw [hp, r0, hz]
    show (FP.ieee sqrt).mul (tinySeed [0, 0]) ((FP.ieee sqrt).div (.fin 1) _) = _
    rw [hdiv]
    show FP.infOfSign _ = _
    simp [FP.infOfSign, FP.sgn]
  have b01 : b [0, 1] = .pinf := by
    rw [hb]
    unfold scaled
    have hp : proj [0] [(0 : Int), 1] = [0] := rfl
    rw [hp, r0, hz]
    show (FP.ieee sqrt).mul (.fin (2 ^ (-1074 : ℤ))) ((FP.ieee sqrt).div (.fin 1) _) = _
    rw [hdiv]
    show FP.infOfSign _ = _
    have hpos : (0 : ℚ) < 2 ^ (-1074 : ℤ) := by positivity
    have hs : FP.sgn (.fin ((2 : ℚ) ^ (-1074 : ℤ))) = 1 := by
      show (if (2 : ℚ) ^ (-1074 : ℤ) = 0 then (0 : ℚ) else if 0 < (2 : ℚ) ^ (-1074 : ℤ) then 1 else -1) = 1
      rw [if_neg hpos.ne', if_pos hpos]
    rw [hs]
    norm_num [FP.infOfSign, FP.sgn]
  have e1 : FP.rndIeee (0 + 1) = .fin 1 := by rw [zero_add]; exact_mod_cast ieee_small 1 (by norm_num)
  have e2 : FP.rndIeee (1 + 1) = .fin 2 := by
    have := ieee_small 2 (by norm_num)
    norm_num at this ⊢
    exact this
  have r1 : fsum (FP.ieee sqrt) [2, 2] [0] tinySeed [1] = .fin 2 := by
    have hf : (allIdx [2, 2]).filter (fun v => proj [0] v = [1]) = [[1, 0], [1, 1]] := by decide
    unfold fsum
    rw [hf]
    simp only [List.foldl_cons, List.foldl_nil]
    have t0 : tinySeed [1, 0] = .fin 1 := rfl
    have t1 : tinySeed [1, 1] = .fin 1 := rfl
    rw [t0, t1, hadd, e1, hadd, e2]
  have b11 : b [1, 1] = .fin (1 / 2) := by
    rw [hb]
    unfold scaled
    have hp : proj [0] [(1 : Int), 1] = [1] := rfl
    rw [hp, r1, if_neg (by simp [FP.feq])]
    have h1 : (FP.ieee sqrt).div ((numFl (FP.ieee sqrt)).toFl (.fin 1)) (.fin 2) = .fin (1 / 2) := by
      show (if (2 : ℚ) = 0 then FP.infOfSign 1 else FP.rndIeee (1 / 2)) = _
      rw [if_neg (by norm_num), ieee_half]
    rw [h1]
    show FP.rndIeee (1 * (1 / 2)) = _
    rw [one_mul, ieee_half]
  have c1 : fsum (FP.ieee sqrt) [2, 2] [1] b [1] = .pinf := by
    have hf : (allIdx [2, 2]).filter (fun v => proj [1] v = [1]) = [[0, 1], [1, 1]] := by decide
    unfold fsum
    rw [hf]
    simp only [List.foldl_cons, List.foldl_nil]
    rw [b01, b11]
    rfl
  have hsw : sweep (FP.ieee sqrt) (numFl (FP.ieee sqrt)) [2, 2] unitProb tinySeed =
      scaled (FP.ieee sqrt) (numFl (FP.ieee sqrt)) [2, 2] [1] (fun _ => .fin 1) b := rfl
  rw [hsw]
  rintro v (rfl | rfl | rfl)
  · exact scaled_nan _ _ (v := [0, 0]) (by decide) b00 rfl
  · unfold scaled
    have hp : proj [1] [(0 : Int), 1] = [1] := rfl
    rw [hp, c1, b01, if_neg (by simp [FP.feq])]
    show (FP.ieee sqrt).mul .pinf (.fin 0) = _
    show FP.infOfSign _ = _
    simp [FP.infOfSign, FP.sgn]
  · exact scaled_nan _ _ (v := [0, 0]) (by decide) b00 rfl

theorem tiny_sums (sqrt : Fl → Fl) : ∀ p ∈ unitProb, ∀ j, InRange (projSizes p.1 [2, 2]) j →
    fsum (FP.ieee sqrt) [2, 2] p.1 (sweep (FP.ieee sqrt) (numFl (FP.ieee sqrt)) [2, 2] unitProb tinySeed) j = .nan := by
  have hs := tiny_sweep sqrt
  have hidx : allIdx [2] = [[0], [1]] := by decide
  intro p hp j hj
  have key : ∃ v, (v = [0, 0] ∨ v = [0, 1] ∨ v = [1, 0]) ∧ proj p.1 v = j := by
    simp only [unitProb, List.mem_cons, List.not_mem_nil, or_false] at hp
    have hj' : j = [0] ∨ j = [1] := by
      rcases hp with rfl | rfl
      all_goals
        have : j ∈ allIdx [2] := mem_allIdx.mpr hj
        rw [hidx] at this
        simpa using this
    rcases hp with rfl | rfl <;> rcases hj' with rfl | rfl
    · exact ⟨[0, 0], by simp, rfl⟩
    · exact ⟨[1, 0], by simp, rfl⟩
    · exact ⟨[0, 0], by simp, rfl⟩
    · exact ⟨[0, 1], by simp, rfl⟩
  obtain ⟨v, hv, rfl⟩ := key
  exact fsum_nan _ (by rcases hv with rfl | rfl | rfl <;> decide) (hs v hv)

end HL

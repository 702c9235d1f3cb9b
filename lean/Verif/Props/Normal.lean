import Verif.Proof.Normal

/-! The inverse normal distribution function and `Cholesky` (C79, C80). -/

namespace HL
open Normal

theorem approx_tail {fp : FP} (h : fp.Good) (lm : Libm) {q : ℚ} (hq : q ≤ 0 ∨ 1 < q) :
    approx fp lm (.fin q) = tailValue fp lm (.fin q) := by
  obtain ⟨l, hl, h0, h1⟩ := xLow_fin h
  obtain ⟨u, hu, h2, h3⟩ := xHigh_fin h
  unfold approx
  rw [hl, hu, if_pos]
  simp only [FP.lt, Bool.or_eq_true, decide_eq_true_eq]
  rcases hq with hq | hq
  · left; linarith
  · right; linarith

/-- **C79** `invCumNorm` throws on the numbers at or below `-2^-52`, on those from `1 + 2^-50` and on the
infinities; it returns on every number between (in `(1, 1 + 2^-50)` the doubles are `1 + k 2^-52`), and
gives NaN for NaN. -/
theorem C79_domain (fp : FP) (h : fp.Good) (lm : Libm) (atan1 : Fl) :
    (∀ q : ℚ, q ≤ -(1 / 2 ^ 52) ∨ 1 + 1 / 2 ^ 50 ≤ q →
      invCumNorm fp lm atan1 (.fin q) = .thrown .invCumNormDomain) ∧
    invCumNorm fp lm atan1 .pinf = .thrown .invCumNormDomain ∧
    invCumNorm fp lm atan1 .ninf = .thrown .invCumNormDomain ∧
    (∀ q : ℚ, -(1 / 2 ^ 52) < q → q ≤ 1 → ∃ z, invCumNorm fp lm atan1 (.fin q) = .ok z) ∧
    (∀ k : ℕ, k < 4 → ∃ z, invCumNorm fp lm atan1 (.fin (1 + k / 2 ^ 52)) = .ok z) ∧
    invCumNorm fp lm atan1 .nan = .ok .nan := by
  have hone : ∀ q : ℚ, |q| ≤ 1 → ∃ a, fp.rnd q = .fin a := fun q hq =>
    h.finite q (hq.trans (one_le_pow₀ (by norm_num)))
  obtain ⟨l, hl, h0, h1⟩ := xLow_fin h
  obtain ⟨u, hu, h2, h3⟩ := xHigh_fin h
  refine ⟨?_, ?_, ?_, ?_, ?_, ?_⟩
  · intro q hq
    have hq' : q ≤ 0 ∨ 1 < q := by
      rcases hq with hq | hq
      · left; norm_num at hq; linarith
      · right; norm_num at hq; linarith
    have hsub : fp.sub (.fin q) (.fin 1) = fp.rnd (q - 1) := by
      show fp.rnd (q + -1) = _; rw [sub_eq_add_neg]
    have hc1 : FP.lt (FP.abs (fp.sub (.fin q) (.fin 1))) (.fin (4 * eps)) = false := by
      rw [hsub]
      cases hr : fp.rnd (q - 1) with
      | fin a =>
        simp only [FP.abs, FP.lt, decide_eq_false_iff_not, not_lt]
        rcases hq with hq | hq
        · have e := h.dyadic (-1) 0 (by norm_num) (by norm_num)
          have := h.mono _ _ _ _ (by norm_num at hq ⊢; linarith) hr e
          rw [le_abs]; right; unfold eps; norm_num at this ⊢; linarith
        · have e := h.dyadic 1 50 (by norm_num) (by norm_num)
          have := h.mono _ _ _ _ (by norm_num at hq ⊢; linarith) e hr
          rw [le_abs]; left; unfold eps; norm_num at this ⊢; linarith
      | pinf => rfl
      | ninf => rfl
      | nan => rfl
    have hc2 : FP.lt (FP.abs (.fin q)) (.fin eps) = false := by
      simp only [FP.abs, FP.lt, decide_eq_false_iff_not, not_lt]
      unfold eps
      rw [le_abs]
      rcases hq with hq | hq
      · right; linarith
      · left; norm_num at hq ⊢; linarith
    have hc3 : (FP.le (.fin q) (.fin 0) || FP.le (.fin 1) (.fin q)) = true := by
      simp only [FP.le, Bool.or_eq_true, decide_eq_true_eq]
      rcases hq' with h | h
      · exact .inl h
      · exact .inr h.le
    unfold invCumNorm
    rw [approx_tail h lm hq']
    unfold tailValue
    rw [if_pos hc3, four_eps h, if_neg (by rw [hc1]; exact Bool.false_ne_true), if_neg (by rw [hc2]; exact Bool.false_ne_true)]
    rfl
  · unfold invCumNorm approx tailValue
    rw [hl, hu, four_eps h]; rfl
  · unfold invCumNorm approx tailValue
    rw [hl, hu, four_eps h]; rfl
  · intro q hq hq1
    have : ∃ z, approx fp lm (.fin q) = .ok z := by
      unfold approx
      split
      · unfold tailValue
        split
        · rename_i hin
          rw [four_eps h]
          split
          · exact ⟨_, rfl⟩
          · rename_i hn
            split
            · exact ⟨_, rfl⟩
            · rename_i hm
              exfalso
              simp only [FP.le, Bool.or_eq_true, decide_eq_true_eq] at hin
              rcases hin with hin | hin
              · apply hm
                simp only [FP.abs, FP.lt, decide_eq_true_eq]
                unfold eps
                rw [abs_lt]
                constructor
                · linarith
                · refine lt_of_le_of_lt hin ?_; norm_num
              · have : q = 1 := le_antisymm hq1 hin
                apply hn
                rw [this]
                have e := h.dyadic 0 0 (by norm_num) (by norm_num)
                have e' : fp.sub (.fin 1) (.fin 1) = .fin 0 := by
                  show fp.rnd (1 + -1) = _
                  norm_num at e ⊢; exact e
                rw [e']
                simp only [FP.abs, FP.lt, decide_eq_true_eq]
                unfold eps; norm_num
        · split <;> exact ⟨_, rfl⟩
      · exact ⟨_, rfl⟩
    obtain ⟨z, hz⟩ := this
    exact ⟨_, by unfold invCumNorm; rw [hz]; rfl⟩
  · intro k hk
    have : ∃ z, approx fp lm (.fin (1 + k / 2 ^ 52)) = .ok z := by
      unfold approx
      split
      · unfold tailValue
        rw [four_eps h]
        split
        · rw [if_pos]
          · exact ⟨_, rfl⟩
          · have e := h.dyadic k 52 (by have : (k : ℤ) < 4 := by exact_mod_cast hk
                                        rw [abs_of_nonneg (by positivity)]; linarith) (by norm_num)
            have e' : fp.sub (.fin (1 + k / 2 ^ 52)) (.fin 1) = .fin (k / 2 ^ 52) := by
              show fp.rnd (1 + k / 2 ^ 52 + -1) = _
              rw [show (1 + (k : ℚ) / 2 ^ 52 + -1) = ((k : ℤ) : ℚ) / 2 ^ 52 by push_cast; ring, e]
              simp
            rw [e']
            simp only [FP.abs, FP.lt, decide_eq_true_eq]
            have hk' : (k : ℚ) < 4 := by exact_mod_cast hk
            rw [abs_of_nonneg (by positivity)]
            unfold eps
            linarith
        · split <;> exact ⟨_, rfl⟩
      · exact ⟨_, rfl⟩
    obtain ⟨z, hz⟩ := this
    exact ⟨_, by unfold invCumNorm; rw [hz]; rfl⟩
  · have : approx fp lm .nan = .ok .nan := by
      unfold approx
      rw [hl, hu]
      have hm : ∀ a : Fl, fp.mul a .nan = .nan := by intro a; cases a <;> rfl
      show Out.ok (fp.div (fp.mul (horner fp (as fp) (fp.mul .nan .nan)) .nan) _) = _
      rw [hm]
      rfl
    unfold invCumNorm
    rw [this]
    rfl

/-- **C79** In binary64 the two ends, which `invCumNorm` sets out to recover, do not give a number: the
result is NaN for every double in `(-2^-52, 0]` and in `[1, 1 + 2^-50)`. -/
theorem C79_ends (sqrt : Fl → Fl) (lm : Libm) (atan1 : Fl) (he : lm.exp .pinf = .pinf) :
    (∀ q : ℚ, -(1 / 2 ^ 52) < q → q ≤ 0 → invCumNorm (FP.ieee sqrt) lm atan1 (.fin q) = .ok .nan) ∧
    ∀ k : ℕ, k < 4 → invCumNorm (FP.ieee sqrt) lm atan1 (.fin (1 + k / 2 ^ 52)) = .ok .nan := by
  have h := FP.ieee_good sqrt
  have key : ∀ q z : ℚ, approx (FP.ieee sqrt) lm (.fin q) = .ok (.fin z) → z = dblMax ∨ z = -dblMax →
      invCumNorm (FP.ieee sqrt) lm atan1 (.fin q) = .ok .nan := by
    intro q z ha hz
    unfold invCumNorm
    rw [ha]
    show Out.ok (refine (FP.ieee sqrt) lm atan1 (.fin q) (.fin z)) = _
    rw [refine_max sqrt lm atan1 _ he z hz]
  constructor
  · intro q hq hq1
    have ha := approx_tail h lm (.inl hq1)
    have hle : (FP.le (.fin q) (.fin 0) || FP.le (.fin 1) (.fin q)) = true := by
      simp only [FP.le, Bool.or_eq_true, decide_eq_true_eq]; exact .inl hq1
    have hlt : FP.lt (FP.abs (.fin q)) (.fin eps) = true := by
      simp only [FP.abs, FP.lt, decide_eq_true_eq]
      unfold eps
      rw [abs_lt]
      exact ⟨by linarith, lt_of_le_of_lt hq1 (by norm_num)⟩
    unfold tailValue at ha
    rw [if_pos hle, four_eps h] at ha
    split at ha
    · exact key q _ ha (.inl rfl)
    · exact key q _ ha (.inr rfl)
  · intro k hk
    obtain ⟨l, hl, h0, h1⟩ := xLow_fin h
    obtain ⟨u, hu, h2, h3⟩ := xHigh_fin h
    have hk' : (k : ℚ) < 4 := by exact_mod_cast hk
    have hk0 : (0 : ℚ) ≤ k / 2 ^ 52 := by positivity
    have hle : (FP.le (.fin (1 + k / 2 ^ 52)) (.fin 0) || FP.le (.fin 1) (.fin (1 + k / 2 ^ 52))) = true := by
      simp only [FP.le, Bool.or_eq_true, decide_eq_true_eq]
      right; linarith
    have e := h.dyadic k 52 (by have : (k : ℤ) < 4 := by exact_mod_cast hk
                                rw [abs_of_nonneg (by positivity)]; linarith) (by norm_num)
    have e' : (FP.ieee sqrt).sub (.fin (1 + k / 2 ^ 52)) (.fin 1) = .fin (k / 2 ^ 52) := by
      show (FP.ieee sqrt).rnd (1 + k / 2 ^ 52 + -1) = _
      rw [show (1 + (k : ℚ) / 2 ^ 52 + -1) = ((k : ℤ) : ℚ) / 2 ^ 52 by push_cast; ring, e]
      simp
    have hlt : FP.lt (FP.abs ((FP.ieee sqrt).sub (.fin (1 + k / 2 ^ 52)) (.fin 1))) (.fin (4 * eps)) = true := by
      rw [e']
      simp only [FP.abs, FP.lt, decide_eq_true_eq]
      rw [abs_of_nonneg (by positivity)]
      unfold eps
      linarith
    apply key _ dblMax _ (.inl rfl)
    have hx : u < 1 + (k : ℚ) / 2 ^ 52 := by
      rcases Nat.eq_zero_or_pos k with rfl | hp
      · obtain ⟨t, ht, ht1⟩ : ∃ t, xHigh (FP.ieee sqrt) = .fin t ∧ t < 1 := by
          refine ⟨u, hu, ?_⟩
          have e1 := h.dyadic 63 6 (by norm_num) (by norm_num)
          have e2 := h.dyadic 1 6 (by norm_num) (by norm_num)
          have hle : (1 : ℚ) / 2 ^ 6 ≤ l := by
            have := h.mono _ (((2425 : ℤ) : ℚ) / 10 ^ 5) _ _ (by norm_num) e2 hl
            rwa [Int.cast_one] at this
          have eu : (FP.ieee sqrt).rnd (1 - l) = .fin u := by
            rw [← hu]; unfold xHigh; rw [hl]
            show _ = (FP.ieee sqrt).rnd (1 + -l); rw [sub_eq_add_neg]
          have := h.mono _ _ _ _ (by norm_num at hle ⊢; linarith) eu e1
          norm_num at this; linarith
        rw [hu] at ht; injection ht with ht
        rw [ht]; simpa using ht1
      · have : (0 : ℚ) < k / 2 ^ 52 := by have : (0 : ℚ) < k := by exact_mod_cast hp
                                          positivity
        linarith
    unfold approx
    rw [hl, hu, if_pos (by simp only [FP.lt, Bool.or_eq_true, decide_eq_true_eq]; exact .inr hx)]
    unfold tailValue
    rw [if_pos hle, four_eps h, if_pos hlt]

/-- Functions with the properties asked of `exp` and `erf` below. -/
def toyLm : Libm :=
  ⟨id, id, fun x => match x with | .fin q => .fin (q - 1) | x => x,
   fun x => match x with | .fin _ => .fin 1 | .ninf => .fin 0 | x => x,
   fun x => match x with | .fin q => .fin (q / (1 + |q|)) | .pinf => .fin 1 | .ninf => .fin (-1) | .nan => .nan⟩

example : toyLm.exp .pinf = .pinf := rfl

/-- **C79** The median of the standard normal distribution is 0. -/
theorem C79_median (fp : FP) (h : fp.Good) (lm : Libm) (atan1 : Fl) (s2 r2 sp e : ℚ)
    (h2 : sqrt2 fp = .fin s2) (hr2 : rsqrt2 fp = .fin r2) (hp : sqrtPi fp atan1 = .fin sp)
    (he : lm.exp (.fin 0) = .fin e) (hf : lm.erf (.fin 0) = .fin 0) :
    invCumNorm fp lm atan1 (.fin (1 / 2)) = .ok (.fin 0) := by
  have z0 : fp.rnd 0 = .fin 0 := by
    have := h.dyadic 0 0 (by norm_num) (by norm_num)
    norm_num at this; exact this
  have o1 : fp.rnd 1 = .fin 1 := by
    have := h.dyadic 1 0 (by norm_num) (by norm_num)
    norm_num at this; exact this
  have hh : fp.rnd (1 / 2) = .fin (1 / 2) := by
    have := h.dyadic 1 1 (by norm_num) (by norm_num)
    norm_num at this ⊢; exact this
  obtain ⟨l, hl, h0, h1⟩ := xLow_fin h
  obtain ⟨u, hu, hu2, h3⟩ := xHigh_fin h
  obtain ⟨p, hnum⟩ := horner_as_zero h
  have hden := horner_bs_zero h
  have e1 : approx fp lm (.fin (1 / 2)) = .ok (.fin 0) := by
    unfold approx
    rw [hl, hu, if_neg (by
      simp only [FP.lt, Bool.or_eq_true, decide_eq_true_eq, not_or, not_lt]
      exact ⟨h1.le, hu2⟩)]
    have : fp.sub (.fin (1 / 2)) (.fin (1 / 2)) = .fin 0 := by
      show fp.rnd (1 / 2 + -(1 / 2)) = _; rw [add_neg_cancel, z0]
    have hm0 : fp.mul (.fin 0) (.fin 0) = .fin 0 := by
      show fp.rnd (0 * 0) = _; rw [mul_zero, z0]
    simp only [this, hm0, hnum, hden]
    have : fp.mul (.fin p) (.fin 0) = .fin 0 := by
      show fp.rnd (p * 0) = _; rw [mul_zero, z0]
    rw [this]
    show Out.ok (if (1 : ℚ) = 0 then FP.infOfSign 0 else fp.rnd (0 / 1)) = _
    rw [if_neg one_ne_zero, zero_div, z0]
  have e2 : cumNorm fp lm (.fin 0) = .fin (1 / 2) := by
    unfold cumNorm
    rw [hr2]
    have : fp.mul (.fin 0) (.fin r2) = .fin 0 := by
      show fp.rnd (0 * r2) = _; rw [zero_mul, z0]
    rw [this, hf]
    have : fp.add (.fin 0) (.fin 1) = .fin 1 := by
      show fp.rnd (0 + 1) = _; rw [zero_add, o1]
    rw [this]
    show fp.rnd (1 / 2 * 1) = _
    rw [mul_one, hh]
  unfold invCumNorm
  rw [e1]
  show Out.ok (refine fp lm atan1 _ _) = _
  congr 1
  unfold refine
  rw [e2, h2, hp]
  have m0 : ∀ a : ℚ, fp.mul (.fin 0) (.fin a) = .fin 0 := by
    intro a; show fp.rnd (0 * a) = _; rw [zero_mul, z0]
  have m0' : ∀ a : ℚ, fp.mul (.fin a) (.fin 0) = .fin 0 := by
    intro a; show fp.rnd (a * 0) = _; rw [mul_zero, z0]
  have hs : fp.sub (.fin (1 / 2)) (.fin (1 / 2)) = .fin 0 := by
    show fp.rnd (1 / 2 + -(1 / 2)) = _; rw [add_neg_cancel, z0]
  simp only [hs, m0, m0', he]
  have : fp.add (.fin 1) (.fin 0) = .fin 1 := by
    show fp.rnd (1 + 0) = _; rw [add_zero, o1]
  rw [this]
  have : fp.div (.fin 0) (.fin 1) = .fin 0 := by
    show (if (1 : ℚ) = 0 then FP.infOfSign 0 else fp.rnd (0 / 1)) = _
    rw [if_neg one_ne_zero, zero_div, z0]
  rw [this]
  show fp.rnd (0 + -0) = _
  rw [neg_zero, add_zero, z0]

example : invCumNorm FP.exact toyLm (.fin (3 / 4)) (.fin (1 / 2)) = .ok (.fin 0) := by
  refine C79_median FP.exact FP.exact_good toyLm (.fin (3 / 4)) 2 (1 / 2) 3 1 rfl ?_ ?_ rfl ?_
  · show (if (2 : ℚ) = 0 then FP.infOfSign 1 else Fl.fin (1 / 2)) = _
    rw [if_neg two_ne_zero]
  · show Fl.fin (3 / 4 * 4) = _
    norm_num
  · show Fl.fin (0 / (1 + |0|)) = _
    norm_num

/-! ### Symmetry, in exact arithmetic -/

section symmetry
variable (sqrt : Fl → Fl)

/-- Exact arithmetic with an arbitrary `sqrt`. -/
abbrev exactWith : FP := ⟨Fl.fin, sqrt⟩

theorem neg_neg_fl (a : Fl) : FP.neg (FP.neg a) = a := by cases a <;> simp [FP.neg]

theorem sgn_neg (a : Fl) : FP.sgn (FP.neg a) = - FP.sgn a := by
  cases a
  case fin q =>
    simp only [FP.neg, FP.sgn, neg_eq_zero]
    rcases lt_trichotomy q 0 with h | h | h
    · rw [if_neg h.ne, if_neg h.ne, if_pos (by linarith), if_neg (by linarith)]; norm_num
    · simp [h]
    · rw [if_neg h.ne', if_neg h.ne', if_neg (by linarith), if_pos h]
  all_goals simp [FP.neg, FP.sgn]

theorem infOfSign_neg (s : ℚ) : FP.infOfSign (-s) = FP.neg (FP.infOfSign s) := by
  unfold FP.infOfSign
  rcases lt_trichotomy s 0 with h | h | h
  · rw [if_neg (by linarith), if_neg h.ne, if_pos (by linarith), if_neg (by linarith)]; rfl
  · simp [h, FP.neg]
  · rw [if_neg (by linarith), if_neg h.ne', if_neg (by linarith), if_pos h]; rfl

theorem ex_neg_mul (a b : Fl) : (exactWith sqrt).mul (FP.neg a) b = FP.neg ((exactWith sqrt).mul a b) := by
  cases a with
  | nan => rfl
  | fin p =>
    cases b with
    | nan => rfl
    | fin q => show Fl.fin (-p * q) = Fl.fin (-(p * q)); rw [neg_mul]
    | pinf => show FP.infOfSign (FP.sgn (FP.neg (.fin p)) * _) = FP.neg (FP.infOfSign _)
              rw [sgn_neg, neg_mul, infOfSign_neg]
    | ninf => show FP.infOfSign (FP.sgn (FP.neg (.fin p)) * _) = FP.neg (FP.infOfSign _)
              rw [sgn_neg, neg_mul, infOfSign_neg]
  | pinf =>
    cases b with
    | nan => rfl
    | _ => show FP.infOfSign (FP.sgn (FP.neg .pinf) * _) = FP.neg (FP.infOfSign _)
           rw [sgn_neg, neg_mul, infOfSign_neg]
  | ninf =>
    cases b with
    | nan => rfl
    | _ => show FP.infOfSign (FP.sgn (FP.neg .ninf) * _) = FP.neg (FP.infOfSign _)
           rw [sgn_neg, neg_mul, infOfSign_neg]

theorem ex_mul_comm (a b : Fl) : (exactWith sqrt).mul a b = (exactWith sqrt).mul b a := by
  cases a <;> cases b <;> simp only [FP.mul, mul_comm]

theorem ex_mul_neg (a b : Fl) : (exactWith sqrt).mul a (FP.neg b) = FP.neg ((exactWith sqrt).mul a b) := by
  rw [ex_mul_comm, ex_neg_mul, ex_mul_comm]

theorem ex_neg_div (a b : Fl) : (exactWith sqrt).div (FP.neg a) b = FP.neg ((exactWith sqrt).div a b) := by
  cases a with
  | nan => rfl
  | fin p =>
    cases b with
    | nan => rfl
    | fin q =>
      show (if q = 0 then FP.infOfSign (-p) else Fl.fin (-p / q)) = FP.neg (if q = 0 then FP.infOfSign p else Fl.fin (p / q))
      split
      · exact infOfSign_neg p
      · rw [neg_div]; rfl
    | pinf => show Fl.fin 0 = Fl.fin (-0); rw [neg_zero]
    | ninf => show Fl.fin 0 = Fl.fin (-0); rw [neg_zero]
  | pinf =>
    cases b with
    | fin q => show (if q < 0 then FP.neg .ninf else .ninf) = FP.neg (if q < 0 then FP.neg .pinf else .pinf)
               split <;> rfl
    | _ => rfl
  | ninf =>
    cases b with
    | fin q => show (if q < 0 then FP.neg .pinf else .pinf) = FP.neg (if q < 0 then FP.neg .ninf else .ninf)
               split <;> rfl
    | _ => rfl

theorem ex_sub_neg (a b : Fl) :
    (exactWith sqrt).sub (FP.neg a) (FP.neg b) = FP.neg ((exactWith sqrt).sub a b) := by
  cases a <;> cases b <;> simp [FP.sub, FP.add, FP.neg]
  ring

theorem ex_cum (lm : Libm) (hodd : ∀ y, lm.erf (FP.neg y) = FP.neg (lm.erf y)) (z : Fl) (x : ℚ) :
    (exactWith sqrt).sub (Normal.cumNorm (exactWith sqrt) lm (FP.neg z)) (.fin (1 - x)) =
      FP.neg ((exactWith sqrt).sub (Normal.cumNorm (exactWith sqrt) lm z) (.fin x)) := by
  unfold Normal.cumNorm
  rw [ex_neg_mul, hodd]
  generalize lm.erf _ = e
  cases e with
  | nan => rfl
  | fin e =>
    show Fl.fin (1 / 2 * (-e + 1) + -(1 - x)) = Fl.fin (-(1 / 2 * (e + 1) + -x))
    congr 1; ring
  | pinf => norm_num [FP.neg, FP.add, FP.mul, FP.infOfSign, FP.sgn, FP.sub]
  | ninf => norm_num [FP.neg, FP.add, FP.mul, FP.infOfSign, FP.sgn, FP.sub]

theorem ex_refine (lm : Libm) (hodd : ∀ y, lm.erf (FP.neg y) = FP.neg (lm.erf y)) (atan1 z : Fl) (x : ℚ) :
    refine (exactWith sqrt) lm atan1 (.fin (1 - x)) (FP.neg z) =
      FP.neg (refine (exactWith sqrt) lm atan1 (.fin x) z) := by
  unfold refine
  simp only [ex_cum sqrt lm hodd, ex_mul_neg, ex_neg_mul, neg_neg_fl, ex_neg_div, ex_sub_neg]

theorem exactWith_good : (exactWith sqrt).Good :=
  ⟨fun _ _ _ _ => rfl, FP.exact_good.mono, fun _ _ _ => rfl, FP.exact_good.near, FP.exact_good.finite⟩

theorem ex_low (lm : Libm) {x : ℚ} (h0 : 0 ≤ x) (h1 : x < 2425 / 10 ^ 5) {z : Fl}
    (h : approx (exactWith sqrt) lm (.fin x) = .ok z) :
    approx (exactWith sqrt) lm (.fin (1 - x)) = .ok (FP.neg z) := by
  have hl : xLow (exactWith sqrt) = .fin (2425 / 10 ^ 5) := by
    show Fl.fin (((2425 : ℤ) : ℚ) / 10 ^ 5) = _; norm_num
  have hu : xHigh (exactWith sqrt) = .fin (1 - 2425 / 10 ^ 5) := by
    unfold xHigh; rw [hl]; show Fl.fin (1 + -(2425 / 10 ^ 5)) = _; norm_num
  unfold approx at h ⊢
  rw [hl, hu] at h ⊢
  rw [if_pos (by simp only [FP.lt, Bool.or_eq_true, decide_eq_true_eq]; exact .inl h1)] at h
  rw [if_pos (by simp only [FP.lt, Bool.or_eq_true, decide_eq_true_eq]; right; linarith)]
  unfold tailValue at h ⊢
  rw [hl] at h ⊢
  rcases h0.eq_or_lt with rfl | h0
  · rw [four_eps (exactWith_good sqrt)] at h ⊢
    norm_num [FP.le, FP.lt, FP.abs, FP.sub, FP.add, FP.neg, eps] at h ⊢
    rw [← h]
    show Fl.fin dblMax = Fl.fin (- -dblMax)
    rw [neg_neg]
  · have c1 : ¬ ((FP.le (.fin x) (.fin 0) || FP.le (.fin 1) (.fin x)) = true) := by
      simp only [FP.le, Bool.or_eq_true, decide_eq_true_eq, not_or, not_le]
      exact ⟨h0, by norm_num at h1; linarith⟩
    have c2 : ¬ ((FP.le (.fin (1 - x)) (.fin 0) || FP.le (.fin 1) (.fin (1 - x))) = true) := by
      simp only [FP.le, Bool.or_eq_true, decide_eq_true_eq, not_or, not_le]
      exact ⟨by norm_num at h1; linarith, by linarith⟩
    rw [if_neg c1, if_pos (by simpa [FP.lt] using h1)] at h
    have hs : (exactWith sqrt).sub (.fin 1) (.fin (1 - x)) = .fin x := by
      show Fl.fin (1 + -(1 - x)) = _; congr 1; ring
    rw [if_neg c2, if_neg (by simp only [FP.lt, decide_eq_true_eq, not_lt]; norm_num at h1 ⊢; linarith), hs]
    simp only at h ⊢
    rw [ex_neg_div]
    injection h with h
    rw [h]

end symmetry

/-- **C79** In exact arithmetic, and whatever `log`, `exp` and `sqrt` are, the inverse distribution
function is antisymmetric about one half when `erf` is odd. -/
theorem C79_symmetric (sqrt : Fl → Fl) (lm : Libm) (atan1 : Fl)
    (hodd : ∀ y, lm.erf (FP.neg y) = FP.neg (lm.erf y)) (x : ℚ) (h0 : 0 ≤ x) (h1 : x ≤ 1) (z : Fl)
    (h : invCumNorm (exactWith sqrt) lm atan1 (.fin x) = .ok z) :
    invCumNorm (exactWith sqrt) lm atan1 (.fin (1 - x)) = .ok (FP.neg z) := by
  have key : ∀ w, approx (exactWith sqrt) lm (.fin x) = .ok w →
      approx (exactWith sqrt) lm (.fin (1 - x)) = .ok (FP.neg w) := by
    intro w hw
    by_cases hlow : x < 2425 / 10 ^ 5
    · exact ex_low sqrt lm h0 hlow hw
    · by_cases hhigh : 1 - x < 2425 / 10 ^ 5
      · have hg := exactWith_good sqrt
        obtain ⟨v, hv⟩ := (C79_domain (exactWith sqrt) hg lm atan1).2.2.2.1 (1 - x) (by norm_num; linarith) (by linarith)
        unfold invCumNorm at hv
        cases ha : approx (exactWith sqrt) lm (.fin (1 - x)) with
        | ok v' =>
          have := ex_low sqrt lm (by linarith) hhigh ha
          rw [sub_sub_cancel, hw] at this
          injection this with this
          rw [this, neg_neg_fl]
        | thrown e => rw [ha] at hv; cases hv
        | ub u => rw [ha] at hv; cases hv
        | diverges => rw [ha] at hv; cases hv
      · have hl : xLow (exactWith sqrt) = .fin (2425 / 10 ^ 5) := by
          show Fl.fin (((2425 : ℤ) : ℚ) / 10 ^ 5) = _; norm_num
        have hu : xHigh (exactWith sqrt) = .fin (1 - 2425 / 10 ^ 5) := by
          unfold xHigh; rw [hl]; show Fl.fin (1 + -(2425 / 10 ^ 5)) = _; norm_num
        unfold approx at hw ⊢
        rw [hl, hu] at hw ⊢
        rw [if_neg (by simp only [FP.lt, Bool.or_eq_true, decide_eq_true_eq, not_or]; exact ⟨hlow, by linarith⟩)] at hw
        rw [if_neg (by simp only [FP.lt, Bool.or_eq_true, decide_eq_true_eq, not_or]; exact ⟨hhigh, by linarith⟩)]
        have hs : (exactWith sqrt).sub (.fin (1 - x)) (.fin (1 / 2)) =
            FP.neg ((exactWith sqrt).sub (.fin x) (.fin (1 / 2))) := by
          show Fl.fin (1 - x + -(1 / 2)) = Fl.fin (-(x + -(1 / 2))); congr 1; ring
        simp only [hs, ex_neg_mul, ex_mul_neg, neg_neg_fl, ex_neg_div] at hw ⊢
        injection hw with hw
        rw [hw]
  unfold invCumNorm at h ⊢
  cases ha : approx (exactWith sqrt) lm (.fin x) with
  | ok w =>
    rw [ha] at h
    rw [key w ha]
    have h' : Out.ok (refine (exactWith sqrt) lm atan1 (.fin x) w) = Out.ok z := h
    injection h' with h'
    show Out.ok (refine (exactWith sqrt) lm atan1 (.fin (1 - x)) (FP.neg w)) = _
    rw [ex_refine sqrt lm hodd, h']
  | thrown e => rw [ha] at h; cases h
  | ub u => rw [ha] at h; cases h
  | diverges => rw [ha] at h; cases h

example : ∀ y, toyLm.erf (FP.neg y) = FP.neg (toyLm.erf y) := by
  intro y
  cases y with
  | fin q => show Fl.fin (-q / (1 + |-q|)) = Fl.fin (-(q / (1 + |q|))); rw [abs_neg, neg_div]
  | pinf => rfl
  | ninf => show Fl.fin 1 = Fl.fin (- -1); norm_num
  | nan => rfl

/-! ### `Cholesky` -/

/-- **C80** The constructor rejects exactly the correlations beyond `[-1, 1]` and the infinities; NaN is
accepted.  What it stores is the correlation and the square root of `1 - rho * rho`, never the square
root of a negative number. -/
theorem C80_construct (fp : FP) (h : fp.Good) :
    (∀ q : ℚ, 1 < |q| → Cholesky.new fp (.fin q) = .thrown .correlationRange) ∧
    Cholesky.new fp .pinf = .thrown .correlationRange ∧ Cholesky.new fp .ninf = .thrown .correlationRange ∧
    (∀ q : ℚ, |q| ≤ 1 → ∃ r, 0 ≤ r ∧ r ≤ 1 ∧ fp.sub (.fin 1) (fp.mul (.fin q) (.fin q)) = .fin r ∧
      Cholesky.new fp (.fin q) = .ok ⟨.fin q, fp.sqrt (.fin r)⟩) ∧
    Cholesky.new fp .nan = .ok ⟨.nan, fp.sqrt .nan⟩ := by
  have z0 : fp.rnd 0 = .fin 0 := by
    have := h.dyadic 0 0 (by norm_num) (by norm_num)
    norm_num at this; exact this
  have o1 : fp.rnd 1 = .fin 1 := by
    have := h.dyadic 1 0 (by norm_num) (by norm_num)
    norm_num at this; exact this
  have hfin : ∀ q : ℚ, 0 ≤ q → q ≤ 1 → ∃ a, fp.rnd q = .fin a ∧ 0 ≤ a ∧ a ≤ 1 := by
    intro q hq hq1
    obtain ⟨a, ha⟩ := h.finite q (by
      rw [abs_of_nonneg hq]; exact hq1.trans (one_le_pow₀ (by norm_num)))
    exact ⟨a, ha, h.mono _ _ _ _ hq z0 ha, h.mono _ _ _ _ hq1 ha o1⟩
  refine ⟨?_, rfl, rfl, ?_, rfl⟩
  · intro q hq
    unfold Cholesky.new
    rw [if_pos (by simpa [FP.lt, FP.abs] using hq)]
  · intro q hq
    have hq2 : q * q ≤ 1 := by
      have := abs_le.mp hq
      nlinarith [this.1, this.2]
    obtain ⟨a, ha, ha0, ha1⟩ := hfin (q * q) (mul_self_nonneg q) hq2
    obtain ⟨r, hr, hr0, hr1⟩ := hfin (1 - a) (by linarith) (by linarith)
    have hs : fp.sub (.fin 1) (fp.mul (.fin q) (.fin q)) = .fin r := by
      show fp.add (.fin 1) (FP.neg (fp.rnd (q * q))) = _
      rw [ha]
      show fp.rnd (1 + -a) = _
      rw [← sub_eq_add_neg, hr]
    refine ⟨r, hr0, hr1, hs, ?_⟩
    unfold Cholesky.new
    rw [if_neg (by simpa [FP.lt, FP.abs] using hq), hs]

theorem uniform_fin {fp : FP} (h : fp.Good) {u : ℕ} (hu : u < 2 ^ 32) :
    fp.mul (fp.ofInt u) (.fin scale) = .fin (u / 2 ^ 32) := by
  have hu' : |(u : ℤ)| ≤ 2 ^ 53 := by
    rw [abs_of_nonneg (by positivity)]
    have : (u : ℤ) < 2 ^ 32 := by exact_mod_cast hu
    linarith
  have e1 := h.dyadic u 0 hu' (by norm_num)
  have e2 := h.dyadic u 32 hu' (by norm_num)
  rw [pow_zero, div_one] at e1
  unfold FP.ofInt
  rw [e1]
  show fp.rnd (((u : ℤ) : ℚ) * scale) = _
  unfold scale
  rw [mul_one_div, e2]
  simp

theorem inv_uniform {fp : FP} (h : fp.Good) (lm : Libm) (atan1 : Fl) {u : ℕ} (hu : u < 2 ^ 32) :
    ∃ z, invCumNorm fp lm atan1 (fp.mul (fp.ofInt u) (.fin scale)) = .ok z := by
  rw [uniform_fin h hu]
  have h' : (u : ℚ) < 2 ^ 32 := by exact_mod_cast hu
  apply (C79_domain fp h lm atan1).2.2.2.1
  · have : (0 : ℚ) ≤ u / 2 ^ 32 := by positivity
    refine lt_of_lt_of_le ?_ this
    norm_num
  · rw [div_le_one (by positivity)]; exact h'.le

theorem toUint32_cases (x : Fl) : (∃ n, n < 2 ^ 32 ∧ toUint32 x = .ok n) ∨ toUint32 x = .ub .badCast := by
  cases x with
  | fin q =>
    by_cases hq : 0 ≤ FP.truncQ q ∧ FP.truncQ q < 2 ^ 32
    · left
      exact ⟨(FP.truncQ q).toNat, by omega, if_pos hq⟩
    · exact .inr (if_neg hq)
  | _ => exact .inr rfl

/-- What `run` computes, for a pair of 32-bit numbers. -/
theorem chol_run_eq {fp : FP} (h : fp.Good) (lm : Libm) (atan1 : Fl) (c : Cholesky) {u0 u1 : ℕ} (h0 : u0 < 2 ^ 32)
    (h1 : u1 < 2 ^ 32) : ∃ n0 n1,
    invCumNorm fp lm atan1 (fp.mul (fp.ofInt u0) (.fin scale)) = .ok n0 ∧
    invCumNorm fp lm atan1 (fp.mul (fp.ofInt u1) (.fin scale)) = .ok n1 ∧
    c.run fp lm atan1 [u0, u1] = (do
      let w0 ← toUint32 (fp.div (Normal.cumNorm fp lm n0) (.fin scale))
      let w1 ← toUint32 (fp.div (Normal.cumNorm fp lm (fp.add (fp.mul n0 c.m0) (fp.mul n1 c.m1))) (.fin scale))
      pure (w0, w1)) := by
  obtain ⟨n0, e0⟩ := inv_uniform h lm atan1 h0
  obtain ⟨n1, e1⟩ := inv_uniform h lm atan1 h1
  refine ⟨n0, n1, e0, e1, ?_⟩
  unfold Cholesky.run
  simp only [e0, e1]
  rfl

theorem chol_run_ok {fp : FP} (h : fp.Good) (lm : Libm) (atan1 : Fl) (c : Cholesky) {u0 u1 : ℕ} (h0 : u0 < 2 ^ 32)
    (h1 : u1 < 2 ^ 32) {a b : ℕ} (hr : c.run fp lm atan1 [u0, u1] = .ok (a, b)) : ∃ n0 n1,
    invCumNorm fp lm atan1 (fp.mul (fp.ofInt u0) (.fin scale)) = .ok n0 ∧
    invCumNorm fp lm atan1 (fp.mul (fp.ofInt u1) (.fin scale)) = .ok n1 ∧
    toUint32 (fp.div (Normal.cumNorm fp lm n0) (.fin scale)) = .ok a ∧
    toUint32 (fp.div (Normal.cumNorm fp lm (fp.add (fp.mul n0 c.m0) (fp.mul n1 c.m1))) (.fin scale)) = .ok b := by
  obtain ⟨n0, n1, e0, e1, e⟩ := chol_run_eq h lm atan1 c h0 h1
  rw [hr] at e
  refine ⟨n0, n1, e0, e1, ?_⟩
  have e' := e.symm
  simp only [Out.bind_eq_ok] at e'
  obtain ⟨a', ha, b', hb, hab⟩ := e'
  simp only [Out.pure_eq, Out.ok.injEq, Prod.mk.injEq] at hab
  rw [ha, hb, hab.1, hab.2]
  exact ⟨rfl, rfl⟩

theorem inv_rep {fp : FP} (h : fp.Good) {lm : Libm} {atan1 x : Fl} {q : ℚ}
    (hi : invCumNorm fp lm atan1 x = .ok (.fin q)) : fp.rnd q = .fin q := by
  unfold invCumNorm at hi
  cases ha : approx fp lm x with
  | ok z =>
    rw [ha] at hi
    have hi' : Out.ok (refine fp lm atan1 x z) = Out.ok (.fin q) := hi
    injection hi' with hi'
    unfold refine FP.sub at hi'
    simp only at hi'
    revert hi'
    generalize FP.neg _ = d
    intro hi'
    cases z <;> cases d <;> simp only [FP.add] at hi' <;> first | exact h.idem _ _ hi' | cases hi'
  | thrown e => rw [ha] at hi; cases hi
  | ub u => rw [ha] at hi; cases hi
  | diverges => rw [ha] at hi; cases hi

/-- **C80** The pair is made of 32-bit numbers, or the conversion to `uint32_t` is undefined; no pair of
32-bit numbers is rejected. -/
theorem C80_outcomes (fp : FP) (h : fp.Good) (lm : Libm) (atan1 : Fl) (c : Cholesky) (u0 u1 : ℕ)
    (h0 : u0 < 2 ^ 32) (h1 : u1 < 2 ^ 32) :
    (∃ a b, a < 2 ^ 32 ∧ b < 2 ^ 32 ∧ c.run fp lm atan1 [u0, u1] = .ok (a, b)) ∨
    c.run fp lm atan1 [u0, u1] = .ub .badCast := by
  obtain ⟨n0, n1, e0, e1, e⟩ := chol_run_eq h lm atan1 c h0 h1
  rw [e]
  rcases toUint32_cases (fp.div (Normal.cumNorm fp lm n0) (.fin scale)) with ⟨a, ha, hw⟩ | hw
  · rw [hw]
    rcases toUint32_cases (fp.div (Normal.cumNorm fp lm (fp.add (fp.mul n0 c.m0) (fp.mul n1 c.m1))) (.fin scale))
      with ⟨b, hb, hv⟩ | hv
    · rw [hv]; exact .inl ⟨a, b, ha, hb, rfl⟩
    · rw [hv]; exact .inr rfl
  · rw [hw]; exact .inr rfl

theorem cum_nan (fp : FP) (lm : Libm) (hn : lm.erf .nan = .nan) :
    toUint32 (fp.div (Normal.cumNorm fp lm .nan) (.fin scale)) = .ub .badCast := by
  unfold Normal.cumNorm
  have : fp.mul .nan (rsqrt2 fp) = .nan := rfl
  rw [this, hn]
  rfl

/-- **C80** In binary64 a zero among the two numbers is enough for undefined behaviour, whatever the
correlation: `invCumNorm` gives NaN there and NaN is converted to `uint32_t`. -/
theorem C80_zero_ub (sqrt : Fl → Fl) (lm : Libm) (atan1 : Fl) (he : lm.exp .pinf = .pinf)
    (hn : lm.erf .nan = .nan) (c : Cholesky) (u : ℕ) (hu : u < 2 ^ 32) :
    c.run (FP.ieee sqrt) lm atan1 [0, u] = .ub .badCast ∧
    c.run (FP.ieee sqrt) lm atan1 [u, 0] = .ub .badCast := by
  have h := FP.ieee_good sqrt
  have hz : invCumNorm (FP.ieee sqrt) lm atan1 ((FP.ieee sqrt).mul ((FP.ieee sqrt).ofInt (0 : ℕ)) (.fin scale))
      = .ok .nan := by
    rw [uniform_fin h (by norm_num)]
    exact (C79_ends sqrt lm atan1 he).1 _ (by norm_num) (by norm_num)
  constructor
  · obtain ⟨n0, n1, e0, e1, e⟩ := chol_run_eq h lm atan1 c (u0 := 0) (by norm_num) hu
    rw [hz] at e0
    injection e0 with e0
    rw [e, ← e0, cum_nan _ _ hn]
    rfl
  · obtain ⟨n0, n1, e0, e1, e⟩ := chol_run_eq h lm atan1 c (u1 := 0) hu (by norm_num)
    rw [hz] at e1
    injection e1 with e1
    rw [e, ← e1]
    have : (FP.ieee sqrt).add ((FP.ieee sqrt).mul n0 c.m0) ((FP.ieee sqrt).mul .nan c.m1) = .nan := by
      show (FP.ieee sqrt).add _ .nan = .nan
      cases (FP.ieee sqrt).mul n0 c.m0 <;> rfl
    rw [this, cum_nan _ _ hn]
    rcases toUint32_cases ((FP.ieee sqrt).div (Normal.cumNorm (FP.ieee sqrt) lm n0) (.fin scale)) with ⟨a, ha, hw⟩ | hw
    · rw [hw]; rfl
    · rw [hw]; rfl

/-- **C80** The first number of the pair depends only on the first input: not on the second and not on
the correlation. -/
theorem C80_first (fp : FP) (h : fp.Good) (lm : Libm) (atan1 : Fl) (c c' : Cholesky) (u v v' a b a' b' : ℕ)
    (hu : u < 2 ^ 32) (hv : v < 2 ^ 32) (hv' : v' < 2 ^ 32)
    (hr : c.run fp lm atan1 [u, v] = .ok (a, b)) (hr' : c'.run fp lm atan1 [u, v'] = .ok (a', b')) : a = a' := by
  obtain ⟨n0, n1, e0, -, ha, -⟩ := chol_run_ok h lm atan1 c hu hv hr
  obtain ⟨m0, m1, f0, -, ha', -⟩ := chol_run_ok h lm atan1 c' hu hv' hr'
  rw [e0] at f0
  injection f0 with f0
  rw [← f0, ha] at ha'
  injection ha'

/-- **C80** With correlation 1 the two numbers of the pair are equal. -/
theorem C80_one (fp : FP) (h : fp.Good) (lm : Libm) (atan1 : Fl) (hs : fp.sqrt (.fin 0) = .fin 0)
    (hn : lm.erf .nan = .nan) (c : Cholesky) (hc : Cholesky.new fp (.fin 1) = .ok c) (u v a b : ℕ)
    (hu : u < 2 ^ 32) (hv : v < 2 ^ 32) (hr : c.run fp lm atan1 [u, v] = .ok (a, b)) : a = b := by
  obtain ⟨n0, n1, e0, e1, ha, hb⟩ := chol_run_ok h lm atan1 c hu hv hr
  have z0 : fp.rnd 0 = .fin 0 := by
    have := h.dyadic 0 0 (by norm_num) (by norm_num)
    norm_num at this; exact this
  have o1 : fp.rnd 1 = .fin 1 := by
    have := h.dyadic 1 0 (by norm_num) (by norm_num)
    norm_num at this; exact this
  have hcc : c = ⟨.fin 1, .fin 0⟩ := by
    obtain ⟨r, -, -, hr, hc'⟩ := (C80_construct fp h).2.2.2.1 1 (by norm_num)
    rw [hc] at hc'
    injection hc' with hc'
    have : fp.mul (.fin 1) (.fin 1) = .fin 1 := by show fp.rnd (1 * 1) = _; rw [mul_one, o1]
    rw [this] at hr
    have h0 : fp.sub (.fin 1) (.fin 1) = .fin 0 := by show fp.rnd (1 + -1) = _; rw [add_neg_cancel, z0]
    rw [h0] at hr
    injection hr with hr
    rw [hc', ← hr, hs]
  subst hcc
  simp only at hb
  have hm1 : ∀ x, x = .nan ∨ x = .pinf ∨ x = .ninf → fp.mul x (.fin 0) = .nan := by
    rintro x (rfl | rfl | rfl) <;> simp [FP.mul, FP.sgn, FP.infOfSign]
  have hadd : ∀ x, fp.add x .nan = .nan := by intro x; cases x <;> rfl
  cases n1 with
  | fin q1 =>
    have : fp.mul (.fin q1) (.fin 0) = .fin 0 := by show fp.rnd (q1 * 0) = _; rw [mul_zero, z0]
    rw [this] at hb
    have hn0 : fp.add (fp.mul n0 (.fin 1)) (.fin 0) = n0 := by
      cases n0 with
      | fin q0 =>
        have hrep := inv_rep h e0
        have : fp.mul (.fin q0) (.fin 1) = .fin q0 := by show fp.rnd (q0 * 1) = _; rw [mul_one, hrep]
        rw [this]
        show fp.rnd (q0 + 0) = _
        rw [add_zero, hrep]
      | pinf => norm_num [FP.mul, FP.sgn, FP.infOfSign, FP.add]
      | ninf => norm_num [FP.mul, FP.sgn, FP.infOfSign, FP.add]
      | nan => rfl
    rw [hn0, ha] at hb
    injection hb
  | pinf => rw [hm1 _ (by simp), hadd, cum_nan _ _ hn] at hb; cases hb
  | ninf => rw [hm1 _ (by simp), hadd, cum_nan _ _ hn] at hb; cases hb
  | nan => rw [hm1 _ (by simp), hadd, cum_nan _ _ hn] at hb; cases hb

/-- **C80** With correlation 0 the two numbers are independent: the second depends on the second input
the way the first depends on the first. -/
theorem C80_zero (fp : FP) (h : fp.Good) (lm : Libm) (atan1 : Fl) (hs : fp.sqrt (.fin 1) = .fin 1)
    (hn : lm.erf .nan = .nan) (c c' : Cholesky) (hc : Cholesky.new fp (.fin 0) = .ok c) (u v w a b a' b' : ℕ)
    (hu : u < 2 ^ 32) (hv : v < 2 ^ 32) (hw : w < 2 ^ 32) (hr : c.run fp lm atan1 [u, v] = .ok (a, b))
    (hr' : c'.run fp lm atan1 [v, w] = .ok (a', b')) : b = a' := by
  obtain ⟨n0, n1, e0, e1, ha, hb⟩ := chol_run_ok h lm atan1 c hu hv hr
  obtain ⟨m0, m1, f0, -, ha', -⟩ := chol_run_ok h lm atan1 c' hv hw hr'
  have z0 : fp.rnd 0 = .fin 0 := by
    have := h.dyadic 0 0 (by norm_num) (by norm_num)
    norm_num at this; exact this
  have o1 : fp.rnd 1 = .fin 1 := by
    have := h.dyadic 1 0 (by norm_num) (by norm_num)
    norm_num at this; exact this
  have hcc : c = ⟨.fin 0, .fin 1⟩ := by
    obtain ⟨r, -, -, hr, hc'⟩ := (C80_construct fp h).2.2.2.1 0 (by norm_num)
    rw [hc] at hc'
    injection hc' with hc'
    have : fp.mul (.fin 0) (.fin 0) = .fin 0 := by show fp.rnd (0 * 0) = _; rw [mul_zero, z0]
    rw [this] at hr
    have h0 : fp.sub (.fin 1) (.fin 0) = .fin 1 := by show fp.rnd (1 + -0) = _; rw [neg_zero, add_zero, o1]
    rw [h0] at hr
    injection hr with hr
    rw [hc', ← hr, hs]
  subst hcc
  simp only at hb
  have hm1 : ∀ x, x = .nan ∨ x = .pinf ∨ x = .ninf → fp.mul x (.fin 0) = .nan := by
    rintro x (rfl | rfl | rfl) <;> simp [FP.mul, FP.sgn, FP.infOfSign]
  have hadd : ∀ x, fp.add .nan x = .nan := by intro x; cases x <;> rfl
  rw [e1] at f0
  injection f0 with f0
  cases n0 with
  | fin q0 =>
    have : fp.mul (.fin q0) (.fin 0) = .fin 0 := by show fp.rnd (q0 * 0) = _; rw [mul_zero, z0]
    rw [this] at hb
    have hn1 : fp.add (.fin 0) (fp.mul n1 (.fin 1)) = n1 := by
      cases n1 with
      | fin q1 =>
        have hrep := inv_rep h e1
        have : fp.mul (.fin q1) (.fin 1) = .fin q1 := by show fp.rnd (q1 * 1) = _; rw [mul_one, hrep]
        rw [this]
        show fp.rnd (0 + q1) = _
        rw [zero_add, hrep]
      | pinf => norm_num [FP.mul, FP.sgn, FP.infOfSign, FP.add]
      | ninf => norm_num [FP.mul, FP.sgn, FP.infOfSign, FP.add]
      | nan => rfl
    rw [hn1, f0, ha'] at hb
    injection hb with hb
    exact hb.symm
  | pinf => rw [hm1 _ (by simp), hadd, cum_nan _ _ hn] at hb; cases hb
  | ninf => rw [hm1 _ (by simp), hadd, cum_nan _ _ hn] at hb; cases hb
  | nan => rw [hm1 _ (by simp), hadd, cum_nan _ _ hn] at hb; cases hb

/-- A pair for which the theorems above apply: the medians go to the medians. -/
example (m0 m1 : ℚ) : Cholesky.run FP.exact toyLm (.fin (3 / 4)) ⟨.fin m0, .fin m1⟩ [2 ^ 31, 2 ^ 31] = .ok (2 ^ 31, 2 ^ 31) := by
  have hmed : invCumNorm FP.exact toyLm (.fin (3 / 4)) (.fin (1 / 2)) = .ok (.fin 0) := by
    refine C79_median FP.exact FP.exact_good toyLm (.fin (3 / 4)) 2 (1 / 2) 3 1 rfl ?_ ?_ rfl ?_
    · show (if (2 : ℚ) = 0 then FP.infOfSign 1 else Fl.fin (1 / 2)) = _
      rw [if_neg two_ne_zero]
    · show Fl.fin (3 / 4 * 4) = _
      norm_num
    · show Fl.fin (0 / (1 + |0|)) = _
      norm_num
  obtain ⟨n0, n1, e0, e1, e⟩ := chol_run_eq FP.exact_good toyLm (.fin (3 / 4)) ⟨.fin m0, .fin m1⟩ (u0 := 2 ^ 31) (u1 := 2 ^ 31)
    (by norm_num) (by norm_num)
  rw [uniform_fin FP.exact_good (by norm_num), show (((2 ^ 31 : ℕ) : ℚ) / 2 ^ 32) = 1 / 2 by norm_num, hmed] at e0 e1
  injection e0 with e0
  injection e1 with e1
  rw [e, ← e0, ← e1]
  have hz : FP.exact.add (FP.exact.mul (.fin 0) (.fin m0)) (FP.exact.mul (.fin 0) (.fin m1)) = .fin 0 := by
    show Fl.fin (0 * m0 + 0 * m1) = _; simp
  simp only [hz]
  have hc : FP.exact.div (Normal.cumNorm FP.exact toyLm (.fin 0)) (.fin scale) = .fin (2 ^ 31) := by
    norm_num [Normal.cumNorm, rsqrt2, FP.exact, FP.mul, FP.div, FP.add, toyLm, scale]
  have ht : toUint32 (.fin (2 ^ 31)) = .ok (2 ^ 31) := by
    norm_num [toUint32, FP.truncQ]
    rfl
  rw [hc, ht]
  rfl

end HL

import Verif.Model.Normal
import Verif.Proof.SumRound

/-! Lemmas about the normal distribution functions. -/

namespace HL
namespace Normal
open Integerise

theorem ieee_big {q : ℚ} (h : (2 : ℚ) ^ (1024 : ℤ) ≤ q) : FP.rndIeee q = .pinf := by
  have hq : 0 < q := lt_of_lt_of_le (by positivity) h
  have hl : (1024 : ℤ) ≤ FP.ilog2 q := by
    have h1 := FP.ilog2_mono (p := (2 : ℚ) ^ (1024 : ℤ)) (by positivity) h
    rwa [FP.ilog2_unique le_rfl (zpow_lt_zpow_right₀ (by norm_num) (by norm_num))] at h1
  have hul : FP.ulp q = (2 : ℚ) ^ (FP.ilog2 q) / 2 ^ 52 := by
    unfold FP.ulp
    rw [max_eq_left (by omega), zpow_sub₀ (by norm_num)]
    norm_num
  have hu := FP.ulp_pos q
  have hge : ((2 ^ 52 : ℤ) : ℚ) ≤ q / FP.ulp q := by
    rw [le_div_iff₀ hu, hul]
    have := (FP.ilog2_spec hq).1
    push_cast
    calc (2 : ℚ) ^ 52 * (2 ^ FP.ilog2 q / 2 ^ 52) = 2 ^ FP.ilog2 q := by field_simp
      _ ≤ q := this
  have h4 := FP.rne_mono hge
  rw [FP.rne_int] at h4
  have h5 : ((2 ^ 52 : ℤ) : ℚ) ≤ FP.rne (q / FP.ulp q) := by exact_mod_cast h4
  have h6 : (2 : ℚ) ^ FP.ilog2 q ≤ FP.rne (q / FP.ulp q) * FP.ulp q := by
    calc (2 : ℚ) ^ FP.ilog2 q = ((2 ^ 52 : ℤ) : ℚ) * FP.ulp q := by rw [hul]; push_cast; field_simp; norm_num
        _ ≤ _ := by gcongr
  rw [FP.rndIeee_pos hq, if_pos]
  have h3 : (2 : ℚ) ^ (1024 : ℕ) = 2 ^ (1024 : ℤ) := (zpow_natCast 2 1024).symm
  rw [h3]
  exact (zpow_le_zpow_right₀ (by norm_num) hl).trans h6

theorem dblMax_eq : dblMax = (2 ^ 53 - 1) * 2 ^ 971 := by
  unfold dblMax
  rw [show (2 : ℚ) ^ 1023 = 2 ^ 52 * 2 ^ 971 by rw [← pow_add]]
  generalize (2 : ℚ) ^ 971 = t
  ring

theorem half_max : FP.rndIeee (1 / 2 * dblMax) = .fin (1 / 2 * dblMax) := by
  have e : (1 / 2 * dblMax : ℚ) = ((2 ^ 53 - 1 : ℤ) : ℚ) * (2 : ℚ) ^ (970 : ℤ) := by
    rw [dblMax_eq]
    rw [show (2 : ℚ) ^ (970 : ℤ) = 2 ^ 970 from zpow_natCast 2 970,
      show (2 : ℚ) ^ 971 = 2 ^ 970 * 2 from pow_succ 2 970]
    generalize (2 : ℚ) ^ 970 = t
    push_cast; ring
  rw [e]
  apply FP.rndIeee_exact (by norm_num) (by norm_num)
  rw [abs_of_pos (by positivity)]
  have h1 : (((2 ^ 53 - 1 : ℤ)) : ℚ) ≤ 2 ^ (53 : ℤ) := by norm_num
  calc (((2 ^ 53 - 1 : ℤ)) : ℚ) * (2 : ℚ) ^ (970 : ℤ) ≤ 2 ^ (53 : ℤ) * 2 ^ (970 : ℤ) := by gcongr
    _ = 2 ^ (1023 : ℤ) := by rw [← zpow_add₀ (by norm_num)]; norm_num
    _ < 2 ^ (1024 : ℤ) := zpow_lt_zpow_right₀ (by norm_num) (by norm_num)
    _ = 2 ^ 1024 := zpow_natCast 2 1024

theorem dblMax_ge : (2 : ℚ) ^ (1023 : ℤ) ≤ dblMax := by
  rw [dblMax_eq]
  calc (2 : ℚ) ^ (1023 : ℤ) = 2 ^ (52 : ℤ) * 2 ^ (971 : ℤ) := by rw [← zpow_add₀ (by norm_num)]; norm_num
    _ = 2 ^ 52 * 2 ^ 971 := by rw [show (2 : ℚ) ^ (971 : ℤ) = 2 ^ 971 from zpow_natCast 2 971]; congr 1
    _ ≤ _ := by
      apply mul_le_mul_of_nonneg_right _ (by positivity)
      norm_num

theorem sq_max : FP.rndIeee (1 / 2 * dblMax * dblMax) = .pinf := by
  apply ieee_big
  have h := dblMax_ge
  have h0 : (0 : ℚ) < 2 ^ (1023 : ℤ) := by positivity
  calc (2 : ℚ) ^ (1024 : ℤ) ≤ 2 ^ (2045 : ℤ) := zpow_le_zpow_right₀ (by norm_num) (by norm_num)
    _ = 2 ^ (-1 : ℤ) * 2 ^ (1023 : ℤ) * 2 ^ (1023 : ℤ) := by
      rw [← zpow_add₀ (by norm_num), ← zpow_add₀ (by norm_num)]; norm_num
    _ ≤ 1 / 2 * dblMax * dblMax := by
      have : (2 : ℚ) ^ (-1 : ℤ) = 1 / 2 := by norm_num
      rw [this]
      generalize (2 : ℚ) ^ (1023 : ℤ) = t at h h0
      exact mul_le_mul (by linarith) h h0.le (by linarith)

theorem dblMax_pos : 0 < dblMax := lt_of_lt_of_le (by positivity) dblMax_ge

theorem infOfSign_cases (s : ℚ) : FP.infOfSign s = .nan ∨ FP.infOfSign s = .pinf ∨ FP.infOfSign s = .ninf := by
  unfold FP.infOfSign
  split
  · exact .inl rfl
  · split
    · exact .inr (.inl rfl)
    · exact .inr (.inr rfl)

theorem mul_pinf (fp : FP) (a : Fl) : fp.mul a .pinf = .nan ∨ fp.mul a .pinf = .pinf ∨ fp.mul a .pinf = .ninf := by
  cases a
  case nan => exact .inl rfl
  all_goals exact infOfSign_cases _

/-- The refinement step from `±DBL_MAX` gives NaN. -/
theorem refine_max (sqrt : Fl → Fl) (lm : Libm) (atan1 x : Fl) (he : lm.exp .pinf = .pinf) (z : ℚ)
    (hz : z = dblMax ∨ z = -dblMax) : refine (FP.ieee sqrt) lm atan1 x (.fin z) = .nan := by
  have h1 : (FP.ieee sqrt).mul (.fin (1 / 2)) (.fin z) = .fin (1 / 2 * z) := by
    show FP.rndIeee (1 / 2 * z) = _
    rcases hz with h | h
    · rw [h]; exact half_max
    · rw [h, mul_neg, FP.rndIeee_neg, half_max]; rfl
  have h2 : (FP.ieee sqrt).mul (.fin (1 / 2 * z)) (.fin z) = .pinf := by
    show FP.rndIeee (1 / 2 * z * z) = _
    rcases hz with h | h
    · rw [h]; exact sq_max
    · rw [h, show (1 / 2 * -dblMax * -dblMax : ℚ) = 1 / 2 * dblMax * dblMax by ring]; exact sq_max
  have hz0 : (1 / 2 * z : ℚ) ≠ 0 := by
    have := dblMax_pos
    rcases hz with h | h <;> rw [h] <;> intro h' <;> linarith
  unfold refine
  simp only [h1, h2, he]
  generalize (FP.ieee sqrt).mul ((FP.ieee sqrt).mul ((FP.ieee sqrt).sub (cumNorm (FP.ieee sqrt) lm (Fl.fin z)) x)
    (sqrt2 (FP.ieee sqrt))) (sqrtPi (FP.ieee sqrt) atan1) = a
  have hs : FP.sgn (.fin (1 / 2 * z)) = 1 ∨ FP.sgn (.fin (1 / 2 * z)) = -1 := by
    simp only [FP.sgn, hz0, if_false]
    by_cases h : 0 < 1 / 2 * z <;> simp only [h, if_true, if_false] <;> simp
  rcases mul_pinf (FP.ieee sqrt) a with h | h | h <;> rw [h]
  · rfl
  · have : (FP.ieee sqrt).mul (.fin (1 / 2 * z)) .pinf = FP.infOfSign (FP.sgn (.fin (1 / 2 * z)) * 1) := rfl
    rw [this]
    rcases hs with h | h <;> rw [h] <;> norm_num [FP.infOfSign, FP.add, FP.div, FP.sub, FP.neg]
  · have : (FP.ieee sqrt).mul (.fin (1 / 2 * z)) .ninf = FP.infOfSign (FP.sgn (.fin (1 / 2 * z)) * -1) := rfl
    rw [this]
    rcases hs with h | h <;> rw [h] <;> norm_num [FP.infOfSign, FP.add, FP.div, FP.sub, FP.neg]

variable {fp : FP}

theorem xLow_fin (h : fp.Good) : ∃ a, xLow fp = .fin a ∧ 0 < a ∧ a < 1 / 2 := by
  obtain ⟨a, ha⟩ := h.finite ((2425 : ℚ) / 10 ^ 5) (by
    have h0 : (1 : ℚ) ≤ 2 ^ 1023 := one_le_pow₀ (by norm_num)
    refine le_trans ?_ h0
    norm_num [abs_of_pos])
  have h1 := h.dyadic 1 6 (by norm_num) (by norm_num)
  have h2 := h.dyadic 1 2 (by norm_num) (by norm_num)
  refine ⟨a, by unfold xLow lit; exact ha, ?_, ?_⟩
  · have := h.mono _ _ _ _ (by norm_num) h1 ha
    refine lt_of_lt_of_le ?_ this
    norm_num
  · have := h.mono _ _ _ _ (by norm_num) ha h2
    refine lt_of_le_of_lt this ?_
    norm_num

theorem xHigh_fin (h : fp.Good) : ∃ a, xHigh fp = .fin a ∧ 1 / 2 ≤ a ∧ a ≤ 1 := by
  obtain ⟨l, hl, h0, h1⟩ := xLow_fin h
  have e : xHigh fp = fp.rnd (1 - l) := by
    unfold xHigh; rw [hl]; show fp.rnd (1 + -l) = _; rw [sub_eq_add_neg]
  obtain ⟨a, ha⟩ := h.finite (1 - l) (by
    have h0' : (1 : ℚ) ≤ 2 ^ 1023 := one_le_pow₀ (by norm_num)
    refine le_trans ?_ h0'
    rw [abs_of_pos (by linarith)]; linarith)
  have e1 := h.dyadic 1 1 (by norm_num) (by norm_num)
  have e2 := h.dyadic 1 0 (by norm_num) (by norm_num)
  refine ⟨a, by rw [e, ha], ?_, ?_⟩
  · have := h.mono _ _ _ _ (by push_cast; linarith) e1 ha
    push_cast at this; linarith
  · have := h.mono _ _ _ _ (by push_cast; linarith) ha e2
    push_cast at this; linarith

theorem four_eps (h : fp.Good) : fp.mul (.fin 4) (.fin eps) = .fin (4 * eps) := by
  have := h.dyadic 4 52 (by norm_num) (by norm_num)
  show fp.rnd (4 * eps) = _
  rw [show (4 * eps : ℚ) = ((4 : ℤ) : ℚ) / 2 ^ 52 by unfold eps; push_cast; ring]
  exact this

theorem lit_fin (h : fp.Good) (m : ℤ) (k : ℕ) (hm : |(m : ℚ) / 10 ^ k| ≤ 1000) :
    ∃ a, lit fp m k = .fin a ∧ fp.rnd a = .fin a := by
  obtain ⟨a, ha⟩ := h.finite ((m : ℚ) / 10 ^ k) (by
    refine hm.trans ?_
    calc (1000 : ℚ) ≤ 2 ^ 10 := by norm_num
      _ ≤ 2 ^ 1023 := pow_le_pow_right₀ (by norm_num) (by norm_num))
  exact ⟨a, ha, h.idem _ _ ha⟩

/-- The value of a polynomial at 0 is its last coefficient. -/
theorem horner_zero (h : fp.Good) : ∀ (ks : List Fl) (k : Fl),
    (∀ c ∈ k :: ks, ∃ a, c = .fin a ∧ fp.rnd a = .fin a) →
    horner fp (k :: ks) (.fin 0) = (k :: ks).getLast (by simp) := by
  intro ks
  induction ks with
  | nil => intro k _; rfl
  | cons c ks ih =>
    intro k hk
    obtain ⟨a, ha, -⟩ := hk k (by simp)
    obtain ⟨b, hb, hb'⟩ := hk c (by simp)
    have z0 : fp.rnd 0 = .fin 0 := by
      have := h.dyadic 0 0 (by norm_num) (by norm_num)
      norm_num at this; exact this
    have e : fp.add (fp.mul k (.fin 0)) c = c := by
      have : fp.mul k (.fin 0) = .fin 0 := by
        rw [ha]; show fp.rnd (a * 0) = _; rw [mul_zero, z0]
      rw [this, hb]
      show fp.rnd (0 + b) = _
      rw [zero_add, hb']
    have := ih c (fun x hx => hk x (List.mem_cons_of_mem _ hx))
    show List.foldl _ (fp.add (fp.mul k (.fin 0)) c) ks = _
    rw [e, List.getLast_cons (by simp)]
    exact this

theorem horner_as_zero (h : fp.Good) : ∃ p, horner fp (as fp) (.fin 0) = .fin p := by
  unfold as
  rw [horner_zero h _ _ ?_]
  · obtain ⟨a, ha, -⟩ := lit_fin h 2506628277459239 15 (by norm_num [abs_div])
    exact ⟨a, ha⟩
  · intro c hc
    simp only [List.mem_cons, List.not_mem_nil, or_false] at hc
    rcases hc with rfl | rfl | rfl | rfl | rfl | rfl <;> exact lit_fin h _ _ (by norm_num [abs_div])

theorem horner_bs_zero (h : fp.Good) : horner fp (bs fp) (.fin 0) = .fin 1 := by
  unfold bs
  rw [horner_zero h _ _ ?_]
  · rfl
  · intro c hc
    simp only [List.mem_cons, List.not_mem_nil, or_false] at hc
    have o1 : fp.rnd 1 = .fin 1 := by
      have := h.dyadic 1 0 (by norm_num) (by norm_num)
      norm_num at this; exact this
    rcases hc with rfl | rfl | rfl | rfl | rfl | rfl
    case inr.inr.inr.inr.inr => exact ⟨1, rfl, o1⟩
    all_goals exact lit_fin h _ _ (by norm_num [abs_div])

end Normal
end HL

import Verif.Proof.StatLemmas
import Verif.Props.QIS
import Verif.Props.QISI
import Mathlib.Analysis.SpecialFunctions.Log.Basic
import Mathlib.Analysis.Complex.ExponentialBounds

/-
C52, C53: degrees of freedom, p-values, degeneracy.
-/

namespace HL
variable {fp : FP}

/-- The degrees of freedom of a table of sizes `s`: the product of the sizes less one. -/
def degreesOfFreedom (s : List Nat) : Int := (s.map (fun n : Nat => (n : Int) - 1)).prod

/-- **C28**, the p-value `qis` reports: that of its `chiSq` for the degrees of freedom of the table, reduced modulo 2^32, with the
failure flag dropped. -/
theorem C28_pValue (hfp : fp.Good) {lm : Libm} {s : List Nat} {P : Prob Int} {pop : Int} (h : ProbOK s P pop)
    (hpop : pop < 2 ^ 52) {skips : Int} {x : QIS} (hx : qis fp lm s P skips = .ok x) :
    x.pValue = (pValue fp lm (degreesOfFreedom s % 2 ^ 32).toNat x.chiSq).1 := by
  obtain ⟨c, vs, -, -, hs⟩ := run_ok hfp h hpop hx
  rw [hs.pValue, tablePValue, dof_eq]
  rfl

/-- **C28**, the same for `qisi`. -/
theorem C28_pValue_qisi (hfp : fp.Good) {lm : Libm} {s : List Nat} {P : Prob Int} {pop : Int} (h : ProbOK s P pop)
    (hpop : pop < 2 ^ 52) (hp : ProperProb s P) {sd : List Int → Fl} {skips : Int} {x : QISI}
    (hx : qisi fp lm s P sd skips = .ok x) :
    x.pValue = (pValue fp lm (degreesOfFreedom s % 2 ^ 32).toNat x.chiSq).1 := by
  obtain ⟨E, a, vs, hs⟩ := qisi_run_ok hfp h hpop hp hx
  rw [hs.pValue, tablePValue, dof_eq]
  rfl

theorem dof_one {s : List Nat} (h : 1 ∈ s) : degreesOfFreedom s = 0 := by
  unfold degreesOfFreedom
  rw [List.prod_eq_zero_iff]
  exact List.mem_map.mpr ⟨1, h, by norm_num⟩

theorem dof_mod_lt (s : List Nat) : (degreesOfFreedom s % 2 ^ 32).toNat < 2 ^ 32 := by
  have h1 := Int.emod_lt_of_pos (degreesOfFreedom s) (by norm_num : (0 : Int) < 2 ^ 32)
  have h2 := Int.emod_nonneg (degreesOfFreedom s) (by norm_num : (2 ^ 32 : Int) ≠ 0)
  omega

/-! ### C52 -/

/-- **C52**: for a table with a dimension of size one `qis` reports the p-value 1. -/
theorem C52_size_one (hfp : fp.Good) {lm : Libm} {s : List Nat} {P : Prob Int} {pop : Int} (h : ProbOK s P pop)
    (hpop : pop < 2 ^ 52) (h1 : 1 ∈ s) {skips : Int} {x : QIS} (hx : qis fp lm s P skips = .ok x) : x.pValue = .fin 1 := by
  rw [C28_pValue hfp h hpop hx, dof_one h1]
  exact congrArg Prod.fst (pValue_dof_zero hfp lm x.chiSq)

/-- **C52**, the same for `qisi`. -/
theorem C52_size_one_qisi (hfp : fp.Good) {lm : Libm} {s : List Nat} {P : Prob Int} {pop : Int} (h : ProbOK s P pop)
    (hpop : pop < 2 ^ 52) (hp : ProperProb s P) (h1 : 1 ∈ s) {sd : List Int → Fl} {skips : Int} {x : QISI}
    (hx : qisi fp lm s P sd skips = .ok x) : x.pValue = .fin 1 := by
  rw [C28_pValue_qisi hfp h hpop hp hx, dof_one h1]
  exact congrArg Prod.fst (pValue_dof_zero hfp lm x.chiSq)

/-- **C52**: when `chiSq` is 0 `qis` reports the p-value 1. -/
theorem C52_chiSq_zero (hfp : fp.Good) {lm : Libm} {s : List Nat} {P : Prob Int} {pop : Int} (h : ProbOK s P pop)
    (hpop : pop < 2 ^ 52) {skips : Int} {x : QIS} (hx : qis fp lm s P skips = .ok x) (h0 : x.chiSq = .fin 0) :
    x.pValue = .fin 1 := by
  rw [C28_pValue hfp h hpop hx, h0, pValue_chi_zero hfp lm _ (dof_mod_lt s)]

/-- **C52**, the same for `qisi`. -/
theorem C52_chiSq_zero_qisi (hfp : fp.Good) {lm : Libm} {s : List Nat} {P : Prob Int} {pop : Int} (h : ProbOK s P pop)
    (hpop : pop < 2 ^ 52) (hp : ProperProb s P) {sd : List Int → Fl} {skips : Int} {x : QISI}
    (hx : qisi fp lm s P sd skips = .ok x) (h0 : x.chiSq = .fin 0) : x.pValue = .fin 1 := by
  rw [C28_pValue_qisi hfp h hpop hp hx, h0, pValue_chi_zero hfp lm _ (dof_mod_lt s)]

/-- What the flag of the function behind it guarantees: it is only set for a positive number of degrees of freedom, a
statistic that is not NaN and whose half is not negative.  Partial: `qis` and `qisi` do not pass the flag on
(`C52_negation_dropped`). -/
theorem C52_flag_partial (hfp : fp.Good) {lm : Libm} {n : Nat} {x p : Fl} (h : pValue fp lm n x = (p, true)) :
    0 < n ∧ x ≠ .nan ∧ FP.lt (fp.div x (.fin 2)) (.fin 0) = false := by
  refine ⟨?_, ?_, ?_⟩
  · rcases Nat.eq_zero_or_pos n with rfl | h0
    · rw [pValue_dof_zero hfp] at h; simp at h
    · exact h0
  · rintro rfl
    rw [pValue_nan hfp] at h; simp at h
  · by_contra hc
    rw [Bool.not_eq_false] at hc
    unfold pValue gamain at h
    rw [if_pos hc] at h
    split at h <;> simp at h

/-- **C52 is false**: the evaluation of the p-value of a table with a dimension of size one fails (error flag set), whatever
the statistic, and yet the 1 that `C52_size_one` shows is what is reported, with nothing to tell it from a valid one. -/
theorem C52_negation_dropped (hfp : fp.Good) (lm : Libm) {s : List Nat} (h1 : 1 ∈ s) (x : Fl) :
    (pValue fp lm (degreesOfFreedom s % 2 ^ 32).toNat x).2 = false := by
  rw [dof_one h1]
  exact congrArg Prod.snd (pValue_dof_zero hfp lm x)

/-- **C52 is false** for large tables: a 65537 by 65537 table has 2^32 degrees of freedom, which the conversion to an
unsigned 32-bit number turns into none: the p-value reported is 1 whatever the statistic. -/
theorem C52_negation_truncated (hfp : fp.Good) (lm : Libm) (x : Fl) :
    degreesOfFreedom [65537, 65537] = 2 ^ 32 ∧
      pValue fp lm (degreesOfFreedom [65537, 65537] % 2 ^ 32).toNat x = (.fin 1, false) := by
  have h : degreesOfFreedom [65537, 65537] = 2 ^ 32 := by norm_num [degreesOfFreedom]
  refine ⟨h, ?_⟩
  rw [h]
  exact pValue_dof_zero hfp lm x

theorem near_le (hfp : fp.Good) {q b : ℚ} (hb : |b| ≤ 2 ^ 53) {z : ℤ} (hz : b = z) (h : q ≤ b) (hq : |q| ≤ 2 ^ 1023) :
    ∃ a, fp.rnd q = .fin a ∧ a ≤ b := by
  obtain ⟨a, ha⟩ := hfp.finite q hq
  refine ⟨a, ha, hfp.mono q b a b h ha ?_⟩
  subst hz
  have := hfp.dyadic z 0 (by exact_mod_cast hb) (by norm_num)
  simpa using this

theorem log_hundred : Real.log 100 < 5 := by
  rw [Real.log_lt_iff_lt_exp (by norm_num)]
  have h : Real.exp 5 = Real.exp 1 ^ 5 := by rw [← Real.exp_nat_mul]; norm_num
  rw [h]
  calc (100 : ℝ) < 2.718 ^ 5 := by norm_num
    _ ≤ Real.exp 1 ^ 5 := by
      gcongr
      linarith [Real.exp_one_gt_d9]

theorem log_ten : Real.log 10 < 2.4 := by
  have h5 : 5 * Real.log 10 < 12 := by
    rw [← Real.log_rpow (by norm_num), Real.log_lt_iff_lt_exp (by positivity)]
    have h : Real.exp 12 = Real.exp 1 ^ 12 := by rw [← Real.exp_nat_mul]; norm_num
    rw [h]
    calc (10 : ℝ) ^ (5 : ℝ) = 10 ^ 5 := by norm_cast
      _ < 2.7 ^ 12 := by norm_num
      _ ≤ Real.exp 1 ^ 12 := by
        gcongr
        linarith [Real.exp_one_gt_d9]
  linarith

theorem small_le_big {x : ℚ} (h : x ≤ 1000) : x ≤ 2 ^ 1023 := by
  have : (1000 : ℚ) ≤ 2 ^ 1023 := by
    calc (1000 : ℚ) ≤ 2 ^ 10 := by norm_num
      _ ≤ 2 ^ 1023 := pow_le_pow_right₀ (by norm_num) (by norm_num)
  exact le_trans h this

/-- **C52 is false** for bad fits: with 2 degrees of freedom (a 2 by 3 table) and a statistic of 200, for which the
p-value is e^-100, the evaluation underflows and 1, a perfect fit, is reported; this for every mathematics library whose
`log` and `lgamma` are correct to within 1/2. -/
theorem C52_negation_underflow (hfp : fp.Good) (lm : Libm) {l g u : ℚ}
    (hl : lm.log (.fin 100) = .fin l) (hl' : |(l : ℝ) - Real.log 100| ≤ 1 / 2)
    (hg : lm.lgamma (.fin 1) = .fin g) (hg' : |g| ≤ 1 / 2)
    (hu : lm.log (fp.rnd (1 / 10 ^ 37)) = .fin u) (hu' : |(u : ℝ) - Real.log (1 / 10 ^ 37)| ≤ 1 / 2) :
    degreesOfFreedom [2, 3] = 2 ∧ pValue fp lm (degreesOfFreedom [2, 3] % 2 ^ 32).toNat (.fin 200) = (.fin 1, false) := by
  have hd : degreesOfFreedom [2, 3] = 2 := by norm_num [degreesOfFreedom]
  refine ⟨hd, ?_⟩
  rw [hd]
  have hl6 : l ≤ 6 := by
    have h1 := (abs_le.mp hl').2
    have h2 := log_hundred
    have : (l : ℝ) ≤ 6 := by linarith
    exact_mod_cast this
  have hl0 : -1 ≤ l := by
    have h1 := (abs_le.mp hl').1
    have h2 : (0 : ℝ) ≤ Real.log 100 := Real.log_nonneg (by norm_num)
    have : (-1 : ℝ) ≤ l := by linarith
    exact_mod_cast this
  have hu90 : -90 ≤ u := by
    have h1 := (abs_le.mp hu').1
    have h2 := log_ten
    have h3 : Real.log (1 / 10 ^ 37) = -(37 * Real.log 10) := by
      rw [one_div, Real.log_inv, Real.log_pow]; norm_num
    rw [h3] at h1
    have : (-90 : ℝ) ≤ u := by linarith
    exact_mod_cast this
  have hg1 := abs_le.mp hg'
  have e1 : fp.div (.fin 200) (.fin 2) = .fin 100 := by
    show (if (2 : ℚ) = 0 then FP.infOfSign 200 else fp.rnd (200 / 2)) = _
    rw [if_neg (by norm_num)]
    have := rnd_int hfp (t := 100) (by norm_num)
    norm_num at this ⊢
    exact this
  obtain ⟨a, ha, ha'⟩ := near_le hfp (q := 1 * l) (b := 6) (by norm_num [abs_of_pos]) (z := 6) (by norm_num) (by linarith)
    (small_le_big (abs_le.mpr ⟨by linarith, by linarith⟩))
  obtain ⟨a0, ha0⟩ : ∃ a0, fp.rnd (-1 : ℚ) = .fin a0 ∧ a0 = -1 := by
    have := rnd_int hfp (t := -1) (by norm_num)
    exact ⟨-1, by simpa using this, rfl⟩
  have hage : -1 ≤ a := by
    have := hfp.mono (-1) (1 * l) a0 a (by linarith) ha0.1 ha
    rw [ha0.2] at this; exact this
  obtain ⟨b, hb, hb'⟩ := near_le hfp (q := a + -100) (b := -94) (by norm_num [abs_of_neg]) (z := -94) (by norm_num) (by linarith)
    (small_le_big (abs_le.mpr ⟨by linarith, by linarith⟩))
  have hbge : -101 ≤ b := by
    have h1 : fp.rnd (-101 : ℚ) = .fin (-101) := by
      have := rnd_int hfp (t := -101) (by norm_num)
      norm_num at this ⊢
      exact this
    exact hfp.mono (-101) (a + -100) _ b (by linarith) h1 hb
  obtain ⟨c, hc, hc'⟩ := near_le hfp (q := b + -g) (b := -93) (by norm_num [abs_of_neg]) (z := -93) (by norm_num) (by linarith [hg1.1])
    (small_le_big (abs_le.mpr ⟨by linarith [hg1.2], by linarith [hg1.1]⟩))
  have e2 : ((2 : Int) % 2 ^ 32).toNat = 2 := by decide
  rw [e2]
  refine pValue_underflow hfp lm (by norm_num) (by norm_num) e1 (by norm_num) ?_
  have e3 : ((2 : Nat) : ℚ) / 2 = 1 := by norm_num
  have h1 : fp.mul (.fin 1) (.fin l) = .fin a := ha
  have h2 : fp.sub (.fin a) (.fin 100) = .fin b := hb
  have h3 : fp.sub (.fin b) (.fin g) = .fin c := hc
  rw [e3, hl, hg, h1, h2, h3]
  unfold Gamain.loguflo
  rw [hu]
  exact decide_eq_true (by linarith)

/-- A table with a dimension of size one: `[3]` along the first and `[1, 2]` along the second. -/
def oneProb : Prob Int := [([0], fun _ => 3), ([1], fun j => 1 + j.getD 0 0)]

theorem oneProb_ok : ProbOK [1, 2] oneProb 3 where
  lists := by decide
  two := by decide
  pos := by decide
  dims := by simp [oneProb]
  cover := by
    intro d hd
    simp only [List.length_cons, List.length_nil] at hd
    interval_cases d <;> simp [oneProb]
  nonneg := by
    intro p hp j hj
    simp only [oneProb, List.mem_cons, List.not_mem_nil, or_false] at hp
    rcases hp with rfl | rfl
    · norm_num
    · have := inRange_getD hj (d := 0) (by simp [projSizes])
      simp only; omega
  total := by
    intro p hp
    simp only [oneProb, List.mem_cons, List.not_mem_nil, or_false] at hp
    rcases hp with rfl | rfl <;> decide
  partials := by
    intro p hp q hq a b d ha hb x _
    simp only [oneProb, List.mem_cons, List.not_mem_nil, or_false] at hp hq
    rcases hp with rfl | rfl <;> rcases hq with rfl | rfl
    all_goals
      rw [List.getElem?_singleton] at ha hb
      split at ha <;> split at hb <;> simp_all
    all_goals omega

/-- The hypotheses of `C52_size_one` are met. -/
example (hfp : fp.Good) (lm : Libm) : ∃ x, qis fp lm [1, 2] oneProb 0 = .ok x ∧ x.pValue = .fin 1 := by
  obtain ⟨x, hx, -⟩ := C23_tree hfp lm oneProb_ok (by norm_num) (by exact exProb_tree) (by simp) (skips := 0) (by norm_num) (by norm_num)
  exact ⟨x, hx, C52_size_one hfp oneProb_ok (by norm_num) (by decide) hx⟩

/-! ### C53 -/

/-- **C53**, what `degeneracy` computes instead, with a mathematics library whose gamma function is exact on integers and
exact arithmetic: the factorial of the number of cells (not of individuals) over the product of the factorials of the cell
counts plus one (not of the counts). -/
theorem C53_negation (lm : Libm) (hlm : ∀ n : Nat, lm.tgamma (.fin ((n : ℚ) + 1)) = .fin (n.factorial : ℚ)) {s : List Nat}
    (hg : GoodShape s) {f : List Int → Int} (hf : ∀ v, InRange s v → 0 ≤ f v) :
    degeneracy FP.exact lm (arr s f) =
      .ok (.fin (((cells s).card.factorial : ℚ) / ∏ v ∈ cells s, (((f v + 1).toNat.factorial : Nat) : ℚ))) := by
  rw [degeneracy_eq lm hg, degeneracy_exact lm hlm hf]
  have : (cells s).card = prodSizes s := by
    unfold cells
    rw [List.toFinset_card_of_nodup (nodup_allIdx s), length_allIdx]
  rw [this]

/-- The documented value: the factorial of the number of individuals over the product of the factorials of the counts. -/
def documentedDegeneracy (s : List Nat) (f : List Int → Int) : ℚ :=
  ((∑ v ∈ cells s, f v).toNat.factorial : ℚ) / ∏ v ∈ cells s, (((f v).toNat.factorial : Nat) : ℚ)

/-- **C53 is false**: for one individual in each of two cells, which can be arranged in 2 ways, `degeneracy` gives 1/2. -/
theorem C53_negation_witness (lm : Libm) (hlm : ∀ n : Nat, lm.tgamma (.fin ((n : ℚ) + 1)) = .fin (n.factorial : ℚ)) :
    documentedDegeneracy [2, 1] (fun _ => 1) = 2 ∧ degeneracy FP.exact lm (arr [2, 1] (fun _ => 1)) = .ok (.fin (1 / 2)) := by
  have hc : (cells [2, 1]).card = 2 := by decide
  refine ⟨?_, ?_⟩
  · unfold documentedDegeneracy
    rw [Finset.sum_const, Finset.prod_const, hc, show ((2 : Nat) • (1 : Int)).toNat = 2 by decide, show (1 : Int).toNat = 1 by decide]
    norm_num [Nat.factorial]
  · rw [C53_negation lm hlm ⟨by simp, by simp⟩ (by simp), hc, Finset.prod_const, hc, show (1 + 1 : Int).toNat = 2 by decide]
    norm_num [Nat.factorial]

end HL

import Verif.Proof.QISMore
import Verif.Proof.QISISolve
import Mathlib.Data.Nat.Factorial.Basic

/-
Lemmas about the statistics functions.
-/

namespace HL
variable {fp : FP}

theorem dof_eq (s : List Nat) : dof s = (s.map (fun n : Nat => (n : Int) - 1)).prod := by
  induction s with
  | nil => rfl
  | cons n s ih => simp [dof, ih]

theorem sub_one_zero (hfp : fp.Good) : fp.sub (.fin 1) (.fin 0) = .fin 1 := by
  show fp.rnd (1 + -0) = _
  have := rnd_int hfp (t := 1) (by norm_num)
  simpa using this

theorem zero_rnd (hfp : fp.Good) : fp.rnd 0 = .fin 0 := by
  have := rnd_int hfp (t := 0) (by norm_num)
  simpa using this

/-- no degrees of freedom: whatever the statistic, the value is 1 and flagged as unreliable -/
theorem pValue_dof_zero (hfp : fp.Good) (lm : Libm) (x : Fl) : pValue fp lm 0 x = (.fin 1, false) := by
  have h0 : fp.mul (fp.ofInt ((0 : Nat) : Int)) (.fin (1 / 2)) = .fin 0 := by
    unfold FP.ofInt
    simp only [Nat.cast_zero, Int.cast_zero, zero_rnd hfp]
    show fp.rnd (0 * (1 / 2)) = _
    rw [zero_mul, zero_rnd hfp]
  unfold pValue
  rw [h0]
  have : gamain fp lm (fp.div x (.fin 2)) (.fin 0) = (.fin 0, 1) := by
    unfold gamain
    rw [if_pos (by decide)]
  simp only [this, sub_one_zero hfp]
  rfl

/-- a positive, representable number of degrees of freedom: half of it is exact -/
theorem half_dof (hfp : fp.Good) {n : Nat} (h : n < 2 ^ 32) : fp.mul (fp.ofInt (n : Int)) (.fin (1 / 2)) = .fin ((n : ℚ) / 2) := by
  have hn : |(n : Int)| ≤ 2 ^ 53 := by
    rw [abs_of_nonneg (by positivity)]
    have : (n : Int) < 2 ^ 32 := by exact_mod_cast h
    linarith [(by norm_num : (2 : Int) ^ 32 ≤ 2 ^ 53)]
  have h1 : fp.ofInt (n : Int) = .fin (n : ℚ) := by
    have := hfp.dyadic n 0 hn (by norm_num)
    unfold FP.ofInt
    simpa using this
  rw [h1]
  show fp.rnd ((n : ℚ) * (1 / 2)) = _
  have := hfp.dyadic n 1 hn (by norm_num)
  have e : ((n : Int) : ℚ) / 2 ^ 1 = (n : ℚ) / 2 := by push_cast; ring
  rw [e] at this
  rw [show (n : ℚ) * (1 / 2) = (n : ℚ) / 2 by ring, this]

theorem zero_half (hfp : fp.Good) : fp.div (.fin 0) (.fin 2) = .fin 0 := by
  show (if (2 : ℚ) = 0 then FP.infOfSign 0 else fp.rnd (0 / 2)) = _
  rw [if_neg (by norm_num), zero_div, zero_rnd hfp]

theorem pValue_chi_zero (hfp : fp.Good) (lm : Libm) (n : Nat) (h : n < 2 ^ 32) :
    pValue fp lm n (.fin 0) = (.fin 1, decide (0 < n)) := by
  rcases Nat.eq_zero_or_pos n with rfl | h0
  · rw [pValue_dof_zero hfp]; rfl
  unfold pValue
  rw [half_dof hfp h, zero_half hfp]
  have hn : (0 : ℚ) < n / 2 := by positivity
  have : gamain fp lm (.fin 0) (.fin ((n : ℚ) / 2)) = (.fin 0, 0) := by
    unfold gamain
    have e1 : FP.le (.fin ((n : ℚ) / 2)) (.fin 0) = false := decide_eq_false (not_le.mpr hn)
    rw [e1]
    rfl
  simp only [this, sub_one_zero hfp, h0, decide_true]

/-- the underflow branch -/
theorem pValue_underflow (hfp : fp.Good) (lm : Libm) {n : Nat} (h0 : 0 < n) (h : n < 2 ^ 32) {x y : ℚ} (hx : fp.div (.fin x) (.fin 2) = .fin y)
    (hy : 0 < y)
    (hu : FP.lt (fp.sub (fp.sub (fp.mul (.fin ((n : ℚ) / 2)) (lm.log (.fin y))) (.fin y)) (lm.lgamma (.fin ((n : ℚ) / 2))))
      (Gamain.loguflo fp lm) = true) : pValue fp lm n (.fin x) = (.fin 1, false) := by
  unfold pValue
  rw [half_dof hfp h, hx]
  have hn : (0 : ℚ) < n / 2 := by positivity
  have : gamain fp lm (.fin y) (.fin ((n : ℚ) / 2)) = (.fin 0, 3) := by
    unfold gamain
    have e1 : FP.le (.fin ((n : ℚ) / 2)) (.fin 0) = false := decide_eq_false (not_le.mpr hn)
    have e2 : FP.lt (.fin y) (.fin 0) = false := decide_eq_false (not_lt.mpr hy.le)
    have e3 : FP.feq (.fin y) (.fin 0) = false := by unfold FP.feq; simp [hy.ne']
    rw [e1, e2, e3]
    simp only [Bool.false_eq_true, if_false, hu, if_true]
  simp only [this, sub_one_zero hfp]
  rfl

/-- the sum over the cells counting down, in exact arithmetic -/
theorem degeneracy_fold (lm : Libm) (hlm : ∀ n : Nat, lm.tgamma (.fin ((n : ℚ) + 1)) = .fin (n.factorial : ℚ)) (f : List Int → Int) :
    ∀ (L : List (List Int)), (∀ v ∈ L, 0 ≤ f v) → ∀ (r : ℚ),
    L.foldl (fun (t : Fl × Fl) v => (FP.exact.mul t.1 (FP.exact.div t.2 (factorial FP.exact lm (f v + 1))), FP.exact.sub t.2 (.fin 1)))
      (.fin r, .fin (L.length : ℚ)) =
      (.fin (r * (L.length.factorial : ℚ) / (L.map (fun v => (((f v + 1).toNat.factorial : Nat) : ℚ))).prod), .fin 0) := by
  intro L
  induction L with
  | nil => intro _ r; simp
  | cons v L ih =>
    intro hf r
    rw [List.foldl_cons]
    have hv := hf v (by simp)
    have h1 : factorial FP.exact lm (f v + 1) = .fin (((f v + 1).toNat.factorial : Nat) : ℚ) := by
      unfold factorial FP.ofInt
      rw [← hlm]
      congr 1
      show Fl.fin _ = Fl.fin _
      congr 1
      rw [Int.cast_add, Int.cast_one]
      congr 1
      have : ((f v + 1).toNat : Int) = f v + 1 := Int.toNat_of_nonneg (by omega)
      rw [← this]; push_cast; rw [Int.toNat_natCast]
    have hne : (((f v + 1).toNat.factorial : Nat) : ℚ) ≠ 0 := by exact_mod_cast (Nat.factorial_pos _).ne'
    have h2 : FP.exact.mul (.fin r) (FP.exact.div (.fin ((v :: L).length : ℚ)) (factorial FP.exact lm (f v + 1))) =
        .fin (r * (((v :: L).length : ℚ) / (((f v + 1).toNat.factorial : Nat) : ℚ))) := by
      rw [h1]
      have : FP.exact.div (.fin ((v :: L).length : ℚ)) (.fin (((f v + 1).toNat.factorial : Nat) : ℚ)) =
          .fin (((v :: L).length : ℚ) / (((f v + 1).toNat.factorial : Nat) : ℚ)) := by
        show (if _ then FP.infOfSign _ else _) = _
        rw [if_neg hne]; rfl
      rw [this]
      rfl
    have h3 : FP.exact.sub (.fin ((v :: L).length : ℚ)) (.fin 1) = .fin (L.length : ℚ) := by
      show Fl.fin _ = Fl.fin _
      congr 1
      simp
    rw [h2, h3, ih (fun w hw => hf w (by simp [hw]))]
    congr 2
    rw [List.map_cons, List.prod_cons, List.length_cons, Nat.factorial_succ]
    push_cast
    field_simp

theorem degeneracy_exact (lm : Libm) (hlm : ∀ n : Nat, lm.tgamma (.fin ((n : ℚ) + 1)) = .fin (n.factorial : ℚ)) {s : List Nat} {f : List Int → Int}
    (hf : ∀ v, InRange s v → 0 ≤ f v) :
    degeneracyVal FP.exact lm s f = .fin (((prodSizes s).factorial : ℚ) / ∏ v ∈ cells s, (((f v + 1).toNat.factorial : Nat) : ℚ)) := by
  have h := degeneracy_fold lm hlm f (allIdx s) (fun v hv => hf v (mem_allIdx.mp hv)) 1
  unfold degeneracyVal
  have e : FP.exact.ofInt (prodSizes s) = .fin ((allIdx s).length : ℚ) := by
    show Fl.fin _ = Fl.fin _
    rw [length_allIdx]; simp
  rw [e, h, one_mul, length_allIdx]
  congr 2
  unfold cells
  rw [List.prod_toFinset _ (nodup_allIdx s)]

end HL

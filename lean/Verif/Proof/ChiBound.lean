import Verif.Proof.QISRound
import Verif.Proof.SumRound
import Verif.Proof.QISMore
import Verif.Proof.IPFAlgebra
import Verif.Proof.QISISolve

/-
The chi-squared statistic of a table of counts and a table of positive expectations, in exact and in rounded arithmetic.
-/

namespace HL
open Integerise
variable {fp : FP}

theorem chiSqVal_exact {s : List Nat} {f : List Int → Int} {E : List Int → Fl} {e : List Int → ℚ}
    (hE : ∀ v, InRange s v → E v = .fin (e v)) (h0 : ∀ v, InRange s v → e v ≠ 0) :
    chiSqVal FP.exact s f E = .fin (∑ v ∈ cells s, (f v - e v) ^ 2 / e v) := by
  unfold chiSqVal
  rw [foldl_exact _ (fun v => ((f v : ℚ) - e v) ^ 2 / e v), zero_add, sum_allIdx]
  intro v hv
  have hv := mem_allIdx.mp hv
  rw [hE v hv, pow_two, sub_eq_add_neg]
  show (if _ then _ else _) = _
  rw [if_neg (h0 v hv)]
  rfl

/-- Every rounding: with expectations between `2^-804` and `2^53`, one rounding for each cell and four more. -/
theorem chiSqVal_bound (hfp : fp.Good) {s : List Nat} {f : List Int → Int} {F : List Int → Fl} {E : List Int → ℚ}
    (hF : ∀ v, InRange s v → F v = .fin (E v)) (hf0 : ∀ v, 0 ≤ f v) (hf : ∀ v, f v ≤ 2 ^ 52)
    (hlo : ∀ v, InRange s v → 1 ≤ E v * (bigQ * 16)) (hEp : ∀ v, InRange s v → 0 < E v) (hhi : ∀ v, InRange s v → E v ≤ 2 ^ 53)
    (hsz : prodSizes s + 4 ≤ 2 ^ 52) :
    ∃ c, chiSqVal fp s f F = .fin c ∧ 0 ≤ c ∧ ∀ X : ℚ, X = ∑ v ∈ cells s, (f v - E v) ^ 2 / E v →
        (1 - (prodSizes s + 4) / 2 ^ 53) * X - 1 / 2 ^ 80 ≤ c ∧ (1 - (prodSizes s + 4) / 2 ^ 53) * c - 1 / 2 ^ 80 ≤ X := by
  have hN : (allIdx s).length = prodSizes s := length_allIdx s
  have ht := tinyQ_pos
  have hb := bigQ_pos
  have hb1 := big_one
  have hNq : (prodSizes s : ℚ) ≤ 2 ^ 52 := by exact_mod_cast (show prodSizes s ≤ 2 ^ 52 by omega)
  have hN0 : (0 : ℚ) ≤ prodSizes s := by positivity
  have htb : tinyQ * bigQ * 2 ^ 200 ≤ 1 := by have := big_tiny; rw [← mul_assoc] at this; exact this
  have htb0 : 0 < tinyQ * bigQ := mul_pos ht hb
  have ht2 : tinyQ ≤ tinyQ * bigQ := by nlinarith
  set η := tinyQ * bigQ * 2 ^ 64 with hη
  have hη0 : 0 ≤ η := by positivity
  have herr : (prodSizes s : ℚ) * (η + 2 * tinyQ) ≤ 1 / 2 ^ 80 := by
    have h1 : η + 2 * tinyQ ≤ tinyQ * bigQ * 2 ^ 65 := by rw [hη]; linarith
    calc (prodSizes s : ℚ) * (η + 2 * tinyQ) ≤ 2 ^ 52 * (tinyQ * bigQ * 2 ^ 65) :=
          mul_le_mul hNq h1 (by positivity) (by norm_num)
      _ = tinyQ * bigQ * 2 ^ 200 / 2 ^ 83 := by ring
      _ ≤ 1 / 2 ^ 83 := by gcongr
      _ ≤ 1 / 2 ^ 80 := by norm_num
  obtain ⟨r, hr1, hr0, hr2⟩ := chi_fold (y := fun v => ((f v : ℚ) - E v) ^ 2 / E v) hfp hη0 (allIdx s) 4 0 0 0 (by
      intro v hv
      have hv := mem_allIdx.mp hv
      obtain ⟨t, t1, t2, t3, t4⟩ := chi_term hfp (hf0 v) (hf v) (hlo v hv) (hEp v hv).le (hhi v hv)
      exact ⟨t, t1, t2, t3, by have := hEp v hv; positivity, t4⟩) le_rfl (by omega) (by simp [RelA]) le_rfl le_rfl le_rfl (by
      rw [hN]
      have h1 : bigQ * 2 ^ 112 + η + 2 * tinyQ ≤ bigQ * 2 ^ 113 := by
        have : η + 2 * tinyQ ≤ 1 := by
          have h1 : η + 2 * tinyQ ≤ tinyQ * bigQ * 2 ^ 65 := by rw [hη]; linarith
          refine h1.trans (le_trans ?_ htb)
          exact mul_le_mul_of_nonneg_left (by norm_num) htb0.le
        linarith
      rw [zero_add, zero_add]
      calc (prodSizes s : ℚ) * (bigQ * 2 ^ 112 + η + 2 * tinyQ) ≤ 2 ^ 52 * (bigQ * 2 ^ 113) :=
            mul_le_mul hNq h1 (by positivity) (by norm_num)
        _ = bigQ * 2 ^ 165 := by ring
        _ ≤ _ := mul_le_mul_of_nonneg_left (by norm_num) hb.le)
  rw [hN, zero_add, zero_add, sum_allIdx] at hr2
  refine ⟨r, ?_, hr0, ?_⟩
  · rw [← hr1]
    unfold chiSqVal
    apply List.foldl_ext
    intro a v hv
    rw [hF v (mem_allIdx.mp hv)]
  · intro X hX
    have hX0 : 0 ≤ X := by
      rw [hX]
      exact Finset.sum_nonneg fun v hv => by have := hEp v (mem_cells.mp hv); positivity
    rw [← hX] at hr2
    have hlow : (1 - (prodSizes s + 4) / 2 ^ 53 : ℚ) ≤ uu ^ (4 + prodSizes s) := by
      have := uu_pow_ge (4 + prodSizes s)
      push_cast at this
      linarith
    have h1 := mul_le_mul_of_nonneg_right hlow hX0
    have h2 := mul_le_mul_of_nonneg_right hlow hr0
    exact ⟨by linarith [hr2.1], by linarith [hr2.2]⟩

/-! ### Zero marginals in a fit -/

theorem mul_zero_right {fp : FP} (h0 : fp.rnd 0 = .fin 0) (x : Fl) : ZeroNan (fp.mul x (.fin 0)) := by
  cases x with
  | fin q => left; show fp.rnd (q * 0) = _; rw [mul_zero, h0]
  | pinf => right; simp [FP.mul, FP.infOfSign, FP.sgn]
  | ninf => right; simp [FP.mul, FP.infOfSign, FP.sgn]
  | nan => right; rfl

theorem div_zero_left {fp : FP} (h0 : fp.rnd 0 = .fin 0) (x : Fl) : ZeroNan (fp.div (.fin 0) x) := by
  cases x with
  | fin q =>
    show ZeroNan (if _ then _ else _)
    split
    · right; simp [FP.infOfSign]
    · left; rw [zero_div, h0]
  | pinf => left; rfl
  | ninf => left; rfl
  | nan => right; rfl

theorem scaled_zero_marginal {fp : FP} (h0 : fp.rnd 0 = .fin 0) (N : Num α) {s ds : List Nat} {m : List Int → α}
    {a : List Int → Fl} {v : List Int} (h : N.toFl (m (proj ds v)) = .fin 0) : ZeroNan (scaled fp N s ds m a v) := by
  unfold scaled
  split
  · exact Or.inl rfl
  · rw [h]
    rcases div_zero_left h0 (fsum fp s ds a (proj ds v)) with h1 | h1 <;> rw [h1]
    · exact mul_zero_right h0 _
    · right; cases a v <;> rfl

theorem sweep_zero_marginal {fp : FP} (h0 : fp.rnd 0 = .fin 0) (N : Num α) {s : List Nat} {v : List Int} : ∀ (P : Prob α)
    {a : List Int → Fl}, (∃ p ∈ P, N.toFl (p.2 (proj p.1 v)) = .fin 0) → ZeroNan (sweep fp N s P a v)
  | [], _, h => by simp at h
  | p :: P, a, h => by
    show ZeroNan (sweep fp N s P (scaled fp N s p.1 p.2 a) v)
    obtain ⟨q, hq, hz⟩ := h
    rcases List.mem_cons.mp hq with rfl | hq
    · exact sweep_zeroNan h0 N P (scaled_zero_marginal h0 N hz)
    · exact sweep_zero_marginal h0 N P ⟨q, hq, hz⟩

/-- a fit is zero (or NaN) wherever a marginal is -/
theorem fit_zero_marginal (hfp : fp.Good) {s : List Nat} {Q : Prob Int} (hQ : ProbShape s Q) (hp : ProperProb s Q)
    {sd c : List Int → Fl} (hf : Fit fp s Q sd c) {v : List Int} (hv : InRange s v) (hz : ∃ p ∈ Q, p.2 (proj p.1 v) = 0) :
    c v = .fin 0 ∨ c v = .nan := by
  obtain ⟨r, hr, ha⟩ := hf
  obtain ⟨pop, n, hok, h1, -, -, -, rfl⟩ := ipf_run fp _ (minOK_int fp) hQ hp sd hr
  have ha' : arr s ((sweep fp (numInt fp) s Q)^[n] sd) = arr s c := ha
  rw [← arr_inj ha' v hv]
  obtain ⟨n, rfl⟩ : ∃ k, n = k + 1 := ⟨n - 1, by omega⟩
  rw [Function.iterate_succ_apply']
  have h0 : fp.rnd 0 = .fin 0 := rnd0 hfp
  apply sweep_zero_marginal h0
  obtain ⟨p, hp, hz⟩ := hz
  refine ⟨p, hp, ?_⟩
  rw [hz]
  show fp.ofInt 0 = _
  rw [ofInt_exact hfp (by norm_num), Int.cast_zero]

/-! ### Positive fits -/

theorem qscaled_pos {s ds : List Nat} (hd : ∀ d ∈ ds, d < s.length) {m b : List Int → ℚ}
    (hm : ∀ j, InRange (projSizes ds s) j → 0 < m j) (h : ∀ v, InRange s v → 0 < b v) :
    ∀ v, InRange s v → 0 < qscaled s ds m b v := by
  intro v hv
  have hs : 0 < marginalSum s ds b (proj ds v) := by
    apply Finset.sum_pos (fun w hw => h w (mem_cells.mp (Finset.mem_filter.mp hw).1))
    exact ⟨v, Finset.mem_filter.mpr ⟨mem_cells.mpr hv, rfl⟩⟩
  unfold qscaled
  rw [if_neg hs.ne']
  exact mul_pos (h v hv) (div_pos (hm _ (inRange_proj hd hv)) hs)

theorem qsweep_pos {s : List Nat} : ∀ (Q : Prob ℚ), (∀ q ∈ Q, ∀ d ∈ q.1, d < s.length) →
    (∀ q ∈ Q, ∀ j, InRange (projSizes q.1 s) j → 0 < q.2 j) → ∀ {b : List Int → ℚ}, (∀ v, InRange s v → 0 < b v) →
    ∀ v, InRange s v → 0 < qsweep s Q b v
  | [], _, _, _, h => h
  | q :: Q, hd, hm, b, h => qsweep_pos Q (fun q' hq' => hd q' (by simp [hq'])) (fun q' hq' => hm q' (by simp [hq']))
      (qscaled_pos (hd q (by simp)) (hm q (by simp)) h)

end HL

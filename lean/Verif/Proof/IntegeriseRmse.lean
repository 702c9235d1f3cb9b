import Verif.Proof.IntegeriseVector
import Verif.Proof.IntegeriseLargest
import Verif.Proof.ChiBound
import Verif.Proof.IntDouble

/-
The sum of squares computed by `integerise`, in exact and in rounded arithmetic.
-/

namespace HL
namespace Integerise
variable {fp : FP}

/-- the sum of squares as it is computed -/
theorem sqErr_eq {s : List Nat} (hg : GoodShape s) (f : List Int → Int) (a : List Int → Fl) :
    sqErr fp (arr s f) (arr s a) = .ok ((allIdx s).foldl (fun acc v =>
      fp.add acc (fp.mul (fp.sub (fp.ofInt (f v)) (a v)) (fp.sub (fp.ofInt (f v)) (a v)))) (.fin 0)) := by
  unfold sqErr
  rw [show (arr s f).sizes = s from rfl, forIndex_eq hg]
  have : ∀ (l : List (List Int)) (c : Fl), (∀ v ∈ l, InRange s v) → l.foldlM (fun acc idx => do
      let x ← (arr s f).get idx
      let y ← (arr s a).get idx
      pure (fp.add acc (fp.mul (fp.sub (fp.ofInt x) y) (fp.sub (fp.ofInt x) y)))) c = .ok (l.foldl (fun acc v =>
      fp.add acc (fp.mul (fp.sub (fp.ofInt (f v)) (a v)) (fp.sub (fp.ofInt (f v)) (a v)))) c) := by
    intro l
    induction l with
    | nil => intro c _; rfl
    | cons v l ih =>
      intro c hl
      rw [List.foldlM_cons, get_arr (hl v (by simp)), get_arr (hl v (by simp))]
      exact ih _ (fun w hw => hl w (by simp [hw]))
  exact this _ _ (fun v hv => mem_allIdx.mp hv)

theorem foldl_sqErr (sqrt : Fl → Fl) (f : List Int → Int) (a : List Int → ℚ) : ∀ (l : List (List Int)) (c : ℚ),
    l.foldl (fun acc v => (FP.exactWith sqrt).add acc ((FP.exactWith sqrt).mul
      ((FP.exactWith sqrt).sub ((FP.exactWith sqrt).ofInt (f v)) (.fin (a v)))
      ((FP.exactWith sqrt).sub ((FP.exactWith sqrt).ofInt (f v)) (.fin (a v))))) (.fin c) =
      .fin (c + (l.map (fun v => ((f v : ℚ) - a v) ^ 2)).sum)
  | [], c => by simp
  | v :: l, c => by
    rw [List.foldl_cons]
    show l.foldl _ (Fl.fin (c + ((f v : ℚ) + -a v) * ((f v : ℚ) + -a v))) = _
    rw [foldl_sqErr sqrt f a l, List.map_cons, List.sum_cons]
    congr 1
    ring

/-- A run on an array with two or more dimensions, the result given: where the `rmse` comes from. -/
theorem run_rmse {lm : Libm} {s : List Nat} (hg : GoodShape s) (h2 : 2 ≤ s.length) {a : List Int → Fl} {r : Result}
    (h : run false fp lm (arr s a) = .ok r) {f : List Int → Int} (hf : r.result = arr s f) :
    r.rmse = fp.sqrt (fp.div ((allIdx s).foldl (fun acc v =>
      fp.add acc (fp.mul (fp.sub (fp.ofInt (f v)) (a v)) (fp.sub (fp.ofInt (f v)) (a v)))) (.fin 0))
      (fp.ofInt (prodSizes s))) := by
  rw [run_array h2] at h
  obtain ⟨T, hT, h⟩ := Out.bind_eq_ok.mp h
  obtain ⟨N, hN⟩ := array_inv hg h
  rw [array_eq hg lm hN] at h
  obtain ⟨x, hx, h⟩ := Out.bind_eq_ok.mp h
  obtain ⟨b, hb, h⟩ := Out.bind_eq_ok.mp h
  obtain ⟨e, he, h⟩ := Out.bind_eq_ok.mp h
  injection h with h
  subst h
  simp only at hf
  subst hf
  rw [sqErr_eq hg] at he
  injection he with he
  subst he
  rfl

/-- One term of the sum of squares, rounded. -/
theorem sq_term (hfp : fp.Good) {f : Int} (hf : |f| ≤ 2 ^ 53) {a : ℚ} (ha : |(f : ℚ) - a| ≤ 2 ^ 54) :
    ∃ t, fp.mul (fp.sub (fp.ofInt f) (.fin a)) (fp.sub (fp.ofInt f) (.fin a)) = .fin t ∧ 0 ≤ t ∧
      RelA 4 (tinyQ * 2 ^ 60) t ((f - a) ^ 2) := by
  have ht := tinyQ_pos
  have ht1 := tiny_le_one
  have hb := bigQ_pos
  rw [ofInt_exact hfp hf]
  obtain ⟨d, hd, hdr, -⟩ := relA_rnd hfp (huge_ge (ha.trans (big_pow (by norm_num))))
  have hdu := relA_upper hdr (by norm_num) (abs_nonneg d)
  have hd56 : |d| ≤ 2 ^ 56 := by linarith
  have hsq := hdr.sq (M := 2 ^ 56) (abs_nonneg d) (abs_nonneg _) (by linarith) hd56 (ha.trans (by norm_num))
  rw [abs_mul_abs_self, abs_mul_abs_self] at hsq
  have hdd0 : 0 ≤ d * d := mul_self_nonneg d
  have hddu : d * d ≤ 2 ^ 112 := by
    have := mul_le_mul hd56 hd56 (abs_nonneg d) (by norm_num)
    rw [abs_mul_abs_self] at this
    linarith
  obtain ⟨m, hm, hmr, hm0⟩ := relA_rnd hfp (q := d * d) (huge_ge (by
    rw [abs_of_nonneg hdd0]; exact hddu.trans (big_pow (by norm_num))))
  have hm0 := hm0 hdd0
  rw [abs_of_nonneg hdd0, abs_of_nonneg hm0] at hmr
  have hm2 := hmr.trans hsq (by linarith) (by positivity)
  refine ⟨m, ?_, hm0, ?_⟩
  · have e1 : fp.sub (.fin (f : ℚ)) (.fin a) = .fin d := by
      show fp.rnd ((f : ℚ) + -a) = _
      rw [← sub_eq_add_neg]; exact hd
    rw [e1]
    exact hm
  · rw [pow_two]
    exact hm2.mono hm0 (mul_self_nonneg _) (by norm_num) (by nlinarith)

/-- The mean square, rounded. -/
theorem meanSq_bound (hfp : fp.Good) {s : List Nat} (hg : GoodShape s) {f : List Int → Int} {a : List Int → ℚ}
    (hf : ∀ v, InRange s v → |f v| ≤ 2 ^ 53) (ha : ∀ v, InRange s v → |(f v : ℚ) - a v| ≤ 2 ^ 54)
    (hsz : prodSizes s + 5 ≤ 2 ^ 52) :
    ∃ m, fp.div ((allIdx s).foldl (fun acc v =>
        fp.add acc (fp.mul (fp.sub (fp.ofInt (f v)) (.fin (a v))) (fp.sub (fp.ofInt (f v)) (.fin (a v))))) (.fin 0))
        (fp.ofInt (prodSizes s)) = .fin m ∧ 0 ≤ m ∧
      RelA (prodSizes s + 5) (1 / 2 ^ 80) m ((∑ v ∈ cells s, ((f v : ℚ) - a v) ^ 2) / prodSizes s) := by
  have hN : (allIdx s).length = prodSizes s := length_allIdx s
  have ht := tinyQ_pos
  have hb := bigQ_pos
  have hb1 := big_one
  have hn1 : 1 ≤ prodSizes s := by
    obtain ⟨v, hv⟩ := exists_inRange hg.2
    rw [← hN]
    exact List.length_pos_of_mem (mem_allIdx.mpr hv)
  have hNq : (prodSizes s : ℚ) ≤ 2 ^ 52 := by exact_mod_cast (show prodSizes s ≤ 2 ^ 52 by omega)
  have hNq1 : (1 : ℚ) ≤ prodSizes s := by exact_mod_cast hn1
  have htb : tinyQ * bigQ * 2 ^ 200 ≤ 1 := by have := big_tiny; rw [← mul_assoc] at this; exact this
  have ht2 : tinyQ * 2 ^ 200 ≤ 1 := by
    have : tinyQ ≤ tinyQ * bigQ := by nlinarith
    nlinarith
  set η := tinyQ * 2 ^ 60 with hη
  have hη0 : 0 ≤ η := by positivity
  have hη1 : η + 2 * tinyQ ≤ tinyQ * 2 ^ 61 := by rw [hη]; linarith
  have herr : (prodSizes s : ℚ) * (η + 2 * tinyQ) ≤ 1 / 2 ^ 82 := by
    calc (prodSizes s : ℚ) * (η + 2 * tinyQ) ≤ 2 ^ 52 * (tinyQ * 2 ^ 61) :=
          mul_le_mul hNq hη1 (by positivity) (by norm_num)
      _ = tinyQ * 2 ^ 200 / 2 ^ 87 := by ring
      _ ≤ 1 / 2 ^ 87 := by gcongr
      _ ≤ 1 / 2 ^ 82 := by norm_num
  have hy : ∀ v, InRange s v → ((f v : ℚ) - a v) ^ 2 ≤ 2 ^ 108 := by
    intro v hv
    rw [← sq_abs]
    calc |(f v : ℚ) - a v| ^ 2 ≤ (2 ^ 54) ^ 2 := pow_le_pow_left₀ (abs_nonneg _) (ha v hv) 2
      _ = 2 ^ 108 := by norm_num
  obtain ⟨r, hr1, hr0, hr2⟩ := chi_fold (y := fun v => ((f v : ℚ) - a v) ^ 2)
    (g := fun v => fp.mul (fp.sub (fp.ofInt (f v)) (.fin (a v))) (fp.sub (fp.ofInt (f v)) (.fin (a v)))) hfp hη0 (allIdx s) 4 0 0 0 (by
      intro v hv
      have hv := mem_allIdx.mp hv
      obtain ⟨t, t1, t2, t3⟩ := sq_term hfp (hf v hv) (ha v hv)
      refine ⟨t, t1, t2, t3, sq_nonneg _, (hy v hv).trans ?_⟩
      calc (2 : ℚ) ^ 108 ≤ 1 * 2 ^ 112 := by norm_num
        _ ≤ bigQ * 2 ^ 112 := by gcongr) le_rfl (by omega) (by simp [RelA]) le_rfl le_rfl le_rfl (by
      rw [hN]
      have h1 : bigQ * 2 ^ 112 + η + 2 * tinyQ ≤ bigQ * 2 ^ 113 := by
        have : tinyQ * 2 ^ 61 ≤ 1 := by nlinarith
        linarith
      rw [zero_add, zero_add]
      calc (prodSizes s : ℚ) * (bigQ * 2 ^ 112 + η + 2 * tinyQ) ≤ 2 ^ 52 * (bigQ * 2 ^ 113) :=
            mul_le_mul hNq h1 (by positivity) (by norm_num)
        _ = bigQ * 2 ^ 165 := by ring
        _ ≤ _ := mul_le_mul_of_nonneg_left (by norm_num) hb.le)
  rw [hN, zero_add, zero_add, sum_allIdx] at hr2
  have hS : ∑ v ∈ cells s, ((f v : ℚ) - a v) ^ 2 ≤ 2 ^ 160 := by
    calc ∑ v ∈ cells s, ((f v : ℚ) - a v) ^ 2 = ((allIdx s).map (fun v => ((f v : ℚ) - a v) ^ 2)).sum := (sum_allIdx _ _).symm
      _ ≤ ((allIdx s).map (fun v => ((f v : ℚ) - a v) ^ 2)).length • (2 ^ 108 : ℚ) := by
          apply List.sum_le_card_nsmul
          intro x hx
          obtain ⟨v, hv, rfl⟩ := List.mem_map.mp hx
          exact hy v (mem_allIdx.mp hv)
      _ ≤ 2 ^ 160 := by
          rw [List.length_map, hN, nsmul_eq_mul]
          calc (prodSizes s : ℚ) * 2 ^ 108 ≤ 2 ^ 52 * 2 ^ 108 := by gcongr
            _ = 2 ^ 160 := by norm_num
  have hS0 : 0 ≤ ∑ v ∈ cells s, ((f v : ℚ) - a v) ^ 2 := Finset.sum_nonneg (fun _ _ => sq_nonneg _)
  have hru := relA_upper hr2 (by omega) hr0
  have hr3 : r ≤ 2 ^ 162 := by
    have : (1 : ℚ) / 2 ^ 82 ≤ 1 := by norm_num
    linarith
  have hinv0 : (0 : ℚ) ≤ (prodSizes s : ℚ)⁻¹ := by positivity
  have hinv1 : (prodSizes s : ℚ)⁻¹ ≤ 1 := inv_le_one_of_one_le₀ hNq1
  have hq0 : 0 ≤ r * (prodSizes s : ℚ)⁻¹ := mul_nonneg hr0 hinv0
  have hq1 : r * (prodSizes s : ℚ)⁻¹ ≤ 2 ^ 162 := (mul_le_of_le_one_right hr0 hinv1).trans hr3
  obtain ⟨m, hm, hmr, hm0⟩ := relA_rnd hfp (q := r * (prodSizes s : ℚ)⁻¹) (huge_ge (by
    rw [abs_of_nonneg hq0]
    refine hq1.trans ?_
    calc (2 : ℚ) ^ 162 ≤ 1 * 2 ^ 200 := by norm_num
      _ ≤ bigQ * 2 ^ 200 := by gcongr))
  have hm0 := hm0 hq0
  rw [abs_of_nonneg hq0, abs_of_nonneg hm0] at hmr
  have hfin := hmr.trans (hr2.scale hinv0) (by linarith) (by positivity)
  refine ⟨m, ?_, hm0, ?_⟩
  · rw [hr1, ofInt_exact hfp (by rw [abs_of_nonneg (by positivity)]; omega)]
    show (if (((prodSizes s : Nat) : Int) : ℚ) = 0 then _ else fp.rnd (r / (((prodSizes s : Nat) : Int) : ℚ))) = _
    rw [Int.cast_natCast, if_neg (by linarith), div_eq_mul_inv]
    exact hm
  · rw [div_eq_mul_inv]
    refine hfin.mono hm0 (mul_nonneg hS0 hinv0) (by omega) ?_
    have h1 : (prodSizes s : ℚ) * (η + 2 * tinyQ) * (prodSizes s : ℚ)⁻¹ ≤ 1 / 2 ^ 82 :=
      (mul_le_of_le_one_right (by positivity) hinv1).trans herr
    have h2 : 2 * tinyQ ≤ 1 / 2 ^ 82 := by nlinarith
    have h3 : (1 : ℚ) / 2 ^ 82 + 1 / 2 ^ 82 ≤ 1 / 2 ^ 80 := by norm_num
    linarith

end Integerise
end HL

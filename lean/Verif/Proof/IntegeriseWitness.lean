import Verif.Proof.IntegeriseExact
import Verif.Proof.IPFWitness

/-
A probability vector for which the rounded frequencies add up to more than the population.
-/

namespace HL
namespace Integerise

theorem rnd_at {q : ℚ} {e : ℤ} (h1 : (2 : ℚ) ^ e ≤ q) (h2 : q < (2 : ℚ) ^ (e + 1)) (he : -1022 ≤ e)
    (hb : (FP.rne (q / 2 ^ (e - 52)) : ℚ) * 2 ^ (e - 52) < 2 ^ 1024) :
    FP.rndIeee q = .fin ((FP.rne (q / 2 ^ (e - 52)) : ℚ) * 2 ^ (e - 52)) := by
  have hq : 0 < q := lt_of_lt_of_le (by positivity) h1
  have hu : FP.ulp q = 2 ^ (e - 52) := by
    unfold FP.ulp; rw [FP.ilog2_unique h1 h2, max_eq_left he]
  rw [FP.rndIeee_pos hq, hu, if_neg (not_le.mpr hb)]

theorem lt_big {x : ℚ} (h : x ≤ 4) : x < 2 ^ 1024 := by
  have : (4 : ℚ) < 2 ^ 1024 := by
    calc (4 : ℚ) < 2 ^ 3 := by norm_num
      _ ≤ 2 ^ 1024 := pow_le_pow_right₀ (by norm_num) (by norm_num)
  exact lt_of_le_of_lt h this

/-- the half-way case: an even number of units and one half rounds down -/
theorem rnd_tie {m : ℤ} (h1 : 2 ^ 52 ≤ m) (h2 : m < 2 ^ 53) (hm : m % 2 = 0) :
    FP.rndIeee ((m : ℚ) / 2 ^ 52 + 1 / 2 ^ 53) = .fin ((m : ℚ) / 2 ^ 52) := by
  have h1' : (2 : ℚ) ^ 52 ≤ m := by exact_mod_cast h1
  have h2' : (m : ℚ) ≤ 2 ^ 53 - 1 := by exact_mod_cast (by omega : m ≤ 2 ^ 53 - 1)
  have hz : (2 : ℚ) ^ ((0 : ℤ) - 52) = 1 / 2 ^ 52 := by norm_num [zpow_neg]
  have hr : FP.rne (((m : ℚ) / 2 ^ 52 + 1 / 2 ^ 53) / 2 ^ ((0 : ℤ) - 52)) = m := by
    have e : ((m : ℚ) / 2 ^ 52 + 1 / 2 ^ 53) / 2 ^ ((0 : ℤ) - 52) = m + 1 / 2 := by rw [hz]; ring
    rw [e]
    unfold FP.rne
    have hf : ⌊(m : ℚ) + 1 / 2⌋ = m := by
      rw [Int.floor_eq_iff]; constructor <;> linarith
    simp only [hf]
    rw [if_neg (by linarith), if_neg (by linarith), if_pos hm]
  rw [rnd_at (e := 0) ?_ ?_ (by norm_num)]
  · rw [hr, hz]; congr 1; ring
  · rw [hr, hz]; apply lt_big; linarith
  · rw [zpow_zero]; linarith
  · rw [zero_add, zpow_one]; linarith

theorem rnd_two : FP.rndIeee (2 + 1 / 2 ^ 53) = .fin 2 := by
  have hz : (2 : ℚ) ^ ((1 : ℤ) - 52) = 1 / 2 ^ 51 := by norm_num [zpow_neg]
  have hr : FP.rne (((2 : ℚ) + 1 / 2 ^ 53) / 2 ^ ((1 : ℤ) - 52)) = 2 ^ 52 := by
    have e : ((2 : ℚ) + 1 / 2 ^ 53) / 2 ^ ((1 : ℤ) - 52) = ((2 ^ 52 : ℤ) : ℚ) + 1 / 4 := by rw [hz]; norm_num
    rw [e]
    unfold FP.rne
    have hf : ⌊((2 ^ 52 : ℤ) : ℚ) + 1 / 4⌋ = 2 ^ 52 := by
      rw [Int.floor_eq_iff]; constructor <;> linarith
    simp only [hf]
    rw [if_pos (by linarith)]
  rw [rnd_at (e := 1) ?_ ?_ (by norm_num)]
  · rw [hr, hz]; congr 1; norm_num
  · rw [hr, hz]; apply lt_big; norm_num
  · norm_num
  · norm_num

/-- the small entries of the witness -/
def wEntry : ℚ := 1 / 2 ^ 24 + 1 / 2 ^ 53

/-- the partial sums -/
theorem w_sum (sqrt : Fl → Fl) (N : Nat) (hN : N = 2 ^ 24) : ∀ k j : Nat, k + j = N →
    (List.replicate k (Fl.fin wEntry)).foldl (FP.ieee sqrt).add (.fin (1 + j / 2 ^ 24)) = .fin 2
  | 0, j, h => by
    have : (j : ℚ) = 2 ^ 24 := by exact_mod_cast (by omega : j = 2 ^ 24)
    rw [List.replicate_zero, List.foldl_nil, this]
    norm_num
  | k + 1, j, h => by
    have hj : j < 2 ^ 24 := by omega
    rw [List.replicate_succ, List.foldl_cons]
    have step : (FP.ieee sqrt).add (.fin (1 + j / 2 ^ 24)) (.fin wEntry) = .fin (1 + ((j + 1 : Nat) : ℚ) / 2 ^ 24) := by
      show FP.rndIeee (1 + (j : ℚ) / 2 ^ 24 + wEntry) = _
      unfold wEntry
      by_cases hlast : j + 1 = 2 ^ 24
      · have hc : ((j + 1 : Nat) : ℚ) = 2 ^ 24 := by exact_mod_cast hlast
        have hc' : (j : ℚ) = 2 ^ 24 - 1 := by push_cast at hc; linarith
        rw [hc, hc', show (1 : ℚ) + (2 ^ 24 - 1) / 2 ^ 24 + (1 / 2 ^ 24 + 1 / 2 ^ 53) = 2 + 1 / 2 ^ 53 by norm_num, rnd_two]
        norm_num
      · have e : (1 : ℚ) + (j : ℚ) / 2 ^ 24 + (1 / 2 ^ 24 + 1 / 2 ^ 53) =
            ((2 ^ 52 + ((j : ℤ) + 1) * 2 ^ 28 : ℤ) : ℚ) / 2 ^ 52 + 1 / 2 ^ 53 := by
          push_cast; ring
        rw [e, rnd_tie (by omega) (by omega) (by omega)]
        congr 1
        push_cast; ring
    rw [step]
    exact w_sum sqrt N hN k (j + 1) (by omega)

/-- The rounded frequencies of the vector with one entry 1 and 2^24 entries `wEntry` add up to one more than the
population. -/
theorem w_run (sqrt : Fl → Fl) (N : Nat) (hN : N = 2 ^ 24) :
    ∃ e, oneD (FP.ieee sqrt) ((1 :: List.replicate N wEntry).map Fl.fin) 2113929214 =
      .ok (1056964607 :: List.replicate N 63, e) := by
  have hS : sumVec (numFl (FP.ieee sqrt)) ((1 :: List.replicate N wEntry).map Fl.fin) = .fin 2 := by
    have := w_sum sqrt N hN N 0 (by omega)
    unfold sumVec
    show (List.map Fl.fin (1 :: List.replicate N wEntry)).foldl (FP.ieee sqrt).add (.fin 0) = _
    rw [List.map_cons, List.foldl_cons, List.map_replicate]
    have h1 : (FP.ieee sqrt).add (.fin 0) (.fin 1) = .fin (1 + ((0 : Nat) : ℚ) / 2 ^ 24) := by
      show FP.rndIeee (0 + 1) = _
      have := ieee_small 1 (by norm_num)
      norm_num at this ⊢
      exact this
    rw [h1]
    exact this
  have hd1 : (FP.ieee sqrt).div (.fin 1) (.fin 2) = .fin (1 / 2) := by
    show (if (2 : ℚ) = 0 then FP.infOfSign 1 else FP.rndIeee (1 / 2)) = _
    rw [if_neg (by norm_num), ieee_half]
  have hd2 : (FP.ieee sqrt).div (.fin wEntry) (.fin 2) = .fin ((2 ^ 29 + 1) / 2 ^ 54) := by
    show (if (2 : ℚ) = 0 then FP.infOfSign wEntry else FP.rndIeee (wEntry / 2)) = _
    rw [if_neg (by norm_num)]
    have := (FP.ieee_good sqrt).dyadic (2 ^ 29 + 1) 54 (by norm_num) (by norm_num)
    have e : wEntry / 2 = (((2 ^ 29 + 1 : ℤ)) : ℚ) / 2 ^ 54 := by unfold wEntry; norm_num
    rw [e]
    refine Eq.trans this ?_
    norm_num
  have hp : (FP.ieee sqrt).ofInt 2113929214 = .fin 2113929214 := by
    have := ieee_small 2113929214 (by norm_num)
    exact_mod_cast this
  unfold oneD
  rw [if_neg (by norm_num), hS]
  rw [List.map_map, List.map_cons, List.map_replicate]
  simp only [Function.comp_apply, hd1, hd2]
  unfold marginal
  have hmul1 : (FP.ieee sqrt).mul (.fin (1 / 2)) ((FP.ieee sqrt).ofInt 2113929214) = .fin 1056964607 := by
    rw [hp]
    show FP.rndIeee (1 / 2 * 2113929214) = _
    have := ieee_small 1056964607 (by norm_num)
    norm_num at this ⊢
    exact this
  obtain ⟨y, hmul2, hy1, hy2⟩ : ∃ y, (FP.ieee sqrt).mul (.fin ((2 ^ 29 + 1) / 2 ^ 54)) ((FP.ieee sqrt).ofInt 2113929214) =
      .fin y ∧ 63 ≤ y ∧ y < 64 := by
    rw [hp]
    show ∃ y, FP.rndIeee ((2 ^ 29 + 1) / 2 ^ 54 * 2113929214) = .fin y ∧ _
    obtain ⟨y, h1, h2⟩ := FP.rndIeee_near_pos (q := (2 ^ 29 + 1) / 2 ^ 54 * 2113929214)
      (by
        have : (2 : ℚ) ^ (-1022 : ℤ) ≤ 2 ^ (0 : ℤ) := zpow_le_zpow_right₀ (by norm_num) (by norm_num)
        rw [zpow_zero] at this
        refine this.trans ?_
        norm_num)
      (by
        have : (2 : ℚ) ^ 10 ≤ 2 ^ 1023 := pow_le_pow_right₀ (by norm_num) (by norm_num)
        refine le_trans ?_ this
        norm_num)
    refine ⟨y, h1, ?_, ?_⟩
    · apply FP.rndIeee_mono (p := 63) (q := (2 ^ 29 + 1) / 2 ^ 54 * 2113929214) (by norm_num) _ h1
      exact_mod_cast ieee_small 63 (by norm_num)
    · have := (abs_le.mp h2).2
      norm_num at this ⊢
      linarith
  have hst : ∀ x ∈ (Fl.fin (1 / 2) :: List.replicate N (Fl.fin ((2 ^ 29 + 1) / 2 ^ 54))),
      start (FP.ieee sqrt) 2113929214 x = .ok ((fun x => if x = Fl.fin (1 / 2) then (1056964607, (FP.ieee sqrt).sub
        (.fin 1056964607) ((FP.ieee sqrt).ofInt 1056964607)) else (63, (FP.ieee sqrt).sub (.fin y) ((FP.ieee sqrt).ofInt 63))) x) := by
    intro x hx
    rw [List.mem_cons, List.mem_replicate] at hx
    rcases hx with rfl | ⟨-, rfl⟩
    · unfold start
      beta_reduce
      rw [hmul1, toInt32_nonneg (by norm_num) (by norm_num), if_pos rfl]
      have : ⌊(1056964607 : ℚ)⌋ = 1056964607 := by exact_mod_cast Int.floor_intCast (R := ℚ) 1056964607
      rw [this]; rfl
    · unfold start
      beta_reduce
      rw [hmul2, toInt32_nonneg (by linarith) (by norm_num; linarith), if_neg (by rw [Fl.fin.injEq]; norm_num)]
      have : ⌊y⌋ = 63 := by rw [Int.floor_eq_iff]; constructor <;> push_cast <;> linarith
      rw [this]; rfl
  rw [mapM_ok hst, Out.ok_bind]
  have hf : (List.map (fun x => if x = Fl.fin (1 / 2) then (1056964607, (FP.ieee sqrt).sub
        (.fin 1056964607) ((FP.ieee sqrt).ofInt 1056964607)) else (63, (FP.ieee sqrt).sub (.fin y) ((FP.ieee sqrt).ofInt 63)))
        (Fl.fin (1 / 2) :: List.replicate N (Fl.fin ((2 ^ 29 + 1) / 2 ^ 54)))).map Prod.fst =
      (1056964607 : Int) :: List.replicate N 63 := by
    rw [List.map_cons, List.map_cons, List.map_replicate, List.map_replicate, if_pos rfl,
      if_neg (by rw [Fl.fin.injEq]; norm_num)]
  simp only [hf]
  have hsum : ((1056964607 : Int) :: List.replicate N 63).sum = 2113929215 := by
    rw [List.sum_cons, List.sum_replicate, hN]; norm_num
  rw [total_ok (by
    intro k hk
    rw [List.mem_cons, List.mem_replicate] at hk
    rcases hk with rfl | ⟨-, rfl⟩ <;> norm_num) (by rw [hsum]; norm_num), hsum, Out.ok_bind, loop_exit (by simp), Out.ok_bind]
  exact ⟨_, rfl⟩

end Integerise
end HL

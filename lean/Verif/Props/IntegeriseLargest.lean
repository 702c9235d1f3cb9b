import Verif.Proof.LargestRound
import Verif.Props.QISIPad

/-
C112: integerising a vector is the method of largest remainders, and among equal remainders the first are served first.
In exact arithmetic this says completely what the functions return. In doubles it is the method of largest remainders of the shares
`x / sum * pop` as the processor computes them.
-/

namespace HL
open Integerise

theorem sharesOf_probs (xs : List ℚ) (pop : Int) : (probs xs).map (fun x => x * (pop : ℚ)) = sharesOf xs pop := by
  unfold probs sharesOf
  rw [List.map_map]
  rfl

/-- **C112**: `integerise(frac, pop)`. -/
theorem C112_integerise (sqrt : Fl → Fl) {xs : List ℚ} {pop : Int} (hpop0 : 0 ≤ pop) (hpop : pop < 2 ^ 31)
    (hx : ∀ x ∈ xs, 0 ≤ x) (hs : 0 < xs.sum) :
    ∃ e, oneD (FP.exactWith sqrt) (xs.map Fl.fin) pop = .ok (largest (sharesOf xs pop) pop, e) := by
  have hp1 := probs_sum hs.ne'
  obtain ⟨e, h⟩ := marginal_is_largest sqrt hpop0 hpop (probs_nonneg hx) (by rw [hp1]; linarith) (by rw [hp1]; linarith)
  exact ⟨e, by rw [oneD_exact sqrt hs.ne' hpop0, h, sharesOf_probs]⟩

/-- **C112**: `prob2IntFreq`. -/
theorem C112_prob2IntFreq (sqrt : Fl → Fl) {p : List ℚ} {pop : Int} (hpop0 : 0 ≤ pop) (hpop : pop < 2 ^ 31)
    (hp : ∀ x ∈ p, 0 ≤ x) (hs : |p.sum - 1| ≤ 1000 / 2 ^ 52) :
    ∃ e, prob2IntFreq (FP.exactWith sqrt) (p.map Fl.fin) pop = .ok (largest (p.map (fun x => x * pop)) pop, e) := by
  have hpq : (0 : ℚ) ≤ pop := by exact_mod_cast hpop0
  have hpq1 : (pop : ℚ) ≤ 2 ^ 31 := by exact_mod_cast hpop.le
  obtain ⟨hl, hu⟩ := abs_le.mp hs
  have hb : (pop : ℚ) * (1000 / 2 ^ 52) < 1 := by
    calc (pop : ℚ) * (1000 / 2 ^ 52) ≤ 2 ^ 31 * (1000 / 2 ^ 52) := by gcongr
      _ < 1 := by norm_num
  have h1 : (1 - 1000 / 2 ^ 52) * (pop : ℚ) ≤ p.sum * pop := by gcongr; linarith
  have h2 : p.sum * (pop : ℚ) ≤ (1 + 1000 / 2 ^ 52) * pop := by gcongr; linarith
  obtain ⟨e, h⟩ := marginal_is_largest sqrt hpop0 hpop hp (by linarith) (by linarith)
  obtain ⟨f, g1, -⟩ := prob2IntFreq_spec sqrt hpop0 hpop hp hs
  refine ⟨e, ?_⟩
  rw [← h]
  unfold prob2IntFreq at g1 ⊢
  rw [if_neg (by omega)] at g1 ⊢
  split
  · next hc => rw [if_pos hc] at g1; cases g1
  · rfl

/-- **C112**: `integerise(pop)` of a 1-d array, whose total is cut off to the population (see C50). -/
theorem C112_vector (dbg : Bool) (sqrt : Fl → Fl) (lm : Libm) {xs : List ℚ} (hx : ∀ x ∈ xs, 0 ≤ x) (h1 : 1 ≤ xs.sum) (h2 : xs.sum < 2 ^ 31)
    {n : Int} (hn : |xs.sum - n| ≤ 1 / 10 ^ 4) :
    ∃ e, run dbg (FP.exactWith sqrt) lm (vec xs) = .ok ⟨intVec (largest xs ⌊xs.sum⌋), true, e⟩ := by
  have hne : xs ≠ [] := by
    rintro rfl
    rw [List.sum_nil] at h1; linarith
  set N := ⌊xs.sum⌋ with hN
  have hN1 : 1 ≤ N := Int.le_floor.mpr (by exact_mod_cast h1)
  have hN2 : N < 2 ^ 31 := Int.floor_lt.mpr (by exact_mod_cast h2)
  have hl := Int.floor_le xs.sum
  have hu := Int.lt_floor_add_one xs.sum
  rw [← hN] at hl hu
  have hn0 : (N : ℚ) ≠ 0 := by
    have : (1 : ℚ) ≤ N := by exact_mod_cast hN1
    linarith
  set p := xs.map (fun x => x / (N : ℚ)) with hp
  have hps : p.sum = xs.sum / N := by rw [hp, sum_div]
  have hmul : p.sum * N = xs.sum := by rw [hps]; field_simp
  have hpN : p.map (fun x => x * (N : ℚ)) = xs := by
    rw [hp, List.map_map]
    conv_rhs => rw [← List.map_id xs]
    apply List.map_congr_left
    intro x _
    simp [hn0]
  obtain ⟨e, h⟩ := marginal_is_largest sqrt (p := p) (pop := N) (by omega) hN2 (by
      intro x hxm
      obtain ⟨y, hy, rfl⟩ := List.mem_map.mp hxm
      exact div_nonneg (hx y hy) (by exact_mod_cast (by omega : 0 ≤ N)))
    (by rw [hmul]; linarith) (by rw [hmul]; linarith)
  rw [hpN] at h
  refine ⟨e, run_vec_ok dbg lm hne (fun _ _ => rfl) (n := n) (pop := N) ?_ ?_ ?_ (length_largest _ _)⟩
  · rw [sumVec_exact]
    refine checkedRound_of ?_ ?_
    · have : NearInt FP.exact (.fin xs.sum) n := nearInt_exact.mpr hn
      exact this
    · rw [abs_of_nonneg (by linarith)]
      have : (2 : ℚ) ^ 31 ≤ 2 ^ 62 := by norm_num
      linarith
  · rw [sumVec_exact, toInt32_nonneg (by linarith) h2]
  · have : (xs.map Fl.fin).map (fun x => (FP.exactWith sqrt).div x ((FP.exactWith sqrt).ofInt N)) = p.map Fl.fin := by
      rw [hp, List.map_map, List.map_map]
      apply List.map_congr_left
      intro x _
      show (if (N : ℚ) = 0 then FP.infOfSign x else Fl.fin (x / N)) = _
      rw [if_neg hn0]; rfl
    rw [this]
    exact h

theorem usual_fine {fp : FP} (h : Usual fp) : Fine fp := by
  rcases h with rfl | ⟨sqrt, rfl⟩
  · exact fine_exact _
  · exact fine_ieee sqrt

/-- **C112** in the arithmetic of doubles: with `ys` the values of `frac / sum * pop` as computed (the sum being computed from left
to right), the result is that of the method of largest remainders for `ys`. -/
theorem C112_rounded {fp : FP} (hfp : Usual fp) {xs : List ℚ} {pop : Int} (h0 : 0 ≤ pop) (h1 : pop < 2 ^ 31)
    (hn : (pop + 2) * (xs.length + 3) ≤ 2 ^ 51) (hr : ∀ x ∈ xs, fp.rnd x = .fin x)
    (hx : ∀ x ∈ xs, x = 0 ∨ (2 : ℚ) ^ (-1022 : ℤ) ≤ x) (hs0 : 0 < xs.sum) (hs1 : xs.sum ≤ 2 ^ 1022) :
    ∃ (ys : List ℚ) (e : Fl), ys.length = xs.length ∧
      (∀ i < xs.length, fp.mul (fp.div (.fin (xs.getD i 0)) ((xs.map Fl.fin).foldl fp.add (.fin 0))) (fp.ofInt pop) = .fin (ys.getD i 0)) ∧
      |ys.sum - (pop : ℚ)| < 1 ∧ oneD fp (xs.map Fl.fin) pop = .ok (largest ys pop, e) := by
  obtain ⟨ys, e, h2, h3, h4⟩ := oneD_largest (usual_good hfp).1 (usual_fine hfp) h0 h1 hn hr (by rw [tinyQ_eq]; exact hx) hs0
    (by unfold hugeQ; exact hs1)
  exact ⟨ys, e, computed_length h2, fun i hi => computed_at h2 hi, h3, h4⟩

/-- The hypotheses hold. -/
example (sqrt : Fl → Fl) : Usual (FP.ieee sqrt) ∧ ((10 : Int) + 2) * (([7, 7, 2] : List ℚ).length + 3) ≤ 2 ^ 51 ∧
    (∀ x ∈ ([7, 7, 2] : List ℚ), (FP.ieee sqrt).rnd x = .fin x) ∧ (∀ x ∈ ([7, 7, 2] : List ℚ), x = 0 ∨ (2 : ℚ) ^ (-1022 : ℤ) ≤ x) ∧
    0 < ([7, 7, 2] : List ℚ).sum ∧ ([7, 7, 2] : List ℚ).sum ≤ 2 ^ 1022 := by
  have hi : ∀ n : Int, |n| ≤ 2 ^ 53 → (FP.ieee sqrt).rnd (n : ℚ) = .fin (n : ℚ) := fun n hn => rnd_int (FP.ieee_good sqrt) hn
  refine ⟨.inr ⟨sqrt, rfl⟩, by norm_num, ?_, ?_, by norm_num, ?_⟩
  · intro x hx
    simp only [List.mem_cons, List.not_mem_nil, or_false] at hx
    rcases hx with rfl | rfl | rfl
    · exact_mod_cast hi 7 (by norm_num)
    · exact_mod_cast hi 7 (by norm_num)
    · exact_mod_cast hi 2 (by norm_num)
  · have : (2 : ℚ) ^ (-1022 : ℤ) ≤ 1 := by rw [zpow_neg]; exact inv_le_one_of_one_le₀ (one_le_pow₀ (by norm_num))
    intro x hx
    simp only [List.mem_cons, List.not_mem_nil, or_false] at hx
    right
    rcases hx with rfl | rfl | rfl <;> linarith
  · have : (2 : ℚ) ^ 4 ≤ 2 ^ 1022 := pow_le_pow_right₀ (by norm_num) (by norm_num)
    calc ([7, 7, 2] : List ℚ).sum = 2 ^ 4 := by norm_num
      _ ≤ _ := this

/-- The hypotheses hold; the last two of three equal shares lose, and a larger remainder wins over an earlier one. -/
example (sqrt : Fl → Fl) : ∃ e e', oneD (FP.exactWith sqrt) ([(1 : ℚ), 1, 1].map Fl.fin) 4 = .ok ([2, 1, 1], e) ∧
    oneD (FP.exactWith sqrt) ([(1 : ℚ), 3, 2].map Fl.fin) 4 = .ok ([1, 2, 1], e') := by
  obtain ⟨e, h⟩ := C112_integerise sqrt (xs := [1, 1, 1]) (pop := 4) (by norm_num) (by norm_num) (by norm_num) (by norm_num)
  obtain ⟨e', h'⟩ := C112_integerise sqrt (xs := [1, 3, 2]) (pop := 4) (by norm_num) (by norm_num) (by norm_num) (by norm_num)
  refine ⟨e, e', ?_, ?_⟩
  · rw [h]
    have : largest (sharesOf [1, 1, 1] 4) 4 = [2, 1, 1] := by decide +kernel
    rw [this]
  · rw [h']
    have : largest (sharesOf [1, 3, 2] 4) 4 = [1, 2, 1] := by decide +kernel
    rw [this]

end HL

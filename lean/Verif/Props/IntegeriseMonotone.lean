import Verif.Proof.IntegeriseMonotone
import Verif.Props.Integerise
import Verif.Props.IntegeriseRounded

/-
C97: 1-d integerisation with a larger population.
-/

namespace HL
open Integerise

/-- **C97 is false**, in double precision and in exact arithmetic: three people in the proportions 7 : 7 : 2 are one in each
group, four people are two, two and none. -/
theorem C97_negation {fp : FP} (hfp : fp.Good) :
    ∃ e e', oneD fp (([7, 7, 2] : List ℚ).map Fl.fin) 3 = .ok ([1, 1, 1], e) ∧
      oneD fp (([7, 7, 2] : List ℚ).map Fl.fin) 4 = .ok ([2, 2, 0], e') := by
  obtain ⟨e, h⟩ := three_run hfp
  obtain ⟨e', h'⟩ := four_run hfp
  exact ⟨e, e', h, h'⟩

/-- binary64 -/
example (sqrt : Fl → Fl) : (FP.ieee sqrt).Good := FP.ieee_good sqrt

/-- **C97**, what is left of it in rounded arithmetic: a larger population takes at most one away from a frequency.  Missing: that
it takes none away (false, `C97_negation`). -/
theorem C97_drop_partial {fp : FP} (hfp : fp.Good) {xs : List ℚ} {pop pop' : Int} (h0 : 0 ≤ pop) (hle : pop ≤ pop') (h1 : pop' < 2 ^ 31)
    (hn : (pop' + 2) * (xs.length + 3) ^ 2 ≤ 2 ^ 52) (hr : ∀ x ∈ xs, fp.rnd x = .fin x)
    (hx : ∀ x ∈ xs, x = 0 ∨ (2 : ℚ) ^ (-1022 : ℤ) ≤ x) (hs0 : 0 < xs.sum) (hs1 : xs.sum ≤ 2 ^ 1022) :
    ∃ f e f' e', oneD fp (xs.map Fl.fin) pop = .ok (f, e) ∧ oneD fp (xs.map Fl.fin) pop' = .ok (f', e') ∧
      ∀ i < xs.length, f.getD i 0 - 1 ≤ f'.getD i 0 := by
  have hn0 : (pop + 2) * ((xs.length : Int) + 3) ^ 2 ≤ 2 ^ 52 := (mul_le_mul_of_nonneg_right (by omega) (by positivity)).trans hn
  obtain ⟨f, e, k1, -, -, k4, -⟩ := C46_rounded hfp h0 (by omega) hn0 hr hx hs0 hs1
  obtain ⟨f', e', k1', -, -, k4', -⟩ := C46_rounded hfp (by omega) h1 hn hr hx hs0 hs1
  refine ⟨f, e, f', e', k1, k1', ?_⟩
  intro i hi
  have a := (abs_lt.mp (k4 i hi)).2
  have a' := (abs_lt.mp (k4' i hi)).1
  have hp : 0 ≤ (probs xs).getD i 0 := by
    unfold probs
    rw [List.getD_eq_getElem _ _ (by simpa using hi), List.getElem_map]
    apply div_nonneg _ hs0.le
    rcases hx _ (List.getElem_mem hi) with h | h
    · exact h.ge
    · exact le_trans (by positivity) h
  have hq : (pop : ℚ) ≤ pop' := by exact_mod_cast hle
  have := mul_le_mul_of_nonneg_left hq hp
  have h2 : (f.getD i 0 : ℚ) - 2 < f'.getD i 0 := by linarith
  have h3 : f.getD i 0 - 2 < f'.getD i 0 := by exact_mod_cast h2
  omega

/-- nearest integers of two numbers in order are in order -/
theorem nearest_mono {x y : ℚ} {a b : Int} (hxy : x < y) (ha : ((a : ℚ) - x) ^ 2 ≤ ((b : ℚ) - x) ^ 2)
    (hb : ((b : ℚ) - y) ^ 2 ≤ ((a : ℚ) - y) ^ 2) : a ≤ b := by
  by_contra hc
  have h : (b : ℚ) < a := by exact_mod_cast not_le.mp hc
  nlinarith

/-- **C97** for two groups, in exact arithmetic: nobody is taken away. -/
theorem C97_two (sqrt : Fl → Fl) {x y : ℚ} (hx : 0 ≤ x) (hy : 0 ≤ y) (hs : 0 < x + y) {pop pop' : Int} (h0 : 0 ≤ pop)
    (hle : pop ≤ pop') (h1 : pop' < 2 ^ 31) {a b a' b' : Int} {e e' : Fl}
    (h : oneD (FP.exactWith sqrt) [.fin x, .fin y] pop = .ok ([a, b], e))
    (h' : oneD (FP.exactWith sqrt) [.fin x, .fin y] pop' = .ok ([a', b'], e')) : a ≤ a' ∧ b ≤ b' := by
  rcases hle.eq_or_lt with rfl | hlt
  · rw [h] at h'
    injection h' with h'
    injection h' with h' _
    injection h' with h1 h2
    injection h2 with h2 _
    exact ⟨h1.le, h2.le⟩
  have hxs : ∀ z ∈ [x, y], (0 : ℚ) ≤ z := by simp [hx, hy]
  have hsum : 0 < [x, y].sum := by simpa using hs
  have sm : a + b = pop := by
    obtain ⟨f, _, k, -, -, k4⟩ := C45_sum_exact sqrt h0 (by omega) hxs hsum
    have : oneD (FP.exactWith sqrt) ([x, y].map Fl.fin) pop = .ok ([a, b], e) := h
    rw [this] at k
    injection k with k
    injection k with k _
    rw [← k] at k4
    simpa using k4
  have sm' : a' + b' = pop' := by
    obtain ⟨f, _, k, -, -, k4⟩ := C45_sum_exact sqrt (by omega) h1 hxs hsum
    have : oneD (FP.exactWith sqrt) ([x, y].map Fl.fin) pop' = .ok ([a', b'], e') := h'
    rw [this] at k
    injection k with k
    injection k with k _
    rw [← k] at k4
    simpa using k4
  -- the squared deviations
  have hxy : x / (x + y) + y / (x + y) = 1 := by rw [← add_div]; exact div_self hs.ne'
  set p := x / (x + y) with hp
  have hq : y / (x + y) = 1 - p := by linarith
  have hp0 : 0 ≤ p := div_nonneg hx hs.le
  have hq0 : 0 ≤ 1 - p := by rw [← hq]; exact div_nonneg hy hs.le
  have dev : ∀ (n c : Int), sqDev n (probs [x, y]) [c, n - c] = 2 * ((c : ℚ) - p * n) ^ 2 := by
    intro n c
    simp only [sqDev, probs, List.map_cons, List.map_nil, List.sum_cons, List.sum_nil, List.zipWith_cons_cons,
      List.zipWith_nil_right, add_zero]
    rw [hq, ← hp]
    push_cast
    ring
  have opt : ∀ c : Int, ((a : ℚ) - p * pop) ^ 2 ≤ ((c : ℚ) - p * pop) ^ 2 := by
    intro c
    have := (C47_optimal sqrt h0 (by omega) hxs hsum h).1 [c, pop - c] rfl (by simp)
    rw [show ([a, b] : List Int) = [a, pop - a] by rw [← sm]; simp, dev, dev] at this
    linarith
  have opt' : ∀ c : Int, ((a' : ℚ) - p * pop') ^ 2 ≤ ((c : ℚ) - p * pop') ^ 2 := by
    intro c
    have := (C47_optimal sqrt (by omega) h1 hxs hsum h').1 [c, pop' - c] rfl (by simp)
    rw [show ([a', b'] : List Int) = [a', pop' - a'] by rw [← sm']; simp, dev, dev] at this
    linarith
  have hltq : (pop : ℚ) < pop' := by exact_mod_cast hlt
  have sq : (a : ℚ) + b = pop := by exact_mod_cast sm
  have sq' : (a' : ℚ) + b' = pop' := by exact_mod_cast sm'
  constructor
  · rcases hp0.eq_or_lt with hz | hpos
    · have r := (C46_rounds sqrt h0 (by omega) hxs hsum h).1 0
      have r' := (C46_rounds sqrt (by omega) h1 hxs hsum h').1 0
      have e0 : (probs [x, y]).getD 0 0 = 0 := by
        show x / [x, y].sum = 0
        rw [show [x, y].sum = x + y by simp, ← hp, ← hz]
      rw [e0, zero_mul, sub_zero] at r r'
      have r2 : |a| < 1 := by exact_mod_cast r
      have r2' : |a'| < 1 := by exact_mod_cast r'
      have := abs_lt.mp r2
      have := abs_lt.mp r2'
      omega
    · exact nearest_mono (mul_lt_mul_of_pos_left hltq hpos) (opt a') (opt' a)
  · rcases hq0.eq_or_lt with hz | hpos
    · have r := (C46_rounds sqrt h0 (by omega) hxs hsum h).1 1
      have r' := (C46_rounds sqrt (by omega) h1 hxs hsum h').1 1
      have e0 : (probs [x, y]).getD 1 0 = 0 := by
        show y / [x, y].sum = 0
        rw [show [x, y].sum = x + y by simp, hq, ← hz]
      rw [e0, zero_mul, sub_zero] at r r'
      have r2 : |b| < 1 := by exact_mod_cast r
      have r2' : |b'| < 1 := by exact_mod_cast r'
      have := abs_lt.mp r2
      have := abs_lt.mp r2'
      omega
    · have o1 := opt (pop - b')
      have o2 := opt' (pop' - b)
      push_cast at o1 o2
      refine nearest_mono (x := (1 - p) * pop) (y := (1 - p) * pop') (mul_lt_mul_of_pos_left hltq hpos) ?_ ?_
      · rw [show ((b : ℚ) - (1 - p) * pop) = -((a : ℚ) - p * pop) by linarith,
          show ((b' : ℚ) - (1 - p) * pop) = -((pop : ℚ) - b' - p * pop) by ring, neg_sq, neg_sq]
        exact o1
      · rw [show ((b' : ℚ) - (1 - p) * pop') = -((a' : ℚ) - p * pop') by linarith,
          show ((b : ℚ) - (1 - p) * pop') = -((pop' : ℚ) - b - p * pop') by ring, neg_sq, neg_sq]
        exact o2

/-- Two groups, to which it applies. -/
example (sqrt : Fl → Fl) (pop : Int) (h0 : 0 ≤ pop) (h1 : pop < 2 ^ 31) :
    ∃ a b e, oneD (FP.exactWith sqrt) [.fin 2, .fin 3] pop = .ok ([a, b], e) := by
  obtain ⟨f, e, h, hl, -⟩ := C45_sum_exact sqrt (xs := [2, 3]) h0 h1 (by norm_num) (by norm_num)
  match f, hl with
  | [a, b], _ => exact ⟨a, b, e, h⟩

end HL

import Verif.Props.IntegeriseLargest
import Verif.Props.IPFPowTwo
import Verif.Proof.LargestPerm

/-
C114: the unit of the shares and the order of the groups make no difference to the integerisation of a vector.
-/

namespace HL
open Integerise
variable {em : Nat → Nat}

/-- **C114**: `integerise(frac, pop)` in exact arithmetic only depends on the proportions: multiplying the vector by a positive number
changes nothing, neither the frequencies and the variance nor, where there are none, the exception or undefined behaviour. -/
theorem C114_scale (sqrt : Fl → Fl) (xs : List ℚ) (pop : Int) {c : ℚ} (hc : 0 < c) :
    oneD (FP.exactWith sqrt) ((xs.map (fun x => c * x)).map Fl.fin) pop = oneD (FP.exactWith sqrt) (xs.map Fl.fin) pop := by
  unfold oneD
  split
  · rfl
  · congr 1
    rw [sumVec_exact, sumVec_exact, List.map_map, List.map_map, List.map_map]
    apply List.map_congr_left
    intro x _
    have hs : (xs.map (fun x => c * x)).sum = c * xs.sum := by rw [List.sum_map_mul_left xs (fun x => x) c, List.map_id']
    show (if (xs.map (fun x => c * x)).sum = 0 then FP.infOfSign (c * x) else Fl.fin (c * x / (xs.map (fun x => c * x)).sum)) =
      (if xs.sum = 0 then FP.infOfSign x else Fl.fin (x / xs.sum))
    rw [hs]
    by_cases h0 : xs.sum = 0
    · rw [if_pos (by rw [h0, mul_zero]), if_pos h0]
      unfold FP.infOfSign
      simp [mul_pos_iff_of_pos_left hc, hc.ne']
    · rw [if_neg (mul_ne_zero hc.ne' h0), if_neg h0, mul_div_mul_left _ _ hc.ne']

/-- **C114** in double precision: multiplying the vector by a power of two changes no bit, if its entries are zero or not extremely
small or large. -/
theorem C114_power_of_two (sqrt : Fl → Fl) {xs : List ℚ} (hx : ∀ x ∈ xs, x = 0 ∨ ((2 : ℚ) ^ (-400 : ℤ) ≤ x ∧ x ≤ 2 ^ (400 : ℤ)))
    (hn : xs.length ≤ 2 ^ 53) (pop : Int) {k : ℤ} (hk : |k| ≤ 400) :
    oneD (FP.ieee sqrt) ((xs.map (fun x => 2 ^ k * x)).map Fl.fin) pop = oneD (FP.ieee sqrt) (xs.map Fl.fin) pop := by
  have hp : (0 : ℚ) < 2 ^ k := by positivity
  have he : xs = (List.range xs.length).map (fun i => xs.getD i 0) := List.ext_getElem (by simp) (by
    intro i h1 h2
    simp [List.getElem?_eq_getElem h1])
  set b : List Int → ℚ := fun v => xs.getD (v.getD 0 0).toNat 0 with hb
  set vs : List (List Int) := (List.range xs.length).map (fun i : Nat => [(i : Int)]) with hvs
  have hbv : vs.map b = xs := by
    rw [hvs, List.map_map]
    exact he.symm
  obtain ⟨y, h1, h2, h3, -⟩ := fold_scale sqrt hk b vs 0 0 (by
      intro v hv
      have : b v ∈ vs.map b := List.mem_map.mpr ⟨v, hv, rfl⟩
      rw [hbv] at this
      exact hx _ this) (by rw [hvs]; simpa using hn) (Or.inl rfl) (by simp)
  rw [mul_zero] at h2
  have e1 : sumVec (numFl (FP.ieee sqrt)) (xs.map Fl.fin) = .fin y := by
    rw [← h1, ← hbv, List.map_map]
    unfold sumVec
    rw [List.foldl_map]
    rfl
  have e2 : sumVec (numFl (FP.ieee sqrt)) ((xs.map (fun x => 2 ^ k * x)).map Fl.fin) = .fin (2 ^ k * y) := by
    rw [← h2, ← hbv, List.map_map, List.map_map]
    unfold sumVec
    rw [List.foldl_map]
    rfl
  unfold oneD
  rw [e1, e2]
  split
  · rfl
  · congr 1
    rw [List.map_map, List.map_map, List.map_map]
    apply List.map_congr_left
    intro x _
    show (if 2 ^ k * y = 0 then FP.infOfSign (2 ^ k * x) else FP.rndIeee (2 ^ k * x / (2 ^ k * y))) =
      (if y = 0 then FP.infOfSign x else FP.rndIeee (x / y))
    by_cases h0 : y = 0
    · rw [if_pos (by rw [h0, mul_zero]), if_pos h0]
      unfold FP.infOfSign
      simp [mul_pos_iff_of_pos_left hp, hp.ne']
    · rw [if_neg (mul_ne_zero hp.ne' h0), if_neg h0, mul_div_mul_left _ _ hp.ne']

/-- **C114**: `integerise(frac, pop)` with the entries in another order. A group whose share is whole, or whose remainder no other
group has, gets the same frequency; any other group gets the same, one more or one less. -/
theorem C114_order (sqrt : Fl → Fl) {xs xs' : List ℚ} (hre : Reordered em xs xs') {pop : Int} (hpop0 : 0 ≤ pop) (hpop : pop < 2 ^ 31)
    (hx : ∀ x ∈ xs, 0 ≤ x) (hs : 0 < xs.sum) :
    ∃ f f' e e', oneD (FP.exactWith sqrt) (xs.map Fl.fin) pop = .ok (f, e) ∧ oneD (FP.exactWith sqrt) (xs'.map Fl.fin) pop = .ok (f', e') ∧
      ∀ i < xs.length, (OwnRemainder (sharesOf xs pop) i → f'.getD (em i) 0 = f.getD i 0) ∧ |f'.getD (em i) 0 - f.getD i 0| ≤ 1 := by
  obtain ⟨e, h⟩ := C112_integerise sqrt hpop0 hpop hx hs
  obtain ⟨e', h'⟩ := C112_integerise sqrt hpop0 hpop (reordered_all hre hx) (by rw [sum_reordered hre]; exact hs)
  have hsum : (sharesOf xs pop).sum = pop := by
    rw [← sharesOf_probs, List.sum_map_mul_right (probs xs) (fun x => x) (pop : ℚ), List.map_id', probs_sum hs.ne', one_mul]
  refine ⟨_, _, e, e', h, h', fun i hi => largest_reordered (by rw [hsum]; linarith) (sharesOf_reordered hre) ?_⟩
  unfold sharesOf
  simpa using hi

/-- **C114** for `integerise` of a 1-d array. -/
theorem C114_order_vector (dbg : Bool) (sqrt : Fl → Fl) (lm : Libm) {xs xs' : List ℚ} (hre : Reordered em xs xs') (hx : ∀ x ∈ xs, 0 ≤ x)
    (h1 : 1 ≤ xs.sum) (h2 : xs.sum < 2 ^ 31) {n : Int} (hn : |xs.sum - n| ≤ 1 / 10 ^ 4) :
    ∃ f f' E E', run dbg (FP.exactWith sqrt) lm (vec xs) = .ok ⟨intVec f, true, E⟩ ∧
      run dbg (FP.exactWith sqrt) lm (vec xs') = .ok ⟨intVec f', true, E'⟩ ∧
      ∀ i < xs.length, (OwnRemainder xs i → f'.getD (em i) 0 = f.getD i 0) ∧ |f'.getD (em i) 0 - f.getD i 0| ≤ 1 := by
  have hsum := sum_reordered hre
  obtain ⟨E, h⟩ := C112_vector dbg sqrt lm hx h1 h2 hn
  obtain ⟨E', h'⟩ := C112_vector dbg sqrt lm (reordered_all hre hx) (by rw [hsum]; exact h1) (by rw [hsum]; exact h2) (by rw [hsum]; exact hn)
  rw [hsum] at h'
  refine ⟨_, _, E, E', h, h', fun i hi => largest_reordered ?_ hre hi⟩
  have := Int.floor_le xs.sum
  linarith

/-- The hypotheses hold: 1 : 3 : 2 turned round, each share with its own remainder. -/
example : Reordered (fun i => 2 - i) [(1 : ℚ), 3, 2] [2, 3, 1] ∧ ∀ i < 3, OwnRemainder (sharesOf [1, 3, 2] 4) i := by
  constructor
  · refine ⟨rfl, ?_, ?_, by decide +kernel⟩
    · intro i hi
      simp only [List.length_cons, List.length_nil] at hi ⊢
      omega
    · intro i hi j hj hij
      simp only [List.length_cons, List.length_nil] at hi hj
      omega
  · have h : ∀ i < 3, Int.fract ((sharesOf [1, 3, 2] 4).getD i 0) = 0 ∨ ∀ j < 3, j ≠ i →
        Int.fract ((sharesOf [1, 3, 2] 4).getD j 0) ≠ Int.fract ((sharesOf [1, 3, 2] 4).getD i 0) := by decide +kernel
    exact h

/-- Without the hypothesis it is false: of equal groups the first gets more, so that turning them round changes the frequencies. -/
theorem C114_ties (sqrt : Fl → Fl) : Reordered (fun i => 2 - i) [(1 : ℚ), 1, 1] [1, 1, 1] ∧
    ∃ e, oneD (FP.exactWith sqrt) ([(1 : ℚ), 1, 1].map Fl.fin) 4 = .ok ([2, 1, 1], e) := by
  constructor
  · refine ⟨rfl, ?_, ?_, by decide +kernel⟩
    · intro i hi
      simp only [List.length_cons, List.length_nil] at hi ⊢
      omega
    · intro i hi j hj hij
      simp only [List.length_cons, List.length_nil] at hi hj
      omega
  · obtain ⟨e, h⟩ := C112_integerise sqrt (xs := [1, 1, 1]) (pop := 4) (by norm_num) (by norm_num) (by norm_num) (by norm_num)
    refine ⟨e, ?_⟩
    rw [h]
    have : largest (sharesOf [1, 1, 1] 4) 4 = [2, 1, 1] := by decide +kernel
    rw [this]

end HL

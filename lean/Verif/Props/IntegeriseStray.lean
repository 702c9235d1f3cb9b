import Verif.Proof.IntegeriseStray
import Verif.Props.IntegeriseClosest

/-
Multidimensional integerisation: whether every cell is rounded up or down.
-/

namespace HL
open Integerise

/-! ### C104 -/

/-- **C104 is false**, in exact and in IEEE arithmetic: for the positive 3 x 3 array
```
1/4 1/2 1/4
1/2  1  1/2
1/4 1/2 1/4
```
whose sums are the whole numbers 1, 2 and 1 in both dimensions, `integerise` succeeds, and puts two individuals in the middle
cell, where the array holds exactly one. -/
theorem C104_negation {fp : FP} (hfp : fp = FP.exact ∨ ∃ sqrt, fp = FP.ieee sqrt) (lm : Libm) :
    ∃ (a : List Int → ℚ) (r : Result) (f : List Int → Int), (∀ v, InRange [3, 3] v → 0 < a v) ∧
      (∀ d < 2, ∀ i < 3, ∃ n : Int, marginalSum [3, 3] [d] a [((i : Nat) : Int)] = n) ∧
      run false fp lm (arr [3, 3] (fun v => .fin (a v))) = .ok r ∧ r.conv = true ∧ r.result = arr [3, 3] f ∧
      a [1, 1] = 1 ∧ f [1, 1] = 2 := by
  have h : fp.Good ∧ Stray.Facts fp := by
    rcases hfp with rfl | ⟨sqrt, rfl⟩
    · exact ⟨FP.exact_good, Stray.facts_exact⟩
    · exact ⟨FP.ieee_good sqrt, Stray.facts_ieee sqrt⟩
  obtain ⟨r, h1, h2, h3⟩ := Stray.stray_run h.1 h.2 lm
  refine ⟨tab3 Stray.u0, r, Stray.res, ?_, ?_, h1, h2, h3, by decide +kernel, by decide +kernel⟩
  · have : ∀ v ∈ allIdx [3, 3], 0 < tab3 Stray.u0 v := by decide +kernel
    exact fun v hv => this v (mem_allIdx.mpr hv)
  · have : ∀ d < 2, ∀ i < 3, marginalSum [3, 3] [d] (tab3 Stray.u0) [((i : Nat) : Int)] = (Stray.sums d i : ℚ) := by decide +kernel
    exact fun d hd i hi => ⟨_, this d hd i hi⟩

/-- **C104**, for arrays of whole numbers, in every arithmetic: every cell is left as it is. Missing: arrays with other cells,
for which it is false in general (`C104_negation`). -/
theorem C104_whole_partial {fp : FP} (hfp : fp.Good) (lm : Libm) {s : List Nat} (hg : GoodShape s) (h2 : 2 ≤ s.length)
    (hd : s.length ≤ 1111) {g : List Int → Int} (hn : ∀ v, InRange s v → 0 ≤ g v) (hb : ∑ v ∈ cells s, g v ≤ 2 ^ 32 - 1)
    (hsz : prodSizes s ≤ 2 ^ 53) :
    ∃ r f, run false fp lm (arr s (intFl g)) = .ok r ∧ r.result = arr s f ∧ ∀ v, InRange s v → f v = g v :=
  ⟨_, g, C72_integerise hfp lm hg h2 hd hn hb hsz, rfl, fun _ _ => rfl⟩

example : GoodShape [2, 3] ∧ (∀ v, InRange [2, 3] v → 0 ≤ exWhole v) ∧ ∑ v ∈ cells [2, 3], exWhole v ≤ 2 ^ 32 - 1 :=
  ⟨⟨by decide, by decide⟩, fun v _ => by unfold exWhole; split <;> omega, by decide⟩

/-! ### C75 -/

/-- **C75 is false** in IEEE arithmetic too: for the array of `C104_negation` the result is further from the array than another
array of non-negative whole numbers with the same sums. -/
theorem C75_negation_double (sqrt : Fl → Fl) (lm : Libm) :
    ∃ (a : List Int → ℚ) (r : Result) (f g : List Int → Int), (∀ v, InRange [3, 3] v → 0 < a v) ∧
      run false (FP.ieee sqrt) lm (arr [3, 3] (fun v => .fin (a v))) = .ok r ∧ r.conv = true ∧ r.result = arr [3, 3] f ∧
      (∀ v, InRange [3, 3] v → 0 ≤ g v) ∧
      (∀ d < 2, ∀ i < 3, marginalSum [3, 3] [d] f [((i : Nat) : Int)] = marginalSum [3, 3] [d] g [((i : Nat) : Int)] ∧
        marginalSum [3, 3] [d] a [((i : Nat) : Int)] = ((marginalSum [3, 3] [d] g [((i : Nat) : Int)] : Int) : ℚ)) ∧
      sqDist [3, 3] g a < sqDist [3, 3] f a := by
  obtain ⟨r, h1, h2, h3⟩ := Stray.stray_run (FP.ieee_good sqrt) (Stray.facts_ieee sqrt) lm
  refine ⟨tab3 Stray.u0, r, Stray.res, fun v => if v = [0, 1] ∨ v = [1, 0] ∨ v = [1, 1] ∨ v = [2, 2] then 1 else 0, ?_, h1, h2, h3, ?_, ?_, ?_⟩
  · have : ∀ v ∈ allIdx [3, 3], 0 < tab3 Stray.u0 v := by decide +kernel
    exact fun v hv => this v (mem_allIdx.mpr hv)
  · intro v _
    dsimp only
    split <;> omega
  · decide +kernel
  · decide +kernel

end HL

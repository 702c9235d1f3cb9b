import Verif.Proof.IntegeriseClosest
import Verif.Props.Whole

/-
Multidimensional integerisation: how close the result is to the array, and the cells that are zero.
-/

namespace HL
open Integerise

/-- the sum of the squares of the differences between the cells of `f` and those of `a` -/
def sqDist (s : List Nat) (f : List Int → Int) (a : List Int → ℚ) : ℚ := ∑ v ∈ cells s, ((f v : ℚ) - a v) ^ 2

/-! ### C75 -/

/-- **C75 is false**, even in exact arithmetic: the R documentation says that `integerise` returns "the closest integer
array to the fractional population provided, preserving the sums in every dimension".  For the table with rows
`.3 .4 .3`, `.4 .2 .4`, `.3 .4 .3` it returns one with the right sums, with `conv` true, but there is another with the same
sums that is closer. -/
theorem C75_negation (lm : Libm) :
    ∃ (a : List Int → ℚ) (r : Result) (f g : List Int → Int), (∀ v, InRange [3, 3] v → 0 < a v) ∧
      run false FP.exact lm (arr [3, 3] (fun v => .fin (a v))) = .ok r ∧ r.conv = true ∧ r.result = arr [3, 3] f ∧
      (∀ v, InRange [3, 3] v → 0 ≤ g v) ∧
      (∀ d < 2, ∀ i < 3, marginalSum [3, 3] [d] f [((i : Nat) : Int)] = 1 ∧ marginalSum [3, 3] [d] g [((i : Nat) : Int)] = 1 ∧
        marginalSum [3, 3] [d] a [((i : Nat) : Int)] = 1) ∧
      sqDist [3, 3] g a < sqDist [3, 3] f a := by
  obtain ⟨r, h1, h2, h3⟩ := run3 lm
  refine ⟨tab3 t0, r, res3, fun v => if v = [0, 1] ∨ v = [1, 0] ∨ v = [2, 2] then 1 else 0, ?_, h1, h2, h3, ?_, ?_, ?_⟩
  · have : ∀ v ∈ allIdx [3, 3], 0 < tab3 t0 v := by decide +kernel
    exact fun v hv => this v (mem_allIdx.mpr hv)
  · intro v _
    dsimp only
    split <;> omega
  · decide +kernel
  · decide +kernel

/-- **C75**, for arrays of whole numbers, in every arithmetic: the result is the array itself, so no other is closer.
Missing: all other arrays, for which it is false in general (`C75_negation`). -/
theorem C75_whole_partial {fp : FP} (hfp : fp.Good) (lm : Libm) {s : List Nat} (hg : GoodShape s) (h2 : 2 ≤ s.length)
    (hd : s.length ≤ 1111) {g : List Int → Int} (hn : ∀ v, InRange s v → 0 ≤ g v) (hb : ∑ v ∈ cells s, g v ≤ 2 ^ 32 - 1)
    (hsz : prodSizes s ≤ 2 ^ 53) :
    ∃ r f, run false fp lm (arr s (intFl g)) = .ok r ∧ r.result = arr s f ∧
      ∀ f' : List Int → Int, sqDist s f (fun v => g v) ≤ sqDist s f' (fun v => g v) := by
  refine ⟨_, g, C72_integerise hfp lm hg h2 hd hn hb hsz, rfl, ?_⟩
  intro f'
  have : sqDist s g (fun v => g v) = 0 := by simp [sqDist]
  rw [this]
  exact Finset.sum_nonneg (fun _ _ => sq_nonneg _)

example : GoodShape [2, 3] ∧ (∀ v, InRange [2, 3] v → 0 ≤ exWhole v) ∧ ∑ v ∈ cells [2, 3], exWhole v ≤ 2 ^ 32 - 1 :=
  ⟨⟨by decide, by decide⟩, fun v _ => by unfold exWhole; split <;> omega, by decide⟩

/-! ### C76 -/

/-- **C76**: where the array holds zero, so does the result of `integerise`, in exact and in IEEE arithmetic. -/
theorem C76_zeros {fp : FP} (hsg : fp = FP.exact ∨ ∃ sqrt, fp = FP.ieee sqrt) {lm : Libm} {s : List Nat} (hg : GoodShape s)
    (h2 : 2 ≤ s.length) {a : List Int → Fl} (ha : ∀ v, InRange s v → FP.le (.fin 0) (a v) = true) {r : Result}
    (h : run false fp lm (arr s a) = .ok r)
    (hb : ∀ d < s.length, ∀ N : Nat → Int, (∀ i < s.getD d 0, NearInt fp (fsum fp s [d] a [(i : Int)]) (N i)) →
      |∑ i ∈ Finset.range (s.getD d 0), N i| < 2 ^ 52) :
    ∃ f, r.result = arr s f ∧ ∀ v, InRange s v → a v = .fin 0 → f v = 0 := by
  have hfp : fp.Good := by
    rcases hsg with rfl | ⟨sqrt, rfl⟩
    · exact FP.exact_good
    · exact FP.ieee_good sqrt
  rw [run_array h2] at h
  obtain ⟨T, hT, h⟩ := Out.bind_eq_ok.mp h
  obtain ⟨N, hN⟩ := array_inv hg h
  rw [array_eq hg lm hN] at h
  obtain ⟨x, hx, h⟩ := Out.bind_eq_ok.mp h
  obtain ⟨pop, hok, hpop⟩ : ∃ pop, ProbOK s (roundProb s N) pop ∧ pop < 2 ^ 52 := by
    rcases roundProb_new hfp hg h2 (N := N) (fun d hd => hb d hd (N d)
      (fun i hi => checkedRound_inv (hN d hd i hi))) with h' | ⟨e, he⟩
    · exact h'
    · exfalso
      unfold qisi QISI.run QISI.new at hx
      rw [he] at hx
      cases hx
  have hp := properProb_of_disjoint hok.toProbShape (roundProb_flatten s N)
  obtain ⟨f, hf1, -⟩ := C41_population_conv hfp hok hpop hp hx
  have hz := C43_zeros hsg hok hpop hp ha hx hf1
  rw [hf1, copy_empty hg, Out.ok_bind] at h
  obtain ⟨e, -, h⟩ := Out.bind_eq_ok.mp h
  injection h with h
  subst h
  exact ⟨f, rfl, hz⟩

/-- A run that returns, for an array with zeros. -/
example (sqrt : Fl → Fl) (lm : Libm) :
    (∃ r, run false (FP.ieee sqrt) lm (arr [2, 3] (intFl exWhole)) = .ok r) ∧ intFl exWhole [0, 1] = .fin 0 :=
  ⟨⟨_, C72_integerise (FP.ieee_good sqrt) lm ⟨by decide, by decide⟩ (by decide) (by decide)
    (fun v _ => by unfold exWhole; split <;> omega) (by decide) (by decide)⟩, rfl⟩

/-- **C76** for `integerise(frac, pop)`, in exact arithmetic: a zero gets nobody. -/
theorem C76_zeros_vector (sqrt : Fl → Fl) {xs : List ℚ} {pop : Int} (hpop0 : 0 ≤ pop) (hpop : pop < 2 ^ 31)
    (hx : ∀ x ∈ xs, 0 ≤ x) (hs : 0 < xs.sum) {f : List Int} {e : Fl}
    (h : oneD (FP.exactWith sqrt) (xs.map Fl.fin) pop = .ok (f, e)) {i : Nat} (hi : xs.getD i 0 = 0) : f.getD i 0 = 0 := by
  obtain ⟨h1, -⟩ := C46_rounds sqrt hpop0 hpop hx hs h
  have := h1 i
  have hp : (probs xs).getD i 0 = 0 := by
    have := List.getD_map (n := i) xs (0 : ℚ) (fun x : ℚ => x / xs.sum)
    rw [zero_div, hi, zero_div] at this
    exact this
  rw [hp, zero_mul, sub_zero] at this
  have h2 : |f.getD i 0| < 1 := by exact_mod_cast this
  have := abs_lt.mp h2
  omega

end HL

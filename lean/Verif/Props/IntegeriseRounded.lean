import Verif.Proof.IntegeriseOrder
import Verif.Proof.IntegeriseGreedy
import Verif.IntegeriseSpec

/-
1-d integerisation in rounded arithmetic: the order of the frequencies.
-/

namespace HL
open Integerise

/-! ### C74 -/

/-- **C74**: whenever `integerise(frac, pop)` returns, in double precision (or any rounding that is monotone and accurate),
of two numbers the larger gets at most one less than the smaller, and no less if it stands first.  Equal numbers are
included: their frequencies differ by at most one, and the first gets the extra one. -/
theorem C74_order {fp : FP} (hfp : fp.Good) {xs : List ℚ} {pop : Int} (hpop : pop < 2 ^ 31) (hx : ∀ x ∈ xs, 0 ≤ x)
    {f : List Int} {e : Fl} (h : oneD fp (xs.map Fl.fin) pop = .ok (f, e)) {i j : Nat} (hi : i < xs.length)
    (hj : j < xs.length) (hij : xs.getD i 0 ≤ xs.getD j 0) :
    f.getD i 0 ≤ f.getD j 0 + 1 ∧ (j < i → f.getD i 0 ≤ f.getD j 0) := by
  have h0 : 0 ≤ pop := by
    by_contra hc
    unfold oneD at h
    rw [if_pos (by omega)] at h
    cases h
  obtain ⟨P, h1, h2, h3⟩ := oneD_shares hfp hx h
  have gd : ∀ k, k < xs.length → (xs.map P).getD k 0 = P (xs.getD k 0) ∧ xs.getD k 0 ∈ xs := by
    intro k hk
    rw [List.getD_eq_getElem _ _ (by simpa using hk), List.getElem_map, List.getD_eq_getElem _ _ hk]
    exact ⟨rfl, List.getElem_mem _⟩
  refine marginal_order hfp h0 hpop ?_ h1 (by simpa using hi) (by simpa using hj) ?_
  · intro x hx'
    obtain ⟨y, hy, rfl⟩ := List.mem_map.mp hx'
    exact h2 y hy
  · rw [(gd i hi).1, (gd j hj).1]
    exact h3 _ (gd i hi).2 _ (gd j hj).2 hij

/-- **C74** for `prob2IntFreq`. -/
theorem C74_prob2IntFreq {fp : FP} (hfp : fp.Good) {p : List ℚ} {pop : Int} (hpop : pop < 2 ^ 31) (hp : ∀ x ∈ p, 0 ≤ x)
    {f : List Int} {e : Fl} (h : prob2IntFreq fp (p.map Fl.fin) pop = .ok (f, e)) {i j : Nat} (hi : i < p.length)
    (hj : j < p.length) (hij : p.getD i 0 ≤ p.getD j 0) :
    f.getD i 0 ≤ f.getD j 0 + 1 ∧ (j < i → f.getD i 0 ≤ f.getD j 0) := by
  unfold prob2IntFreq at h
  split_ifs at h with h0 h1
  exact marginal_order hfp (by omega) hpop hp h hi hj hij

/-- The "at most one less" of **C74** is attained in IEEE double precision: there are three doubles, the second larger than
the first, of which `integerise` with a population of 3 gives two to the first and one to the second.  So neither the
order (C48) nor the optimality (C47) of the exact algorithm survives rounding: `[1, 2, 0]` is closer. -/
theorem C74_tight (sqrt : Fl → Fl) :
    ∃ (xs : List ℚ) (e : Fl), (∀ x ∈ xs, 0 < x ∧ (FP.ieee sqrt).rnd x = .fin x) ∧ xs.sum = 1 ∧
      oneD (FP.ieee sqrt) (xs.map Fl.fin) 3 = .ok ([2, 1, 0], e) ∧ xs.getD 0 0 < xs.getD 1 0 ∧
      sqDev 3 xs [1, 2, 0] < sqDev 3 xs [2, 1, 0] := by
  obtain ⟨e, he⟩ := tri_run sqrt
  refine ⟨tri, e, fun x hx => ⟨?_, tri_exact sqrt x hx⟩, ?_, he, ?_, ?_⟩
  · unfold tri at hx
    simp only [List.mem_cons, List.not_mem_nil, or_false] at hx
    rcases hx with rfl | rfl | rfl <;> norm_num
  · norm_num [tri]
  · norm_num [tri]
  · norm_num [tri, sqDev]

/-- A run to which the theorem applies. -/
example (sqrt : Fl → Fl) : ∃ f e, oneD (FP.ieee sqrt) (tri.map Fl.fin) 3 = .ok (f, e) ∧ 0 < tri.length ∧ 1 < tri.length := by
  obtain ⟨e, he⟩ := tri_run sqrt
  exact ⟨_, e, he, by decide, by decide⟩

/-! ### C46, C50 and C76 in rounded arithmetic -/

/-- a number of entries and a population for which the theorems below hold -/
example (n : Nat) (pop : Int) (h0 : 0 ≤ pop) (hn : n ≤ 1000) (hp : pop ≤ 4000000000) : (pop + 2) * (n + 3) ^ 2 ≤ 2 ^ 52 := by
  have : ((n : Int) + 3) ^ 2 ≤ 1003 ^ 2 := pow_le_pow_left₀ (by omega) (by omega) 2
  calc (pop + 2) * ((n : Int) + 3) ^ 2 ≤ (4000000000 + 2) * 1003 ^ 2 := mul_le_mul (by omega) this (by positivity) (by norm_num)
    _ ≤ 2 ^ 52 := by norm_num

/-- **C46** in rounded arithmetic (IEEE double precision included), for a thousand entries and any population, or more
entries for smaller populations: every frequency differs from the exact value by less than one, and if all exact values are integers they are
returned unchanged, rounding errors notwithstanding. -/
theorem C46_rounded {fp : FP} (hfp : fp.Good) {xs : List ℚ} {pop : Int} (h0 : 0 ≤ pop) (h1 : pop < 2 ^ 31)
    (hn : (pop + 2) * (xs.length + 3) ^ 2 ≤ 2 ^ 52) (hr : ∀ x ∈ xs, fp.rnd x = .fin x)
    (hx : ∀ x ∈ xs, x = 0 ∨ (2 : ℚ) ^ (-1022 : ℤ) ≤ x) (hs0 : 0 < xs.sum) (hs1 : xs.sum ≤ 2 ^ 1022) :
    ∃ f e, oneD fp (xs.map Fl.fin) pop = .ok (f, e) ∧ f.length = xs.length ∧ f.sum = pop ∧
      (∀ i < xs.length, |(f.getD i 0 : ℚ) - (probs xs).getD i 0 * pop| < 1) ∧
      ((∀ x ∈ probs xs, ∃ z : ℤ, x * pop = z) → ∀ i < xs.length, (f.getD i 0 : ℚ) = (probs xs).getD i 0 * pop) := by
  obtain ⟨f, e, k1, k2, -, k4, k5⟩ := oneD_close hfp h0 h1 hn hr (by rw [tinyQ_eq]; exact hx) hs0 (by unfold hugeQ; exact hs1)
  have gd : ∀ i < xs.length, (probs xs).getD i 0 = xs.getD i 0 / xs.sum ∧ (probs xs).getD i 0 ∈ probs xs := by
    intro i hi
    have hi' : i < (probs xs).length := by unfold probs; simpa using hi
    refine ⟨?_, by rw [List.getD_eq_getElem _ _ hi']; exact List.getElem_mem _⟩
    unfold probs
    rw [List.getD_eq_getElem _ _ (by simpa using hi), List.getElem_map, List.getD_eq_getElem _ _ hi]
  have hc : ∀ i < xs.length, |(f.getD i 0 : ℚ) - (probs xs).getD i 0 * pop| < 1 := by
    intro i hi
    rw [(gd i hi).1]
    exact k5 i hi
  refine ⟨f, e, k1, k2, k4, hc, ?_⟩
  intro hz i hi
  obtain ⟨z, hz⟩ := hz _ (gd i hi).2
  have h2 := hc i hi
  rw [hz] at h2 ⊢
  have h3 : |f.getD i 0 - z| < 1 := by exact_mod_cast h2
  have := abs_lt.mp h3
  have : f.getD i 0 = z := by omega
  rw [this]

/-- **C46** for `prob2IntFreq`, in rounded arithmetic: whenever it returns. -/
theorem C46_rounded_prob2IntFreq {fp : FP} (hfp : fp.Good) {p : List ℚ} {pop : Int} (h0 : 0 ≤ pop) (h1 : pop < 2 ^ 31)
    (hn : (pop + 4) * (2 * p.length + 2003) * (p.length + 2) ≤ 2 ^ 53) (hp : ∀ x ∈ p, 0 ≤ x) (hs : p.sum ≤ 2)
    {f : List Int} {e : Fl} (hf : prob2IntFreq fp (p.map Fl.fin) pop = .ok (f, e)) :
    ∀ i < p.length, |(f.getD i 0 : ℚ) - p.getD i 0 * pop| < 1 :=
  prob2IntFreq_close hfp h0 h1 hn hp hs hf

/-- **C76** for `integerise(frac, pop)`, in rounded arithmetic: a zero gets nobody. -/
theorem C76_zeros_rounded {fp : FP} (hfp : fp.Good) {xs : List ℚ} {pop : Int} (h0 : 0 ≤ pop) (h1 : pop < 2 ^ 31)
    (hn : (pop + 2) * (xs.length + 3) ^ 2 ≤ 2 ^ 52) (hr : ∀ x ∈ xs, fp.rnd x = .fin x)
    (hx : ∀ x ∈ xs, x = 0 ∨ (2 : ℚ) ^ (-1022 : ℤ) ≤ x) (hs0 : 0 < xs.sum) (hs1 : xs.sum ≤ 2 ^ 1022) :
    ∃ f e, oneD fp (xs.map Fl.fin) pop = .ok (f, e) ∧ ∀ i < xs.length, xs.getD i 0 = 0 → f.getD i 0 = 0 := by
  obtain ⟨f, e, k1, k2, -, k4, k5⟩ := oneD_close hfp h0 h1 hn hr (by rw [tinyQ_eq]; exact hx) hs0 (by unfold hugeQ; exact hs1)
  refine ⟨f, e, k1, ?_⟩
  intro i hi hz
  have := k5 i hi
  rw [hz, zero_div, zero_mul, sub_zero] at this
  have h2 : |f.getD i 0| < 1 := by exact_mod_cast this
  have := abs_lt.mp h2
  omega

/-- **C50**, rounded arithmetic, when the computed total is an integer: every entry of the result differs from the original
by less than one, and so zeros and vectors of whole numbers are unchanged. -/
theorem C50_rounded_close_partial (dbg : Bool) {fp : FP} (hfp : fp.Good) (lm : Libm) {xs : List ℚ} {N : Int} (hN0 : 1 ≤ N)
    (hN : N < 2 ^ 31) (hn : (N + 2) * (xs.length + 3) ^ 2 ≤ 2 ^ 52) (hr : ∀ x ∈ xs, fp.rnd x = .fin x)
    (hx : ∀ x ∈ xs, x = 0 ∨ (2 : ℚ) ^ (-1022 : ℤ) ≤ x) (hs1 : xs.sum ≤ 2 ^ 1022)
    (hs : sumVec (numFl fp) (xs.map Fl.fin) = .fin N) :
    ∃ f e, run dbg fp lm (vec xs) = .ok ⟨intVec f, true, e⟩ ∧ f.length = xs.length ∧ (∀ k ∈ f, 0 ≤ k) ∧ f.sum = N ∧
      ∀ i < xs.length, |(f.getD i 0 : ℚ) - xs.getD i 0| < 1 := by
  have he := eps_pos
  have tiny := tinyQ_pos
  have hx' : ∀ x ∈ xs, x = 0 ∨ tinyQ ≤ x := by rw [tinyQ_eq]; exact hx
  have hs1' : xs.sum ≤ hugeQ := by unfold hugeQ; exact hs1
  clear hx hs1
  have hn1 : (N + 2) * (xs.length + 3) ≤ 2 ^ 53 := by
    have e1 : (0 : Int) ≤ (N + 2) * (xs.length + 3) := by positivity
    have e2 : (N + 2) * (xs.length + 3) ≤ (N + 2) * (xs.length + 3) * (xs.length + 3) := by nlinarith
    have e3 : (N + 2) * (xs.length + 3) * (xs.length + 3) = (N + 2) * ((xs.length : Int) + 3) ^ 2 := by ring
    omega
  obtain ⟨hpos, f, e, k1, k2, k3, k4, k5⟩ := run_vec_rounded dbg hfp lm hN0 hN hn1 hr hx' hs1' hs
  refine ⟨f, e, k1, k2, k3, k4, ?_⟩
  have hne : xs ≠ [] := by rintro rfl; simp at hpos
  have hx0 : ∀ x ∈ xs, 0 ≤ x := by
    intro x hxm
    rcases hx' x hxm with h | h
    · exact h.ge
    · linarith
  have hlen : (xs.length : ℚ) * eps ≤ 1 / 4 := by
    have hnq : ((N : ℚ) + 2) * (xs.length + 3) ^ 2 ≤ 2 ^ 52 := by exact_mod_cast hn
    have hNq : (1 : ℚ) ≤ N := by exact_mod_cast hN0
    have e0 : (0 : ℚ) ≤ xs.length := by positivity
    have e1 : (xs.length : ℚ) * 2 ≤ 2 ^ 52 := by nlinarith
    have : (xs.length : ℚ) * eps ≤ 2 ^ 51 * eps := mul_le_mul_of_nonneg_right (by linarith) he.le
    refine this.trans ?_
    unfold eps; norm_num
  obtain ⟨S, hS, hSpos, g4, g1, g2⟩ := sum_close hfp hlen hr hx' hpos hs1'
  have hSN : S = N := by
    rw [hs] at hS
    injection hS with hS
    exact hS.symm
  obtain ⟨f', e', m1, -, -, -, m5⟩ := shares_close hfp (by omega) hN hne hn hx0 hSpos (T := 1) zero_le_one g4 g1
    (by
      have e0 : (0 : ℚ) ≤ xs.length := by positivity
      rw [hSN, one_mul, sub_self, abs_zero]
      have : (0 : ℚ) ≤ N := by exact_mod_cast (by omega : 0 ≤ N)
      positivity)
    (by
      have := (abs_le.mp g1).2
      rw [hSN] at this
      linarith)
  have : oneD fp (xs.map Fl.fin) N = .ok (f', e') := by
    unfold oneD
    rw [if_neg (by omega), hS]
    exact m1
  rw [k5] at this
  injection this with this
  have hff : f = f' := congrArg Prod.fst this
  intro i hi
  have := m5 i hi
  rw [one_mul] at this
  rw [hff]
  exact this

/-- doubles with an inexact sum to which these apply -/
example (sqrt : Fl → Fl) : (3 + 2) * ((tri.length : Int) + 3) ^ 2 ≤ 2 ^ 52 ∧ (∀ x ∈ tri, (FP.ieee sqrt).rnd x = .fin x) ∧
    sumVec (numFl (FP.ieee sqrt)) (tri.map Fl.fin) = .fin 1 ∧ 0 < tri.sum ∧ tri.sum ≤ 2 ^ 1022 ∧
    ∀ x ∈ tri, x = 0 ∨ (2 : ℚ) ^ (-1022 : ℤ) ≤ x := by
  refine ⟨by decide, tri_exact sqrt, tri_sum sqrt, by norm_num [tri], ?_, ?_⟩
  · have h1 : tri.sum = 1 := by norm_num [tri]
    rw [h1]; exact one_le_pow₀ (by norm_num)
  · intro x hx
    right
    have h2 : (2 : ℚ) ^ (-1022 : ℤ) ≤ 2 ^ (-10 : ℤ) := zpow_le_zpow_right₀ (by norm_num) (by norm_num)
    refine h2.trans ?_
    unfold tri at hx
    simp only [List.mem_cons, List.not_mem_nil, or_false] at hx
    rcases hx with rfl | rfl | rfl <;> norm_num

end HL

import Verif.Proof.LargestPad

/-
Largest remainders of the shares as they are computed.
-/

namespace HL
namespace Integerise
variable {fp : FP}

/-- `ys` are the values of `frac / sum * pop` as computed -/
def Computed (fp : FP) (xs : List ℚ) (pop : Int) (ys : List ℚ) : Prop :=
  List.Forall₂ (fun x y => fp.mul (fp.div (.fin x) (sumVec (numFl fp) (xs.map Fl.fin))) (fp.ofInt pop) = .fin y) xs ys

/-- The computed shares are numbers that sum to the population, up to less than one. -/
theorem shares_sum (h : fp.Good) {xs : List ℚ} {pop : Int} (h0 : 0 ≤ pop) (h1 : pop < 2 ^ 31)
    (hn : (pop + 2) * (xs.length + 3) ≤ 2 ^ 51) (hx : ∀ x ∈ xs, 0 ≤ x) {S : ℚ} (hS : 0 < S)
    (hxS : ∀ x ∈ xs, x ≤ S) (g1 : |xs.sum - S| ≤ 2 * xs.length * eps * S) :
    ∃ A B : ℚ → ℚ, (∀ x ∈ xs, fp.rnd (x / S) = .fin (A x) ∧ fp.mul (.fin (A x)) (fp.ofInt pop) = .fin (B x) ∧ 0 ≤ B x) ∧
      |(xs.map B).sum - pop| < 1 := by
  have he := eps_pos
  have hpq : (0 : ℚ) ≤ pop := by exact_mod_cast h0
  have hn0 : (0 : ℚ) ≤ xs.length := by positivity
  set n : ℚ := (xs.length : ℚ) with hnd
  have hnq : ((pop : ℚ) + 2) * (n + 3) ≤ 2 ^ 51 := by rw [hnd]; exact_mod_cast hn
  have hnb : ((pop : ℚ) + 2) * (n + 3) * (4 * eps) ≤ 1 := by
    calc ((pop : ℚ) + 2) * (n + 3) * (4 * eps) ≤ 2 ^ 51 * (4 * eps) := by gcongr
      _ = 1 := by unfold eps; norm_num
  have hne4 : 2 * n * eps ≤ 1 / 4 := by
    have : 0 ≤ (pop : ℚ) * (n + 3) * (4 * eps) := by positivity
    nlinarith
  have hex : ∀ x ∈ xs, ∃ a y, fp.rnd (x / S) = .fin a ∧ fp.mul (.fin a) (fp.ofInt pop) = .fin y ∧ 0 ≤ y ∧
      |y - x / S * pop| ≤ x / S * pop * (3 * eps) + eps / 2 ^ 100 := by
    intro x hxm
    have : x / S ≤ 1 := by rw [div_le_one hS]; exact hxS x hxm
    exact share_close h (div_nonneg (hx x hxm) hS.le) (by linarith) h0 h1
  choose! A B hAB using hex
  refine ⟨A, B, fun x hx => ⟨(hAB x hx).1, (hAB x hx).2.1, (hAB x hx).2.2.1⟩, ?_⟩
  have hlenN : n * (1 / 2 ^ 100) ≤ 1 := by
    have e1 : n ≤ 2 ^ 51 := by nlinarith
    have : n * (1 / 2 ^ 100) ≤ 2 ^ 51 * (1 / 2 ^ 100) := mul_le_mul_of_nonneg_right e1 (by norm_num)
    refine this.trans (by norm_num)
  have s1 : ∀ l : List ℚ, (∀ x ∈ l, x ∈ xs) →
      |(l.map B).sum - l.sum / S * pop| ≤ l.sum / S * pop * (3 * eps) + l.length * (eps / 2 ^ 100) := by
    intro l
    induction l with
    | nil => intro _; simp
    | cons x l ih =>
      intro hl
      have i1 := ih (fun y hy => hl y (by simp [hy]))
      obtain ⟨-, -, -, i2⟩ := hAB x (hl x (by simp))
      rw [List.map_cons, List.sum_cons, List.sum_cons, List.length_cons]
      have e : B x + (l.map B).sum - (x + l.sum) / S * pop = (B x - x / S * pop) + ((l.map B).sum - l.sum / S * pop) := by ring
      rw [e]
      refine (abs_add_le _ _).trans ((add_le_add i2 i1).trans (le_of_eq ?_))
      push_cast
      ring
  have s2 := s1 xs (fun _ h => h)
  rw [← hnd] at s2
  have s3 : |xs.sum / S * pop - pop| ≤ 2 * n * eps * pop := by
    have : xs.sum / S * pop - pop = (xs.sum - S) / S * pop := by field_simp
    rw [this, abs_mul, abs_of_nonneg hpq, abs_div, abs_of_pos hS]
    apply mul_le_mul_of_nonneg_right _ hpq
    rw [div_le_iff₀ hS]; exact g1
  have s4 : xs.sum / S * pop ≤ pop * (5 / 4) := by
    have := (abs_le.mp s3).2
    nlinarith
  have s5 : |(xs.map B).sum - pop| ≤ |(xs.map B).sum - xs.sum / S * pop| + |xs.sum / S * pop - pop| := abs_sub_le _ _ _
  have s6 : n * (eps / 2 ^ 100) ≤ eps := by
    have : n * (eps / 2 ^ 100) = n * (1 / 2 ^ 100) * eps := by ring
    rw [this]
    have := mul_le_mul_of_nonneg_right hlenN he.le
    linarith
  have s7 : xs.sum / S * pop * (3 * eps) ≤ pop * (5 / 4) * (3 * eps) := mul_le_mul_of_nonneg_right s4 (by linarith)
  have s8 : |(xs.map B).sum - pop| ≤ (pop * (2 * n + 6) + 1) * eps := by nlinarith [mul_nonneg hpq he.le]
  have s9 : (pop * (2 * n + 6) + 1) * eps < ((pop : ℚ) + 2) * (n + 3) * (4 * eps) := by
    have : ((pop : ℚ) + 2) * (n + 3) * (4 * eps) - (pop * (2 * n + 6) + 1) * eps = eps * (pop * (2 * n + 6) + (8 * n + 23)) := by ring
    have : 0 < eps * (pop * (2 * n + 6) + (8 * n + 23)) := by positivity
    linarith
  linarith

/-- `integerise(frac, pop)` in the arithmetic of doubles. -/
theorem oneD_largest (h : fp.Good) (hfine : Fine fp) {xs : List ℚ} {pop : Int} (h0 : 0 ≤ pop) (h1 : pop < 2 ^ 31)
    (hn : (pop + 2) * (xs.length + 3) ≤ 2 ^ 51) (hr : ∀ x ∈ xs, fp.rnd x = .fin x)
    (hx : ∀ x ∈ xs, x = 0 ∨ tinyQ ≤ x) (hs0 : 0 < xs.sum) (hs1 : xs.sum ≤ hugeQ) :
    ∃ ys E, Computed fp xs pop ys ∧ |ys.sum - pop| < 1 ∧ oneD fp (xs.map Fl.fin) pop = .ok (largest ys pop, E) := by
  have he := eps_pos
  have tiny := tinyQ_pos
  have hpq : (0 : ℚ) ≤ pop := by exact_mod_cast h0
  have hx0 : ∀ x ∈ xs, 0 ≤ x := by
    intro x hxm
    rcases hx x hxm with h | h
    · exact h.ge
    · linarith
  have hlen : (xs.length : ℚ) * eps ≤ 1 / 4 := by
    have hnq : ((pop : ℚ) + 2) * (xs.length + 3) ≤ 2 ^ 51 := by exact_mod_cast hn
    have e0 : (0 : ℚ) ≤ xs.length := by positivity
    have e1 : (xs.length : ℚ) ≤ 2 ^ 51 := by nlinarith
    have : (xs.length : ℚ) * eps ≤ 2 ^ 51 * eps := mul_le_mul_of_nonneg_right (by linarith) he.le
    refine this.trans ?_
    unfold eps; norm_num
  obtain ⟨S, hS, hSpos, g4, g1, -⟩ := sum_close h hlen hr hx hs0 hs1
  obtain ⟨A, B, hAB, hsum⟩ := shares_sum h h0 h1 hn hx0 hSpos g4 g1
  obtain ⟨u1, u2⟩ := abs_lt.mp hsum
  let Y : ℚ → ℚ := fun a => match fp.mul (.fin a) (fp.ofInt pop) with
    | .fin y => y
    | _ => 0
  have hYA : ∀ x ∈ xs, Y (A x) = B x := by
    intro x hxm
    show (match fp.mul (.fin (A x)) (fp.ofInt pop) with | .fin y => y | _ => 0) = _
    rw [(hAB x hxm).2.1]
  have hYB : (xs.map A).map Y = xs.map B := by
    rw [List.map_map]
    exact List.map_congr_left hYA
  have hdiv : ∀ x, fp.div (.fin x) (.fin S) = fp.rnd (x / S) := by
    intro x
    show (if S = 0 then FP.infOfSign x else fp.rnd (x / S)) = _
    rw [if_neg hSpos.ne']
  have hmap : (xs.map Fl.fin).map (fun x => fp.div x (.fin S)) = (xs.map A).map Fl.fin := by
    rw [List.map_map, List.map_map]
    apply List.map_congr_left
    intro x hxm
    show fp.div (.fin x) (.fin S) = _
    rw [hdiv]
    exact (hAB x hxm).1
  obtain ⟨E, hE⟩ := marginal_largest h hfine h0 h1 (p := xs.map A) (Y := Y) (by
      intro a ha
      obtain ⟨x, hxm, rfl⟩ := List.mem_map.mp ha
      rw [hYA x hxm]
      exact (hAB x hxm).2) (by rw [hYB]; linarith) (by rw [hYB]; linarith)
  refine ⟨xs.map B, E, ?_, hsum, ?_⟩
  · unfold Computed
    rw [hS, List.forall₂_map_right_iff, List.forall₂_same]
    intro x hxm
    rw [hdiv, (hAB x hxm).1]
    exact (hAB x hxm).2.1
  · unfold oneD
    rw [if_neg (by omega), hS, hmap, hE, hYB]

theorem computed_length {xs ys : List ℚ} {pop : Int} (h : Computed fp xs pop ys) : ys.length = xs.length := h.length_eq.symm

theorem computed_at {xs ys : List ℚ} {pop : Int} (h : Computed fp xs pop ys) {i : Nat} (hi : i < xs.length) :
    fp.mul (fp.div (.fin (xs.getD i 0)) (sumVec (numFl fp) (xs.map Fl.fin))) (fp.ofInt pop) = .fin (ys.getD i 0) := by
  have := List.Forall₂.get h hi (by rw [computed_length h]; exact hi)
  rw [List.getD_eq_getElem _ _ hi, List.getD_eq_getElem _ _ (by rw [computed_length h]; exact hi)]
  exact this

end Integerise
end HL

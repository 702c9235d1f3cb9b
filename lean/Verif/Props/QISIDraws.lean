import Verif.Proof.QISIConditional
import Verif.Props.QISI

/-
C78: what each individual of `qisi` is drawn from.
-/

namespace HL
open QISI

/-- **C78** (exact arithmetic)  The population `qisi` returns consists of individuals `vs`.  There is a sequence of
working tables `W`: the first is the fit of the seed to the marginals, which is also the expectation reported.  The
`i`-th individual is read off the Sobol point number `i + 1`: its coordinate in dimension `d` is the first state whose
running total passes the fraction of the total that coordinate `d` of the point asks for, the weights being those of the
working table in the cells that agree with the individual in the dimensions after `d`.  Then, if the cell drawn holds at
least 1, the working table loses 1 there; if not, the working table becomes the fit of the seed to what the individuals
so far have left of the marginals. -/
theorem C78_draws {lm : Libm} {s : List Nat} {P : Prob Int} {pop : Int} (h : ProbOK s P pop) (hpop : pop < 2 ^ 52)
    (hp : ProperProb s P) {sd : List Int → ℚ} {skips : Int} {x : QISI}
    (hx : qisi FP.exact lm s P (fun v => .fin (sd v)) skips = .ok x) :
    ∃ (vs : List (List Int)) (W : Nat → List Int → ℚ), (vs.length : Int) = pop ∧
      x.micro.array = arr s (fun v => (vs.count v : Int)) ∧ x.expected = arr s (fun v => .fin (W 0 v)) ∧
      Fit FP.exact s P (fun v => .fin (sd v)) (fun v => .fin (W 0 v)) ∧
      ∀ i < vs.length, ∃ pt v, IsPoint s.length (i + 1) pt ∧ vs[i]? = some v ∧ InRange s v ∧
        (∀ d < s.length, FirstPastQ (sliceWeight s (W i) v d) (s.getD d 0)
          (((pt.getD d 0).toNat : ℚ) / 2 ^ 32 * ∑ x ∈ Finset.range (s.getD d 0), sliceWeight s (W i) v d x) (v.getD d 0)) ∧
        (1 ≤ W i v → ∀ u, InRange s u → W (i + 1) u = if u = v then W i u - 1 else W i u) ∧
        (W i v < 1 → Fit FP.exact s (remaining (vs.take (i + 1)) P) (fun v => .fin (sd v)) (fun v => .fin (W (i + 1) v))) := by
  obtain ⟨E, a, vs, hs⟩ := qisi_run_ok FP.exact_good h hpop hp hx
  have h0 := h.pop_nonneg
  obtain ⟨W, h1, h2, h3⟩ := placed_tables h hp hs.placed
  have hdim : s.length ≤ 1111 := by
    rcases qisi_run_eq FP.exact_good lm h hpop (arr s (fun v => .fin (sd v))) skips with ⟨-, e, h4, -⟩ | ⟨-, -, h4⟩ | ⟨c, x0, h4, -⟩
    · have : qisi FP.exact lm s P (fun v => .fin (sd v)) skips = .thrown e := h4
      rw [hx] at this; cases this
    · have : qisi FP.exact lm s P (fun v => .fin (sd v)) skips = .diverges := h4
      rw [hx] at this; cases this
    · exact h4
  refine ⟨vs.reverse, W, by rw [List.length_reverse, hs.size, Int.toNat_of_nonneg h0], ?_, ?_, h2, ?_⟩
  · rw [hs.at_.micro]
    simp only [List.count_reverse]
  · rw [hs.expected]
    apply arr_congr
    exact fit_unique hs.fit h2
  · intro i hi
    rw [List.length_reverse] at hi
    obtain ⟨seq, v, g1, g2, g3, g4⟩ := h3 i hi
    have h2' := h.two
    have hb : i + 1 ≤ 2 ^ 32 - 1 := by
      have := hs.bound
      omega
    obtain ⟨pt, hpt⟩ := C09_point_exists (dim := s.length) (n := i + 1) (by omega) hdim (by omega) hb
    have hpe : pt = seq := pointAt_unique hdim (isPoint_at hpt).1 g1
    subst hpe
    exact ⟨pt, v, hpt, g2, g3, g4⟩

/-- The hypotheses are met. -/
example (lm : Libm) : ∃ x, qisi FP.exact lm [2, 3] exProb (fun _ => .fin 1) 7 = .ok x ∧ ProperProb [2, 3] exProb :=
  (exProb_qisi lm (skips := 7) (by norm_num) (by norm_num)).imp fun _ h => ⟨h.1, exProb_proper⟩

end HL

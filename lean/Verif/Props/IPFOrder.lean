import Verif.Props.IPFClosest

/-
C71: the order in which the marginals are listed.
-/

namespace HL
open Filter Topology

/-- **C71.**  Two lists with the same marginals in different order: the tables returned by repeated calls converge to the same
table. -/
theorem C71_order {s : List Nat} {Q Q' : Prob ℚ} {pop : Int} (hQ : Q.Perm Q') (h : RatOK s Q pop) (hlt : pop < 2 ^ 62)
    (hp : ProperProb s Q) {b : List Int → ℚ} (hb : ∀ v, InRange s v → 0 ≤ b v) {t : List Int → ℝ} (ht : NonnegTable s t)
    (hm : MeetsMarginals s Q t) (hv : VanishesWith s t (realTable b)) :
    ∃ (c c' : Nat → List Int → ℚ) (x : List Int → ℝ),
      (∀ k, ∃ r, ipfCalls s Q b k = .ok r ∧ r.micro.array = finArr s (c k)) ∧
      (∀ k, ∃ r, ipfCalls s Q' b k = .ok r ∧ r.micro.array = finArr s (c' k)) ∧
      ∀ v, InRange s v → Tendsto (fun k => (c k v : ℝ)) atTop (𝓝 (x v)) ∧ Tendsto (fun k => (c' k v : ℝ)) atTop (𝓝 (x v)) := by
  have hmem : ∀ q, q ∈ Q' ↔ q ∈ Q := fun q => hQ.mem_iff.symm
  have h' : RatOK s Q' pop :=
    { lists := by rw [← hQ.length_eq]; exact h.lists
      two := h.two
      pos := h.pos
      dims := fun q hq => h.dims q ((hmem q).mp hq)
      cover := fun d hd => by
        obtain ⟨q, hq, hqd⟩ := h.cover d hd
        exact ⟨q, (hmem q).mpr hq, hqd⟩
      nonneg := fun q hq => h.nonneg q ((hmem q).mp hq)
      total := fun q hq => h.total q ((hmem q).mp hq)
      partials := fun q hq q' hq' => h.partials q ((hmem q).mp hq) q' ((hmem q').mp hq') }
  have hp' : ProperProb s Q' := fun q hq => hp q ((hmem q).mp hq)
  have hMM : ∀ y, MeetsMarginals s Q y ↔ MeetsMarginals s Q' y := fun y =>
    ⟨fun h q hq => h q ((hmem q).mp hq), fun h q hq => h q ((hmem q).mpr hq)⟩
  obtain ⟨c, x, h1, h2, h3, h4, h5, h6⟩ := C70_limit h hlt hp hb ht hm hv
  obtain ⟨c', x', h1', h2', h3', h4', h5', h6'⟩ := C70_limit h' hlt hp' hb ht ((hMM t).mp hm) hv
  refine ⟨c, c', x, h1, h1', fun v hv => ⟨h2 v hv, ?_⟩⟩
  have e := (h6 x' h3' ((hMM x').mpr h4') h5').1.antisymm (h6' x h3 ((hMM x).mp h4) h5).1
  rw [← (h6 x' h3' ((hMM x').mpr h4') h5').2 e.symm v hv]
  exact h2' v hv

/-- The hypotheses are met by the example problem (see the example for C70) and its reversal. -/
example : exQ.Perm exQ.reverse ∧ exQ.reverse ≠ exQ ∧ RatOK [2, 3] exQ 3 ∧ ProperProb [2, 3] exQ :=
  ⟨(List.reverse_perm _).symm, by
    intro h
    have : ([1] : List Nat) = [0] := congrArg (fun l : Prob ℚ => (l.getD 0 ([], fun _ => 0)).1) h
    exact absurd this (by decide), exQ_ok, exQ_proper⟩

end HL

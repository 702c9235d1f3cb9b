import Verif.Proof.IndexLemmas
import Verif.ProblemSpec

/-
Checking by computation that a problem is consistent.
-/

namespace HL

/-- consistency, with bounded quantifiers only -/
def ProbCheck (s : List Nat) (P : Prob Int) (pop : Int) : Prop :=
  2 ≤ P.length ∧ 2 ≤ s.length ∧ (∀ n ∈ s, 0 < n) ∧ (∀ p ∈ P, p.1 ≠ [] ∧ ∀ d ∈ p.1, d < s.length) ∧
  (∀ d < s.length, ∃ p ∈ P, d ∈ p.1) ∧ (∀ p ∈ P, ∀ j ∈ allIdx (projSizes p.1 s), 0 ≤ p.2 j) ∧
  (∀ p ∈ P, ∑ j ∈ cells (projSizes p.1 s), p.2 j = pop) ∧
  ∀ p ∈ P, ∀ q ∈ P, ∀ a < p.1.length, ∀ b < q.1.length, p.1.getD a 0 = q.1.getD b 0 → ∀ x < s.getD (p.1.getD a 0) 0,
    marginalSum (projSizes p.1 s) [a] p.2 [(x : Int)] = marginalSum (projSizes q.1 s) [b] q.2 [(x : Int)]

instance (s : List Nat) (P : Prob Int) (pop : Int) : Decidable (ProbCheck s P pop) := by
  unfold ProbCheck
  infer_instance

theorem ProbCheck.ok {s : List Nat} {P : Prob Int} {pop : Int} (h : ProbCheck s P pop) : ProbOK s P pop := by
  obtain ⟨h1, h2, h3, h4, h5, h6, h7, h8⟩ := h
  refine ⟨⟨h1, h2, h3, h4, h5⟩, fun p hp j hj => h6 p hp j (mem_allIdx.mpr hj), h7, ?_⟩
  intro p hp q hq a b d ha hb x hx
  obtain ⟨ha1, ha2⟩ := List.getElem?_eq_some_iff.mp ha
  obtain ⟨hb1, hb2⟩ := List.getElem?_eq_some_iff.mp hb
  have e1 : p.1.getD a 0 = d := by simp [List.getD_eq_getElem?_getD, ha]
  have e2 : q.1.getD b 0 = d := by simp [List.getD_eq_getElem?_getD, hb]
  exact h8 p hp q hq a ha1 b hb1 (e1.trans e2.symm) x (by rw [e1]; exact hx)

end HL

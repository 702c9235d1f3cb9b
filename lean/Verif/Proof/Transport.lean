import Mathlib.Combinatorics.Hall.Basic
import Mathlib.Algebra.BigOperators.Ring.Finset
import Mathlib.Data.Fintype.BigOperators
import Mathlib.Tactic.Linarith

/-
Matrices of whole numbers with given row and column sums and given places where they may differ from zero (for C99).
-/

namespace HL

open Finset
open scoped Classical in
theorem transport_type {R C : Type} [Fintype R] [Fintype C] (P : R → ℕ) (K : C → ℕ) (adj : R → C → Prop)
    (hsum : ∑ i, P i = ∑ j, K j)
    (hall : ∀ A : Finset R, ∑ i ∈ A, P i ≤ ∑ j ∈ univ.filter (fun j => ∃ i ∈ A, adj i j), K j) :
    ∃ T : R → C → ℕ, (∀ i j, T i j ≠ 0 → adj i j) ∧ (∀ i, ∑ j, T i j = P i) ∧ ∀ j, ∑ i, T i j = K j := by
  classical
  -- persons
  let X := Σ i : R, Fin (P i)
  let Y := Σ j : C, Fin (K j)
  have hX : Fintype.card X = ∑ i, P i := by simp [X, Fintype.card_sigma]
  have hY : Fintype.card Y = ∑ j, K j := by simp [Y, Fintype.card_sigma]
  have cardY : ∀ B : Finset C, #((univ : Finset Y).filter (fun y => y.1 ∈ B)) = ∑ j ∈ B, K j := by
    intro B
    have : (univ : Finset Y).filter (fun y => y.1 ∈ B) = B.sigma (fun j => (univ : Finset (Fin (K j)))) := by
      ext ⟨j, l⟩
      rw [mem_sigma]
      simp
    rw [this, card_sigma]
    simp
  have cardX : ∀ A : Finset R, #((univ : Finset X).filter (fun x => x.1 ∈ A)) = ∑ i ∈ A, P i := by
    intro A
    have : (univ : Finset X).filter (fun x => x.1 ∈ A) = A.sigma (fun i => (univ : Finset (Fin (P i)))) := by
      ext ⟨j, l⟩
      rw [mem_sigma]
      simp
    rw [this, card_sigma]
    simp
  obtain ⟨f, hinj, hadj⟩ := (Finset.all_card_le_biUnion_card_iff_exists_injective
    (fun x : X => (univ : Finset Y).filter (fun y => adj x.1 y.1))).mp (by
      intro S
      set A : Finset R := S.image (fun x => x.1) with hA
      calc #S ≤ #((univ : Finset X).filter (fun x => x.1 ∈ A)) := by
            apply card_le_card
            intro x hx
            rw [mem_filter]
            exact ⟨mem_univ _, mem_image_of_mem _ hx⟩
        _ = ∑ i ∈ A, P i := cardX A
        _ ≤ ∑ j ∈ univ.filter (fun j => ∃ i ∈ A, adj i j), K j := hall A
        _ = #((univ : Finset Y).filter (fun y => y.1 ∈ univ.filter (fun j => ∃ i ∈ A, adj i j))) := (cardY _).symm
        _ ≤ _ := by
            apply card_le_card
            intro y hy
            simp only [mem_filter, mem_univ, true_and] at hy
            obtain ⟨i, hi, hij⟩ := hy
            obtain ⟨x, hx, rfl⟩ := mem_image.mp hi
            rw [mem_biUnion]
            exact ⟨x, hx, by simp [hij]⟩)
  have hbij : Function.Bijective f := (Fintype.bijective_iff_injective_and_card f).mpr ⟨hinj, by rw [hX, hY, hsum]⟩
  refine ⟨fun i j => #((univ : Finset X).filter (fun x => x.1 = i ∧ (f x).1 = j)), ?_, ?_, ?_⟩
  · intro i j h
    obtain ⟨x, hx⟩ := card_ne_zero.mp h
    rw [mem_filter] at hx
    have := hadj x
    rw [mem_filter, hx.2.1, hx.2.2] at this
    exact this.2
  · intro i
    have h1 := cardX {i}
    rw [sum_singleton] at h1
    rw [← h1, card_eq_sum_card_fiberwise (f := fun x => (f x).1) (t := (univ : Finset C)) (fun _ _ => mem_univ _)]
    apply sum_congr rfl
    intro j _
    refine congrArg card ?_
    ext x
    simp
  · intro j
    have h1 := cardY {j}
    rw [sum_singleton] at h1
    rw [← h1]
    have h2 : #((univ : Finset Y).filter (fun y => y.1 ∈ ({j} : Finset C))) = #((univ : Finset X).filter (fun x => (f x).1 = j)) := by
      symm
      refine card_bij (fun x _ => f x) ?_ (fun a _ b _ h => hinj h) ?_
      · intro x hx
        simpa using hx
      · intro y hy
        obtain ⟨x, rfl⟩ := hbij.2 y
        exact ⟨x, by simpa using hy, rfl⟩
    rw [h2, card_eq_sum_card_fiberwise (f := fun x => x.1) (t := (univ : Finset R)) (fun _ _ => mem_univ _)]
    apply sum_congr rfl
    intro i _
    refine congrArg card ?_
    ext x
    simp [and_comm]

/-- the same for finite sets -/
theorem transport {α β : Type} [DecidableEq α] [DecidableEq β] (R : Finset α) (C : Finset β) (P : α → ℕ) (K : β → ℕ)
    (adj : α → β → Prop) [∀ i j, Decidable (adj i j)]
    (hsum : ∑ i ∈ R, P i = ∑ j ∈ C, K j)
    (hall : ∀ A ⊆ R, ∑ i ∈ A, P i ≤ ∑ j ∈ C.filter (fun j => ∃ i ∈ A, adj i j), K j) :
    ∃ T : α → β → ℕ, (∀ i ∈ R, ∀ j ∈ C, T i j ≠ 0 → adj i j) ∧ (∀ i ∈ R, ∑ j ∈ C, T i j = P i) ∧
      ∀ j ∈ C, ∑ i ∈ R, T i j = K j := by
  obtain ⟨T, h1, h2, h3⟩ := transport_type (R := R) (C := C) (fun i => P i) (fun j => K j) (fun i j => adj i j)
    (by rw [Finset.sum_coe_sort R P, Finset.sum_coe_sort C K]; exact hsum)
    (by
      intro A
      have := hall (A.map (Function.Embedding.subtype _)) (by
        intro x hx
        obtain ⟨y, -, rfl⟩ := mem_map.mp hx
        exact y.2)
      rw [sum_map] at this
      refine this.trans (le_of_eq ?_)
      symm
      refine sum_bij (fun j _ => (j : β)) ?_ (fun a _ b _ h => Subtype.ext h) ?_ (fun _ _ => rfl)
      · intro j hj
        simp only [mem_filter, mem_univ, true_and] at hj
        obtain ⟨i, hi, hij⟩ := hj
        exact mem_filter.mpr ⟨j.2, i, mem_map.mpr ⟨i, hi, rfl⟩, hij⟩
      · intro j hj
        obtain ⟨hj, i, hi, hij⟩ := mem_filter.mp hj
        obtain ⟨i', hi', rfl⟩ := mem_map.mp hi
        exact ⟨⟨j, hj⟩, by simp only [mem_filter, mem_univ, true_and]; exact ⟨i', hi', hij⟩, rfl⟩)
  refine ⟨fun i j => if h : i ∈ R ∧ j ∈ C then T ⟨i, h.1⟩ ⟨j, h.2⟩ else 0, ?_, ?_, ?_⟩
  · intro i hi j hj h
    simp only [dif_pos (And.intro hi hj)] at h
    exact h1 _ _ h
  · intro i hi
    have := h2 ⟨i, hi⟩
    rw [← this, ← Finset.sum_coe_sort C]
    apply sum_congr rfl
    intro j _
    exact dif_pos (⟨hi, j.2⟩ : i ∈ R ∧ (j : β) ∈ C)
  · intro j hj
    have := h3 ⟨j, hj⟩
    rw [← this, ← Finset.sum_coe_sort R]
    apply sum_congr rfl
    intro i _
    exact dif_pos (⟨i.2, hj⟩ : (i : α) ∈ R ∧ j ∈ C)

end HL

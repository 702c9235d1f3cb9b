import Verif.Proof.IntegeriseLargest
import Verif.PadSpec

/-
The method of largest remainders with parts that are zero.
-/

namespace HL
namespace Integerise

variable {em : Nat → Nat}

theorem padList_sum {α : Type} [AddCommMonoid α] {xs xs' : List α} (h : PadList em xs xs') {β : Type} [AddCommMonoid β] (g : α → β) (hg : g 0 = 0) :
    ∑ j ∈ Finset.range xs'.length, g (xs'.getD j 0) = ∑ i ∈ Finset.range xs.length, g (xs.getD i 0) := by
  symm
  apply Finset.sum_of_injOn em
  · intro i hi j hj hij
    have hi := Finset.mem_range.mp (Finset.mem_coe.mp hi)
    have hj := Finset.mem_range.mp (Finset.mem_coe.mp hj)
    rcases Nat.lt_trichotomy i j with h1 | h1 | h1
    · have := h.mono i j h1 hj; omega
    · exact h1
    · have := h.mono j i h1 hi; omega
  · intro i hi
    have hi := Finset.mem_range.mp (Finset.mem_coe.mp hi)
    exact Finset.mem_coe.mpr (Finset.mem_range.mpr (h.bound i hi))
  · intro j hj hno
    rw [h.zero j (Finset.mem_range.mp hj) (fun i hi he => hno ⟨i, Finset.mem_coe.mpr (Finset.mem_range.mpr hi), he⟩), hg]
  · intro i hi
    rw [h.at i (Finset.mem_range.mp hi)]

theorem floor_sum_pad {ys ys' : List ℚ} (h : PadList em ys ys') : (ys'.map Int.floor).sum = (ys.map Int.floor).sum := by
  rw [floor_sum, floor_sum, padList_sum h Int.floor (by simp)]

theorem sum_padList {ys ys' : List ℚ} (h : PadList em ys ys') : ys'.sum = ys.sum := by
  rw [sum_getD, sum_getD]
  exact padList_sum h id rfl

/-- a part that is whole already is left alone -/
theorem whole_not_served {ys : List ℚ} {pop : Int} (hle : pop < ys.sum + 1) {i : Nat} (h0 : Int.fract (ys.getD i 0) = 0) :
    ¬ ((((Finset.range ys.length).filter (fun j => Ahead (fun k => ys.getD k 0) j i)).card : Int) < pop - (ys.map Int.floor).sum) := by
  set Q := (Finset.range ys.length).filter (fun j => 0 < Int.fract (ys.getD j 0)) with hQ
  have hsub : Q ⊆ (Finset.range ys.length).filter (fun j => Ahead (fun k => ys.getD k 0) j i) := by
    intro j hj
    obtain ⟨h1, h2⟩ := Finset.mem_filter.mp hj
    exact Finset.mem_filter.mpr ⟨h1, .inl (by show Int.fract (ys.getD i 0) < Int.fract (ys.getD j 0); rw [h0]; exact h2)⟩
  have hcard := Finset.card_le_card hsub
  have hfr : ys.sum - ((ys.map Int.floor).sum : ℚ) = ∑ j ∈ Q, Int.fract (ys.getD j 0) := by
    rw [floor_sum, sum_getD ys]
    push_cast
    rw [← Finset.sum_sub_distrib, hQ, Finset.sum_filter]
    refine Finset.sum_congr rfl (fun j _ => ?_)
    show Int.fract (ys.getD j 0) = _
    split
    · rfl
    · next h => exact le_antisymm (not_lt.mp h) (Int.fract_nonneg _)
  have hup : ∑ j ∈ Q, Int.fract (ys.getD j 0) ≤ Q.card := by
    have : ∑ j ∈ Q, Int.fract (ys.getD j 0) ≤ ∑ _j ∈ Q, (1 : ℚ) := Finset.sum_le_sum (fun j _ => (Int.fract_lt_one _).le)
    simpa using this
  have hstrict : Q.card = 0 ∨ ∑ j ∈ Q, Int.fract (ys.getD j 0) < Q.card := by
    rcases Finset.eq_empty_or_nonempty Q with h | h
    · left; rw [h]; rfl
    · right
      have : ∑ j ∈ Q, Int.fract (ys.getD j 0) < ∑ _j ∈ Q, (1 : ℚ) := Finset.sum_lt_sum_of_nonempty h (fun j _ => Int.fract_lt_one _)
      simpa using this
  have key : (pop : ℚ) - ((ys.map Int.floor).sum : ℚ) < Q.card + 1 := by linarith
  have key' : pop - (ys.map Int.floor).sum < Q.card + 1 := by exact_mod_cast key
  have : pop - (ys.map Int.floor).sum ≤ Q.card := by omega
  push Not
  have hc : (Q.card : Int) ≤ (((Finset.range ys.length).filter (fun j => Ahead (fun k => ys.getD k 0) j i)).card : Int) := by exact_mod_cast hcard
  omega

/-- Parts that are zero get nothing and change nothing for the others. -/
theorem largest_pad {ys ys' : List ℚ} {pop : Int} (hle : pop < ys.sum + 1) (h : PadList em ys ys') :
    PadList em (largest ys pop) (largest ys' pop) := by
  have hle' : pop < ys'.sum + 1 := by rw [sum_padList h]; exact hle
  refine ⟨?_, ?_, ?_, ?_⟩
  · rw [length_largest]; exact h.mono
  · rw [length_largest, length_largest]; exact h.bound
  · intro i hi
    rw [length_largest] at hi
    rw [largest_at (h.bound i hi), largest_at hi, h.at i hi]
    congr 1
    by_cases h0 : Int.fract (ys.getD i 0) = 0
    · rw [if_neg (whole_not_served hle h0), if_neg (whole_not_served hle' (by rw [h.at i hi]; exact h0))]
    · have hpos : 0 < Int.fract (ys.getD i 0) := lt_of_le_of_ne (Int.fract_nonneg _) (Ne.symm h0)
      have hcard : ((Finset.range ys'.length).filter (fun j => Ahead (fun k => ys'.getD k 0) j (em i))).card =
          ((Finset.range ys.length).filter (fun j => Ahead (fun k => ys.getD k 0) j i)).card := by
        symm
        apply Finset.card_bij (fun j _ => em j)
        · intro j hj
          obtain ⟨h1, h2⟩ := Finset.mem_filter.mp hj
          have h1 := Finset.mem_range.mp h1
          refine Finset.mem_filter.mpr ⟨Finset.mem_range.mpr (h.bound j h1), ?_⟩
          unfold Ahead at h2 ⊢
          simp only [h.at i hi, h.at j h1]
          rcases h2 with h2 | ⟨h2, h3⟩
          · exact .inl h2
          · exact .inr ⟨h2, h.mono j i h3 hi⟩
        · intro j hj k hk hjk
          have hj := Finset.mem_range.mp (Finset.mem_filter.mp hj).1
          have hk := Finset.mem_range.mp (Finset.mem_filter.mp hk).1
          rcases Nat.lt_trichotomy j k with h1 | h1 | h1
          · have := h.mono j k h1 hk; omega
          · exact h1
          · have := h.mono k j h1 hj; omega
        · intro j' hj'
          obtain ⟨h1, h2⟩ := Finset.mem_filter.mp hj'
          have h1 := Finset.mem_range.mp h1
          by_cases hex : ∃ j < ys.length, em j = j'
          · obtain ⟨j, hj, rfl⟩ := hex
            refine ⟨j, Finset.mem_filter.mpr ⟨Finset.mem_range.mpr hj, ?_⟩, rfl⟩
            unfold Ahead at h2 ⊢
            simp only [h.at i hi, h.at j hj] at h2
            rcases h2 with h2 | ⟨h2, h3⟩
            · exact .inl h2
            · refine .inr ⟨h2, ?_⟩
              rcases Nat.lt_trichotomy j i with h4 | h4 | h4
              · exact h4
              · subst h4; omega
              · have := h.mono i j h4 hj; omega
          · exfalso
            have hz := h.zero j' h1 (fun j hj he => hex ⟨j, hj, he⟩)
            unfold Ahead at h2
            simp only [h.at i hi, hz, Int.fract_zero] at h2
            rcases h2 with h2 | ⟨h2, -⟩ <;> linarith
      rw [hcard, floor_sum_pad h]
  · intro j hj hno
    rw [length_largest] at hj
    have hz := h.zero j hj (fun i hi => hno i (by rw [length_largest]; exact hi))
    rw [largest_at hj, hz, if_neg (whole_not_served hle' (by rw [hz]; exact Int.fract_zero))]
    simp

end Integerise
end HL

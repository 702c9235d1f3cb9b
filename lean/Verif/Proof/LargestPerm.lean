import Verif.ReorderSpec
import Verif.Proof.LargestPad

/-
The method of largest remainders and the order of the parts.
-/

namespace HL
namespace Integerise
variable {em : Nat → Nat}

theorem reordered_surj {α : Type} [Zero α] {xs xs' : List α} (h : Reordered em xs xs') {k : Nat} (hk : k < xs.length) :
    ∃ i < xs.length, em i = k := by
  have := Finset.surj_on_of_inj_on_of_card_le (s := Finset.range xs.length) (t := Finset.range xs.length) (fun i _ => em i)
    (fun i hi => Finset.mem_range.mpr (h.bound i (Finset.mem_range.mp hi)))
    (fun i j hi hj hij => h.inj i (Finset.mem_range.mp hi) j (Finset.mem_range.mp hj) hij) le_rfl k (Finset.mem_range.mpr hk)
  obtain ⟨i, hi, rfl⟩ := this
  exact ⟨i, Finset.mem_range.mp hi, rfl⟩

theorem reordered_sum {α : Type} [AddCommMonoid α] {xs xs' : List ℚ} (h : Reordered em xs xs') (g : ℚ → α) :
    ∑ j ∈ Finset.range xs'.length, g (xs'.getD j 0) = ∑ i ∈ Finset.range xs.length, g (xs.getD i 0) := by
  symm
  rw [h.length]
  apply Finset.sum_bij (fun i _ => em i)
  · intro i hi
    exact Finset.mem_range.mpr (h.bound i (Finset.mem_range.mp hi))
  · intro i hi j hj hij
    exact h.inj i (Finset.mem_range.mp hi) j (Finset.mem_range.mp hj) hij
  · intro k hk
    obtain ⟨i, hi, rfl⟩ := reordered_surj h (Finset.mem_range.mp hk)
    exact ⟨i, Finset.mem_range.mpr hi, rfl⟩
  · intro i hi
    rw [h.at i (Finset.mem_range.mp hi)]

theorem sum_reordered {ys ys' : List ℚ} (h : Reordered em ys ys') : ys'.sum = ys.sum := by
  rw [sum_getD, sum_getD]
  exact reordered_sum h id

theorem floor_sum_reordered {ys ys' : List ℚ} (h : Reordered em ys ys') : (ys'.map Int.floor).sum = (ys.map Int.floor).sum := by
  rw [floor_sum, floor_sum, reordered_sum h Int.floor]

theorem reordered_all {xs xs' : List ℚ} (h : Reordered em xs xs') {Q : ℚ → Prop} (hx : ∀ x ∈ xs, Q x) : ∀ x ∈ xs', Q x := by
  intro x hxm
  obtain ⟨j, hj, rfl⟩ := List.mem_iff_getElem.mp hxm
  rw [← List.getD_eq_getElem _ 0 hj]
  rw [h.length] at hj
  obtain ⟨i, hi, rfl⟩ := reordered_surj h hj
  rw [h.at i hi, List.getD_eq_getElem _ 0 hi]
  exact hx _ (List.getElem_mem hi)

theorem reordered_map {xs xs' : List ℚ} (h : Reordered em xs xs') (g : ℚ → ℚ) : Reordered em (xs.map g) (xs'.map g) := by
  refine ⟨by simpa using h.length, by simpa using h.bound, by simpa using h.inj, ?_⟩
  intro i hi
  rw [List.length_map] at hi
  have hj : em i < xs'.length := by rw [h.length]; exact h.bound i hi
  have := h.at i hi
  rw [List.getD_eq_getElem _ _ hi, List.getD_eq_getElem _ _ hj] at this
  rw [List.getD_eq_getElem _ _ (by simpa using hj), List.getD_eq_getElem _ _ (by simpa using hi), List.getElem_map, List.getElem_map, this]

theorem sharesOf_reordered {xs xs' : List ℚ} {pop : Int} (h : Reordered em xs xs') : Reordered em (sharesOf xs pop) (sharesOf xs' pop) := by
  unfold sharesOf
  rw [sum_reordered h]
  exact reordered_map h _

theorem largest_reordered {ys ys' : List ℚ} {pop : Int} (hle : pop < ys.sum + 1) (h : Reordered em ys ys') {i : Nat} (hi : i < ys.length) :
    (OwnRemainder ys i → (largest ys' pop).getD (em i) 0 = (largest ys pop).getD i 0) ∧
    |(largest ys' pop).getD (em i) 0 - (largest ys pop).getD i 0| ≤ 1 := by
  have hle' : pop < ys'.sum + 1 := by rw [sum_reordered h]; exact hle
  have hb : em i < ys'.length := by rw [h.length]; exact h.bound i hi
  rw [largest_at hi, largest_at hb, h.at i hi, floor_sum_reordered h]
  refine ⟨?_, by split_ifs <;> simp⟩
  rintro (h0 | hu)
  · have n1 := whole_not_served hle h0
    have n2 := whole_not_served hle' (i := em i) (by rw [h.at i hi]; exact h0)
    rw [floor_sum_reordered h] at n2
    rw [if_neg n1, if_neg n2]
  · have hc : ((Finset.range ys'.length).filter (fun j => Ahead (fun k => ys'.getD k 0) j (em i))).card =
        ((Finset.range ys.length).filter (fun j => Ahead (fun k => ys.getD k 0) j i)).card := by
      symm
      apply Finset.card_bij (fun j _ => em j)
      · intro j hj
        obtain ⟨h1, h2⟩ := Finset.mem_filter.mp hj
        have h1 := Finset.mem_range.mp h1
        refine Finset.mem_filter.mpr ⟨Finset.mem_range.mpr (by rw [h.length]; exact h.bound j h1), .inl ?_⟩
        show Int.fract (ys'.getD (em i) 0) < Int.fract (ys'.getD (em j) 0)
        rw [h.at i hi, h.at j h1]
        rcases h2 with h2 | ⟨h2, h3⟩
        · exact h2
        · exact absurd h2.symm (hu j h1 (by omega))
      · intro j hj k hk hjk
        exact h.inj j (Finset.mem_range.mp (Finset.mem_filter.mp hj).1) k (Finset.mem_range.mp (Finset.mem_filter.mp hk).1) hjk
      · intro k hk
        obtain ⟨h1, h2⟩ := Finset.mem_filter.mp hk
        have h1 := Finset.mem_range.mp h1
        rw [h.length] at h1
        obtain ⟨j, hj, rfl⟩ := reordered_surj h h1
        refine ⟨j, Finset.mem_filter.mpr ⟨Finset.mem_range.mpr hj, .inl ?_⟩, rfl⟩
        show Int.fract (ys.getD i 0) < Int.fract (ys.getD j 0)
        rcases h2 with h2 | ⟨h2, h3⟩
        · dsimp only at h2
          rw [h.at i hi, h.at j hj] at h2
          exact h2
        · dsimp only at h2
          rw [h.at i hi, h.at j hj] at h2
          exact absurd h2.symm (hu j hj (by rintro rfl; omega))
    rw [hc]

end Integerise
end HL

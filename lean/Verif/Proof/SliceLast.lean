import Mathlib.Data.List.GetD
import Verif.Proof.SliceLemmas
import Verif.Proof.IPFProduct

/-
Reducing and slicing an array along its last dimension.
-/

namespace HL
variable {α : Type}

theorem inRange_snoc {t : List Nat} {n : Nat} {v : List Int} {i : Int} (hv : InRange t v) (h0 : 0 ≤ i) (h1 : i < n) :
    InRange (t ++ [n]) (v ++ [i]) :=
  List.rel_append hv (List.Forall₂.cons ⟨h0, h1⟩ .nil)

theorem filter_last (t : List Nat) (n : Nat) {j : Nat} (hj : j < n) :
    (allIdx (t ++ [n])).filter (fun v => v.getD t.length 0 = (j : Int)) = (allIdx t).map (· ++ [(j : Int)]) := by
  rw [allIdx_append, List.filter_flatMap, List.map_eq_flatMap]
  apply List.flatMap_congr
  intro u hu
  have hl : u.length = t.length := inRange_length (mem_allIdx.mp hu)
  have e : allIdx [n] = (List.range n).map (fun i : Nat => [(i : Int)]) := by
    simp [allIdx, List.map_eq_flatMap]
  rw [e, List.map_map, List.filter_map]
  have : (List.range n).filter ((fun v : List Int => decide (v.getD t.length 0 = (j : Int))) ∘
      ((fun x => u ++ x) ∘ fun i : Nat => [(i : Int)])) = (List.range n).filter (fun i => i == j) := by
    apply List.filter_congr
    intro i _
    simp only [Function.comp_def]
    rw [← hl, List.getD_append_right _ _ _ _ le_rfl]
    by_cases hij : i = j <;> simp [hij]
  rw [this, List.filter_beq, List.nodup_range.count, if_pos (by simpa using hj)]
  rfl

theorem reduce1_last (N : Num α) {t : List Nat} {n : Nat} (hg : GoodShape (t ++ [n])) (h : List Int → α) :
    reduce1 N (arr (t ++ [n]) h) t.length = .ok ((List.range n).map (fun j : Nat =>
      (allIdx t).foldl (fun acc v => N.add acc (h (v ++ [(j : Int)]))) N.zero)) := by
  rw [reduce1_eq N hg h (by simp)]
  have : (t ++ [n]).getD t.length 0 = n := by
    rw [List.getD_append_right _ _ _ _ le_rfl]; simp
  rw [this]
  congr 1
  apply List.map_congr_left
  intro j hj
  rw [filter_last t n (by simpa using hj), List.foldl_map]

theorem freeDims_last (k : Nat) (i : Int) : freeDims (k + 1) [(k, i)] = List.range k := by
  unfold freeDims
  rw [List.range_succ, List.filter_append]
  simp only [List.map_cons, List.map_nil, List.mem_singleton]
  rw [List.filter_eq_self.mpr (by intro a ha; simp at ha; simp; omega)]
  simp

theorem projSizes_range (t u : List Nat) : projSizes (List.range t.length) (t ++ u) = t := by
  unfold projSizes
  apply List.ext_getElem (by simp)
  intro i h1 h2
  simp [List.getD_eq_getElem?_getD, List.getElem?_append_left h2, List.getElem?_eq_getElem h2]

theorem sliceIdx_last {k : Nat} {i : Int} {v : List Int} (hv : v.length = k) :
    sliceIdx (k + 1) [(k, i)] v = v ++ [i] := by
  unfold sliceIdx fixedBase
  rw [freeDims_last]
  apply ext_getD (by simp [hv])
  intro d hd
  simp only [length_writeAt, List.length_replicate] at hd
  by_cases h : d < k
  · rw [List.getD_append _ _ _ _ (by omega)]
    have hm := map_writeAt (ps := List.range k) (vs := v)
      (idx := writeAt (List.map Prod.fst [(k, i)]) (List.map Prod.snd [(k, i)]) (List.replicate (k + 1) (-1)))
      List.nodup_range (by simp [hv]) (by intro p hp; simp at hp ⊢; omega)
    have := congrArg (fun l => l.getD d 0) hm
    simp only [List.getD_eq_getElem?_getD, List.getElem?_map, List.getElem?_range h, Option.map_some,
      Option.getD_some] at this ⊢
    exact this
  · have hdk : d = k := by omega
    subst hdk
    rw [writeAt_getD_not_mem (by simp), List.getD_append_right _ _ _ _ (by omega)]
    simp [writeAt, hv, List.getD_eq_getElem?_getD]

theorem slice_last {t : List Nat} {n : Nat} (hg : GoodShape (t ++ [n])) (ht : t ≠ []) (h : List Int → α) {i : Int}
    (h0 : 0 ≤ i) (h1 : i < n) :
    slice1 (arr (t ++ [n]) h) t.length i = .ok (arr t (fun v => h (v ++ [i]))) := by
  unfold slice1
  have hn : (t ++ [n]).getD t.length 0 = n := by
    rw [List.getD_append_right _ _ _ _ le_rfl]; simp
  have hf : FixedOK (t ++ [n]) [(t.length, i)] := by
    refine ⟨by simp, ?_⟩
    intro p hp
    simp only [List.mem_singleton] at hp
    subst hp
    exact ⟨by simp, h0, by simp only [hn]; exact h1⟩
  have hlt : [(t.length, i)].length < (t ++ [n]).length := by
    have := List.length_pos_of_ne_nil ht
    simp; omega
  have := slice_eq hg h hf hlt
  simp only [List.map_cons, List.map_nil] at this
  rw [this]
  have hl : (t ++ [n]).length = t.length + 1 := by simp
  rw [hl, freeDims_last, projSizes_range]
  congr 1
  apply arr_congr
  intro v hv
  rw [sliceIdx_last (inRange_length hv)]

theorem sum_snoc {β : Type} [AddCommMonoid β] (t : List Nat) (n : Nat) (f : List Int → β) :
    ∑ v ∈ cells (t ++ [n]), f v = ∑ i ∈ Finset.range n, ∑ v ∈ cells t, f (v ++ [(i : Int)]) := by
  have e : allIdx [n] = (List.range n).map (fun i : Nat => [(i : Int)]) := by
    simp [allIdx, List.map_eq_flatMap]
  rw [← sum_allIdx, allIdx_append, List.map_flatMap, e, Finset.sum_comm, ← sum_allIdx]
  induction allIdx t with
  | nil => simp
  | cons u l ih =>
    rw [List.flatMap_cons, List.sum_append, ih, List.map_cons, List.sum_cons]
    congr 1
    rw [List.map_map, List.map_map, ← List.sum_toFinset _ List.nodup_range]
    rw [show (List.range n).toFinset = Finset.range n by ext; simp]
    simp [Function.comp_def]

end HL

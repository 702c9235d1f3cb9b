import Verif.Proof.Int64Run
import Verif.Proof.IntegeriseArray

/-
C83: 64-bit integer arithmetic.  The other theorems are about a model with unbounded integers.  Here it is compared with
the model in `Model/Int64.lean`, in which every sum, increment and decrement of 64-bit integers is checked and overflow is
undefined behaviour.
-/

namespace HL
open Out
variable {fp : FP}

/-- `2^63` is a double in exact arithmetic and in binary64. -/
theorem has63_exact : Has63 FP.exact := rfl

theorem has63_ieee (sqrt : Fl → Fl) : Has63 (FP.ieee sqrt) := by
  have h := FP.rndIeee_exact (n := 1) (t := 63) (by norm_num) (by norm_num) (by
    rw [abs_of_pos (by norm_num)]
    have : ((1 : ℤ) : ℚ) * (2 : ℚ) ^ (63 : ℤ) = 2 ^ 63 := by norm_num
    rw [this]
    exact pow_lt_pow_right₀ (by norm_num) (by norm_num))
  unfold Has63 FP.ieee
  convert h using 2 <;> norm_num

/-- **C83** for `qis`, partial: whatever the index lists, the marginals (of any sign and size) and the number of skips are,
the run with 64-bit integers ends as the run with unbounded integers does: no sum, count or difference leaves the range,
except in runs that are undefined in both.  What is missing is that such runs are rejected: see `C83_negation`. -/
theorem C83_qis_partial (hfp : fp.Good) (h63 : fp.rnd (2 ^ 63) = .fin (2 ^ 63)) (lm : Libm) (is : List (List Int))
    (L : List (List Nat × (List Int → Int))) (hg : ∀ m ∈ L, GoodShape m.1) (skips : Int) :
    SameOutcome (QIS.run64 fp lm is (L.map (fun m => arr m.1 m.2)) skips)
      (QIS.run fp lm is (L.map (fun m => arr m.1 m.2)) skips) :=
  qis_run64 hfp h63 lm is L hg skips

/-- **C83** for `qisi`, partial, with any seed; assertions compiled in or not. -/
theorem C83_qisi_partial (hfp : fp.Good) (h63 : fp.rnd (2 ^ 63) = .fin (2 ^ 63)) (dbg : Bool) (lm : Libm)
    (is : List (List Int)) (L : List (List Nat × (List Int → Int))) (hg : ∀ m ∈ L, GoodShape m.1) (seed : NDArray Fl)
    (skips : Int) :
    SameOutcome (QISI.run64 dbg fp lm is (L.map (fun m => arr m.1 m.2)) seed skips)
      (QISI.run dbg fp lm is (L.map (fun m => arr m.1 m.2)) seed skips) :=
  qisi_run64 hfp h63 dbg lm is L hg seed skips

/-- **C83** for `integerise`, partial. -/
theorem C83_integerise_partial (hfp : fp.Good) (h63 : fp.rnd (2 ^ 63) = .fin (2 ^ 63)) (dbg : Bool) (lm : Libm)
    {s : List Nat} (hg : GoodShape s) (a : List Int → Fl) :
    SameOutcome (Integerise.run64 dbg fp lm (arr s a)) (Integerise.run dbg fp lm (arr s a)) := by
  unfold Integerise.run64 Integerise.run
  refine SameOutcome.rfl'.bind fun _ _ _ => ?_
  refine SameOutcome.rfl'.bind fun _ _ _ => ?_
  split
  · exact SameOutcome.rfl'
  unfold Integerise.array64 Integerise.array
  refine SameOutcome.rfl'.bind fun ms hms hms2 => ?_
  clear hms2
  refine SameOutcome.bind ?_ fun _ _ _ => SameOutcome.rfl'
  have key : ∃ L : List (List Nat × (List Int → Int)), ms = L.map (fun m => arr m.1 m.2) ∧ ∀ m ∈ L, GoodShape m.1 := by
    have hd : (arr s a).dim = s.length := rfl
    rw [hd] at hms
    have hall : ∀ d ∈ List.range s.length, d < s.length := fun d hd => List.mem_range.mp hd
    clear hd
    generalize List.range s.length = ds at hms hall
    induction ds generalizing ms with
    | nil =>
      simp only [List.mapM_nil, pure_eq, ok.injEq] at hms
      exact ⟨[], by simp [← hms], by simp⟩
    | cons d ds ih =>
      rw [List.mapM_cons, bind_eq_ok] at hms
      obtain ⟨m, hm, hms⟩ := hms
      rw [bind_eq_ok] at hms
      obtain ⟨ms', hms', hms⟩ := hms
      injection hms with hms
      subst hms
      obtain ⟨L, rfl, hL⟩ := ih _ hms' (fun d hd => hall d (by simp [hd]))
      have hdl := hall d (by simp)
      have hm' := hm
      rw [Integerise.marginalOf_eq hg a hdl, bind_eq_ok] at hm'
      obtain ⟨v, hv, -⟩ := hm'
      have h1 : ∀ i : Nat, ∃ n, i < s.getD d 0 → Integerise.checkedRound fp (fsum fp s [d] a [(i : Int)]) = .ok n := by
        intro i
        by_cases hi : i < s.getD d 0
        · obtain ⟨n, hn⟩ := Integerise.mapM_inv hv i (List.mem_range.mpr hi)
          exact ⟨n, fun _ => hn⟩
        · exact ⟨0, fun h => absurd h hi⟩
      choose N hN using h1
      rw [Integerise.marginalOf_ok hg a hdl hN] at hm
      injection hm with hm
      refine ⟨([s.getD d 0], fun j => N (j.getD 0 0).toNat) :: L, by rw [List.map_cons, hm], ?_⟩
      intro m' hm'
      rcases List.mem_cons.mp hm' with rfl | hm'
      · refine ⟨by simp, ?_⟩
        intro n hn
        simp only [List.mem_singleton] at hn
        subst hn
        rw [List.getD_eq_getElem _ _ hdl]
        exact hg.2 _ (List.getElem_mem hdl)
      · exact hL m' hm'
  obtain ⟨L, rfl, hL⟩ := key
  exact qisi_run64 hfp h63 dbg lm _ L hL _ 0

/-- **C83** is false of the code where a total does not fit: for marginals of any structure, without negative entries, the
total of the first not below `2^63`, `qis` and `qisi` do not throw an exception but have undefined behaviour (signed
overflow). -/
theorem C83_negation (dbg : Bool) (lm : Libm) {s : List Nat} {p : List Nat × (List Int → Int)} {P : Prob Int}
    (h : ProbShape s (p :: P)) (hn : ∀ q ∈ p :: P, ∀ v, InRange (projSizes q.1 s) v → 0 ≤ q.2 v)
    (ht : 2 ^ 63 ≤ ∑ v ∈ cells (projSizes p.1 s), p.2 v) (seed : NDArray Fl) (skips : Int) :
    QIS.run64 fp lm (indicesOf (p :: P)) (marginalsOf s (p :: P)) skips = .ub .overflow ∧
    QISI.run64 dbg fp lm (indicesOf (p :: P)) (marginalsOf s (p :: P)) seed skips = .ub .overflow := by
  have key : ∀ β : Type, Micro.new64 (β := β) fp (indicesOf (p :: P)) (marginalsOf s (p :: P)) = .ub .overflow := by
    intro β
    obtain ⟨m', h1, h2, h3⟩ := shape_stage h
    unfold Micro.new64
    rw [if_neg (by have := h.lists; simp only [indicesOf, marginalsOf, List.length_map] at this ⊢; omega), h1]
    simp only [Out.ok_bind]
    rw [if_neg (by have := h.two; omega)]
    have hg : ∀ m ∈ shapesOf s (p :: P), GoodShape m.1 := by
      intro m hm
      obtain ⟨p, hp, rfl⟩ := List.mem_map.mp hm
      exact h.goodP hp
    have hlk : Micro.lookupAll (List.replicate m'.length []) 0 (indicesOf (p :: P)) =
        .ok ((List.range s.length).map (fun d => places d 0 ((p :: P).map Prod.fst))) := by
      have := lookupAll_eq (D := s.length) ((p :: P).map Prod.fst) 0 (fun _ => []) (by
        intro ds hds d hd
        obtain ⟨p, hp, rfl⟩ := List.mem_map.mp hds
        exact (h.dims p hp).2 d hd)
      rw [h2]
      convert this using 2
      · rw [map_const_replicate]; simp
      · simp [indicesOf]
      · simp
    rw [marginalsOf_eq]
    rcases checkNonneg_cases (numInt fp) (minOK_int fp) (shapesOf s (p :: P)) hg with ⟨h4, h5⟩ | ⟨h4, m, hm, j, hj, hneg⟩
    swap
    · obtain ⟨q, hq, rfl⟩ := List.mem_map.mp hm
      have := hn q hq j hj
      simp [numInt] at hneg
      omega
    rw [h4]
    simp only [Out.ok_bind]
    rw [h3]
    simp only [Out.ok_bind]
    rw [hlk]
    simp only [Out.ok_bind, shapesOf, List.map_cons]
    unfold Micro.roundedSum64
    rw [sumArr64_over (hn p (by simp)) ht]
    rfl
  unfold QIS.run64 QIS.new64 QISI.run64 QISI.new64
  rw [key]
  exact ⟨rfl, rfl⟩

/-! ### The hypotheses can be met -/

/-- two marginals with entries `2^61` and `2^62`: a population of `3 * 2^61`, far more than 32 bits or 53 bits hold -/
def exHuge : List (List Nat × (List Int → Int)) :=
  [([2], fun j => if j = [0] then 2 ^ 61 else 2 ^ 62), ([2], fun j => if j = [0] then 2 ^ 62 else 2 ^ 61)]

example (sqrt : Fl → Fl) (lm : Libm) (skips : Int) :
    SameOutcome (QIS.run64 (FP.ieee sqrt) lm [[0], [1]] (exHuge.map (fun m => arr m.1 m.2)) skips)
      (QIS.run (FP.ieee sqrt) lm [[0], [1]] (exHuge.map (fun m => arr m.1 m.2)) skips) :=
  C83_qis_partial (FP.ieee_good sqrt) (has63_ieee sqrt) lm _ _ (by
    intro m hm
    simp only [exHuge, List.mem_cons, List.not_mem_nil, or_false] at hm
    rcases hm with rfl | rfl <;> exact ⟨by decide, by decide⟩) skips

/-- two marginals with both entries `2^62` -/
example (lm : Libm) (skips : Int) :
    QIS.run64 FP.exact lm [[0], [1]] [arr [2] (fun _ => 2 ^ 62), arr [2] (fun _ => 2 ^ 62)] skips = .ub .overflow := by
  refine (C83_negation (fp := FP.exact) false lm (s := [2, 2]) (p := ([0], fun _ => 2 ^ 62)) (P := [([1], fun _ => 2 ^ 62)])
    ?_ ?_ ?_ NDArray.empty skips).1
  · refine ⟨by decide, by decide, ?_, ?_, ?_⟩ <;> decide
  · intro q hq v _
    simp only [List.mem_cons, List.not_mem_nil, or_false] at hq
    rcases hq with rfl | rfl <;> simp
  · decide

end HL

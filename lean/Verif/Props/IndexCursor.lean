import Verif.CursorSpec
import Verif.Proof.IndexLemmas
import Verif.Proof.ArrayLemmas
import Verif.Proof.SliceLemmas
import Verif.Proof.ConvertLemmas

/-
C121: where an index object stands after any history of `++` and `reset`.
-/

namespace HL

theorem getD_lt {α : Type} {l : List α} {k : Nat} (a : α) (h : k < l.length) : l.getD k a = l[k] := by
  rw [List.getD_eq_getElem?_getD, List.getElem?_eq_getElem h, Option.getD_some]

theorem path_step {s : List Nat} {z : List Int} : ∀ {l : List (List Int)}, Path s l (z, true) →
    ∀ k (hk : k < l.length), odo s l[k] =
      if h : k + 1 < l.length then (l[k + 1], false) else (z, true)
  | [], h, _, _ => h.elim
  | [v], h, k, hk => by
    have : k = 0 := by simpa using hk
    subst this
    simpa [Path] using h
  | v :: w :: r, h, 0, _ => by simpa using h.1
  | v :: w :: r, h, k + 1, hk => by
    have := path_step (l := w :: r) h.2 k (by simpa using hk)
    simpa using this

/-- One step of the odometer from its `n`-th position, counted round and round. -/
theorem odo_step {s : List Nat} (h : ∀ m ∈ s, 0 < m) (n : Nat) (e : Bool)
    (he : e = decide ((allIdx s).length ≤ n)) :
    ((odo s ((allIdx s).getD (n % (allIdx s).length) [])).1,
      e || (odo s ((allIdx s).getD (n % (allIdx s).length) [])).2) =
    ((allIdx s).getD ((n + 1) % (allIdx s).length) [], decide ((allIdx s).length ≤ n + 1)) := by
  obtain ⟨r, hr⟩ := allIdx_head h
  have hp := path_allIdx h
  have hpos : 0 < (allIdx s).length := by rw [hr]; simp
  have hz : (allIdx s).getD 0 [] = zerosI s.length := by rw [hr]; rfl
  generalize allIdx s = L at *
  have hlt := Nat.mod_lt n hpos
  have hst := path_step hp (n % L.length) hlt
  rw [getD_lt _ hlt, hst]
  by_cases hk : n % L.length + 1 < L.length
  · have hm : (n + 1) % L.length = n % L.length + 1 := by
      rw [Nat.add_mod, Nat.mod_eq_of_lt (a := 1) (by omega), Nat.mod_eq_of_lt hk]
    rw [dif_pos hk, hm, getD_lt _ hk, he]
    refine Prod.ext rfl ?_
    simp only [Bool.or_false, decide_eq_decide]
    constructor
    · intro h; omega
    · intro h
      by_contra hc
      have h1 : n + 1 = L.length := by omega
      rw [Nat.mod_eq_of_lt (by omega)] at hk
      omega
  · have hm : (n + 1) % L.length = 0 := by
      have h1 : n % L.length + 1 = L.length := by omega
      have h2 := Nat.div_add_mod n L.length
      have : n + 1 = L.length * (n / L.length + 1) := by rw [Nat.mul_add]; omega
      rw [this, Nat.mul_mod_right]
    rw [dif_neg hk, hm, hz]
    refine Prod.ext rfl ?_
    have : n % L.length ≤ n := Nat.mod_le _ _
    simp only [Bool.or_true]
    symm
    rw [decide_eq_true_iff]
    omega

theorem advanced_nil : advanced [] = 0 := rfl

theorem advanced_next (ops : List CursorOp) : advanced (ops ++ [.next]) = advanced ops + 1 := by
  cases ops with
  | nil => rfl
  | cons a l =>
    show ((a :: (l ++ [CursorOp.next])).reverse.takeWhile _).length = ((a :: l).reverse.takeWhile _).length + 1
    rw [show a :: (l ++ [CursorOp.next]) = (a :: l) ++ [CursorOp.next] from rfl, List.reverse_append]
    simp

theorem advanced_reset (ops : List CursorOp) : advanced (ops ++ [.reset]) = 0 := by
  cases ops with
  | nil => rfl
  | cons a l =>
    show ((a :: (l ++ [CursorOp.reset])).reverse.takeWhile _).length = 0
    rw [show a :: (l ++ [CursorOp.reset]) = (a :: l) ++ [CursorOp.reset] from rfl, List.reverse_append]
    simp

theorem getD_allIdx_mem {s : List Nat} (h : ∀ m ∈ s, 0 < m) (n : Nat) :
    (allIdx s).getD (n % (allIdx s).length) [] ∈ allIdx s := by
  obtain ⟨r, hr⟩ := allIdx_head h
  have hpos : 0 < (allIdx s).length := by rw [hr]; simp
  rw [getD_lt _ (Nat.mod_lt n hpos)]
  exact List.getElem_mem _

theorem allIdx_zero {s : List Nat} (h : ∀ m ∈ s, 0 < m) :
    (allIdx s).getD (0 % (allIdx s).length) [] = zerosI s.length ∧ ¬ (allIdx s).length ≤ 0 := by
  obtain ⟨r, hr⟩ := allIdx_head h
  rw [hr]
  simp

/-- **C121.**  An `Index` is a cursor that goes round and round over the cells in row-major order: after
any history of `++` and `reset` it stands on the cell reached by counting the advances since the last
reset, it says it has ended exactly when there have been at least as many of those as there are cells, and
`reset` brings back the state of a new index whatever happened before. -/
theorem C121_index {s : List Nat} (hg : GoodShape s) :
    ∃ (L : List (List Int)) (x : Index), (∀ v, v ∈ L ↔ InRange s v) ∧ L.Nodup ∧
      L.Pairwise (List.Lex (· < ·)) ∧ Index.new s = .ok x ∧
      ∀ ops : List CursorOp, indexAfter x ops =
        { sizes := s, idx := L.getD (advanced ops % L.length) [],
          atEnd := decide (L.length ≤ advanced ops) } := by
  refine ⟨allIdx s, _, fun _ => mem_allIdx, nodup_allIdx s, allIdx_sorted s, index_new hg.1, ?_⟩
  intro ops
  induction ops using List.reverseRecOn with
  | nil =>
    simp only [indexAfter, List.foldl_nil, advanced_nil, (allIdx_zero hg.2).1, (allIdx_zero hg.2).2,
      decide_false]
  | append_singleton ops op ih =>
    unfold indexAfter at ih ⊢
    rw [List.foldl_append, ih]
    cases op with
    | next =>
      have hl := inRange_length (mem_allIdx.mp (getD_allIdx_mem hg.2 (advanced ops)))
      simp only [List.foldl_cons, List.foldl_nil, Index.incr, index_incr hg.1 hl, advanced_next]
      have := odo_step hg.2 (advanced ops) _ rfl
      rw [Prod.mk.injEq] at this
      rw [this.1, this.2]
    | reset =>
      simp only [List.foldl_cons, List.foldl_nil, Index.reset, advanced_reset, (allIdx_zero hg.2).1,
        (allIdx_zero hg.2).2, decide_false]
      rfl

/-- **C121**, for `TransposedIndex`, which inherits `reset`: the same, in column-major order. -/
theorem C121_transposed {s : List Nat} (hg : GoodShape s) :
    ∃ (L : List (List Int)) (x : Index), (∀ v, v ∈ L ↔ InRange s v) ∧ L.Nodup ∧
      L.Pairwise (fun a b => List.Lex (· < ·) a.reverse b.reverse) ∧ Index.new s = .ok x ∧
      ∀ ops : List CursorOp, transposedAfter x ops =
        { sizes := s, idx := L.getD (advanced ops % L.length) [],
          atEnd := decide (L.length ≤ advanced ops) } := by
  have hr : ∀ m ∈ s.reverse, 0 < m := fun m hm => hg.2 m (by simpa using hm)
  refine ⟨(allIdx s.reverse).map List.reverse, _, ?_, ?_, ?_, index_new hg.1, ?_⟩
  · intro v
    rw [List.mem_map]
    constructor
    · rintro ⟨w, hw, rfl⟩
      exact inRange_reverse.mp (by simpa using mem_allIdx.mp hw)
    · intro h
      exact ⟨v.reverse, mem_allIdx.mpr (inRange_reverse.mpr h), by simp⟩
  · exact (nodup_allIdx _).map List.reverse_injective
  · rw [List.pairwise_map]
    refine (allIdx_sorted s.reverse).imp ?_
    intro a b hab
    rw [List.reverse_reverse, List.reverse_reverse]
    exact hab
  have hmap : ∀ n : Nat, ((allIdx s.reverse).map List.reverse).getD n [] =
      ((allIdx s.reverse).getD n []).reverse := by
    intro n
    simp only [List.getD_eq_getElem?_getD, List.getElem?_map]
    cases (allIdx s.reverse)[n]? <;> rfl
  have hz : (zerosI s.reverse.length).reverse = zerosI s.length := by simp [zerosI]
  intro ops
  rw [hmap, List.length_map]
  induction ops using List.reverseRecOn with
  | nil =>
    simp only [transposedAfter, List.foldl_nil, advanced_nil, (allIdx_zero hr).1, (allIdx_zero hr).2,
      decide_false, hz]
  | append_singleton ops op ih =>
    unfold transposedAfter at ih ⊢
    rw [List.foldl_append, ih]
    cases op with
    | next =>
      have hl := inRange_length (mem_allIdx.mp (getD_allIdx_mem hr (advanced ops)))
      have hl' : ((allIdx s.reverse).getD (advanced ops % (allIdx s.reverse).length) []).reverse.length =
          s.length := by rw [List.length_reverse, hl, List.length_reverse]
      simp only [List.foldl_cons, List.foldl_nil, TransposedIndex.incr, transposed_incr hg.1 hl',
        List.reverse_reverse, advanced_next]
      have := odo_step hr (advanced ops) _ rfl
      rw [Prod.mk.injEq] at this
      rw [this.1, this.2]
    | reset =>
      simp only [List.foldl_cons, List.foldl_nil, Index.reset, advanced_reset, (allIdx_zero hr).1,
        (allIdx_zero hr).2, decide_false, hz]
      rfl

/-- **C121**, for `MappedIndex`: made on distinct dimensions of a main index which stands at 0 in each of
them, after `n` advances the main index stands, in those dimensions, on the `n`-th of their combinations
in row-major order, counted round and round, and it has not moved in any other dimension. -/
theorem C121_mapped {s : List Nat} (hg : GoodShape s) {w : List Int} (hw : InRange s w) (e : Bool)
    {dims : List Nat} (hne : dims ≠ []) (hd : ∀ d ∈ dims, d < s.length) (hn : dims.Nodup)
    (h0 : ∀ d ∈ dims, w.getD d 0 = 0) :
    ∃ (L : List (List Int)) (m : MappedIndex), (∀ v, v ∈ L ↔ InRange (projSizes dims s) v) ∧ L.Nodup ∧
      L.Pairwise (List.Lex (· < ·)) ∧
      MappedIndex.new { sizes := s, idx := w, atEnd := e } (dims.map (fun d : Nat => (d : Int))) = .ok m ∧
      ∀ n, (mappedAfter m w n).1.atEnd = (e || decide (L.length ≤ n)) ∧
        (mappedAfter m w n).1.vals (mappedAfter m w n).2 = L.getD (n % L.length) [] ∧
        proj dims (mappedAfter m w n).2 = L.getD (n % L.length) [] ∧
        (mappedAfter m w n).2.length = s.length ∧
        ∀ d, d ∉ dims → (mappedAfter m w n).2.getD d 0 = w.getD d 0 := by
  have hpos : ∀ k ∈ projSizes dims s, 0 < k := by
    intro k hk
    obtain ⟨d, hdm, rfl⟩ := List.mem_map.mp hk
    exact hg.2 _ (getD_mem (hd d hdm))
  have hwl := inRange_length hw
  have hlt : ∀ p ∈ dims, p < w.length := fun p hp => by rw [hwl]; exact hd p hp
  have hsl : (projSizes dims s).length = dims.length := by simp [projSizes]
  refine ⟨allIdx (projSizes dims s), _, fun _ => mem_allIdx, nodup_allIdx _, allIdx_sorted _,
    mapped_new hd, ?_⟩
  have key : ∀ n, mappedAfter ⟨dims, projSizes dims s, e⟩ w n =
      (⟨dims, projSizes dims s, e || decide ((allIdx (projSizes dims s)).length ≤ n)⟩,
        writeAt dims ((allIdx (projSizes dims s)).getD (n % (allIdx (projSizes dims s)).length) []) w) := by
    intro n
    induction n with
    | zero =>
      have hz := allIdx_zero hpos
      rw [hz.1, hsl]
      simp only [mappedAfter, hz.2, decide_false, Bool.or_false]
      refine Prod.ext rfl ?_
      have e1 : zerosI dims.length = dims.map (fun d => w.getD d 0) := by
        rw [List.map_congr_left h0]; simp [zerosI]
      rw [e1]
      exact (writeAt_self hlt).symm
    | succ n ih =>
      have hl := inRange_length (mem_allIdx.mp (getD_allIdx_mem hpos n))
      simp only [mappedAfter, ih, MappedIndex.incr]
      rw [mapped_incr hn hlt hsl hne (by rw [hl, hsl])]
      have := odo_step hpos n _ rfl
      rw [Prod.mk.injEq] at this
      rw [this.1, ← this.2, Bool.or_assoc]
  intro n
  have hl := inRange_length (mem_allIdx.mp (getD_allIdx_mem hpos n))
  have hproj := map_writeAt (idx := w) hn (vs := (allIdx (projSizes dims s)).getD (n % (allIdx (projSizes dims s)).length) [])
    (by rw [hl, hsl]) hlt
  rw [key n]
  exact ⟨rfl, hproj, hproj, by rw [length_writeAt, hwl], fun d hdn => writeAt_getD_not_mem hdn⟩

/-- **C121**, for `FixedIndex`: with some dimensions fixed and at least one free, after `n` advances it
stands on the `n`-th of the cells with the fixed coordinates, free dimensions in row-major order, counted
round and round. -/
theorem C121_fixed {s : List Nat} (hg : GoodShape s) {fx : List (Nat × Int)} (h : FixedOK s fx)
    (hfree : fx.length < s.length) :
    ∃ (L : List (List Int)) (x : FixedIndex),
      (∀ v, v ∈ L ↔ InRange s v ∧ ∀ p ∈ fx, v.getD p.1 0 = p.2) ∧ L.Nodup ∧
      L.Pairwise (fun a b => List.Lex (· < ·) (proj (freeDims s.length fx) a) (proj (freeDims s.length fx) b)) ∧
      FixedIndex.new s (fx.map (fun p => ((p.1 : Int), p.2))) = .ok x ∧
      ∀ n, (fixedAfter x n).full = L.getD (n % L.length) [] ∧
        (fixedAfter x n).free = proj (freeDims s.length fx) (L.getD (n % L.length) []) ∧
        (fixedAfter x n).atEnd = decide (L.length ≤ n) := by
  have hlen := length_freeDims h
  have hd : ∀ d ∈ freeDims s.length fx, d < s.length := fun d hd => (mem_freeDims.mp hd).1
  have hpos : ∀ k ∈ projSizes (freeDims s.length fx) s, 0 < k := by
    intro k hk
    obtain ⟨d, hdm, rfl⟩ := List.mem_map.mp hk
    exact hg.2 _ (getD_mem (hd d hdm))
  have hsl : (projSizes (freeDims s.length fx) s).length = (freeDims s.length fx).length := by
    simp [projSizes]
  have hne : freeDims s.length fx ≠ [] := by
    intro hc
    rw [hc] at hlen
    simp at hlen
    omega
  have hbl : (fixedBase s.length fx).length = s.length := by simp [fixedBase]
  have hps : ∀ v ∈ allIdx (projSizes (freeDims s.length fx) s),
      proj (freeDims s.length fx) (sliceIdx s.length fx v) = v := by
    intro v hv
    exact proj_sliceIdx (by rw [inRange_length (mem_allIdx.mp hv), hsl])
  refine ⟨(allIdx (projSizes (freeDims s.length fx) s)).map (sliceIdx s.length fx), _, ?_, ?_, ?_,
    fixedIndex_new h hg.1, ?_⟩
  · intro v
    rw [List.mem_map]
    constructor
    · rintro ⟨u, hu, rfl⟩
      exact ⟨inRange_sliceIdx h (mem_allIdx.mp hu), sliceIdx_fixed h u⟩
    · rintro ⟨hv, hf⟩
      exact ⟨proj (freeDims s.length fx) v, mem_allIdx.mpr (inRange_proj hd hv),
        sliceIdx_proj h (inRange_length hv) hf⟩
  · refine List.Nodup.map_on ?_ (nodup_allIdx _)
    intro a ha b hb hab
    rw [← hps a ha, ← hps b hb, hab]
  · rw [List.pairwise_map]
    refine (allIdx_sorted _).imp_of_mem ?_
    intro a b ha hb hab
    rw [hps a ha, hps b hb]
    exact hab
  have hmem := getD_allIdx_mem hpos
  have hll : ((allIdx (projSizes (freeDims s.length fx) s)).map (sliceIdx s.length fx)).length =
    (allIdx (projSizes (freeDims s.length fx) s)).length := List.length_map ..
  have hmap : ∀ n, ((allIdx (projSizes (freeDims s.length fx) s)).map (sliceIdx s.length fx)).getD
      (n % (allIdx (projSizes (freeDims s.length fx) s)).length) [] = sliceIdx s.length fx
        ((allIdx (projSizes (freeDims s.length fx) s)).getD
          (n % (allIdx (projSizes (freeDims s.length fx) s)).length) []) := by
    intro n
    obtain ⟨r, hr⟩ := allIdx_head hpos
    have hp : 0 < (allIdx (projSizes (freeDims s.length fx) s)).length := by rw [hr]; simp
    have hlt := Nat.mod_lt n hp
    rw [getD_lt _ (by rw [hll]; exact hlt), List.getElem_map, getD_lt _ hlt]
  have key : ∀ n, fixedAfter (FixedIndex.mk (freeDims s.length fx).length
      (sliceIdx s.length fx (zerosI (freeDims s.length fx).length)) (freeDims s.length fx)
      (projSizes (freeDims s.length fx) s) false) n =
      { freeDim := (freeDims s.length fx).length,
        full := sliceIdx s.length fx ((allIdx (projSizes (freeDims s.length fx) s)).getD
          (n % (allIdx (projSizes (freeDims s.length fx) s)).length) []),
        freePos := freeDims s.length fx,
        freeSizes := projSizes (freeDims s.length fx) s,
        atEnd := decide ((allIdx (projSizes (freeDims s.length fx) s)).length ≤ n) } := by
    intro n
    induction n with
    | zero =>
      have hz := allIdx_zero hpos
      rw [hz.1, hsl]
      simp only [fixedAfter, hz.2, decide_false]
    | succ n ih =>
      have hl := inRange_length (mem_allIdx.mp (hmem n))
      simp only [fixedAfter, ih, FixedIndex.incr, fixed_incrLoop_eq]
      unfold sliceIdx
      rw [mapped_incr (freeDims_nodup _ _) (fun p hp => by rw [hbl]; exact hd p hp) hsl hne (by rw [hl, hsl])]
      have := odo_step hpos n _ rfl
      rw [Prod.mk.injEq] at this
      rw [this.1, this.2]
  intro n
  rw [key n, hll, hmap]
  exact ⟨rfl, rfl, rfl⟩

/-- With every dimension fixed there is one cell and the index stands on it, but it never says it has
ended: a loop over it would not stop. -/
theorem C121_negation_all_fixed {s : List Nat} (hg : GoodShape s) {fx : List (Nat × Int)} (h : FixedOK s fx)
    (hall : fx.length = s.length) :
    ∃ x, FixedIndex.new s (fx.map (fun p => ((p.1 : Int), p.2))) = .ok x ∧
      ∀ n, fixedAfter x n = x ∧ x.atEnd = false := by
  have hlen := length_freeDims h
  refine ⟨_, fixedIndex_new h hg.1, ?_⟩
  have h0 : (freeDims s.length fx).length = 0 := by omega
  intro n
  refine ⟨?_, rfl⟩
  induction n with
  | zero => rfl
  | succ n ih =>
    rw [fixedAfter, ih, FixedIndex.incr]
    simp only [h0, FixedIndex.incrLoop]

/-- The hypotheses are met. -/
example : GoodShape [2, 3, 2] ∧ InRange [2, 3, 2] [0, 2, 0] ∧ [2, 0].Nodup ∧
    (∀ d ∈ [2, 0], ([0, 2, 0] : List Int).getD d 0 = 0) ∧ FixedOK [2, 3, 2] [(2, 1)] ∧
    FixedOK [2, 3] [(0, 1), (1, 0)] := by
  refine ⟨by decide, by decide, by decide, by decide, ⟨by decide, by decide⟩, ⟨by decide, by decide⟩⟩

/-- Eight advances of a 2 x 3 index, one reset, and seven more: one round and one step. -/
example : ∃ x, Index.new [2, 3] = .ok x ∧
    indexAfter x (List.replicate 8 .next ++ .reset :: List.replicate 7 .next) =
      { sizes := [2, 3], idx := [0, 1], atEnd := true } ∧
    indexAfter x (List.replicate 8 .next ++ [.reset]) = x := ⟨_, rfl, by decide, by decide⟩

end HL

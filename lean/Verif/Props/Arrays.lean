import Verif.Proof.SliceLemmas
import Verif.Proof.ListifyLemmas
import Verif.Proof.ConvertLemmas
import Mathlib.Algebra.Order.BigOperators.Group.Finset

/-
C01-C08: iteration, addressing, reduction, slicing and flattening of n-dimensional arrays.
-/

namespace HL

/-! ### C01 -/

/-- **C01.**  For every shape there is one list `L` of the cells of the array, each exactly once, in
lexicographic order, such that the loop over an `Index` terminates and runs its body on the members of
`L`, in that order, for any body. -/
theorem C01_row_major_iteration {s : List Nat} (hg : GoodShape s) :
    ∃ L : List (List Int), (∀ v, v ∈ L ↔ InRange s v) ∧ L.Nodup ∧ L.Pairwise (List.Lex (· < ·)) ∧
      ∀ (σ : Type) (body : σ → List Int → Out σ) (st : σ), forIndex s body st = L.foldlM body st :=
  ⟨allIdx s, fun _ => mem_allIdx, nodup_allIdx s, allIdx_sorted s, fun _ body st => forIndex_eq hg body st⟩

/-- The hypothesis is met, and the order is the expected one. -/
example : GoodShape [2, 3] ∧ forIndex [2, 3] (fun acc v => .ok (acc ++ [v])) [] =
    .ok [[0, 0], [0, 1], [0, 2], [1, 0], [1, 1], [1, 2]] :=
  ⟨by decide, by rw [forIndex_eq (by decide)]; decide⟩

/-! ### C02 -/

/-- **C02.**  The loop over a `TransposedIndex` terminates and visits every cell exactly once, first
dimension fastest. -/
theorem C02_column_major_iteration {s : List Nat} (hg : GoodShape s) :
    ∃ L : List (List Int), (∀ v, v ∈ L ↔ InRange s v) ∧ L.Nodup ∧
      L.Pairwise (fun a b => List.Lex (· < ·) a.reverse b.reverse) ∧
      ∀ (σ : Type) (body : σ → List Int → Out σ) (st : σ), forTransposed s body st = L.foldlM body st := by
  refine ⟨(allIdx s.reverse).map List.reverse, ?_, ?_, ?_, fun _ body st => forTransposed_eq hg body st⟩
  · intro v
    rw [List.mem_map]
    constructor
    · rintro ⟨w, hw, rfl⟩
      exact inRange_reverse.mp (by simpa using mem_allIdx.mp hw)
    · intro h
      exact ⟨v.reverse, mem_allIdx.mpr (inRange_reverse.mpr h), by simp⟩
  · exact (nodup_allIdx _).map List.reverse_injective
  · rw [List.pairwise_map]
    simp only [List.reverse_reverse]
    exact allIdx_sorted s.reverse

/-- **C02**, second half.  Converting an R array puts the element R stores at (column-major) position
`colRank s v` at the cell `v`. -/
theorem C02_r_array_conversion {α : Type} [Inhabited α] {s : List Nat} (hg : GoodShape s) (data : List α)
    (hl : data.length = prodSizes s) :
    rConvertArray (some s) data = .ok (arr s (fun v => data.getD (colRank s v).toNat default)) ∧
    ∀ v, InRange s v → 0 ≤ colRank s v ∧ (colRank s v).toNat < data.length := by
  refine ⟨rConvert_eq hg data default hl, ?_⟩
  intro v hv
  have h1 := rank_reverse (s := s) (v := v) (inRange_length hv)
  obtain ⟨k, hk, hlt, -⟩ := getElem_rank (inRange_reverse.mpr hv)
  rw [prodSizes_reverse, ← hl] at hlt
  rw [← h1, hk]
  omega

/-- A plain R vector becomes a 1-d array. -/
theorem C02_r_vector_conversion {α : Type} [Inhabited α] (data : List α) (h : data ≠ []) :
    rConvertArray none data = .ok (arr [data.length] (fun v => data.getD (v.getD 0 0).toNat default)) := by
  have hg : GoodShape [data.length] := ⟨by simp, by simpa using List.length_pos_iff.mpr h⟩
  have := rConvert_eq hg data default (by simp [prodSizes])
  have e : rConvertArray none data = rConvertArray (some [data.length]) data := rfl
  rw [e, this]
  congr 1
  apply arr_congr
  intro v hv
  have := inRange_length hv
  match v with
  | [i] => simp [colRank]

example : GoodShape [2, 3] ∧ ([1, 2, 3, 4, 5, 6] : List Int).length = prodSizes [2, 3] ∧
    rConvertArray (some [2, 3]) ([1, 2, 3, 4, 5, 6] : List Int) =
      .ok { sizes := [2, 3], offsets := [3, 1], storageSize := 6,
            data := [some 1, some 3, some 5, some 2, some 4, some 6] } :=
  ⟨by decide, rfl, by rw [rConvert_eq (by decide) _ 0 rfl]; decide⟩

/-! ### C03 -/

/-- **C03.**  A newly built array of any shape has a slot in `[0, storageSize)` for every in-range index,
different indices have different slots and every slot is used. -/
theorem C03_addressing_bijection {α : Type} {s : List Nat} (hg : GoodShape s) :
    ∃ a : NDArray α, NDArray.new s = .ok a ∧ a.sizes = s ∧ a.data.length = a.storageSize ∧
      ∃ slot : List Int → Nat,
        (∀ v, InRange s v → NDArray.offset a.offsets v = .ok (slot v : Int) ∧ slot v < a.storageSize) ∧
        (∀ v w, InRange s v → InRange s w → slot v = slot w → v = w) ∧
        (∀ k < a.storageSize, ∃ v, InRange s v ∧ slot v = k) := by
  refine ⟨arrO s (fun _ => none), new_eq hg, rfl, arrO_data_length s _, fun v => (rank s v).toNat, ?_, ?_, ?_⟩
  · intro v hv
    obtain ⟨k, hk, hlt, -⟩ := getElem_rank hv
    rw [arrO_offsets, offset_eq_rank (inRange_length hv)]
    simp only [hk, Int.toNat_natCast, true_and]
    exact hlt
  · intro v w hv hw h
    obtain ⟨k, hk, -, h1⟩ := getElem_rank hv
    obtain ⟨l, hl, -, h2⟩ := getElem_rank hw
    simp only [hk, hl, Int.toNat_natCast] at h
    subst h
    rw [h1] at h2
    exact Option.some.inj h2
  · intro k hk
    have hk' : k < (allIdx s).length := by rw [length_allIdx]; exact hk
    refine ⟨(allIdx s)[k], mem_allIdx.mp (List.getElem_mem hk'), ?_⟩
    simp [rank_of_getElem (List.getElem?_eq_getElem hk')]

/-- **C03**, reading and writing.  In any array of shape `s` (`arrO s g`: whatever its cells hold,
initialised or not), writing to a cell succeeds, reading that cell then returns the value, and every
other cell reads as before. -/
theorem C03_read_write {α : Type} {s : List Nat} (g : List Int → Option α) {v : List Int}
    (hv : InRange s v) (x : α) :
    ∃ g', (arrO s g).set v x = .ok (arrO s g') ∧ (arrO s g').get v = .ok x ∧
      ∀ w, InRange s w → w ≠ v → (arrO s g').get w = (arrO s g).get w := by
  refine ⟨_, setO_arr hv x, ?_, ?_⟩
  · rw [getO_arr hv]; simp
  · intro w hw hne
    rw [getO_arr hw, getO_arr hw, Function.update_of_ne hne]

/-- Arrays built by construction, wrapping of an existing block, and writes all have the form `arrO s g`
the other theorems quantify over. -/
theorem C03_array_forms {α : Type} {s : List Nat} (hg : GoodShape s) :
    (NDArray.new s = .ok (arrO (α := α) s (fun _ => none))) ∧
    (∀ block : List α, block.length = prodSizes s →
      ∃ g, NDArray.wrap s (block.map some) = .ok (arr s g) ∧
        ∀ k (hk : k < block.length), ∃ v, InRange s v ∧ rank s v = k ∧ g v = block[k]) := by
  refine ⟨new_eq hg, ?_⟩
  intro block hb
  have hne : block ≠ [] := by
    intro h; subst h
    have := prodSizes_pos hg.2
    simp at hb; omega
  obtain ⟨x0, rest, hx⟩ := List.exists_cons_of_ne_nil hne
  refine ⟨fun v => block.getD (rank s v).toNat x0, ?_, ?_⟩
  · have : block.map some = (allIdx s).map (fun v => some (block.getD (rank s v).toNat x0)) := by
      apply List.ext_getElem
      · simp [hb, length_allIdx]
      · intro k h1 h2
        have hk : k < (allIdx s).length := by simpa using h2
        have hk' : k < block.length := by simpa using h1
        have := rank_of_getElem (List.getElem?_eq_getElem hk)
        simp only [List.getElem_map, this]
        simp [List.getD_eq_getElem?_getD, hk']
    rw [this]
    exact wrap_eq hg _
  · intro k hk
    have hk' : k < (allIdx s).length := by rw [length_allIdx, ← hb]; exact hk
    have := rank_of_getElem (List.getElem?_eq_getElem hk')
    refine ⟨(allIdx s)[k], mem_allIdx.mp (List.getElem_mem hk'), this, ?_⟩
    simp only [this]
    simp [List.getD_eq_getElem?_getD, hk]

example : GoodShape [2, 3, 4] ∧ InRange [2, 3, 4] [1, 0, 3] := by decide

/-! ### C04 -/

theorem sum_marginal (s dims : List Nat) (hd : ∀ d ∈ dims, d < s.length) {β : Type} [AddCommMonoid β]
    (g : List Int → β) :
    ∑ j ∈ cells (projSizes dims s), marginalSum s dims g j = ∑ v ∈ cells s, g v := by
  unfold marginalSum
  apply Finset.sum_fiberwise_of_maps_to
  intro v hv
  rw [mem_cells] at hv ⊢
  exact inRange_proj hd hv

/-- **C04.**  Reducing to one dimension gives, per position, the sum of the cells with that position. -/
theorem C04_reduce1 (fp : FP) {s : List Nat} (hg : GoodShape s) (g : List Int → Int) {d : Nat}
    (hd : d < s.length) :
    ∃ r : List Int, reduce1 (numInt fp) (arr s g) d = .ok r ∧ r.length = s.getD d 0 ∧
      (∀ j : Nat, j < s.getD d 0 → r.getD j 0 = marginalSum s [d] g [(j : Int)]) ∧
      r.sum = ∑ v ∈ cells s, g v := by
  have h := reduce1_eq (numInt fp) hg g hd
  have hj : ∀ j : Nat, ((allIdx s).filter (fun v => v.getD d 0 = (j : Int))).foldl
      (fun acc v => (numInt fp).add acc (g v)) (numInt fp).zero = marginalSum s [d] g [(j : Int)] := by
    intro j
    have := foldl_add_sum g ((allIdx s).filter (fun v => v.getD d 0 = (j : Int))) 0
    refine Eq.trans this ?_
    rw [zero_add, sum_filter_allIdx]
    unfold marginalSum
    congr 1
    ext v
    simp [proj]
  simp only [hj] at h
  refine ⟨_, h, by simp, ?_, ?_⟩
  · intro j hj
    rw [List.getD_eq_getElem?_getD, List.getElem?_map, List.getElem?_range hj]
    rfl
  · rw [← sum_marginal s [d] (by simpa using hd), ← sum_allIdx]
    simp only [projSizes, allIdx, List.map_cons, List.map_nil]
    rw [List.map_flatMap]
    simp only [List.map_cons, List.map_nil]
    rw [← List.map_eq_flatMap]

/-- **C04**, errors: a dimension that does not exist throws, for every element type. -/
theorem C04_reduce1_bad_dimension {α : Type} (N : Num α) (s : List Nat) (g : List Int → α) {d : Nat}
    (hd : s.length ≤ d) : reduce1 N (arr s g) d = .thrown .reduceDim := by
  unfold reduce1
  have : (arr s g).dim = s.length := rfl
  rw [if_pos (by rw [this]; omega)]

example : GoodShape [2, 3] ∧ 1 < [2, 3].length := by decide

example (fp : FP) : reduce1 (numInt fp) (arr [2, 3] (fun v => v.getD 0 0 * 3 + v.getD 1 0)) 1 =
    .ok [3, 5, 7] := by
  rw [reduce1_eq _ (by decide) _ (by decide)]; rfl

/-! ### C05 -/

/-- **C05.**  Reducing to several dimensions gives the sums over the other dimensions, indexed in the
order of `dims`, and preserves the total.  (In a debug build the code asserts that a dimension is
dropped.) -/
theorem C05_reduce (dbg : Bool) (fp : FP) {s : List Nat} (hg : GoodShape s) (g : List Int → Int)
    {dims : List Nat} (hne : dims ≠ []) (hd : ∀ d ∈ dims, d < s.length)
    (hlt : dbg = true → dims.length < s.length) :
    reduceM dbg (numInt fp) (arr s g) (dims.map (fun d : Nat => (d : Int))) =
      .ok (arr (projSizes dims s) (marginalSum s dims g)) ∧
    ∑ j ∈ cells (projSizes dims s), marginalSum s dims g j = ∑ v ∈ cells s, g v := by
  refine ⟨?_, sum_marginal s dims hd g⟩
  rw [reduceM_eq dbg _ hg g hne hd hlt]
  congr 1
  apply arr_congr
  intro j _
  have := foldl_add_sum g ((allIdx s).filter (fun v => proj dims v = j)) 0
  refine Eq.trans this ?_
  rw [zero_add, sum_filter_allIdx]
  rfl

example : GoodShape [2, 3, 2] ∧ ([2, 0] : List Nat) ≠ [] ∧ (∀ d ∈ ([2, 0] : List Nat), d < 3) ∧
    projSizes [2, 0] [2, 3, 2] = [2, 2] := by decide

/-! ### C06 -/

/-- **C06.**  A slice at fixed positions is the array over the other dimensions, in order, and its cell
`proj free w` holds the cell `w` of `a`, for every index `w` agreeing with the fixed positions. -/
theorem C06_slice {α : Type} {s : List Nat} (hg : GoodShape s) (g : List Int → α)
    {fx : List (Nat × Int)} (h : FixedOK s fx) (hlt : fx.length < s.length) :
    ∃ k : List Int → α,
      slice (arr s g) (fx.map (fun p => ((p.1 : Int), p.2))) =
        .ok (arr (projSizes (freeDims s.length fx) s) k) ∧
      ∀ w, InRange s w → (∀ p ∈ fx, w.getD p.1 0 = p.2) → k (proj (freeDims s.length fx) w) = g w := by
  refine ⟨_, slice_eq hg g h hlt, ?_⟩
  intro w hw hfx
  simp only [sliceIdx_proj h (inRange_length hw) hfx]

/-- **C06**, the cells of the slice are exactly these: every index of the slice is `proj free w` for one
such `w`. -/
theorem C06_slice_covers {s : List Nat} {fx : List (Nat × Int)} (h : FixedOK s fx) {v : List Int}
    (hv : InRange (projSizes (freeDims s.length fx) s) v) :
    ∃ w, InRange s w ∧ (∀ p ∈ fx, w.getD p.1 0 = p.2) ∧ proj (freeDims s.length fx) w = v :=
  ⟨sliceIdx s.length fx v, inRange_sliceIdx h hv, sliceIdx_fixed h v,
    proj_sliceIdx (by have := inRange_length hv; simpa [projSizes] using this)⟩

/-- **C06**, errors: a pair with a dimension the array does not have, or an index not below the size of
its dimension, throws. -/
theorem C06_slice_throws {α : Type} (a : NDArray α) (fixed : List (Int × Int))
    (h : ∃ p ∈ fixed, p.1 < 0 ∨ (a.dim : Int) ≤ p.1 ∨ (a.sizes.getD p.1.toNat 0 : Int) ≤ p.2) :
    slice a fixed = .thrown .sliceDim ∨ slice a fixed = .thrown .sliceIndex := by
  have key : sliceCheck a.sizes fixed = .thrown .sliceDim ∨ sliceCheck a.sizes fixed = .thrown .sliceIndex := by
    induction fixed with
    | nil => simp at h
    | cons p rest ih =>
      obtain ⟨d, i⟩ := p
      simp only [sliceCheck]
      by_cases h1 : d < 0 ∨ (a.sizes.length : Int) ≤ d
      · simp [if_pos h1]
      · rw [if_neg h1]
        by_cases h2 : (a.sizes.getD d.toNat 0 : Int) ≤ i
        · rw [if_pos h2]; simp
        · rw [if_neg h2]
          apply ih
          obtain ⟨p, hp, hq⟩ := h
          rcases List.mem_cons.mp hp with hp | hp
          · subst hp
            exfalso
            rcases hq with hq | hq | hq
            · exact h1 (Or.inl hq)
            · exact h1 (Or.inr hq)
            · exact h2 hq
          · exact ⟨p, hp, hq⟩
  unfold slice
  rcases key with h | h <;> simp [h]

example : FixedOK [2, 3, 2] [(1, 2)] ∧ [(1, (2 : Int))].length < [2, 3, 2].length ∧
    freeDims 3 [(1, 2)] = [0, 2] :=
  ⟨⟨by simp, by simp⟩, by decide, by decide⟩

/-- **C06**, what the quantifier excludes: a negative index passes the check.  With -1 the code writes out
of bounds; with -2 after another fixed pair it silently returns cells of a different row. -/
theorem C06_slice_negative_index_unsafe :
    slice (arr [2] (fun v => v.getD 0 0)) [(0, -1)] = .ub .oob ∧
    slice (arr [2, 3, 2] (fun v => v)) [(0, 1), (1, -2)] = .ok (arr [2] (fun v => [0, 1, v.getD 0 0])) := by
  constructor
  · rfl
  · have e1 : FixedIndex.new [2, 3, 2] [(0, 1), (1, -2)] =
      .ok { freeDim := 1, full := [1, -2, 0], freePos := [2], freeSizes := [2], atEnd := false } := by rfl
    have e2 : sliceCheck [2, 3, 2] [(0, 1), (1, -2)] = .ok () := by rfl
    have e3 : (arr [2, 3, 2] (fun v => v)).sizes = [2, 3, 2] := rfl
    unfold slice
    rw [e3, e2]
    simp only [Out.ok_bind]
    rw [if_neg (by simp), e1]
    simp only [Out.ok_bind]
    rw [new_eq (by decide)]
    simp only [Out.ok_bind, forFixed]
    rw [loop_step (s' := ({ freeDim := 1, full := [1, -2, 1], freePos := [2], freeSizes := [2], atEnd := false },
      arrO [2] (fun v => if v = [0] then some [0, 1, 0] else none))) (by rfl) (by rfl)]
    rw [loop_step (s' := ({ freeDim := 1, full := [1, -2, 0], freePos := [2], freeSizes := [2], atEnd := true },
      arr [2] (fun v => [0, 1, v.getD 0 0]))) (by rfl) (by rfl)]
    rw [loop_exit (by rfl)]
    rfl

/-! ### C07 -/

/-- What a table with columns `cols` must satisfy to list the population `g` over shape `s`, with every
index increased by `offset`: it has the columns of a list of rows, the rows are indices of the array, in
row-major order, and every cell occurs as often as it counts. -/
def ListsPopulation (s : List Nat) (g : List Int → Int) (offset : Int) (cols : List (List Int)) : Prop :=
  ∃ rows : List (List Int),
    cols = (List.range s.length).map (fun d => rows.map (fun v => offset + v.getD d 0)) ∧
    (rows.length : Int) = ∑ v ∈ cells s, g v ∧
    (∀ v ∈ rows, InRange s v) ∧
    rows.Pairwise (fun a b => a = b ∨ List.Lex (· < ·) a b) ∧
    ∀ v, InRange s v → (rows.count v : Int) = g v

theorem rowsOf_lists (s : List Nat) (g : List Int → Int) (hnn : ∀ v, InRange s v → 0 ≤ g v) :
    ((rowsOf (allIdx s) g).length : Int) = ∑ v ∈ cells s, g v ∧
    (∀ v ∈ rowsOf (allIdx s) g, InRange s v) ∧
    (rowsOf (allIdx s) g).Pairwise (fun a b => a = b ∨ List.Lex (· < ·) a b) ∧
    ∀ v, InRange s v → ((rowsOf (allIdx s) g).count v : Int) = g v := by
  refine ⟨?_, ?_, ?_, ?_⟩
  · rw [length_rowsOf_allIdx]
    apply Finset.sum_congr rfl
    intro v hv
    exact max_eq_left (hnn v (mem_cells.mp hv))
  · intro v hv
    simp only [rowsOf, List.mem_flatMap, List.mem_replicate] at hv
    obtain ⟨w, hw, -, rfl⟩ := hv
    exact mem_allIdx.mp hw
  · unfold rowsOf
    have hs := allIdx_sorted s
    generalize allIdx s = L at hs
    induction L with
    | nil => simp
    | cons w L ih =>
      rw [List.flatMap_cons, List.pairwise_append]
      have hs' := List.pairwise_cons.mp hs
      refine ⟨?_, ih hs'.2, ?_⟩
      · rw [List.pairwise_replicate]
        exact Or.inr (Or.inl rfl)
      · intro a ha b hb
        rw [List.mem_replicate] at ha
        simp only [List.mem_flatMap, List.mem_replicate] at hb
        obtain ⟨x, hx, -, rfl⟩ := hb
        rw [ha.2]
        exact Or.inr (hs'.1 _ hx)
  · intro v hv
    have key : ∀ L : List (List Int), L.Nodup →
        (rowsOf L g).count v = if v ∈ L then (g v).toNat else 0 := by
      intro L
      induction L with
      | nil => simp [rowsOf]
      | cons w L ih =>
        intro hn
        have hn' := List.nodup_cons.mp hn
        have : rowsOf (w :: L) g = List.replicate (g w).toNat w ++ rowsOf L g := by simp [rowsOf]
        rw [this, List.count_append, ih hn'.2, List.count_replicate]
        by_cases hvw : w = v
        · subst hvw; simp [hn'.1]
        · have : ¬ v = w := fun h => hvw h.symm
          simp [hvw, this]
    rw [key _ (nodup_allIdx s), if_pos (mem_allIdx.mpr hv)]
    have := hnn v hv
    omega

/-- The table holding every individual, for any offset. -/
theorem listify_lists {s : List Nat} (hg : GoodShape s) (g : List Int → Int)
    (hnn : ∀ v, InRange s v → 0 ≤ g v) (hsum : ∑ v ∈ cells s, g v < 2 ^ 61) (offset : Int) :
    ∃ cols, listify (∑ v ∈ cells s, g v).toNat (arr s g) offset = .ok cols ∧
      ListsPopulation s g offset cols := by
  obtain ⟨h1, h2, h3, h4⟩ := rowsOf_lists s g hnn
  have hlen : (rowsOf (allIdx s) g).length = (∑ v ∈ cells s, g v).toNat := by omega
  refine ⟨_, listify_eq hg g offset (by omega) hlen.le, rowsOf (allIdx s) g, ?_, h1, h2, h3, h4⟩
  unfold tableOf
  rw [hlen]
  simp

/-- **C07.**  `flatten` of a non-negative population lists every individual exactly once. -/
theorem C07_flatten {s : List Nat} (hg : GoodShape s) (g : List Int → Int)
    (hnn : ∀ v, InRange s v → 0 ≤ g v) (hsum : ∑ v ∈ cells s, g v < 2 ^ 61) :
    ∃ cols, flatten (arr s g) = .ok cols ∧ ListsPopulation s g 0 cols := by
  have h0 : 0 ≤ ∑ v ∈ cells s, g v := Finset.sum_nonneg (fun v hv => hnn v (mem_cells.mp hv))
  obtain ⟨cols, h1, h2⟩ := listify_lists hg g hnn hsum 0
  refine ⟨cols, ?_, h2⟩
  unfold flatten
  rw [flattenPop_eq hg]
  simp only [Out.ok_bind]
  rw [Int.emod_eq_of_lt h0 (by omega)]
  exact h1

/-- **C07**, R: the same table with every index increased by one (rcpp_api.cpp calls `listify` with the
population and offset 1). -/
theorem C07_flatten_r {s : List Nat} (hg : GoodShape s) (g : List Int → Int)
    (hnn : ∀ v, InRange s v → 0 ≤ g v) (hsum : ∑ v ∈ cells s, g v < 2 ^ 61) :
    ∃ cols, listify (∑ v ∈ cells s, g v).toNat (arr s g) 1 = .ok cols ∧ ListsPopulation s g 1 cols :=
  listify_lists hg g hnn hsum 1

example : GoodShape [2, 2] ∧ (∀ v, InRange [2, 2] v → 0 ≤ v.getD 0 0 + v.getD 1 0) ∧
    ∑ v ∈ cells [2, 2], (v.getD 0 0 + v.getD 1 0) = 4 ∧
    rowsOf (allIdx [2, 2]) (fun v => v.getD 0 0 + v.getD 1 0) = [[0, 1], [1, 0], [1, 1], [1, 1]] := by
  refine ⟨by decide, ?_, by decide, by decide⟩
  intro v hv
  have h0 := (inRange_getD hv (d := 0) (by decide)).1
  have h1 := (inRange_getD hv (d := 1) (by decide)).1
  omega

/-! ### C08 -/

/-- **C08**, the part that holds: for non-negative counts (total below the largest table that can be
allocated) `flatten` completes.  Missing: arrays with negative counts, for which the property is false,
see `C08_flatten_negative_unsafe`. -/
theorem C08_flatten_safe_partial {s : List Nat} (hg : GoodShape s) (g : List Int → Int)
    (hnn : ∀ v, InRange s v → 0 ≤ g v) (hsum : ∑ v ∈ cells s, g v < 2 ^ 61) :
    ∃ cols, flatten (arr s g) = .ok cols := by
  obtain ⟨cols, h, -⟩ := C07_flatten hg g hnn hsum
  exact ⟨cols, h⟩

/-- **C08 is false of the code**: every array with a negative count and a total that is not negative makes
`flatten` write outside its table. -/
theorem C08_flatten_negative_unsafe {s : List Nat} (hg : GoodShape s) (g : List Int → Int)
    (hneg : ∃ v, InRange s v ∧ g v < 0) (h0 : 0 ≤ ∑ v ∈ cells s, g v)
    (hsum : ∑ v ∈ cells s, g v < 2 ^ 61) : flatten (arr s g) = .ub .oob := by
  unfold flatten
  rw [flattenPop_eq hg]
  simp only [Out.ok_bind]
  rw [Int.emod_eq_of_lt h0 (by omega)]
  apply listify_oob hg g 0 (by omega)
  have h1 := length_rowsOf_allIdx s g
  have h2 : ∑ v ∈ cells s, g v < ∑ v ∈ cells s, max (g v) 0 := by
    obtain ⟨v, hv, hlt⟩ := hneg
    exact Finset.sum_lt_sum (fun v _ => le_max_left _ _)
      ⟨v, mem_cells.mpr hv, lt_of_lt_of_le hlt (le_max_right _ _)⟩
  omega

/-- **C08**, negative total: the size of the table wraps around and allocating it throws. -/
theorem C08_flatten_negative_total_throws {s : List Nat} (hg : GoodShape s) (g : List Int → Int)
    (h0 : ∑ v ∈ cells s, g v < 0) (hsum : -2 ^ 63 ≤ ∑ v ∈ cells s, g v) :
    flatten (arr s g) = .thrown .lengthError := by
  unfold flatten
  rw [flattenPop_eq hg]
  simp only [Out.ok_bind]
  unfold listify
  rw [if_pos]
  omega

example : GoodShape [2] ∧ (∃ v, InRange [2] v ∧ (fun v : List Int => 2 - 3 * v.getD 0 0) v < 0) ∧
    ∑ v ∈ cells [2], (2 - 3 * v.getD 0 0) = 1 := by
  exact ⟨by decide, ⟨[1], by decide, by decide⟩, by decide⟩

end HL

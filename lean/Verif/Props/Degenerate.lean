import Verif.Props.RReject
import Verif.Model.PyApi

/-! Arrays with an empty dimension, or without dimensions (C82). -/

namespace HL
variable {α : Type}

/-- A shape with no cell: some dimension is empty. -/
def EmptyShape (s : List Nat) : Prop := 0 ∈ s

theorem computeOffsets_empty : ∀ (s : List Nat) (m : Nat), 0 ∈ s → NDArray.computeOffsets m s = .ub .divZero
  | [], _, h => by cases h
  | n :: s, m, h => by
    unfold NDArray.computeOffsets
    by_cases hn : n = 0
    · rw [if_pos hn]
    · have : 0 ∈ s := by
        rcases List.mem_cons.mp h with h | h
        · exact absurd h.symm hn
        · exact h
      rw [if_neg hn, computeOffsets_empty s _ this]
      rfl

theorem new_empty {s : List Nat} (h : EmptyShape s) : NDArray.new (α := α) s = .ub .divZero := by
  unfold NDArray.new NDArray.resize
  match s, h with
  | n :: t, h =>
    simp only
    rw [computeOffsets_empty _ _ h]
    rfl

theorem wrap_empty {s : List Nat} (b : List (Option α)) (h : EmptyShape s) : NDArray.wrap s b = .ub .divZero := by
  unfold NDArray.wrap
  match s, h with
  | n :: t, h =>
    simp only
    rw [computeOffsets_empty _ _ h]
    rfl

/-- **C82** Python's `flatten` and `integerise` divide by zero on an array with an empty dimension, and read
beyond the end of the list of sizes of an array without dimensions. -/
theorem C82_negation_single (dbg : Bool) (fp : FP) (lm : Libm) (a : NpArray Int) (x : NpArray Fl) :
    (EmptyShape a.shape → pyFlatten a = .ub .divZero) ∧ (a.shape = [] → pyFlatten a = .ub .oob) ∧
    (EmptyShape x.shape → pyIntegerise dbg fp lm x = .ub .divZero) ∧
    (x.shape = [] → pyIntegerise dbg fp lm x = .ub .oob) := by
  refine ⟨fun h => ?_, fun h => ?_, fun h => ?_, fun h => ?_⟩
  · unfold pyFlatten NpArray.asNDArray; rw [wrap_empty _ h]; rfl
  · unfold pyFlatten NpArray.asNDArray; rw [h]; rfl
  · unfold pyIntegerise NpArray.asNDArray; rw [wrap_empty _ h]; rfl
  · unfold pyIntegerise NpArray.asNDArray; rw [h]; rfl

/-- `flatten(np.zeros((0, 3), int))` and `integerise(np.array(2.5))`. -/
example (dbg : Bool) (fp : FP) (lm : Libm) :
    pyFlatten ⟨[0, 3], [3, 1], 0, []⟩ = .ub .divZero ∧ pyIntegerise dbg fp lm ⟨[], [], 0, [.fin (5 / 2)]⟩ = .ub .oob :=
  ⟨(C82_negation_single dbg fp lm _ ⟨[], [], 0, []⟩).1 (by show 0 ∈ [0, 3]; simp),
    (C82_negation_single dbg fp lm ⟨[], [], 0, []⟩ _).2.2.2 rfl⟩

/-- A shape the code cannot handle. -/
def Degenerate (s : List Nat) : Prop := s = [] ∨ EmptyShape s

theorem mapM_ub {β γ : Type} (f : β → Out γ) : ∀ (l : List β),
    (∀ x ∈ l, (∃ y, f x = .ok y) ∨ ∃ u, f x = .ub u) → (∃ x ∈ l, ∃ u, f x = .ub u) → ∃ u, l.mapM f = .ub u
  | [], _, h => by obtain ⟨x, hx, -⟩ := h; cases hx
  | x :: l, hall, hex => by
    rw [List.mapM_cons]
    rcases hall x (by simp) with ⟨y, hy⟩ | ⟨u, hu⟩
    · rw [hy]
      have : ∃ x ∈ l, ∃ u, f x = .ub u := by
        obtain ⟨z, hz, u, hu⟩ := hex
        rcases List.mem_cons.mp hz with rfl | hz
        · rw [hy] at hu; cases hu
        · exact ⟨z, hz, u, hu⟩
      obtain ⟨u, hu⟩ := mapM_ub f l (fun x hx => hall x (by simp [hx])) this
      simp only [Out.ok_bind]
      rw [hu]
      exact ⟨u, rfl⟩
    · rw [hu]; exact ⟨u, rfl⟩

theorem mapM_ok_or_ub {β γ : Type} (f : β → Out γ) : ∀ (l : List β),
    (∀ x ∈ l, (∃ y, f x = .ok y) ∨ ∃ u, f x = .ub u) → (∃ y, l.mapM f = .ok y) ∨ ∃ u, l.mapM f = .ub u
  | [], _ => .inl ⟨[], rfl⟩
  | x :: l, hall => by
    rw [List.mapM_cons]
    rcases hall x (by simp) with ⟨y, hy⟩ | ⟨u, hu⟩
    · rw [hy]
      rcases mapM_ok_or_ub f l (fun x hx => hall x (by simp [hx])) with ⟨ys, h⟩ | ⟨u, h⟩
      · simp only [Out.ok_bind]; rw [h]; exact .inl ⟨_, rfl⟩
      · simp only [Out.ok_bind]; rw [h]; exact .inr ⟨u, rfl⟩
    · rw [hu]; exact .inr ⟨u, rfl⟩

theorem offsets_ok_or_ub : ∀ (s : List Nat) (m : Nat),
    (∃ y, NDArray.computeOffsets m s = .ok y) ∨ ∃ u, NDArray.computeOffsets m s = .ub u
  | [], _ => .inl ⟨[], rfl⟩
  | n :: s, m => by
    unfold NDArray.computeOffsets
    by_cases hn : n = 0
    · rw [if_pos hn]; exact .inr ⟨_, rfl⟩
    · rw [if_neg hn]
      rcases offsets_ok_or_ub s (m / n) with ⟨y, h⟩ | ⟨u, h⟩ <;> rw [h]
      · exact .inl ⟨_, rfl⟩
      · exact .inr ⟨_, rfl⟩

theorem new_ok_or_ub (s : List Nat) : (∃ y, NDArray.new (α := α) s = .ok y) ∨ ∃ u, NDArray.new (α := α) s = .ub u := by
  unfold NDArray.new NDArray.resize
  match s with
  | [] => exact .inr ⟨_, rfl⟩
  | n :: t =>
    simp only
    rcases offsets_ok_or_ub (n :: t) (prodSizes (n :: t)) with ⟨y, h⟩ | ⟨u, h⟩ <;> rw [h]
    · exact .inl ⟨_, rfl⟩
    · exact .inr ⟨_, rfl⟩

theorem wrap_ok_or_ub (s : List Nat) (b : List (Option α)) :
    (∃ y, NDArray.wrap s b = .ok y) ∨ ∃ u, NDArray.wrap s b = .ub u := by
  unfold NDArray.wrap
  match s with
  | [] => exact .inr ⟨_, rfl⟩
  | n :: t =>
    simp only
    rcases offsets_ok_or_ub (n :: t) (prodSizes (n :: t)) with ⟨y, h⟩ | ⟨u, h⟩ <;> rw [h]
    · exact .inl ⟨_, rfl⟩
    · exact .inr ⟨_, rfl⟩

theorem toNDArray_ok_or_ub (a : NpArray α) : (∃ y, a.toNDArray = .ok y) ∨ ∃ u, a.toNDArray = .ub u := by
  unfold NpArray.toNDArray
  rcases new_ok_or_ub (α := α) a.shape with ⟨y, h⟩ | ⟨u, h⟩ <;> rw [h]
  · simp only [Out.ok_bind]
    unfold NpArray.readBlock
    split
    · simp only [Out.ok_bind]
      unfold NDArray.copyIn
      split
      · exact .inl ⟨_, rfl⟩
      · exact .inr ⟨_, rfl⟩
    · exact .inr ⟨_, rfl⟩
  · exact .inr ⟨_, rfl⟩

theorem toNDArray_degenerate {a : NpArray α} (h : Degenerate a.shape) : ∃ u, a.toNDArray = .ub u := by
  unfold NpArray.toNDArray
  rcases h with h | h
  · rw [h]; exact ⟨_, rfl⟩
  · rw [new_empty h]; exact ⟨_, rfl⟩

theorem qisArgs_cases (i m : PyObj Int) (hi : ∃ v, i.cast.toVector = .ok v) :
    ((∃ y, qisArgs i m = .ok y) ∨ ∃ u, qisArgs i m = .ub u) ∧
    (Degenerate m.cast.shape → ∃ u, qisArgs i m = .ub u) := by
  obtain ⟨v, hv⟩ := hi
  unfold qisArgs
  rw [hv]
  simp only [Out.ok_bind]
  constructor
  · rcases toNDArray_ok_or_ub m.cast with ⟨y, h⟩ | ⟨u, h⟩ <;> rw [h]
    · exact .inl ⟨_, rfl⟩
    · exact .inr ⟨_, rfl⟩
  · intro hd
    obtain ⟨u, h⟩ := toNDArray_degenerate hd
    rw [h]; exact ⟨_, rfl⟩

theorem ipfArgs_cases (i : PyObj Int) (m : PyObj Fl) (hi : ∃ v, i.cast.toVector = .ok v) :
    ((∃ y, ipfArgs i m = .ok y) ∨ ∃ u, ipfArgs i m = .ub u) ∧
    (Degenerate m.cast.shape → ∃ u, ipfArgs i m = .ub u) := by
  obtain ⟨v, hv⟩ := hi
  unfold ipfArgs
  rw [hv]
  simp only [Out.ok_bind]
  have hw : ∀ b : List (Option Fl), (∃ y, NDArray.wrap m.cast.shape b = .ok y) ∨ ∃ u, NDArray.wrap m.cast.shape b = .ub u :=
    wrap_ok_or_ub _
  have hwd : Degenerate m.cast.shape → ∀ b : List (Option Fl), ∃ u, NDArray.wrap m.cast.shape b = .ub u := by
    intro hd b
    rcases hd with h | h
    · rw [h]; exact ⟨_, rfl⟩
    · rw [wrap_empty b h]; exact ⟨_, rfl⟩
  cases m with
  | array np =>
    constructor
    · show (∃ y, (np.asNDArray >>= _) = _) ∨ _
      unfold NpArray.asNDArray
      rcases hw (np.block.map some) with ⟨y, h⟩ | ⟨u, h⟩
      · left; refine ⟨(v, y), ?_⟩; show (NDArray.wrap np.shape _ >>= _) = _; rw [show NDArray.wrap np.shape (np.block.map some) = .ok y from h]; rfl
      · right; refine ⟨u, ?_⟩; show (NDArray.wrap np.shape _ >>= _) = _; rw [show NDArray.wrap np.shape (np.block.map some) = .ub u from h]; rfl
    · intro hd
      obtain ⟨u, h⟩ := hwd hd (np.block.map some)
      refine ⟨u, ?_⟩
      show (NDArray.wrap np.shape _ >>= _) = _
      rw [show NDArray.wrap np.shape (np.block.map some) = .ub u from h]; rfl
  | other np =>
    constructor
    · rcases hw [] with ⟨y, h⟩ | ⟨u, h⟩
      · left; refine ⟨(v, y), ?_⟩; show (NDArray.wrap np.shape _ >>= _) = _; rw [show NDArray.wrap np.shape [] = .ok y from h]; rfl
      · right; refine ⟨u, ?_⟩; show (NDArray.wrap np.shape _ >>= _) = _; rw [show NDArray.wrap np.shape [] = .ub u from h]; rfl
    · intro hd
      obtain ⟨u, h⟩ := hwd hd []
      refine ⟨u, ?_⟩
      show (NDArray.wrap np.shape _ >>= _) = _
      rw [show NDArray.wrap np.shape [] = .ub u from h]; rfl

/-- **C82** Python's `qis`, `qisi` and `ipf` run into undefined behaviour as soon as one of the marginals has
an empty dimension or none at all, whatever the other arguments are (lists of the same length, indices
that are readable vectors). -/
theorem C82_negation_marginal (dbg : Bool) (fp : FP) (lm : Libm) (seed : PyObj Fl) (ilist mlist : List (PyObj Int))
    (flist : List (PyObj Fl)) (skips : Int) (hi : ∀ i ∈ ilist, ∃ v, i.cast.toVector = .ok v) :
    (ilist.length = mlist.length → (∃ m ∈ mlist, Degenerate m.cast.shape) →
      (∃ u, pyQis fp lm ilist mlist skips = .ub u) ∧ ∃ u, pyQisi dbg fp lm seed ilist mlist skips = .ub u) ∧
    (ilist.length = flist.length → (∃ m ∈ flist, Degenerate m.cast.shape) →
      ∃ u, pyIpf dbg fp seed ilist flist = .ub u) := by
  have zipmem : ∀ {β γ : Type} (l : List β) (r : List γ), l.length = r.length → ∀ y ∈ r, ∃ x, (x, y) ∈ l.zip r := by
    intro β γ l r h y hy
    obtain ⟨n, hn, rfl⟩ := List.mem_iff_getElem.mp hy
    exact ⟨l[n]'(by omega), List.mem_iff_getElem.mpr ⟨n, by simp; omega, by simp⟩⟩
  constructor
  · intro hl ⟨m, hm, hd⟩
    obtain ⟨i, him⟩ := zipmem ilist mlist hl m hm
    obtain ⟨u, hu⟩ := mapM_ub (fun p : PyObj Int × PyObj Int => qisArgs p.1 p.2) (ilist.zip mlist)
      (fun p hp => (qisArgs_cases p.1 p.2 (hi p.1 (List.of_mem_zip hp).1)).1)
      ⟨(i, m), him, (qisArgs_cases i m (hi i (List.of_mem_zip him).1)).2 hd⟩
    constructor
    · refine ⟨u, ?_⟩
      unfold pyQis
      rw [if_neg (by simpa using hl), hu]
      rfl
    · refine ⟨u, ?_⟩
      unfold pyQisi
      rw [if_neg (by simpa using hl), hu]
      rfl
  · intro hl ⟨m, hm, hd⟩
    obtain ⟨i, him⟩ := zipmem ilist flist hl m hm
    obtain ⟨u, hu⟩ := mapM_ub (fun p : PyObj Int × PyObj Fl => ipfArgs p.1 p.2) (ilist.zip flist)
      (fun p hp => (ipfArgs_cases p.1 p.2 (hi p.1 (List.of_mem_zip hp).1)).1)
      ⟨(i, m), him, (ipfArgs_cases i m (hi i (List.of_mem_zip him).1)).2 hd⟩
    refine ⟨u, ?_⟩
    unfold pyIpf
    rw [if_neg (by simpa using hl), hu]
    rfl

/-- The hypotheses are met: `qis([np.array([0]), np.array([1])], [np.array([]), np.array([1, 2])])`. -/
example (fp : FP) (lm : Libm) :
    ∃ u, pyQis fp lm [.array ⟨[1], [1], 0, [0]⟩, .array ⟨[1], [1], 0, [1]⟩]
      [.array ⟨[0], [1], 0, []⟩, .array ⟨[2], [1], 0, [1, 2]⟩] 0 = .ub u := by
  refine ((C82_negation_marginal false fp lm (.array ⟨[1], [1], 0, [.fin 0]⟩)
    [.array ⟨[1], [1], 0, [0]⟩, .array ⟨[1], [1], 0, [1]⟩] [.array ⟨[0], [1], 0, []⟩, .array ⟨[2], [1], 0, [1, 2]⟩] [] 0 ?_).1
    rfl ?_).1
  · intro i hi
    simp only [List.mem_cons, List.not_mem_nil, or_false] at hi
    rcases hi with rfl | rfl
    · exact ⟨[0], rfl⟩
    · exact ⟨[1], rfl⟩
  · exact ⟨_, List.mem_cons_self, .inr (by show 0 ∈ [0]; simp)⟩

/-- **C82** R's `qis` runs into undefined behaviour as soon as one of the marginals is an empty vector or array, whatever the
index vectors are and whatever (non-empty) arrays the others are. -/
theorem C82_negation_r (fp : FP) (lm : Libm) (il : List (List Int)) (ml : List (RArray Int)) (skips : Int)
    (hl : il.length = ml.length) (hm : ∀ m ∈ ml, m.WF ∨ EmptyShape m.sizes) (he : ∃ m ∈ ml, EmptyShape m.sizes) :
    ∃ u, R.qis fp lm il ml skips = .ub u := by
  unfold R.qis
  rw [if_neg (by simpa using hl)]
  rcases R.getDimension_cases il ml with ⟨-, h⟩ | ⟨-, t, ht, -⟩
  · rw [h]; exact ⟨_, rfl⟩
  have hc : ∀ m : RArray Int, EmptyShape m.sizes → m.convert = .ub .divZero := by
    intro m h
    unfold RArray.convert rConvertArray
    show (NDArray.new m.sizes >>= _) = _
    rw [new_empty h]; rfl
  obtain ⟨m, hm', hd⟩ := he
  obtain ⟨u, hu⟩ := mapM_ub RArray.convert ml.reverse (fun x hx => by
      rcases hm x (by simpa using hx) with h | h
      · exact .inl ⟨_, R.convert_holds h.good (R.holds_self h.length)⟩
      · exact .inr ⟨_, hc x h⟩)
    ⟨m, by simpa using hm', _, hc m hd⟩
  refine ⟨u, ?_⟩
  rw [ht]
  simp only [Out.ok_bind]
  unfold R.coreMarginals
  rw [hu]
  rfl

/-- `qis(list(1, 2), list(integer(0), c(1L, 2L)))`. -/
example (fp : FP) (lm : Libm) : ∃ u, R.qis fp lm [[1], [2]] [⟨[], none⟩, ⟨[1, 2], none⟩] 0 = .ub u := by
  refine C82_negation_r fp lm _ _ 0 rfl ?_ ⟨_, List.mem_cons_self, by show 0 ∈ [0]; simp⟩
  intro m hm
  simp only [List.mem_cons, List.not_mem_nil, or_false] at hm
  rcases hm with rfl | rfl
  · exact .inr (by show 0 ∈ [0]; simp)
  · exact .inl ⟨rfl, by show GoodShape [2]; exact ⟨by simp, by simp⟩⟩

end HL

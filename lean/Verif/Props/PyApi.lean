import Verif.Proof.PyLemmas
import Verif.Props.Arrays
import Verif.Props.QIS
import Verif.Props.QISI

/-!
C54: results depend only on the logical contents of numpy inputs.  C55: Python `ipf` only reads live memory.
The vocabulary is in `PySpec.lean`.
-/

namespace HL

variable {fp : FP} {lm : Libm} {dbg : Bool}

/-! ### C54, what is true: arrays stored row by row -/

/-- A list element that gives a row-by-row array with the elements `g`. -/
structure Passes {α : Type} (o : PyObj α) (s : List Nat) (g : List Int → α) : Prop where
  contig : o.cast.CContig
  holds : o.cast.Holds s g

/-- The entries of an index array for the dimensions `ds`. -/
def dimsFun (ds : List Nat) : List Int → Int := fun j => ((ds.getD (j.getD 0 0).toNat 0 : Nat) : Int)

/-- The lists of index arrays and marginals a Python programmer passes for the problem `P`, all stored row by row. -/
structure PassesProb {α : Type} (il : List (PyObj Int)) (ml : List (PyObj α)) (s : List Nat) (P : Prob α) : Prop where
  indices : List.Forall₂ (fun o (p : List Nat × (List Int → α)) => Passes o [p.1.length] (dimsFun p.1)) il P
  marginals : List.Forall₂ (fun o (p : List Nat × (List Int → α)) => Passes o (projSizes p.1 s) p.2) ml P

theorem toVector_dims {np : NpArray Int} {ds : List Nat} (hc : np.CContig) (h : np.Holds [ds.length] (dimsFun ds)) :
    np.toVector = .ok (ds.map (fun d : Nat => (d : Int))) := by
  unfold NpArray.toVector
  rw [NpArray.readBlock_contig h hc, h.shape, if_neg (by simp)]
  exact congrArg Out.ok vec_block

theorem qisArgs_all {s : List Nat} {P : Prob Int} (hP : ∀ p ∈ P, GoodShape (projSizes p.1 s)) {il ml : List (PyObj Int)}
    (hi : List.Forall₂ (fun o (p : List Nat × (List Int → Int)) => Passes o [p.1.length] (dimsFun p.1)) il P)
    (hm : List.Forall₂ (fun o (p : List Nat × (List Int → Int)) => Passes o (projSizes p.1 s) p.2) ml P) :
    (il.zip ml).mapM (fun p => qisArgs p.1 p.2) =
      .ok (P.map (fun p => (p.1.map (fun d : Nat => (d : Int)), arr (projSizes p.1 s) p.2))) := by
  induction hi generalizing ml with
  | nil => cases hm; rfl
  | @cons o p il P h1 h2 ih =>
    cases hm with
    | @cons m _ ml _ h3 h4 =>
      rw [List.zip_cons_cons, List.mapM_cons, ih (fun p hp => hP p (by simp [hp])) h4]
      simp only [qisArgs, toVector_dims h1.contig h1.holds, NpArray.toNDArray_contig (hP p (by simp)) h3.holds h3.contig, Out.ok_bind,
        Out.pure_eq, List.map_cons]

theorem ipfArgs_all {s : List Nat} {P : Prob Fl} (hP : ∀ p ∈ P, GoodShape (projSizes p.1 s)) {il : List (PyObj Int)} {ml : List (PyObj Fl)}
    (hi : List.Forall₂ (fun o (p : List Nat × (List Int → Fl)) => Passes o [p.1.length] (dimsFun p.1)) il P)
    (hm : List.Forall₂ (fun o (p : List Nat × (List Int → Fl)) => Passes o (projSizes p.1 s) p.2) ml P) :
    ∃ as, (il.zip ml).mapM (fun p => ipfArgs p.1 p.2) = .ok as ∧
      as.map Prod.fst = indicesOf P ∧
      List.Forall₂ (fun a (p : List Nat × (List Int → Fl)) => Backs a (projSizes p.1 s, p.2)) (as.map Prod.snd) P ∧
      ((∀ o ∈ ml, ∃ a, o = .array a) → as.map Prod.snd = marginalsOf s P) ∧
      ((∃ a, .other a ∈ ml) → ∃ a ∈ as.map Prod.snd, ∃ s, a = gone s) := by
  induction hi generalizing ml with
  | nil => cases hm; exact ⟨[], rfl, rfl, .nil, fun _ => rfl, by simp⟩
  | @cons o p il P h1 h2 ih =>
    cases hm with
    | @cons m _ ml _ h3 h4 =>
      obtain ⟨as, e1, e2, e3, e4, e5⟩ := ih (fun p hp => hP p (by simp [hp])) h4
      have hg := hP p (by simp)
      rw [List.zip_cons_cons, List.mapM_cons, e1]
      cases m with
      | array np =>
        refine ⟨(p.1.map (fun d : Nat => (d : Int)), arr (projSizes p.1 s) p.2) :: as, ?_, ?_, .cons (.inl rfl) e3, ?_, ?_⟩
        · have h3' : np.asNDArray = .ok (arr (projSizes p.1 s) p.2) := NpArray.asNDArray_contig hg h3.holds h3.contig
          simp only [ipfArgs, toVector_dims h1.contig h1.holds, h3', Out.ok_bind, Out.pure_eq]
        · rw [List.map_cons, e2]; rfl
        · intro h; rw [List.map_cons, e4 (fun o ho => h o (by simp [ho]))]; rfl
        · rintro ⟨a, ha⟩
          rcases List.mem_cons.mp ha with ha | ha
          · cases ha
          · obtain ⟨b, hb, t, ht⟩ := e5 ⟨a, ha⟩
            exact ⟨b, by rw [List.map_cons]; exact List.mem_cons_of_mem _ hb, t, ht⟩
      | other np =>
        have hw : np.dangling = .ok (gone (projSizes p.1 s)) := by
          unfold NpArray.dangling
          have hsh : np.shape = projSizes p.1 s := h3.holds.shape
          rw [hsh]
          cases hs : projSizes p.1 s with
          | nil => exact absurd hs hg.1
          | cons n t =>
            simp only [NDArray.wrap, ← hs, computeOffsets_eq hg.2, Out.ok_bind, Out.pure_eq, gone]
        refine ⟨(p.1.map (fun d : Nat => (d : Int)), gone (projSizes p.1 s)) :: as, ?_, ?_, .cons (.inr rfl) e3, ?_, ?_⟩
        · simp only [ipfArgs, toVector_dims h1.contig h1.holds, hw, Out.ok_bind, Out.pure_eq]
        · rw [List.map_cons, e2]; rfl
        · intro h
          obtain ⟨a, ha⟩ := h (.other np) (by simp)
          cases ha
        · intro _
          exact ⟨gone (projSizes p.1 s), by simp, _, rfl⟩

/-- **C54**, `qis`, what is true: called with row-by-row arrays (converted or not) it does what the core function does with
the logical contents. -/
theorem C54_qis_partial {s : List Nat} {P : Prob Int} (hs : ProbShape s P) {il ml : List (PyObj Int)} (h : PassesProb il ml s P) (skips : Int) :
    pyQis fp lm il ml skips = qis fp lm s P skips := by
  unfold pyQis
  rw [if_neg (by rw [h.indices.length_eq, h.marginals.length_eq]; simp), qisArgs_all (fun p hp => hs.goodP hp) h.indices h.marginals]
  simp only [Out.ok_bind, List.map_map]
  rfl

/-- **C54**, `qisi`, what is true. -/
theorem C54_qisi_partial {s : List Nat} {P : Prob Int} (hs : ProbShape s P) {il ml : List (PyObj Int)} (h : PassesProb il ml s P) {seed : PyObj Fl}
    {sd : List Int → Fl} (hsd : Passes seed s sd) (skips : Int) : pyQisi false fp lm seed il ml skips = qisi fp lm s P sd skips := by
  unfold pyQisi
  rw [if_neg (by rw [h.indices.length_eq, h.marginals.length_eq]; simp), qisArgs_all (fun p hp => hs.goodP hp) h.indices h.marginals]
  simp only [Out.ok_bind, List.map_map]
  rw [NpArray.asNDArray_contig hs.good hsd.holds hsd.contig]
  rfl

/-- **C54** and **C55**, `ipf`, what is true: called with row-by-row marginals that are numpy arrays of doubles already, it does
what the core function does with the logical contents. -/
theorem C54_ipf_partial {s : List Nat} {P : Prob Fl} (hs : ProbShape s P) {il : List (PyObj Int)} {ml : List (PyObj Fl)} (h : PassesProb il ml s P)
    (harr : ∀ o ∈ ml, ∃ a, o = .array a) {seed : PyObj Fl} {sd : List Int → Fl} (hsd : Passes seed s sd) :
    pyIpf dbg fp seed il ml = IPF.run dbg fp (numFl fp) (indicesOf P) (marginalsOf s P) (arr s sd) := by
  obtain ⟨as, e1, e2, -, e4, -⟩ := ipfArgs_all (fun p hp => hs.goodP hp) h.indices h.marginals
  unfold pyIpf
  rw [if_neg (by rw [h.indices.length_eq, h.marginals.length_eq]; simp), e1]
  simp only [Out.ok_bind]
  rw [e2, e4 harr, NpArray.asNDArray_contig hs.good hsd.holds hsd.contig]
  rfl

/-- **C54**, `flatten`, what is true. -/
theorem C54_flatten_partial {np : NpArray Int} {s : List Nat} {g : List Int → Int} (hs : GoodShape s) (h : np.Holds s g) (hc : np.CContig) :
    pyFlatten np = flatten (arr s g) := by
  unfold pyFlatten
  rw [NpArray.asNDArray_contig hs h hc]
  rfl

/-- **C54**, `integerise` of an array, what is true. -/
theorem C54_integerise_partial {np : NpArray Fl} {s : List Nat} {g : List Int → Fl} (hs : GoodShape s) (h : np.Holds s g) (hc : np.CContig) :
    pyIntegerise dbg fp lm np = Integerise.run dbg fp lm (arr s g) := by
  unfold pyIntegerise
  rw [NpArray.asNDArray_contig hs h hc]
  rfl

/-- **C54**, `integerise` of fractions, what is true. -/
theorem C54_integerise1d_partial {np : NpArray Fl} {n : Nat} {g : List Int → Fl} (h : np.Holds [n] g) (hc : np.CContig) (pop : Int) :
    pyIntegerise1d fp np pop = Integerise.oneD fp ((allIdx [n]).map g) pop := by
  unfold pyIntegerise1d
  by_cases hp : pop < 0
  · rw [if_pos hp, Integerise.oneD, if_pos hp]
  · rw [if_neg hp, NpArray.toVector, h.shape, if_neg (by simp), NpArray.readBlock_contig h hc]
    rfl

/-- **C54**, in the words of the property: two row-by-row arrays with equal contents give equal results. -/
theorem C54_same_partial {a b : NpArray Fl} (h : a.Same b) (ha : a.CContig) (hb : b.CContig) (pop : Int) :
    pyIntegerise dbg fp lm a = pyIntegerise dbg fp lm b ∧ pyIntegerise1d fp a pop = pyIntegerise1d fp b pop := by
  obtain ⟨h1, h2⟩ := NpArray.block_same h ha hb
  simp only [pyIntegerise, pyIntegerise1d, NpArray.asNDArray, NpArray.toVector, NpArray.readBlock, h1, h2, and_self]

/-! ### C54 is false of other layouts -/

/-- **C54 is false** of arrays stored column by column (numpy's `order="F"`, or the transpose of an ordinary array): the
elements are taken in the order in which they are stored, and so end up in other places. -/
theorem C54_negation_fortran {α : Type} [Inhabited α] {np : NpArray α} {s : List Nat} {g : List Int → α} (hs : GoodShape s) (h : np.Holds s g) (hf : np.FContig)
    (hb : np.start + prodSizes s ≤ np.buffer.length) :
    ∃ g', np.asNDArray = .ok (arr s g') ∧ np.toNDArray = .ok (arr s g') ∧
      ∀ v w, InRange s v → InRange s w → dot (rowStrides s) v = colRank s w → g' v = g w := by
  let g' : List Int → α := fun v => (np.buffer[np.start + (rank s v).toNat]?).getD default
  let np' : NpArray α := ⟨s, rowStrides s, np.start, np.buffer⟩
  have hh : np'.Holds s g' := by
    refine ⟨rfl, fun v hv => ?_⟩
    obtain ⟨k, hk, hlt, -⟩ := getElem_rank hv
    have hlt' : np.start + k < np.buffer.length := by omega
    simp only [NpArray.elem, np', g', dot_rowStrides, hk]
    rw [if_pos (by positivity)]
    simp only [Int.toNat_natCast]
    rw [show ((np.start : Int) + (k : Int)).toNat = np.start + k by omega, List.getElem?_eq_getElem hlt']
    rfl
  have hc : np'.CContig := fun _ _ => rfl
  have e1 : np.asNDArray = np'.asNDArray := by simp only [NpArray.asNDArray, NpArray.block, np', h.shape]
  have e2 : np.toNDArray = np'.toNDArray := by simp only [NpArray.toNDArray, NpArray.readBlock, NpArray.block, np', h.shape]; rfl
  refine ⟨g', by rw [e1]; exact NpArray.asNDArray_contig hs hh hc, by rw [e2]; exact NpArray.toNDArray_contig hs hh hc, ?_⟩
  intro v w hv hw hvw
  have h1 := hh.elems v hv
  have h2 := h.elems w hw
  unfold NpArray.elem at h1 h2
  rw [hf w (by rw [h.shape]; exact hw), h.shape, ← hvw] at h2
  simp only [np'] at h1
  rw [h1] at h2
  exact Option.some.inj h2

/-- The 2 by 2 table [[0, 2], [1, 0]], stored row by row. -/
def tableC : NpArray Int := ⟨[2, 2], [2, 1], 0, [0, 2, 1, 0]⟩

/-- The same table stored column by column. -/
def tableF : NpArray Int := ⟨[2, 2], [1, 2], 0, [0, 1, 2, 0]⟩

/-- Its contents. -/
def tableG : List Int → Int := fun v => if v = [0, 1] then 2 else if v = [1, 0] then 1 else 0

theorem table_holds : tableC.Holds [2, 2] tableG ∧ tableF.Holds [2, 2] tableG := by
  have h : ∀ v ∈ allIdx [2, 2], tableC.elem v = some (tableG v) ∧ tableF.elem v = some (tableG v) := by decide
  exact ⟨⟨rfl, fun v hv => (h v (mem_allIdx.mpr hv)).1⟩, ⟨rfl, fun v hv => (h v (mem_allIdx.mpr hv)).2⟩⟩

/-- The hypotheses of `C54_flatten_partial` and `C54_negation_fortran` are met. -/
example : tableC.CContig ∧ tableF.FContig ∧ GoodShape [2, 2] ∧ tableF.start + prodSizes [2, 2] ≤ tableF.buffer.length := by
  have h : ∀ v ∈ allIdx [2, 2], dot tableC.strides v = dot (rowStrides tableC.shape) v ∧ dot tableF.strides v = colRank tableF.shape v := by
    decide
  exact ⟨fun v hv => (h v (mem_allIdx.mpr hv)).1, fun v hv => (h v (mem_allIdx.mpr hv)).2, by decide, by decide⟩

/-- **C54 is false**: `flatten` lists two individuals in cell (0, 1) and one in (1, 0) for the one, and the other way round for
the other of two arrays that are equal to Python. -/
theorem C54_negation_flatten : tableC.Same tableF ∧
    (∃ c, pyFlatten tableC = .ok c ∧ ListsPopulation [2, 2] tableG 0 c) ∧
    (∃ c, pyFlatten tableF = .ok c ∧ ListsPopulation [2, 2] (fun v => tableG v.reverse) 0 c) ∧
    tableG [0, 1] ≠ tableG [0, 1].reverse := by
  have hg : GoodShape [2, 2] := by decide
  have hF : (⟨[2, 2], [2, 1], 0, [0, 1, 2, 0]⟩ : NpArray Int).Holds [2, 2] (fun v => tableG v.reverse) := by
    have h : ∀ v ∈ allIdx [2, 2], (⟨[2, 2], [2, 1], 0, [0, 1, 2, 0]⟩ : NpArray Int).elem v = some (tableG v.reverse) := by decide
    exact ⟨rfl, fun v hv => h v (mem_allIdx.mpr hv)⟩
  have hc : ∀ b : List Int, (⟨[2, 2], [2, 1], 0, b⟩ : NpArray Int).CContig := by
    intro b
    have h : ∀ v ∈ allIdx [2, 2], dot [2, 1] v = dot (rowStrides [2, 2]) v := by decide
    exact fun v hv => h v (mem_allIdx.mpr hv)
  have hn : ∀ v, 0 ≤ tableG v := by
    intro v; unfold tableG; split_ifs <;> decide
  refine ⟨⟨[2, 2], tableG, hg, table_holds.1, table_holds.2⟩, ?_, ?_, by decide⟩
  · rw [C54_flatten_partial hg table_holds.1 (hc _)]
    exact C07_flatten hg tableG (fun v _ => hn v) (by decide)
  · have : pyFlatten tableF = pyFlatten ⟨[2, 2], [2, 1], 0, [0, 1, 2, 0]⟩ := rfl
    rw [this, C54_flatten_partial hg hF (hc _)]
    exact C07_flatten hg _ (fun v _ => hn _) (by decide)

/-- The reversed view `x[::-1]` of a vector. -/
def reversed {α : Type} (x : List α) : NpArray α := ⟨[x.length], [-1], x.length - 1, x⟩

/-- `x[::-1]` has the elements of `x` in reverse order. -/
theorem reversed_holds {α : Type} [Inhabited α] (x : List α) :
    (reversed x).Holds [x.length] (fun j => x.reverse.getD (j.getD 0 0).toNat default) := by
  refine ⟨rfl, fun v hv => ?_⟩
  have hv' : v ∈ allIdx [x.length] := mem_allIdx.mpr hv
  simp only [allIdx, List.mem_flatMap, List.mem_range] at hv'
  obtain ⟨k, hk, hv'⟩ := hv'
  simp at hv'
  subst hv'
  have h1 : ((x.length - 1 : Nat) : Int) + dot [-1] [(k : Int)] = ((x.length - 1 - k : Nat) : Int) := by
    simp [dot]; omega
  show (if 0 ≤ ((x.length - 1 : Nat) : Int) + dot [-1] [(k : Int)] then x[(((x.length - 1 : Nat) : Int) + dot [-1] [(k : Int)]).toNat]? else none) = _
  rw [h1, if_pos (by positivity), Int.toNat_natCast]
  have hlt : x.length - 1 - k < x.length := by omega
  rw [List.getElem?_eq_getElem hlt]
  simp [List.getD_eq_getElem?_getD, List.getElem?_reverse hk, List.getElem?_eq_getElem hlt]

/-- **C54 is false**, and worse, of reversed views of vectors of two or more elements: they are read past the end of their
memory. -/
theorem C54_negation_reversed {x : List Fl} (hx : 2 ≤ x.length) {pop : Int} (hp : 0 ≤ pop) :
    pyIntegerise1d fp (reversed x) pop = .ub .oob := by
  unfold pyIntegerise1d
  rw [if_neg (by omega), NpArray.toVector, if_neg (by simp [reversed]), NpArray.readBlock, if_neg]
  · rfl
  · simp only [NpArray.block, reversed, prodSizes, List.length_take, List.length_drop]
    omega

/-! ### C55 -/

/-- **C55 is false**: `ipf` called for a problem without negative entries, with a marginal that is not a numpy array of doubles
(an array of integers, say, or a list), uses the memory of the array made from it after that array has been destroyed. -/
theorem C55_negation {s : List Nat} {P : Prob Fl} (hs : ProbShape s P) (hn : ∀ p ∈ P, ∀ j, InRange (projSizes p.1 s) j → FP.lt (p.2 j) (.fin 0) = false)
    {il : List (PyObj Int)} {ml : List (PyObj Fl)} (h : PassesProb il ml s P) {a : NpArray Fl} (ha : .other a ∈ ml) (seed : PyObj Fl) :
    pyIpf dbg fp seed il ml = .ub .oob := by
  obtain ⟨as, e1, e2, e3, -, e5⟩ := ipfArgs_all (fun p hp => hs.goodP hp) h.indices h.marginals
  unfold pyIpf
  rw [if_neg (by rw [h.indices.length_eq, h.marginals.length_eq]; simp), e1]
  simp only [Out.ok_bind]
  rw [e2]
  unfold IPF.new
  rw [new_gone fp (numFl fp) (minOK_fl fp) hs hn e3 (e5 ⟨a, ha⟩)]
  rfl

/-- **C55**, what is true: when all marginals are numpy arrays of doubles, `ipf` reads live memory only (it does what the core
function does with the contents of the arrays). -/
theorem C55_partial {s : List Nat} {P : Prob Fl} (hs : ProbShape s P) {il : List (PyObj Int)} {ml : List (PyObj Fl)} (h : PassesProb il ml s P)
    (harr : ∀ o ∈ ml, ∃ a, o = .array a) {seed : PyObj Fl} {sd : List Int → Fl} (hsd : Passes seed s sd) :
    pyIpf dbg fp seed il ml = IPF.run dbg fp (numFl fp) (indicesOf P) (marginalsOf s P) (arr s sd) :=
  C54_ipf_partial hs h harr hsd

/-- A row-by-row vector. -/
def npVec {α : Type} (x : List α) : NpArray α := ⟨[x.length], [1], 0, x⟩

theorem npVec_passes {α : Type} {x : List α} {g : List Int → α} (hg : ∀ k : Nat, k < x.length → x[k]? = some (g [(k : Int)])) :
    (npVec x).CContig ∧ (npVec x).Holds [x.length] g := by
  refine ⟨fun v _ => ?_, rfl, fun v hv => ?_⟩
  · simp [npVec, rowStrides]
  · have hv' : v ∈ allIdx [x.length] := mem_allIdx.mpr hv
    simp only [allIdx, List.mem_flatMap, List.mem_range] at hv'
    obtain ⟨k, hk, hv'⟩ := hv'
    simp at hv'
    subst hv'
    simp [NpArray.elem, npVec, dot, hg k hk]

/-- The hypotheses of `C55_negation` are met by `ipf(seed, [[0], [1]], [[1, 2], [2, 1]])`, as in the documentation. -/
example : ∃ (P : Prob Fl) (il : List (PyObj Int)) (ml : List (PyObj Fl)) (a : NpArray Fl), ProbShape [2, 2] P ∧
    (∀ p ∈ P, ∀ j, InRange (projSizes p.1 [2, 2]) j → FP.lt (p.2 j) (.fin 0) = false) ∧ PassesProb il ml [2, 2] P ∧ .other a ∈ ml := by
  let f : List Int → Fl := fun j => .fin (if j = [0] then 1 else 2)
  let g : List Int → Fl := fun j => .fin (if j = [0] then 2 else 1)
  refine ⟨[([0], f), ([1], g)], [.other (npVec [0]), .other (npVec [1])],
    [.other (npVec [.fin 1, .fin 2]), .other (npVec [.fin 2, .fin 1])], npVec [.fin 1, .fin 2], ⟨by decide, by decide, by decide, by simp, ?_⟩, ?_, ⟨?_, ?_⟩, by simp⟩
  · intro d hd
    simp at hd
    interval_cases d
    · exact ⟨([0], f), by simp, by simp⟩
    · exact ⟨([1], g), by simp, by simp⟩
  · intro p hp j _
    simp only [List.mem_cons, List.not_mem_nil, or_false] at hp
    rcases hp with rfl | rfl
    · simp only [f]; split_ifs <;> decide
    · simp only [g]; split_ifs <;> decide
  · have h1 := npVec_passes (x := ([0] : List Int)) (g := dimsFun [0]) (by decide)
    have h2 := npVec_passes (x := ([1] : List Int)) (g := dimsFun [1]) (by decide)
    exact .cons ⟨h1.1, h1.2⟩ (.cons ⟨h2.1, h2.2⟩ .nil)
  · have h1 := npVec_passes (x := ([.fin 1, .fin 2] : List Fl)) (g := f) (by decide)
    have h2 := npVec_passes (x := ([.fin 2, .fin 1] : List Fl)) (g := g) (by decide)
    exact .cons ⟨h1.1, h1.2⟩ (.cons ⟨h2.1, h2.2⟩ .nil)

/-- The hypotheses of `C54_qis_partial`, `C54_qisi_partial`: a problem with the two-dimensional marginal `tableC` and a vector. -/
example : ∃ (s : List Nat) (P : Prob Int) (il ml : List (PyObj Int)), s = [2, 2, 3] ∧ ProbShape s P ∧ PassesProb il ml s P ∧ P.length = 2 := by
  let f : List Int → Int := fun j => if j = [0] then 1 else if j = [1] then 0 else 2
  refine ⟨[2, 2, 3], [([0, 1], tableG), ([2], f)], [.other (npVec [0, 1]), .array (npVec [2])],
    [.array tableC, .other (npVec [1, 0, 2])], rfl, ⟨by decide, by decide, by decide, by simp, ?_⟩, ⟨?_, ?_⟩, rfl⟩
  · intro d hd
    simp at hd
    interval_cases d
    · exact ⟨([0, 1], tableG), by simp, by simp⟩
    · exact ⟨([0, 1], tableG), by simp, by simp⟩
    · exact ⟨([2], f), by simp, by simp⟩
  · have h1 := npVec_passes (x := ([0, 1] : List Int)) (g := dimsFun [0, 1]) (by decide)
    have h2 := npVec_passes (x := ([2] : List Int)) (g := dimsFun [2]) (by decide)
    exact .cons ⟨h1.1, h1.2⟩ (.cons ⟨h2.1, h2.2⟩ .nil)
  · have h2 := npVec_passes (x := ([1, 0, 2] : List Int)) (g := f) (by decide)
    have hc : ∀ v ∈ allIdx [2, 2], dot tableC.strides v = dot (rowStrides tableC.shape) v := by decide
    exact .cons ⟨fun v hv => hc v (mem_allIdx.mpr hv), table_holds.1⟩ (.cons ⟨h2.1, h2.2⟩ .nil)

/-! ### C66 -/

/-- **C66**, `qis`: index and marginal lists of different lengths are refused. -/
theorem C66_lengths_qis {il ml : List (PyObj Int)} (h : il.length ≠ ml.length) (skips : Int) : pyQis fp lm il ml skips = .thrown .listsDiffer := by
  unfold pyQis; rw [if_pos h]

/-- **C66**, `qisi`. -/
theorem C66_lengths_qisi {il ml : List (PyObj Int)} (h : il.length ≠ ml.length) (seed : PyObj Fl) (skips : Int) :
    pyQisi dbg fp lm seed il ml skips = .thrown .listsDiffer := by
  unfold pyQisi; rw [if_pos h]

/-- **C66**, `ipf`. -/
theorem C66_lengths_ipf {il : List (PyObj Int)} {ml : List (PyObj Fl)} (h : il.length ≠ ml.length) (seed : PyObj Fl) :
    pyIpf dbg fp seed il ml = .thrown .listsDiffer := by
  unfold pyIpf; rw [if_pos h]

theorem mapM_append_thrown {α β : Type} {f : α → Out β} {l₁ l₂ : List α} {a : α} {r : List β} {e : Exn} (h1 : l₁.mapM f = .ok r) (h2 : f a = .thrown e) :
    (l₁ ++ a :: l₂).mapM f = .thrown e := by
  rw [List.mapM_append, h1, List.mapM_cons, h2]
  rfl

theorem toVector_shape {α : Type} {np : NpArray α} (h : np.shape.length ≠ 1) : np.toVector = .thrown .notVector := by
  unfold NpArray.toVector; rw [if_pos h]

theorem Passes.lengths {α : Type} {il : List (PyObj Int)} {ml : List (PyObj α)} {s : List Nat} {P : Prob α} (h : PassesProb il ml s P) : il.length = ml.length := by
  rw [h.indices.length_eq, h.marginals.length_eq]

/-- **C66**, `qis`: an index that is not a vector is refused, wherever in the list it is, when what comes before it is well
formed. -/
theorem C66_index_qis {s : List Nat} {P : Prob Int} (hs : ∀ p ∈ P, GoodShape (projSizes p.1 s)) {il ml : List (PyObj Int)} (h : PassesProb il ml s P)
    {i m : PyObj Int} (hi : i.cast.shape.length ≠ 1) {il' ml' : List (PyObj Int)} (hl : il'.length = ml'.length) (skips : Int) :
    pyQis fp lm (il ++ i :: il') (ml ++ m :: ml') skips = .thrown .notVector := by
  unfold pyQis
  have hlen := Passes.lengths h
  rw [if_neg (by simp [hlen, hl]), List.zip_append hlen, List.zip_cons_cons,
    mapM_append_thrown (e := .notVector) (qisArgs_all hs h.indices h.marginals) (by simp only [qisArgs, toVector_shape hi, Out.thrown_bind])]
  rfl

/-- **C66**, `qisi`. -/
theorem C66_index_qisi {s : List Nat} {P : Prob Int} (hs : ∀ p ∈ P, GoodShape (projSizes p.1 s)) {il ml : List (PyObj Int)} (h : PassesProb il ml s P)
    {i m : PyObj Int} (hi : i.cast.shape.length ≠ 1) {il' ml' : List (PyObj Int)} (hl : il'.length = ml'.length) (seed : PyObj Fl) (skips : Int) :
    pyQisi dbg fp lm seed (il ++ i :: il') (ml ++ m :: ml') skips = .thrown .notVector := by
  unfold pyQisi
  have hlen := Passes.lengths h
  rw [if_neg (by simp [hlen, hl]), List.zip_append hlen, List.zip_cons_cons,
    mapM_append_thrown (e := .notVector) (qisArgs_all hs h.indices h.marginals) (by simp only [qisArgs, toVector_shape hi, Out.thrown_bind])]
  rfl

/-- **C66**, `ipf`. -/
theorem C66_index_ipf {s : List Nat} {P : Prob Fl} (hs : ∀ p ∈ P, GoodShape (projSizes p.1 s)) {il : List (PyObj Int)} {ml : List (PyObj Fl)}
    (h : PassesProb il ml s P) {i : PyObj Int} {m : PyObj Fl} (hi : i.cast.shape.length ≠ 1) {il' : List (PyObj Int)} {ml' : List (PyObj Fl)}
    (hl : il'.length = ml'.length) (seed : PyObj Fl) :
    pyIpf dbg fp seed (il ++ i :: il') (ml ++ m :: ml') = .thrown .notVector := by
  unfold pyIpf
  have hlen := Passes.lengths h
  obtain ⟨as, e1, -⟩ := ipfArgs_all hs h.indices h.marginals
  rw [if_neg (by simp [hlen, hl]), List.zip_append hlen, List.zip_cons_cons,
    mapM_append_thrown (e := .notVector) e1 (by simp only [ipfArgs, toVector_shape hi, Out.thrown_bind])]
  rfl

/-- **C66**, `integerise` of a vector with a population: a negative population is refused, and so are probabilities that are
not a vector. -/
theorem C66_integerise1d (np : NpArray Fl) (pop : Int) :
    (pop < 0 → pyIntegerise1d fp np pop = .thrown .negativePop) ∧
    (0 ≤ pop → np.shape.length ≠ 1 → pyIntegerise1d fp np pop = .thrown .notVector) := by
  unfold pyIntegerise1d
  refine ⟨fun h => by rw [if_pos h], fun h h1 => ?_⟩
  rw [if_neg (by omega), toVector_shape h1]
  rfl

/-- The hypotheses of `C66_index_qis` are met: the first marginal is fine, the index of the second is a 1 by 1 array. -/
example : ∃ (s : List Nat) (P : Prob Int) (il ml : List (PyObj Int)) (i : PyObj Int), (∀ p ∈ P, GoodShape (projSizes p.1 s)) ∧
    PassesProb il ml s P ∧ il ≠ [] ∧ i.cast.shape.length ≠ 1 := by
  let f : List Int → Int := fun j => if j = [0] then 1 else if j = [1] then 0 else 2
  refine ⟨[3, 2], [([0], f)], [.array (npVec [0])], [.array (npVec [1, 0, 2])], .array ⟨[1, 1], [1, 1], 0, [1]⟩, ?_, ⟨?_, ?_⟩, by simp, by decide⟩
  · intro p hp
    simp only [List.mem_singleton] at hp
    subst hp
    exact ⟨by decide, by decide⟩
  · have h1 := npVec_passes (x := ([0] : List Int)) (g := dimsFun [0]) (by decide)
    exact .cons ⟨h1.1, h1.2⟩ .nil
  · have h1 := npVec_passes (x := ([1, 0, 2] : List Int)) (g := f) (by decide)
    exact .cons ⟨h1.1, h1.2⟩ .nil

end HL

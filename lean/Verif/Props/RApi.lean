import Verif.Proof.RLemmas
import Verif.Props.QIS
import Verif.Props.QISI
import Verif.Props.IPF
import Verif.Props.Integerise

/-!
C56: the R functions compute the same tables as the core.  C62: they reject bad input.

R stores arrays column by column and counts dimensions from 1.  In the statements an array is given by its elements `g v`
with all indices counted from 0 (`RArray.Holds`), and the lists of an R call for a problem `P` on a table of sizes `s` by
`RPasses`.
-/

namespace HL

variable {fp : FP} {lm : Libm} {dbg : Bool}

/-! ### C56, the translation -/

/-- **C56**, `qis`: an R call is a call of the core for the flipped problem, and the result is turned round again. -/
theorem C56_qis_core {s : List Nat} {P : Prob Int} (hs : ProbShape s P) {il : List (List Int)} {ml : List (RArray Int)} (h : RPasses il ml s P)
    (skips : Int) : R.qis fp lm il ml skips = (qis fp lm s.reverse (flipProb s.length P) skips >>= R.qisList s) := by
  unfold R.qis
  rw [if_neg (by rw [R.passes_length h]; simp), R.getDimension_eq hs h]
  simp only [Out.ok_bind]
  rw [R.coreMarginals_eq hs h, R.coreIndices_eq hs h]
  rfl

/-- **C56**, `qisi`. -/
theorem C56_qisi_core {s : List Nat} {P : Prob Int} (hs : ProbShape s P) {il : List (List Int)} {ml : List (RArray Int)} (h : RPasses il ml s P)
    {seed : RArray Fl} {sd : List Int → Fl} (hd : seed.dims = some s) (hsd : seed.Holds s sd)
    (hn : ∀ v, InRange s v → FP.lt (sd v) (.fin 0) = false) (skips : Int) :
    R.qisi false fp lm seed il ml skips =
      (qisi fp lm s.reverse (flipProb s.length P) (fun v => sd v.reverse) skips >>= R.qisiList s) := by
  unfold R.qisi
  rw [if_neg (by rw [R.passes_length h]; simp), R.getDimension_eq hs h]
  simp only [RArray.dimAttr, hd, Out.ok_bind]
  rw [R.checkSeed_eq hd hsd hn]
  simp only [Out.ok_bind]
  rw [R.coreMarginals_eq hs h, R.coreIndices_eq hs h, R.wrapper_holds hs.good hsd]
  rfl

/-- **C56**, `ipf`. -/
theorem C56_ipf_core {s : List Nat} {P : Prob Fl} (hs : ProbShape s P) {il : List (List Int)} {ml : List (RArray Fl)} (h : RPasses il ml s P)
    {seed : RArray Fl} {sd : List Int → Fl} (hd : seed.dims = some s) (hsd : seed.Holds s sd)
    (hn : ∀ v, InRange s v → FP.lt (sd v) (.fin 0) = false) :
    R.ipf dbg fp seed il ml = (IPF.run dbg fp (numFl fp) (indicesOf (flipProb s.length P)) (marginalsOf s.reverse (flipProb s.length P))
      (arr s.reverse (fun v => sd v.reverse)) >>= R.ipfList s) := by
  unfold R.ipf
  rw [if_neg (by rw [R.passes_length h]; simp), R.getDimension_eq hs h]
  simp only [RArray.dimAttr, hd, Out.ok_bind]
  rw [R.checkSeed_eq hd hsd hn]
  simp only [Out.ok_bind]
  rw [R.coreMarginals_eq hs h, R.coreIndices_eq hs h, R.wrapper_holds hs.good hsd]
  rfl

/-- **C56**, `integerise`. -/
theorem C56_integerise_core {s : List Nat} (hs : GoodShape s) {a : RArray Fl} {g : List Int → Fl} (hd : a.dims = some s) (ha : a.Holds s g) :
    R.integerise dbg fp lm a = (do
      let x ← Integerise.run dbg fp lm (arr s.reverse (fun v => g v.reverse))
      let r ← R.intResult s x.result
      pure ⟨r, x.conv, x.rmse⟩) := by
  unfold R.integerise
  simp only [RArray.dimAttr, hd, Out.ok_bind]
  rw [R.wrapper_holds hs ha]
  rfl

/-- The results are read back at the same place: what the core has at `v.reverse`, R has at `v`. -/
theorem C56_result {α : Type} (zero : α) (s : List Nat) (f : List Int → α) :
    ∃ r, R.result zero s (arr s.reverse f) = .ok r ∧ r.dims = some s ∧ r.Holds s (fun v => f v.reverse) :=
  R.result_holds zero s f

/-! ### C56, what the R programmer gets -/

theorem le_of_sum {s : List Nat} {f : List Int → Int} {pop : Int} (h0 : ∀ v, InRange s v → 0 ≤ f v) (hs : ∑ v ∈ cells s, f v = pop) :
    ∀ v, InRange s v → f v ≤ pop := by
  intro v hv
  rw [← hs]
  exact Finset.single_le_sum (f := f) (fun w hw => h0 w (mem_cells.mp hw)) (mem_cells.mpr hv)

/-- A core result, in R. -/
theorem int_back {s : List Nat} {f : List Int → Int} {pop : Int} (hpop : pop < 2 ^ 31) (h0 : ∀ v, InRange s.reverse v → 0 ≤ f v)
    (hs : ∑ v ∈ cells s.reverse, f v = pop) :
    ∃ r, R.intResult s (arr s.reverse f) = .ok r ∧ r.dims = some s ∧ r.Holds s (fun v => f v.reverse) := by
  apply R.intResult_holds
  intro v hv
  have h1 := h0 v.reverse (inRange_reverse.mpr hv)
  have h2 := le_of_sum h0 hs v.reverse (inRange_reverse.mpr hv)
  omega

theorem marginals_back {s : List Nat} {P : Prob Int} (hs : ProbShape s P) {f : List Int → Int} :
    (∀ p ∈ flipProb s.length P, ∀ j, InRange (projSizes p.1 s.reverse) j → marginalSum s.reverse p.1 f j = p.2 j) ↔
    ∀ p ∈ P, ∀ j, InRange (projSizes p.1 s) j → marginalSum s p.1 (fun v => f v.reverse) j = p.2 j := by
  constructor
  · intro h p hp j hj
    have h1 := h _ (R.mem_flip.mpr ⟨p, hp, rfl⟩) j
    rw [R.projSizes_flip (hs.dims p hp).2, R.marginalSum_flip (hs.dims p hp).2] at h1
    exact h1 hj
  · intro h q hq j hj
    obtain ⟨p, hp, rfl⟩ := R.mem_flip.mp hq
    rw [R.projSizes_flip (hs.dims p hp).2] at hj
    rw [R.marginalSum_flip (hs.dims p hp).2]
    exact h p hp j hj

/-- What `qis` and `qisi` promise about the list they return. -/
structure RMeets (s : List Nat) (P : Prob Int) (pop : Int) (r : R.QisList) : Prop where
  pop_eq : r.pop = pop
  dims : r.result.dims = some s
  /-- the result, in R's own indexing, sums to the population and `conv` says whether its marginals are those supplied -/
  table : ∃ f, r.result.Holds s f ∧ (∀ v, InRange s v → 0 ≤ f v) ∧ ∑ v ∈ cells s, f v = pop ∧
    (r.conv = true ↔ ∀ p ∈ P, ∀ j, InRange (projSizes p.1 s) j → marginalSum s p.1 f j = p.2 j)
  edims : r.expectation.dims = some s
  etable : ∃ E, r.expectation.Holds s E

theorem qis_back (hfp : fp.Good) {s : List Nat} {P : Prob Int} {pop : Int} (h : ProbOK s P pop) (hpop : pop < 2 ^ 31) {skips : Int} {x : QIS}
    (hx : qis fp lm s.reverse (flipProb s.length P) skips = .ok x) :
    ∃ r, R.qisList s x = .ok r ∧ RMeets s P pop r ∧ r.conv = x.conv := by
  have hf := R.flip_ok h
  obtain ⟨f, h1, h2, h3, h4⟩ := C21_population hfp hf (by omega) hx
  have h5 := C22_conv hfp hf (by omega) hx h1
  obtain ⟨c, vs, -, -, hso⟩ := run_ok hfp hf (by omega) hx
  rw [h4] at h3
  obtain ⟨r, e1, e2, e3⟩ := int_back hpop h2 h3
  obtain ⟨e, e4, e5, e6⟩ := R.result_holds (.fin 0) s (expectedVal fp s.reverse (flipProb s.length P) pop)
  refine ⟨⟨x.conv, r, e, x.micro.population, x.chiSq, x.pValue, some x.degeneracy⟩, ?_, ⟨h4, e2, ⟨_, e3, ?_, ?_, ?_⟩, e5, _, e6⟩, rfl⟩
  · unfold R.qisList
    rw [h1, e1, hso.expected, e4]
    rfl
  · intro v hv
    exact h2 _ (inRange_reverse.mpr hv)
  · rw [← R.sum_cells_reverse]; exact h3
  · rw [h5, marginals_back h.toProbShape]

/-- **C56**, `qis`: when it returns, the result has the sizes of the table, no cell is negative, the cells sum to the reported
population, and `conv` is true exactly when the marginals of the result, in R's own indexing, are the marginals supplied. -/
theorem C56_qis (hfp : fp.Good) {s : List Nat} {P : Prob Int} {pop : Int} (h : ProbOK s P pop) (hpop : pop < 2 ^ 31) {il : List (List Int)}
    {ml : List (RArray Int)} (hp : RPasses il ml s P) {skips : Int} {r : R.QisList} (hr : R.qis fp lm il ml skips = .ok r) : RMeets s P pop r := by
  rw [C56_qis_core h.toProbShape hp] at hr
  obtain ⟨x, hx, hr⟩ := Out.bind_eq_ok.mp hr
  obtain ⟨r', h1, h2, -⟩ := qis_back hfp h hpop hx
  rw [h1] at hr
  injection hr with hr
  exact hr ▸ h2

/-- **C56**, `qis` on trees: marginals each of which shares at most one dimension with those after it (R passes them on last
first). -/
theorem C56_qis_tree (hfp : fp.Good) {s : List Nat} {P : Prob Int} {pop : Int} (h : ProbOK s P pop) (hpop : pop < 2 ^ 31) {il : List (List Int)}
    {ml : List (RArray Int)} (hp : RPasses il ml s P) (ht : TreeDims (P.map Prod.fst).reverse) (hd : s.length ≤ 1111) {skips : Int} (h0 : 0 ≤ skips)
    (h1 : skips ≤ 2 ^ 31) : ∃ r, R.qis fp lm il ml skips = .ok r ∧ RMeets s P pop r ∧ r.conv = true := by
  have ht' : TreeDims ((flipProb s.length P).map Prod.fst) := by
    intro A ds B hAB
    have hmap : (flipProb s.length P).map Prod.fst = ((P.map Prod.fst).reverse).map (fun ds => ds.map (fun d => s.length - 1 - d)) := by
      unfold flipProb
      rw [List.map_map, ← List.map_reverse, List.map_map]
      rfl
    rw [hmap] at hAB
    obtain ⟨A', X, hA, e1, e2⟩ := List.map_eq_append_iff.mp hAB
    obtain ⟨ds', B', hX, e3, e4⟩ := List.map_eq_cons_iff.mp e2
    subst hX
    have hlt : ∀ es ∈ A' ++ ds' :: B', ∀ d ∈ es, d < s.length := by
      intro es hes d hde
      rw [← hA, List.mem_reverse] at hes
      obtain ⟨p, hp, rfl⟩ := List.mem_map.mp hes
      exact (h.dims p hp).2 d hde
    have hds := hlt ds' (by simp)
    obtain ⟨h5, h6⟩ := ht A' ds' B' hA
    subst e3 e1
    refine ⟨List.Nodup.map_on (fun a ha b hb hab => by have := hds a ha; have := hds b hb; omega) h5, ?_⟩
    intro d hd e he hdA heA
    obtain ⟨d', hd', rfl⟩ := List.mem_map.mp hd
    obtain ⟨e', he', rfl⟩ := List.mem_map.mp he
    have key : ∀ d' ∈ ds', (∃ es ∈ A'.map (fun ds => ds.map (fun d => s.length - 1 - d)), s.length - 1 - d' ∈ es) → ∃ es ∈ A', d' ∈ es := by
      rintro d' hd' ⟨es, hes, hm⟩
      obtain ⟨es', hes', rfl⟩ := List.mem_map.mp hes
      obtain ⟨d2, hd2, he2⟩ := List.mem_map.mp hm
      refine ⟨es', hes', ?_⟩
      have := hlt es' (by simp [hes']) d2 hd2
      have := hds d' hd'
      rwa [show d' = d2 by omega]
    rw [h6 d' hd' e' he' (key d' hd' hdA) (key e' he' heA)]
  obtain ⟨x, hx, hc⟩ := C23_tree hfp lm (R.flip_ok h) hpop ht' (by simpa using hd) h0 h1
  obtain ⟨r, h2, h3, h4⟩ := qis_back hfp h hpop hx
  refine ⟨r, ?_, h3, by rw [h4]; exact hc⟩
  rw [C56_qis_core h.toProbShape hp, hx]
  exact h2

/-- **C56**, `qisi`. -/
theorem C56_qisi (hfp : fp.Good) {s : List Nat} {P : Prob Int} {pop : Int} (h : ProbOK s P pop) (hpop : pop < 2 ^ 31) (hpp : ProperProb s P)
    {il : List (List Int)} {ml : List (RArray Int)} (hp : RPasses il ml s P) {seed : RArray Fl} {sd : List Int → Fl} (hd : seed.dims = some s)
    (hsd : seed.Holds s sd) (hn : ∀ v, InRange s v → FP.lt (sd v) (.fin 0) = false) {skips : Int} {r : R.QisList}
    (hr : R.qisi false fp lm seed il ml skips = .ok r) : RMeets s P pop r := by
  rw [C56_qisi_core h.toProbShape hp hd hsd hn] at hr
  obtain ⟨x, hx, hr⟩ := Out.bind_eq_ok.mp hr
  have hf := R.flip_ok h
  have hfp' := R.flip_proper h.toProbShape hpp
  obtain ⟨f, h1, h2, h3, h4, h5⟩ := C41_population_conv hfp hf (by omega) hfp' hx
  obtain ⟨E, a, vs, hso⟩ := qisi_run_ok hfp hf (by omega) hfp' hx
  rw [h4] at h3
  obtain ⟨r', e1, e2, e3⟩ := int_back hpop h2 h3
  obtain ⟨e, e4, e5, e6⟩ := R.result_holds (.fin 0) s E
  have : R.qisiList s x = .ok ⟨x.conv, r', e, x.micro.population, x.chiSq, x.pValue, none⟩ := by
    unfold R.qisiList
    rw [h1, e1, hso.expected, e4]
    rfl
  rw [this] at hr
  injection hr with hr
  subst hr
  refine ⟨h4, e2, ⟨_, e3, ?_, ?_, ?_⟩, e5, _, e6⟩
  · intro v hv
    exact h2 _ (inRange_reverse.mpr hv)
  · rw [← R.sum_cells_reverse]; exact h3
  · rw [h5, marginals_back h.toProbShape]

theorem flip_fin (n : Nat) (Q : Prob ℚ) : flipProb n (finProb Q) = finProb (flipProb n Q) := by
  unfold flipProb finProb
  rw [← List.map_reverse, List.map_map, List.map_map]
  rfl

/-- **C56**, `ipf` in exact arithmetic: `maxError` is the largest difference between the marginals of the result, in R's own
indexing, and those supplied, and `conv` says whether it is below 1e-8. -/
theorem C56_ipf {s : List Nat} {Q : Prob ℚ} (h : ProbShape s Q) (hpp : ProperProb s Q) {il : List (List Int)} {ml : List (RArray Fl)}
    (hp : RPasses il ml s (finProb Q)) {seed : RArray Fl} {b : List Int → ℚ} (hd : seed.dims = some s) (hsd : seed.Holds s (fun v => .fin (b v)))
    (hn : ∀ v, InRange s v → 0 ≤ b v) {r : R.IpfList} (hr : R.ipf false FP.exact seed il ml = .ok r) :
    r.result.dims = some s ∧ ∃ (c : List Int → ℚ) (e : ℚ), r.result.Holds s (fun v => .fin (c v)) ∧ r.maxError = .fin e ∧
      (∀ q ∈ Q, ∀ j, InRange (projSizes q.1 s) j → |marginalSum s q.1 c j - q.2 j| ≤ e) ∧
      (∃ q ∈ Q, ∃ j, InRange (projSizes q.1 s) j ∧ |marginalSum s q.1 c j - q.2 j| = e) ∧
      (r.conv = true ↔ e < 1 / 10 ^ 8) := by
  rw [C56_ipf_core (probShape_congr (fst_finProb Q).symm h) hp hd hsd
    (by intro v hv; have := hn v hv; simp [FP.lt, this]), flip_fin] at hr
  obtain ⟨x, hx, hr⟩ := Out.bind_eq_ok.mp hr
  obtain ⟨c, e, h1, h2, h3, ⟨q, hq, j, hj, h4⟩, h5, -⟩ := C29_conv_exact (R.flip_shape h) (R.flip_proper h hpp) hx
  obtain ⟨r', e1, e2, e3⟩ := R.result_holds (.fin 0) s (fun v => Fl.fin (c v))
  have : R.ipfList s x = .ok ⟨x.conv, r', x.micro.population, x.iters, x.maxError⟩ := by
    unfold R.ipfList
    rw [h1, e1]
    rfl
  rw [this] at hr
  injection hr with hr
  subst hr
  refine ⟨e2, fun v => c v.reverse, e, e3, h2, ?_, ?_, h5⟩
  · intro q hq j hj
    have := h3 _ (R.mem_flip.mpr ⟨q, hq, rfl⟩) j
    rw [R.projSizes_flip (h.dims q hq).2, R.marginalSum_flip (h.dims q hq).2] at this
    exact this hj
  · obtain ⟨q', hq', rfl⟩ := R.mem_flip.mp hq
    rw [R.projSizes_flip (h.dims q' hq').2] at hj
    rw [R.marginalSum_flip (h.dims q' hq').2] at h4
    exact ⟨q', hq', j, hj, h4⟩

/-- A vector as R has it. -/
def rVec {α : Type} (x : List α) : RArray α := ⟨x, none⟩

theorem rVec_holds {α : Type} {x : List α} {g : List Int → α} (hg : ∀ k : Nat, k < x.length → x[k]? = some (g [(k : Int)])) :
    (rVec x).Holds [x.length] g := by
  refine ⟨rfl, by simp [rVec, prodSizes], fun v hv => ?_⟩
  have hv' : v ∈ allIdx [x.length] := mem_allIdx.mpr hv
  simp only [allIdx, List.mem_flatMap, List.mem_range] at hv'
  obtain ⟨k, hk, hv'⟩ := hv'
  simp at hv'
  subst hv'
  simpa [rVec, colRank] using hg k hk

/-- `qis(list(1, 2), list(c(1, 2), c(1, 1, 1)))` -/
theorem exProb_passes : RPasses [[1], [2]] [rVec [1, 2], rVec [1, 1, 1]] [2, 3] exProb := by
  refine ⟨by decide, ?_⟩
  unfold exProb
  exact .cons (rVec_holds (x := [1, 2]) (by decide)) (.cons (rVec_holds (x := [1, 1, 1]) (by decide)) .nil)

/-- The hypotheses of `C56_qis` and `C56_qis_tree` are met. -/
example (hfp : fp.Good) : ∃ r, R.qis fp lm [[1], [2]] [rVec [1, 2], rVec [1, 1, 1]] 0 = .ok r ∧ RMeets [2, 3] exProb 3 r ∧ r.conv = true := by
  refine C56_qis_tree hfp exProb_ok (by norm_num) exProb_passes ?_ (by simp) (by norm_num) (by norm_num)
  intro A ds B h
  simp only [exProb, List.map_cons, List.map_nil, List.reverse_cons, List.reverse_nil, List.nil_append, List.cons_append] at h
  match A, h with
  | [], h =>
    simp only [List.nil_append, List.cons.injEq] at h
    rw [← h.1]; simp
  | [a], h =>
    simp only [List.cons_append, List.nil_append, List.cons.injEq] at h
    rw [← h.2.1]; simp
  | a :: b :: A, h => simp at h

/-- A table that is not symmetric: the marginal over dimensions 3 and 1 of a table of sizes 2, 4, 3 is a 3 by 2 matrix, stored
column by column. -/
example : ∃ (P : Prob Int) (il : List (List Int)) (ml : List (RArray Int)), ProbShape [2, 4, 3] P ∧ RPasses il ml [2, 4, 3] P ∧ il = [[3, 1], [2]] ∧
    ml.map RArray.dims = [some [3, 2], none] := by
  let f : List Int → Int := fun j => j.getD 0 0 + 3 * j.getD 1 0
  let g : List Int → Int := fun j => j.getD 0 0
  refine ⟨[([2, 0], f), ([1], g)], [[3, 1], [2]], [⟨[0, 1, 2, 3, 4, 5], some [3, 2]⟩, rVec [0, 1, 2, 3]],
    ⟨by decide, by decide, by decide, by simp, ?_⟩, ⟨by decide, ?_⟩, rfl, rfl⟩
  · intro d hd
    simp at hd
    interval_cases d
    · exact ⟨([2, 0], f), by simp, by simp⟩
    · exact ⟨([1], g), by simp, by simp⟩
    · exact ⟨([2, 0], f), by simp, by simp⟩
  · refine .cons ⟨rfl, rfl, ?_⟩ (.cons (rVec_holds (x := [0, 1, 2, 3]) (by decide)) .nil)
    have : ∀ v ∈ allIdx [3, 2], ([0, 1, 2, 3, 4, 5] : List Int)[(colRank [3, 2] v).toNat]? = some (f v) := by decide
    exact fun v hv => this v (mem_allIdx.mpr hv)

/-! ### C62 -/

/-- Vectors as R makes them: as many elements as the dimensions say, at least one. -/
structure RArray.WF {α : Type} (r : RArray α) : Prop where
  length : r.data.length = prodSizes r.sizes
  good : GoodShape r.sizes

/-- The total of an array. -/
def RArray.total (r : RArray Int) : Int := r.data.sum

theorem total_eq {r : RArray Int} {s : List Nat} {g : List Int → Int} (h : r.Holds s g) : r.total = ∑ j ∈ cells s, g j := by
  unfold RArray.total
  rw [R.holds_data h]
  have := R.sum_cells_reverse s (fun v => g v.reverse)
  simp only [List.reverse_reverse] at this
  rw [← this, ← sum_allIdx]

/-- **C62**, `qis`, what is true: with any lists of the same length of index vectors and (non-empty) marginals, no index vector
shorter than its marginal has dimensions, `qis` does not read or write where it must not: it returns, raises an exception or
(skips beyond 2^31, or negative) does not return; and it returns only if the lists are those of a consistent problem. -/
theorem C62_qis_partial (hfp : fp.Good) (il : List (List Int)) (ml : List (RArray Int)) (hwf : ∀ r ∈ ml, r.WF) (htot : ∀ r ∈ ml, |r.total| < 2 ^ 31)
    (hlen : ∀ p ∈ il.zip ml, p.2.sizes.length ≤ p.1.length) (skips : Int) :
    (∃ e, R.qis fp lm il ml skips = .thrown e) ∨
    (2 ^ 31 < skips % 2 ^ 32 ∧ R.qis fp lm il ml skips = .diverges) ∨
    ∃ r s P pop, R.qis fp lm il ml skips = .ok r ∧ RPasses il ml s P ∧ ProbOK s P pop ∧ RMeets s P pop r := by
  by_cases hl : il.length = ml.length
  swap
  · left
    exact ⟨.listsDiffer, by unfold R.qis; rw [if_pos hl]⟩
  let F : RArray Int → List Int → Int := fun r v => r.data.getD (colRank r.sizes v).toNat default
  have hF : ∀ r ∈ ml, r.Holds r.sizes (F r) := fun r hr => R.holds_self (hwf r hr).length
  rcases R.getDimension_cases il ml with ⟨⟨p, hp, h1⟩, -⟩ | ⟨-, t, ht, -⟩
  · have := hlen p hp
    omega
  have hconv : R.coreMarginals ml = .ok (ml.reverse.map (fun r => arr r.sizes (F r))) := by
    unfold R.coreMarginals
    have : ∀ l : List (RArray Int), (∀ r ∈ l, r ∈ ml) → l.mapM RArray.convert = .ok (l.map (fun r => arr r.sizes (F r))) := by
      intro l
      induction l with
      | nil => intro _; rfl
      | cons r l ih =>
        intro h
        rw [List.mapM_cons, R.convert_holds (hwf r (h r (by simp))).good (hF r (h r (by simp))), ih (fun r hr => h r (by simp [hr]))]
        rfl
    exact this _ (by simp)
  have hq : R.qis fp lm il ml skips = (QIS.run fp lm (R.coreIndices t.length il) (ml.reverse.map (fun r => arr r.sizes (F r))) skips >>= R.qisList t) := by
    unfold R.qis
    rw [if_neg (by simp [hl]), ht]
    simp only [Out.ok_bind]
    rw [hconv]
    rfl
  have hms : ml.reverse.map (fun r => arr r.sizes (F r)) =
      (ml.reverse.map (fun r => (r.sizes, F r))).map (fun m : List Nat × (List Int → Int) => arr m.1 m.2) := by
    rw [List.map_map]; rfl
  have hgood : ∀ m ∈ ml.reverse.map (fun r => (r.sizes, F r)), GoodShape m.1 := by
    intro m hm
    obtain ⟨r, hr, rfl⟩ := List.mem_map.mp hm
    exact (hwf r (by simpa using hr)).good
  have hsm : ∀ m ∈ ml.reverse.map (fun r => (r.sizes, F r)), |∑ j ∈ cells m.1, m.2 j| < 2 ^ 52 := by
    intro m hm
    obtain ⟨r, hr, rfl⟩ := List.mem_map.mp hm
    have hr' : r ∈ ml := by simpa using hr
    rw [← total_eq (hF r hr')]
    have := htot r hr'
    omega
  obtain ⟨v1, v2⟩ := C19_validation_int (β := Int) hfp (R.coreIndices t.length il) _ hgood hsm
  by_cases hm : ∃ m, Micro.new (β := Int) fp (numInt fp) (R.coreIndices t.length il)
      ((ml.reverse.map (fun r => (r.sizes, F r))).map (fun m : List Nat × (List Int → Int) => arr m.1 m.2)) = .ok m
  · obtain ⟨s, P, pop, h1, h2, h3⟩ := v1.mp hm
    rw [← hms] at h2
    obtain ⟨hts, hpass⟩ := R.passes_of_core hl hF ht h3.toProbShape h1 h2
    have hok : ProbOK s.reverse (flipProb s.length P) pop := R.flip_ok h3
    have hpop : pop < 2 ^ 31 := by
      obtain ⟨p, hp⟩ := List.exists_mem_of_ne_nil P (by rintro rfl; have := h3.lists; simp at this)
      obtain ⟨r, hr, hrp⟩ := R.forall₂_right hpass.marginals (R.mem_flip.mpr ⟨p, hp, rfl⟩)
      rw [R.projSizes_flip (h3.dims p hp).2] at hrp
      have := htot r hr
      rw [total_eq hrp, h3.total p hp] at this
      exact (abs_lt.mp this).2
    have hback := C56_qis_core (fp := fp) (lm := lm) hok.toProbShape hpass skips
    rw [List.length_reverse, List.reverse_reverse, R.flip_flip (fun p hp => (h3.dims p hp).2)] at hback
    rcases C25_outcomes hfp lm h3 (by omega) skips with ⟨-, h4 | h4⟩ | ⟨-, h4, h5⟩ | ⟨-, -, ⟨x, h4⟩ | h4 | ⟨-, h4⟩⟩
    · exact .inl ⟨_, by rw [hback, h4]; rfl⟩
    · exact .inl ⟨_, by rw [hback, h4]; rfl⟩
    · exact .inr (.inl ⟨h4, by rw [hback, h5]; rfl⟩)
    · right; right
      have hx : qis fp lm s.reverse.reverse (flipProb s.reverse.length (flipProb s.length P)) skips = .ok x := by
        rw [List.length_reverse, List.reverse_reverse, R.flip_flip (fun p hp => (h3.dims p hp).2)]
        exact h4
      obtain ⟨r, e1, e2, -⟩ := qis_back hfp hok hpop hx
      exact ⟨r, s.reverse, flipProb s.length P, pop, by rw [hback, h4]; exact e1, hpass, hok, e2⟩
    · exact .inl ⟨_, by rw [hback, h4]; rfl⟩
    · exact .inl ⟨_, by rw [hback, h4]; rfl⟩
  · left
    obtain ⟨e, he⟩ := v2 hm
    refine ⟨e, ?_⟩
    rw [hq, hms]
    unfold QIS.run QIS.new
    rw [he]
    rfl

/-- The hypotheses are met by `qis(list(1, 2), list(c(1, 2), c(1, 1, 1)))`, and by lists that are no problem, like
`qis(list(1, 7), list(c(1, 2), c(1, 1, 1)))`. -/
example (k : Int) : (∀ r ∈ [rVec [1, 2], rVec [1, 1, 1]], r.WF) ∧ (∀ r ∈ [rVec [1, 2], rVec [1, 1, 1]], |r.total| < 2 ^ 31) ∧
    ∀ p ∈ [[1], [k]].zip [rVec [1, 2], rVec [(1 : Int), 1, 1]], p.2.sizes.length ≤ p.1.length := by
  refine ⟨?_, by decide, by simp [rVec, RArray.sizes]⟩
  intro r hr
  simp only [List.mem_cons, List.not_mem_nil, or_false] at hr
  rcases hr with rfl | rfl <;> exact ⟨rfl, by decide⟩

/-- **C62 is false**: whenever an index vector is shorter than its marginal has dimensions, `qis` and `ipf`, `qisi` (the seed
has a "dim" attribute) read beyond the end of it, before anything is checked. -/
theorem C62_negation_short_index {il : List (List Int)} (ml : List (RArray Int)) (nl : List (RArray Fl)) {seed : RArray Fl} {s : List Nat}
    (hd : seed.dims = some s) (skips : Int) :
    (il.length = ml.length → (∃ p ∈ il.zip ml, p.1.length < p.2.sizes.length) → R.qis fp lm il ml skips = .ub .oob ∧
      R.qisi dbg fp lm seed il ml skips = .ub .oob) ∧
    (il.length = nl.length → (∃ p ∈ il.zip nl, p.1.length < p.2.sizes.length) → R.ipf dbg fp seed il nl = .ub .oob) := by
  constructor
  · rintro hl ⟨p, hp, hlt⟩
    have h : R.getDimension il ml = .ub .oob := by
      rcases R.getDimension_cases il ml with ⟨-, h⟩ | ⟨h, -⟩
      · exact h
      · have := h p hp; omega
    unfold R.qis R.qisi
    rw [if_neg (by simp [hl]), if_neg (by simp [hl]), h]
    simp only [RArray.dimAttr, hd, Out.ok_bind, Out.ub_bind, and_self]
  · rintro hl ⟨p, hp, hlt⟩
    have h : R.getDimension il nl = .ub .oob := by
      rcases R.getDimension_cases il nl with ⟨-, h⟩ | ⟨h, -⟩
      · exact h
      · have := h p hp; omega
    unfold R.ipf
    rw [if_neg (by simp [hl]), h]
    simp only [RArray.dimAttr, hd, Out.ok_bind, Out.ub_bind]

/-- for example `qis(list(1, 2), list(matrix(1, 2, 2), c(2, 2)))` -/
example : ∃ (il : List (List Int)) (ml : List (RArray Int)), il.length = ml.length ∧ (∀ r ∈ ml, r.WF) ∧
    ∃ p ∈ il.zip ml, p.1.length < p.2.sizes.length := by
  refine ⟨[[1], [2]], [⟨[1, 1, 1, 1], some [2, 2]⟩, rVec [2, 2]], rfl, ?_, ([1], ⟨[1, 1, 1, 1], some [2, 2]⟩), by simp, by decide⟩
  intro r hr
  simp only [List.mem_cons, List.not_mem_nil, or_false] at hr
  rcases hr with rfl | rfl
  · exact ⟨rfl, by decide⟩
  · exact ⟨rfl, by decide⟩

theorem checkDims_long (s : List Nat) {t : List Nat} (ht : t ≠ []) : R.checkDims (s ++ t) s = .ub .oob := by
  induction s with
  | nil => cases t with
    | nil => exact absurd rfl ht
    | cons n t => rfl
  | cons n s ih => simp [R.checkDims, ih]

/-- **C62 is false**: when the seed of `ipf` or `qisi` has the dimensions of the problem and then some more, the check of the
seed reads beyond the end of the list of sizes instead of raising its exception. -/
theorem C62_negation_long_seed {s t : List Nat} (ht : t ≠ []) {seed : RArray Fl} (hd : seed.dims = some (s ++ t)) {il : List (List Int)} :
    (∀ (P : Prob Fl) (ml : List (RArray Fl)), ProbShape s P → RPasses il ml s P → R.ipf dbg fp seed il ml = .ub .oob) ∧
    (∀ (P : Prob Int) (ml : List (RArray Int)) (skips : Int), ProbShape s P → RPasses il ml s P →
      R.qisi dbg fp lm seed il ml skips = .ub .oob) := by
  constructor
  · intro P ml hs h
    unfold R.ipf R.checkSeed
    rw [if_neg (by rw [R.passes_length h]; simp), R.getDimension_eq hs h]
    simp only [RArray.dimAttr, hd, Out.ok_bind, checkDims_long s ht, Out.ub_bind]
  · intro P ml skips hs h
    unfold R.qisi R.checkSeed
    rw [if_neg (by rw [R.passes_length h]; simp), R.getDimension_eq hs h]
    simp only [RArray.dimAttr, hd, Out.ok_bind, checkDims_long s ht, Out.ub_bind]

/-- for example a 2 by 3 by 2 seed for the problem `exProb` -/
example : ProbShape [2, 3] exProb ∧ RPasses [[1], [2]] [rVec [1, 2], rVec [1, 1, 1]] [2, 3] exProb ∧ ([2] : List Nat) ≠ [] :=
  ⟨exProb_ok.toProbShape, exProb_passes, by simp⟩

/-- **C62**, `qisi` and `ipf`, what is true: a seed of the wrong sizes, as many or fewer dimensions than the problem has and
not the first of the problem's sizes, is rejected, and so is a seed with a negative element. -/
theorem C62_seed_partial {s t : List Nat} {seed : RArray Fl} (hd : seed.dims = some t) {il : List (List Int)}
    (hbad : (∃ i, i < t.length ∧ i < s.length ∧ t[i]? ≠ s[i]?) ∨ (t = s ∧ ∃ x ∈ seed.data, FP.lt x (.fin 0) = true)) (hlen : t.length ≤ s.length) :
    (∀ (P : Prob Fl) (ml : List (RArray Fl)), ProbShape s P → RPasses il ml s P → ∃ e, R.ipf dbg fp seed il ml = .thrown e) ∧
    (∀ (P : Prob Int) (ml : List (RArray Int)) (skips : Int), ProbShape s P → RPasses il ml s P →
      ∃ e, R.qisi dbg fp lm seed il ml skips = .thrown e) := by
  have key : ∃ e, R.checkSeed seed s = .thrown e := by
    unfold R.checkSeed
    simp only [RArray.dimAttr, hd, Out.ok_bind]
    rcases hbad with ⟨i, h1, h2, h3⟩ | ⟨rfl, x, hx, hneg⟩
    · have : ∀ (t s : List Nat) (i : Nat), t.length ≤ s.length → i < t.length → t[i]? ≠ s[i]? → R.checkDims t s = .thrown .seedMismatchR := by
        intro t
        induction t with
        | nil => intro s i _ h; simp at h
        | cons n t ih =>
          intro s i hl hi hne
          cases s with
          | nil => simp at hl
          | cons m s =>
            simp only [R.checkDims]
            by_cases hnm : n = m
            · rw [if_neg (by simp [hnm])]
              cases i with
              | zero => simp [hnm] at hne
              | succ i => exact ih s i (by simpa using hl) (by simpa using hi) (by simpa using hne)
            · rw [if_pos hnm]
      rw [this t s i hlen h1 h3]
      exact ⟨_, rfl⟩
    · rw [R.checkDims_same]
      simp only [Out.ok_bind]
      rw [if_pos (List.any_eq_true.mpr ⟨x, hx, hneg⟩)]
      exact ⟨_, rfl⟩
  obtain ⟨e, he⟩ := key
  constructor
  · intro P ml hs h
    refine ⟨e, ?_⟩
    unfold R.ipf
    rw [if_neg (by rw [R.passes_length h]; simp), R.getDimension_eq hs h]
    simp only [RArray.dimAttr, hd, Out.ok_bind, he, Out.thrown_bind]
  · intro P ml skips hs h
    refine ⟨e, ?_⟩
    unfold R.qisi
    rw [if_neg (by rw [R.passes_length h]; simp), R.getDimension_eq hs h]
    simp only [RArray.dimAttr, hd, Out.ok_bind, he, Out.thrown_bind]

end HL

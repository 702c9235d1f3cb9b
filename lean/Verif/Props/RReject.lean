import Verif.Props.RApi

/-
C62, `ipf` and `qisi` from R with any lists whatsoever.
-/

namespace HL
variable {fp : FP} {lm : Libm} {α : Type}

/-- The dimensions the lists name: those of the index vectors, each up to the number of dimensions of its marginal. -/
def namedDims (il : List (List Int)) (ml : List (RArray α)) : Finset Int :=
  ((il.zip ml).flatMap (fun p => p.1.take p.2.sizes.length)).toFinset

namespace R

theorem checkDims_cases : ∀ (d t : List Nat), d.length ≤ t.length →
    (d <+: t ∧ checkDims d t = .ok ()) ∨ (¬ d <+: t ∧ checkDims d t = .thrown .seedMismatchR)
  | [], t, _ => .inl ⟨List.nil_prefix, rfl⟩
  | _ :: _, [], h => by simp at h
  | n :: d, m :: t, h => by
    simp only [checkDims]
    by_cases hnm : n = m
    · subst hnm
      rw [if_neg (by simp)]
      rcases checkDims_cases d t (by simpa using h) with ⟨h1, h2⟩ | ⟨h1, h2⟩
      · exact .inl ⟨by simpa using h1, h2⟩
      · exact .inr ⟨by simpa using h1, h2⟩
    · rw [if_pos hnm]
      exact .inr ⟨fun hc => hnm (List.cons_prefix_cons.mp hc).1, rfl⟩

/-- Everything the R functions do before they call the core. -/
theorem front {il : List (List Int)} {ml : List (RArray α)} {seed : RArray Fl} {d : List Nat}
    (hd : seed.dims = some d) (hlen : ∀ p ∈ il.zip ml, p.2.sizes.length ≤ p.1.length)
    (hseed : d.length ≤ (namedDims il ml).card) :
    ∃ t, getDimension il ml = .ok t ∧ ((∃ e, checkSeed seed t = .thrown e) ∨
      (d <+: t ∧ checkSeed seed t = .ok () ∧ ∀ x ∈ seed.data, FP.lt x (.fin 0) = false)) := by
  rcases getDimension_cases il ml with ⟨⟨p, hp, h1⟩, -⟩ | ⟨-, t, ht, hK⟩
  · have := hlen p hp; omega
  refine ⟨t, ht, ?_⟩
  have hc := hK (namedDims il ml) (by intro l; simp [namedDims])
  unfold checkSeed
  simp only [RArray.dimAttr, hd, Out.ok_bind]
  rcases checkDims_cases d t (by omega) with ⟨h1, h2⟩ | ⟨-, h2⟩
  · rw [h2]
    simp only [Out.ok_bind]
    split_ifs with h3
    · exact .inl ⟨_, rfl⟩
    · refine .inr ⟨h1, rfl, ?_⟩
      intro x hx
      rw [List.any_eq_true] at h3
      push Not at h3
      simpa using h3 x hx
  · rw [h2]
    exact .inl ⟨_, rfl⟩

theorem convert_all [Inhabited α] {ml : List (RArray α)} (hwf : ∀ r ∈ ml, r.WF) :
    coreMarginals ml = .ok (ml.reverse.map (fun r => arr r.sizes (fun v => r.data.getD (colRank r.sizes v).toNat default))) := by
  unfold coreMarginals
  have : ∀ l : List (RArray α), (∀ r ∈ l, r ∈ ml) →
      l.mapM RArray.convert = .ok (l.map (fun r => arr r.sizes (fun v => r.data.getD (colRank r.sizes v).toNat default))) := by
    intro l
    induction l with
    | nil => intro _; rfl
    | cons r l ih =>
      intro h
      rw [List.mapM_cons, convert_holds (hwf r (h r (by simp))).good (holds_self (hwf r (h r (by simp))).length),
        ih (fun r hr => h r (by simp [hr]))]
      rfl
  exact this _ (by simp)

end R

/-- The seed check of the core fails when the sizes differ. -/
theorem coreSeed_thrown {d s : List Nat} (h : d ≠ s) : ∃ e, IPF.checkSeed d s = .thrown e := by
  unfold IPF.checkSeed
  split_ifs
  · exact ⟨_, rfl⟩
  · exact ⟨_, rfl⟩

instance : Inhabited Fl := ⟨.nan⟩

/-- **C62**, `ipf`, what is true: with any lists of index vectors and (non-empty) marginals, no index vector shorter than its
marginal has dimensions, and any seed with at most as many dimensions as the lists name, `ipf` does not read or write where it
must not.  It raises an exception, or the lists are those of a problem the core accepts (it sees the dimensions and the lists
in reverse order) and the seed has its sizes; then it returns a table of these sizes, or does not return because of a marginal
as in C37. -/
theorem C62_ipf_partial (il : List (List Int)) (ml : List (RArray Fl)) (hwf : ∀ r ∈ ml, r.WF)
    (htot : ∀ r ∈ ml, ∀ g, r.Holds r.sizes g →
      ∃ t, FP.toInt64 (fp.add (seqSum (numFl fp) r.sizes g) (.fin (1 / 2))) = .ok t)
    (hlen : ∀ p ∈ il.zip ml, p.2.sizes.length ≤ p.1.length) {seed : RArray Fl} (hsw : seed.WF)
    (hseed : seed.sizes.length ≤ (namedDims il ml).card) :
    (∃ e, R.ipf false fp seed il ml = .thrown e) ∨
    ∃ s P pop, seed.dims = some s ∧ RPasses il ml s P ∧ ProbOKG fp (numFl fp) s.reverse (flipProb s.length P) pop ∧
      ((ProperProb s P ∧ ∃ r, R.ipf false fp seed il ml = .ok r ∧ r.result.dims = some s ∧ ∃ f, r.result.Holds s f) ∨
        (¬ ProperProb s P ∧ R.ipf false fp seed il ml = .diverges)) := by
  by_cases hl : il.length = ml.length
  swap
  · left
    exact ⟨.listsDiffer, by unfold R.ipf; rw [if_pos hl]⟩
  cases hd : seed.dims with
  | none =>
    left
    exact ⟨.rcppNull, by unfold R.ipf; rw [if_neg (by simp [hl])]; simp only [RArray.dimAttr, hd]; rfl⟩
  | some d =>
  have hds : seed.sizes = d := by unfold RArray.sizes; rw [hd]
  rw [hds] at hseed
  let F : RArray Fl → List Int → Fl := fun r v => r.data.getD (colRank r.sizes v).toNat default
  have hF : ∀ r ∈ ml, r.Holds r.sizes (F r) := fun r hr => R.holds_self (hwf r hr).length
  have hS : seed.Holds d (F seed) := by
    have := R.holds_self (r := seed) hsw.length
    rw [hds] at this
    simpa only [F, hds] using this
  have hgd : GoodShape d := hds ▸ hsw.good
  obtain ⟨t, ht, ⟨e, he⟩ | ⟨hpre, hck, hneg⟩⟩ := R.front hd hlen hseed
  · left
    refine ⟨e, ?_⟩
    unfold R.ipf
    rw [if_neg (by simp [hl]), ht]
    simp only [RArray.dimAttr, hd, Out.ok_bind]
    rw [he]
    rfl
  have hq : R.ipf false fp seed il ml =
      (IPF.run false fp (numFl fp) (R.coreIndices d.length il) (ml.reverse.map (fun r => arr r.sizes (F r)))
        (arr d.reverse (fun v => F seed v.reverse)) >>= R.ipfList d) := by
    unfold R.ipf
    rw [if_neg (by simp [hl]), ht]
    simp only [RArray.dimAttr, hd, Out.ok_bind]
    rw [hck, R.convert_all hwf, R.wrapper_holds hgd hS]
    rfl
  have hms : ml.reverse.map (fun r => arr r.sizes (F r)) =
      (ml.reverse.map (fun r => (r.sizes, F r))).map (fun m : List Nat × (List Int → Fl) => arr m.1 m.2) := by
    rw [List.map_map]; rfl
  have hgood : ∀ m ∈ ml.reverse.map (fun r => (r.sizes, F r)), GoodShape m.1 := by
    intro m hm
    obtain ⟨r, hr, rfl⟩ := List.mem_map.mp hm
    exact (hwf r (by simpa using hr)).good
  have hsm : ∀ m ∈ ml.reverse.map (fun r => (r.sizes, F r)),
      ∃ t, FP.toInt64 (fp.add ((numFl fp).toFl (seqSum (numFl fp) m.1 m.2)) (.fin (1 / 2))) = .ok t := by
    intro m hm
    obtain ⟨r, hr, rfl⟩ := List.mem_map.mp hm
    have hr' : r ∈ ml := by simpa using hr
    exact htot r hr' _ (hF r hr')
  obtain ⟨v1, v2⟩ := C19_validation_partial (β := Fl) fp (numFl fp) (minOK_fl fp) (R.coreIndices d.length il) _ hgood hsm
  by_cases hm : ∃ m, Micro.new (β := Fl) fp (numFl fp) (R.coreIndices d.length il)
      ((ml.reverse.map (fun r => (r.sizes, F r))).map (fun m : List Nat × (List Int → Fl) => arr m.1 m.2)) = .ok m
  · obtain ⟨s, P, pop, h1, h2, h3⟩ := v1.mp hm
    have h2' : ml.reverse.map (fun r => arr r.sizes (F r)) = marginalsOf s P := by
      rw [hms, h2, List.map_map]; rfl
    obtain ⟨hts, hpass⟩ := R.passes_of_core' hl hF ht h3.toProbShape h1 h2'
    by_cases hsd : d.reverse = s
    · subst hsd
      have hpass := hpass (by simp)
      rw [List.reverse_reverse, List.length_reverse] at hpass
      have hdim : ∀ p ∈ P, ∀ k ∈ p.1, k < d.length := fun p hp k hk => by
        simpa using (h3.dims p hp).2 k hk
      have hff := R.flip_flip hdim
      have hproper : ProperProb d (flipProb d.length P) ↔ ProperProb d.reverse P := by
        constructor
        · intro hp
          have hs' : ProbShape d (flipProb d.length P) := by
            have := R.flip_shape h3.toProbShape
            rwa [List.reverse_reverse, List.length_reverse] at this
          have := R.flip_proper hs' hp
          rwa [hff] at this
        · intro hp
          have := R.flip_proper h3.toProbShape hp
          rwa [List.reverse_reverse, List.length_reverse] at this
      rcases C37_outcomes (minOK_fl fp) h3 (fun v => F seed v.reverse) with ⟨hp, r, hr⟩ | ⟨A, p, B, hP, -, hpd, hr⟩
      · refine .inr ⟨d, flipProb d.length P, pop, rfl, hpass, by rw [hff]; exact h3, .inl ⟨hproper.mpr hp, ?_⟩⟩
        obtain ⟨pop', n, -, -, -, -, -, hr2⟩ := ipf_run fp (numFl fp) (minOK_fl fp) h3.toProbShape hp _ hr
        rw [hq, h1, h2', hr]
        simp only [Out.ok_bind]
        unfold R.ipfList
        rw [hr2]
        obtain ⟨x, e1, e2, e3⟩ := R.result_holds (.fin 0) d
          ((sweep fp (numFl fp) d.reverse P)^[n] (fun v => F seed v.reverse))
        rw [show (ipfState fp (numFl fp) d.reverse P pop' ((sweep fp (numFl fp) d.reverse P)^[n] (fun v => F seed v.reverse)) n).1.micro.array =
          arr d.reverse ((sweep fp (numFl fp) d.reverse P)^[n] (fun v => F seed v.reverse)) from rfl, e1]
        exact ⟨_, rfl, e2, _, e3⟩
      · rw [hq, h1, h2', hr]
        split_ifs with hlt
        · exact .inl ⟨_, rfl⟩
        · refine .inr ⟨d, flipProb d.length P, pop, rfl, hpass, by rw [hff]; exact h3, .inr ⟨?_, rfl⟩⟩
          rw [hproper]
          intro hc
          exact hpd (hc p (by rw [hP]; simp))
    · left
      obtain ⟨e, he⟩ := coreSeed_thrown hsd
      refine ⟨e, ?_⟩
      rw [hq, h1, h2']
      unfold IPF.run IPF.new IPF.solve
      rw [micro_new_ok fp (numFl fp) (minOK_fl fp) h3]
      simp only [Out.ok_bind, Out.pure_eq]
      rw [show (mkMicro Fl s P pop).array.sizes = s from rfl, show (arr d.reverse (fun v => F seed v.reverse)).sizes = d.reverse from rfl, he]
      rfl
  · left
    obtain ⟨e, he⟩ := v2 hm
    refine ⟨e, ?_⟩
    rw [hq, hms]
    unfold IPF.run IPF.new
    rw [he]
    rfl

/-- The hypotheses are met by `qisi(matrix(1, 2, 3), list(1, 2), list(c(1, 2), c(1, 1, 1)))` and the same call of `ipf`, and by
lists that are no problem, like `list(1, 7)`. -/
example (k : Int) (hk : k ≠ 1) : let il := [[1], [k]]; let ml := [rVec [1, 2], rVec [(1 : Int), 1, 1]]
    let seed : RArray Fl := ⟨List.replicate 6 (.fin 1), some [2, 3]⟩
    (∀ r ∈ ml, r.WF) ∧ (∀ r ∈ ml, |r.total| < 2 ^ 31) ∧ (∀ p ∈ il.zip ml, p.2.sizes.length ≤ p.1.length) ∧ seed.WF ∧
      seed.sizes.length ≤ (namedDims il ml).card := by
  refine ⟨?_, by decide, by simp [rVec, RArray.sizes], ⟨rfl, by decide⟩, ?_⟩
  · intro r hr
    simp only [List.mem_cons, List.not_mem_nil, or_false] at hr
    rcases hr with rfl | rfl <;> exact ⟨rfl, by decide⟩
  · have : namedDims [[1], [k]] [rVec [1, 2], rVec [(1 : Int), 1, 1]] = {1, k} := by simp [namedDims, rVec, RArray.sizes]
    rw [this, Finset.card_pair (Ne.symm hk)]
    rfl

/-- The condition on the totals in `C62_ipf_partial` is met by vectors of finite numbers of any moderate size (exact arithmetic). -/
example (x : List ℚ) (hx : x ≠ []) (h0 : ∀ y ∈ x, 0 ≤ y) (h1 : x.sum < 2 ^ 62) :
    let r : RArray Fl := ⟨x.map .fin, none⟩
    r.WF ∧ ∀ g, r.Holds r.sizes g → ∃ t, FP.toInt64 (FP.exact.add (seqSum (numFl FP.exact) r.sizes g) (.fin (1 / 2))) = .ok t := by
  have hl : 0 < x.length := List.length_pos_iff.mpr hx
  refine ⟨⟨by simp [RArray.sizes, prodSizes], by simp [RArray.sizes, GoodShape]; omega⟩, ?_⟩
  intro g hg
  have e1 : (allIdx (RArray.sizes ⟨x.map Fl.fin, none⟩)).map g = x.map Fl.fin := by
    have := R.holds_data hg
    simp only [RArray.sizes, List.reverse_singleton] at this ⊢
    refine Eq.trans (List.map_congr_left ?_) this.symm
    intro v hv
    have : v.length = 1 := by simpa using (mem_allIdx.mp hv).length_eq.symm
    obtain ⟨a, rfl⟩ := List.length_eq_one_iff.mp this
    rfl
  have e2 : ∀ (l : List (List Int)) (y : List ℚ) (a : ℚ), l.map g = y.map Fl.fin →
      l.foldl (fun acc v => (numFl FP.exact).add acc (g v)) (.fin a) = .fin (a + y.sum) := by
    intro l
    induction l with
    | nil => intro y a h; rw [eq_comm] at h; simp at h; subst h; simp
    | cons v l ih =>
      intro y a h
      cases y with
      | nil => simp at h
      | cons b y =>
        simp only [List.map_cons, List.cons.injEq] at h
        rw [List.foldl_cons, h.1, show (numFl FP.exact).add (Fl.fin a) (Fl.fin b) = .fin (a + b) from rfl, ih y _ h.2]
        simp [add_assoc]
  have e3 : seqSum (numFl FP.exact) (RArray.sizes ⟨x.map Fl.fin, none⟩) g = .fin (0 + x.sum) := e2 _ _ _ e1
  rw [e3, zero_add]
  have h2 : 0 ≤ x.sum := List.sum_nonneg h0
  have h3 : FP.truncQ (x.sum + 1 / 2) = ⌊x.sum + 1 / 2⌋ := by unfold FP.truncQ; rw [if_pos (by linarith)]
  have h4 : 0 ≤ ⌊x.sum + 1 / 2⌋ := Int.floor_nonneg.mpr (by linarith)
  have h5 : ⌊x.sum + 1 / 2⌋ < 2 ^ 63 := by
    rw [Int.floor_lt]
    norm_num
    linarith
  refine ⟨⌊x.sum + 1 / 2⌋, ?_⟩
  show FP.toInt64 (.fin (x.sum + 1 / 2)) = _
  unfold FP.toInt64
  simp only [h3]
  rw [if_pos (by omega)]

/-- **C62**, `qisi`, likewise (totals below 2^31). -/
theorem C62_qisi_partial (hfp : fp.Good) (il : List (List Int)) (ml : List (RArray Int)) (hwf : ∀ r ∈ ml, r.WF)
    (htot : ∀ r ∈ ml, |r.total| < 2 ^ 31) (hlen : ∀ p ∈ il.zip ml, p.2.sizes.length ≤ p.1.length)
    {seed : RArray Fl} (hsw : seed.WF) (hseed : seed.sizes.length ≤ (namedDims il ml).card) (skips : Int) :
    (∃ e, R.qisi false fp lm seed il ml skips = .thrown e) ∨
    (2 ^ 31 < skips % 2 ^ 32 ∧ R.qisi false fp lm seed il ml skips = .diverges) ∨
    ∃ s P pop, seed.dims = some s ∧ RPasses il ml s P ∧ ProbOK s P pop ∧
      ((ProperProb s P ∧ ∃ r, R.qisi false fp lm seed il ml skips = .ok r ∧ RMeets s P pop r) ∨
        (¬ ProperProb s P ∧ R.qisi false fp lm seed il ml skips = .diverges)) := by
  by_cases hl : il.length = ml.length
  swap
  · left
    exact ⟨.listsDiffer, by unfold R.qisi; rw [if_pos hl]⟩
  cases hd : seed.dims with
  | none =>
    left
    exact ⟨.rcppNull, by unfold R.qisi; rw [if_neg (by simp [hl])]; simp only [RArray.dimAttr, hd]; rfl⟩
  | some d =>
  have hds : seed.sizes = d := by unfold RArray.sizes; rw [hd]
  rw [hds] at hseed
  let F : RArray Int → List Int → Int := fun r v => r.data.getD (colRank r.sizes v).toNat default
  let G : List Int → Fl := fun v => seed.data.getD (colRank seed.sizes v).toNat default
  have hF : ∀ r ∈ ml, r.Holds r.sizes (F r) := fun r hr => R.holds_self (hwf r hr).length
  have hS : seed.Holds d G := by
    have := R.holds_self (r := seed) hsw.length
    rw [hds] at this
    simpa only [G, hds] using this
  have hgd : GoodShape d := hds ▸ hsw.good
  obtain ⟨t, ht, ⟨e, he⟩ | ⟨hpre, hck, hneg⟩⟩ := R.front hd hlen hseed
  · left
    refine ⟨e, ?_⟩
    unfold R.qisi
    rw [if_neg (by simp [hl]), ht]
    simp only [RArray.dimAttr, hd, Out.ok_bind]
    rw [he]
    rfl
  have hq : R.qisi false fp lm seed il ml skips =
      (QISI.run false fp lm (R.coreIndices d.length il) (ml.reverse.map (fun r => arr r.sizes (F r)))
        (arr d.reverse (fun v => G v.reverse)) skips >>= R.qisiList d) := by
    unfold R.qisi
    rw [if_neg (by simp [hl]), ht]
    simp only [RArray.dimAttr, hd, Out.ok_bind]
    rw [hck, R.convert_all hwf, R.wrapper_holds hgd hS]
    rfl
  have hms : ml.reverse.map (fun r => arr r.sizes (F r)) =
      (ml.reverse.map (fun r => (r.sizes, F r))).map (fun m : List Nat × (List Int → Int) => arr m.1 m.2) := by
    rw [List.map_map]; rfl
  have hgood : ∀ m ∈ ml.reverse.map (fun r => (r.sizes, F r)), GoodShape m.1 := by
    intro m hm
    obtain ⟨r, hr, rfl⟩ := List.mem_map.mp hm
    exact (hwf r (by simpa using hr)).good
  have hsm : ∀ m ∈ ml.reverse.map (fun r => (r.sizes, F r)), |∑ j ∈ cells m.1, m.2 j| < 2 ^ 52 := by
    intro m hm
    obtain ⟨r, hr, rfl⟩ := List.mem_map.mp hm
    have hr' : r ∈ ml := by simpa using hr
    rw [← total_eq (hF r hr')]
    have := htot r hr'
    omega
  obtain ⟨v1, v2⟩ := C19_validation_int (β := Int) hfp (R.coreIndices d.length il) _ hgood hsm
  by_cases hm : ∃ m, Micro.new (β := Int) fp (numInt fp) (R.coreIndices d.length il)
      ((ml.reverse.map (fun r => (r.sizes, F r))).map (fun m : List Nat × (List Int → Int) => arr m.1 m.2)) = .ok m
  · obtain ⟨s, P, pop, h1, h2, h3⟩ := v1.mp hm
    have h2' : ml.reverse.map (fun r => arr r.sizes (F r)) = marginalsOf s P := by rw [hms, h2]
    obtain ⟨hts, hpass⟩ := R.passes_of_core' hl hF ht h3.toProbShape h1 h2'
    have hpop : pop < 2 ^ 31 := by
      obtain ⟨p, hp⟩ := List.exists_mem_of_ne_nil P (by rintro rfl; have := h3.lists; simp at this)
      have hmem : arr (projSizes p.1 s) p.2 ∈ ml.reverse.map (fun r => arr r.sizes (F r)) := by
        rw [h2']; exact List.mem_map.mpr ⟨p, hp, rfl⟩
      obtain ⟨r, hr, he⟩ := List.mem_map.mp hmem
      have hr' : r ∈ ml := by simpa using hr
      have hz : r.sizes = projSizes p.1 s := congrArg NDArray.sizes he
      rw [hz] at he
      have hh := hF r hr'
      rw [hz] at hh
      have := htot r hr'
      rw [total_eq (R.holds_congr hh (arr_inj he)), h3.total p hp] at this
      exact (abs_lt.mp this).2
    by_cases hsd : d.reverse = s
    · subst hsd
      have hpass := hpass (by simp)
      rw [List.reverse_reverse, List.length_reverse] at hpass
      have hdim : ∀ p ∈ P, ∀ k ∈ p.1, k < d.length := fun p hp k hk => by
        simpa using (h3.dims p hp).2 k hk
      have hff := R.flip_flip hdim
      have hok : ProbOK d (flipProb d.length P) pop := by
        have := R.flip_ok h3
        rwa [List.reverse_reverse, List.length_reverse] at this
      have hproper : ProperProb d.reverse P → ProperProb d (flipProb d.length P) := by
        intro hp
        have := R.flip_proper h3.toProbShape hp
        rwa [List.reverse_reverse, List.length_reverse] at this
      have hproper' : ProperProb d (flipProb d.length P) → ProperProb d.reverse P := by
        intro hp
        have := R.flip_proper hok.toProbShape hp
        rwa [hff] at this
      have hn : ∀ v, InRange d v → FP.lt (G v) (.fin 0) = false := by
        intro v hv
        exact hneg _ (List.mem_of_getElem? (hS.elems v hv))
      have hq' : R.qisi false fp lm seed il ml skips =
          (qisi fp lm d.reverse P (fun v => G v.reverse) skips >>= R.qisiList d) := by rw [hq, h1, h2']
      by_cases hp : ProperProb d.reverse P
      · rcases C41_outcomes hfp lm h3 (by omega) hp (fun v => G v.reverse) skips with ⟨x, hx⟩ | ⟨e, he⟩ | ⟨h4, h5⟩
        · have hx' : R.qisi false fp lm seed il ml skips = R.qisiList d x := by rw [hq', hx]; rfl
          obtain ⟨f, g1, g2, g3, g4, g5⟩ := C41_population_conv hfp h3 (by omega) hp hx
          obtain ⟨E, a, vs, hso⟩ := qisi_run_ok hfp h3 (by omega) hp hx
          rw [g4] at g3
          obtain ⟨r', e1, -, -⟩ := int_back hpop g2 g3
          obtain ⟨e, e4, -, -⟩ := R.result_holds (.fin 0) d E
          have hr : R.qisi false fp lm seed il ml skips = .ok ⟨x.conv, r', e, x.micro.population, x.chiSq, x.pValue, none⟩ := by
            rw [hx']
            unfold R.qisiList
            rw [g1, e1, hso.expected, e4]
            rfl
          exact .inr (.inr ⟨d, flipProb d.length P, pop, rfl, hpass, hok, .inl ⟨hproper hp, _, hr,
            C56_qisi hfp hok hpop (hproper hp) hpass hd hS hn hr⟩⟩)
        · exact .inl ⟨e, by rw [hq', he]; rfl⟩
        · exact .inr (.inl ⟨h4, by rw [hq', h5]; rfl⟩)
      · rcases qisi_run_eq hfp lm h3 (by omega) (arr d.reverse (fun v => G v.reverse)) skips with
          ⟨-, e, g1, -⟩ | ⟨-, g1, g2⟩ | ⟨c, x, g1, g2, -, -, -⟩
        · exact .inl ⟨e, by rw [hq', qisi, g1]; rfl⟩
        · exact .inr (.inl ⟨g1, by rw [hq', qisi, g2]; rfl⟩)
        · by_cases hsk : skips % 2 ^ 32 ≤ 2 ^ 31
          · obtain ⟨A, p, B, -, -, -, g3⟩ := C41_improper hfp lm h3 (by omega) hp g1 (fun v => G v.reverse) hsk
            rw [hq', g3]
            split_ifs
            · exact .inl ⟨_, rfl⟩
            · exact .inr (.inr ⟨d, flipProb d.length P, pop, rfl, hpass, hok, .inr ⟨fun hc => hp (hproper' hc), rfl⟩⟩)
          · exfalso
            rw [skipCount_diverges (by omega)] at g2
            cases g2
    · obtain ⟨e, he⟩ := coreSeed_thrown hsd
      rcases qisi_run_eq hfp lm h3 (by omega) (arr d.reverse (fun v => G v.reverse)) skips with
          ⟨-, e, g1, -⟩ | ⟨-, g1, g2⟩ | ⟨c, x, -, -, hx, -, g3⟩
      · exact .inl ⟨e, by rw [hq, h1, h2', g1]; rfl⟩
      · exact .inr (.inl ⟨g1, by rw [hq, h1, h2', g2]; rfl⟩)
      · left
        refine ⟨e, ?_⟩
        rw [hq, h1, h2', g3]
        unfold QISI.solve
        obtain ⟨g, hm⟩ := hx.micro
        rw [show x.micro.array.sizes = s by rw [hm]; rfl, show (arr d.reverse (fun v => G v.reverse)).sizes = d.reverse from rfl, he]
        rfl
  · left
    obtain ⟨e, he⟩ := v2 hm
    refine ⟨e, ?_⟩
    rw [hq, hms]
    unfold QISI.run QISI.new
    rw [he]
    rfl

end HL

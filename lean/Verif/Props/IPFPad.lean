import Verif.Proof.IPFPad
import Verif.Props.IPF
import Verif.Props.QISPad
import Verif.Props.Whole

/-
C108: categories that nobody is in, and that the seed gives nothing to, make no difference to `ipf`.
-/

namespace HL
variable {fp : FP} {e : Nat → Nat → Nat} {s s' : List Nat}

/-- **C108**: if every cell of the result of `ipf` is a number, then with empty categories put in anywhere, to which the seed gives
nothing either, the result is the same bit for bit, with zeros in the new categories: the same `conv`, number of iterations and
largest error. In any arithmetic whose rounding does not make numbers NaN. -/
theorem C108_padded (hfp : fp.Good) (hnn : ∀ q, fp.rnd q ≠ .nan) (he : Places e s s') {P P' : Prob Fl} (h : ProbShape s P)
    (hnd : ∀ p ∈ P, p.1.Nodup ∧ p.1.length < s.length) (hpad : Padded e s s' P P') {a a' : List Int → Fl}
    (ha : PadOf e s s' (List.range s.length) a a') {r : IPF Fl}
    (hr : IPF.run false fp (numFl fp) (indicesOf P) (marginalsOf s P) (arr s a) = .ok r)
    (hf : ∀ f, r.micro.array = arr s f → ∀ v, InRange s v → ∃ q, f v = .fin q) :
    ∃ r' f f', IPF.run false fp (numFl fp) (indicesOf P') (marginalsOf s' P') (arr s' a') = .ok r' ∧ r.micro.array = arr s f ∧
      r'.micro.array = arr s' f' ∧ PadOf e s s' (List.range s.length) f f' ∧ r'.conv = r.conv ∧ r'.iters = r.iters ∧
      r'.micro.population = r.micro.population ∧ r'.maxError = r.maxError := by
  obtain ⟨r', f, f', h1, h2, h3, h4, h5, h6, h7, h8⟩ := ipf_run_pad hfp (minOK_fl fp) (padNum_fl hfp) he h hnd hpad ha hr hf
  refine ⟨r', f, f', h1, h2, h3, h4, h5, h6, h7, h8 ?_⟩
  obtain ⟨pop, -, h9, -⟩ := ipf_run fp _ (minOK_fl fp) h (padded_proper he hnd hpad).1 a hr
  exact ⟨pop, h9, devs_ne_nan hnn h9 (hf f h2)⟩

/-- **C108**: `ipf` returns for the one if and only if for the other, whatever the seeds are. -/
theorem C108_returns (hfp : fp.Good) (he : Places e s s') {P P' : Prob Fl} (h : ProbShape s P)
    (hnd : ∀ p ∈ P, p.1.Nodup ∧ p.1.length < s.length) (hpad : Padded e s s' P P') (a a' : List Int → Fl) :
    (∃ r, IPF.run false fp (numFl fp) (indicesOf P') (marginalsOf s' P') (arr s' a') = .ok r) ↔
      ∃ r, IPF.run false fp (numFl fp) (indicesOf P) (marginalsOf s P) (arr s a) = .ok r :=
  ipf_returns_pad hfp (minOK_fl fp) (padNum_fl hfp) he h hnd hpad a a'

theorem padded_finProb {Q Q' : Prob ℚ} (h : Padded e s s' Q Q') : Padded e s s' (finProb Q) (finProb Q') := by
  unfold Padded finProb
  rw [List.forall₂_map_left_iff, List.forall₂_map_right_iff]
  refine List.Forall₂.imp ?_ h
  rintro q q' ⟨h1, h2, h3⟩
  exact ⟨h1, fun j hj => congrArg Fl.fin (h2 j hj), fun j' hj' hno => congrArg Fl.fin (h3 j' hj' hno)⟩

/-- **C108** in exact arithmetic, where every cell of the result is a number. -/
theorem C108_exact (he : Places e s s') {Q Q' : Prob ℚ} (h : ProbShape s Q) (hnd : ∀ q ∈ Q, q.1.Nodup ∧ q.1.length < s.length)
    (hpad : Padded e s s' Q Q') {b b' : List Int → ℚ} (hb : PadOf e s s' (List.range s.length) b b') {r : IPF Fl}
    (hr : ipfExact s Q b = .ok r) :
    ∃ (r' : IPF Fl) (c c' : List Int → ℚ), ipfExact s' Q' b' = .ok r' ∧ r.micro.array = finArr s c ∧ r'.micro.array = finArr s' c' ∧
      PadOf e s s' (List.range s.length) c c' ∧ r'.conv = r.conv ∧ r'.iters = r.iters ∧
      r'.micro.population = r.micro.population ∧ r'.maxError = r.maxError := by
  have hp : ProperProb s Q := (padded_proper he hnd hpad).1
  have hp' : ProperProb s' Q' := (padded_proper he hnd hpad).2
  obtain ⟨pop, n, -, -, -, -, -, hm, -⟩ := ipf_exact_fin h hp hr
  have hsh' : ProbShape s' Q' := by
    have h1 := (padded_okG (fp := FP.exact) (pop := 0) (padNum_fl FP.exact_good) he (probShape_congr (fst_finProb Q).symm h)
      (padded_finProb hpad)).1
    exact probShape_congr (fst_finProb Q') h1
  have ha : r.micro.array = arr s (fun v => .fin ((qsweep s Q)^[n] b v)) := by rw [hm]
  obtain ⟨r', f, f', h1, h2, h3, h4, h5⟩ := C108_padded FP.exact_good (fun q => by simp [FP.exact]) he
    (probShape_congr (fst_finProb Q).symm h) (by
      intro p hp
      obtain ⟨q, hq, rfl⟩ := mem_finProb.mp hp
      exact hnd q hq) (padded_finProb hpad) (a := fun v => .fin (b v)) (a' := fun v => .fin (b' v))
    ⟨fun j hj => congrArg Fl.fin (hb.1 j hj), fun j' hj' hno => congrArg Fl.fin (hb.2 j' hj' hno)⟩ hr (by
      intro f hf v hv
      rw [ha] at hf
      exact ⟨_, (arr_inj hf v hv).symm⟩)
  obtain ⟨pop', n', -, -, -, -, -, hm', -⟩ := ipf_exact_fin hsh' hp' h1
  have ha' : r'.micro.array = arr s' (fun v => .fin ((qsweep s' Q')^[n'] b' v)) := by rw [hm']
  refine ⟨r', _, _, h1, ha, ha', ?_, h5⟩
  rw [ha] at h2
  rw [ha'] at h3
  have e1 := arr_inj h2
  have e2 := arr_inj h3
  constructor
  · intro j hj
    have hj1 := place_inRange he (ds := List.range s.length) (by simp) hj
    rw [projSizes_all' he] at hj1
    have h6 := h4.1 j hj
    rw [projSizes_all] at hj
    rw [← e1 j hj, ← e2 _ hj1] at h6
    injection h6
  · intro j' hj' hno
    have h6 := h4.2 j' hj' hno
    rw [projSizes_all' he] at hj'
    rw [← e2 j' hj'] at h6
    have h7 : Fl.fin ((qsweep s' Q')^[n'] b' j') = Fl.fin 0 := h6
    injection h7

/-- The arithmetics of the other theorems meet the condition on the rounding. -/
theorem exact_ne_nan : ∀ q, FP.exact.rnd q ≠ .nan := fun q => by simp [FP.exact]

theorem ieee_ne_nan (sqrt : Fl → Fl) : ∀ q, (FP.ieee sqrt).rnd q ≠ .nan := by
  intro q
  show FP.rndIeee q ≠ .nan
  unfold FP.rndIeee
  split
  · simp
  · simp only []
    split
    · split <;> simp
    · simp

/-- the problem `exQ` with an empty category between the first two -/
def gapQ : Prob ℚ := [([0], fun j => if j = [0] then 1 else if j = [1] then 0 else 2), ([1], fun _ => 1)]

/-- The hypotheses of `C108_exact` hold. -/
example : Places gapAt [2, 3] [3, 3] ∧ ProbShape [2, 3] exQ ∧ (∀ q ∈ exQ, q.1.Nodup ∧ q.1.length < 2) ∧
    Padded gapAt [2, 3] [3, 3] exQ gapQ ∧
    PadOf gapAt [2, 3] [3, 3] (List.range 2) (fun _ => (1 : ℚ)) (fun v => if v.getD 0 0 = 1 then 0 else 1) ∧
    ∃ r, ipfExact [2, 3] exQ (fun _ => 1) = .ok r := by
  refine ⟨⟨rfl, ?_, ?_⟩, exQ_ok.toProbShape, by decide, .cons ⟨rfl, ?_, ?_⟩ (.cons ⟨rfl, ?_, ?_⟩ .nil), ⟨?_, ?_⟩, exQ_run _⟩
  · intro d hd i j hij hj
    unfold gapAt
    split <;> omega
  · intro d hd i hi
    simp only [List.length_cons, List.length_nil] at hd
    interval_cases d <;> simp only [gapAt, List.getD_cons_zero, List.getD_cons_succ] at hi ⊢ <;> simp <;> omega
  · have : ∀ j ∈ allIdx (projSizes [0] [2, 3]), (if place gapAt [0] j = [0] then (1 : ℚ) else if place gapAt [0] j = [1] then 0 else 2) =
        j.getD 0 0 + 1 := by decide +kernel
    exact fun j hj => this j (mem_allIdx.mpr hj)
  · have : ∀ j' ∈ allIdx (projSizes [0] [3, 3]), (∀ j ∈ allIdx (projSizes [0] [2, 3]), place gapAt [0] j ≠ j') →
        (if j' = [0] then (1 : ℚ) else if j' = [1] then 0 else 2) = 0 := by decide +kernel
    exact fun j' hj' hno => this j' (mem_allIdx.mpr hj') (fun j hj => hno j (mem_allIdx.mp hj))
  · exact fun _ _ => rfl
  · have : ∀ j' ∈ allIdx (projSizes [1] [3, 3]), ¬ ∀ j ∈ allIdx (projSizes [1] [2, 3]), place gapAt [1] j ≠ j' := by decide +kernel
    exact fun j' hj' hno => absurd (fun j hj => hno j (mem_allIdx.mp hj)) (this j' (mem_allIdx.mpr hj'))
  · have : ∀ j ∈ allIdx (projSizes (List.range 2) [2, 3]), (if (place gapAt (List.range 2) j).getD 0 0 = 1 then (0 : ℚ) else 1) = 1 := by
      decide +kernel
    exact fun j hj => this j (mem_allIdx.mpr hj)
  · have : ∀ j' ∈ allIdx (projSizes (List.range 2) [3, 3]),
        (∀ j ∈ allIdx (projSizes (List.range 2) [2, 3]), place gapAt (List.range 2) j ≠ j') →
        (if j'.getD 0 0 = 1 then (0 : ℚ) else 1) = 0 := by decide +kernel
    exact fun j' hj' hno => this j' (mem_allIdx.mpr hj') (fun j hj => hno j (mem_allIdx.mp hj))

/-- a table with the marginals of `tightProb` -/
def tightTable (v : List Int) : Int := if v = [0, 0] then 1 else if v = [1, 0] then 0 else 2

/-- The hypotheses of `C108_padded` hold in any arithmetic, for a seed that has the marginals already. -/
example (hfp : fp.Good) : Padded gapAt [2, 2] [3, 2] (dblProb tightProb) (dblProb gapProb) ∧
    (∀ p ∈ dblProb tightProb, p.1.Nodup ∧ p.1.length < 2) ∧
    ∃ r, IPF.run false fp (numFl fp) (indicesOf (dblProb tightProb)) (marginalsOf [2, 2] (dblProb tightProb))
        (arr [2, 2] (intFl tightTable)) = .ok r ∧
      ∀ f, r.micro.array = arr [2, 2] f → ∀ v, InRange [2, 2] v → ∃ q, f v = .fin q := by
  have hok : ProbOK [2, 2] tightProb 5 := ProbCheck.ok (by decide +kernel)
  have hpd : Padded gapAt [2, 2] [3, 2] (dblProb tightProb) (dblProb gapProb) := by
    unfold Padded dblProb
    rw [List.forall₂_map_left_iff, List.forall₂_map_right_iff]
    refine List.Forall₂.imp ?_ gap_padded
    rintro q q' ⟨h1, h2, h3⟩
    refine ⟨h1, fun j hj => congrArg (fun z : Int => Fl.fin z) (h2 j hj), fun j' hj' hno => ?_⟩
    show Fl.fin ((q'.2 j' : Int) : ℚ) = .fin 0
    rw [h3 j' hj' hno, Int.cast_zero]
  have hnd : ∀ p ∈ dblProb tightProb, p.1.Nodup ∧ p.1.length < 2 := by
    intro p hp
    obtain ⟨q, hq, rfl⟩ := mem_dblProb.mp hp
    revert hq
    simp only [tightProb, List.mem_cons, List.not_mem_nil, or_false]
    rintro (rfl | rfl) <;> simp
  have hm : ∀ p ∈ tightProb, ∀ j ∈ allIdx (projSizes p.1 [2, 2]), marginalSum [2, 2] p.1 tightTable j = p.2 j := by decide +kernel
  obtain ⟨r, hr, ha, -⟩ := C72_ipf hfp hok (by norm_num)
    (fun p hp => properDims_of_nodup (by revert p; decide) (by revert p; decide))
    (g := tightTable) (fun v _ => by unfold tightTable; split; · omega
                                     split <;> omega)
    (fun p hp j hj => hm p hp j (mem_allIdx.mpr hj))
  refine ⟨hpd, hnd, r, hr, fun f hf v hv => ?_⟩
  rw [ha] at hf
  exact ⟨_, (arr_inj hf v hv).symm⟩

end HL

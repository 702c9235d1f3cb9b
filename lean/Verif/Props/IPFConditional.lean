import Verif.Props.QISIScale
import Verif.Props.IPFUnits

/-
C132: `ipf` and `qisi` do not look at how a seed is distributed over the categories of the first marginal, only at how it is
distributed within each of them.
-/

namespace HL
open QISI
variable {α : Type}

/-! ### The seed enters through its first adjustment -/

/-- two seeds that are the same table after the adjustment to the first marginal give the same outcome -/
theorem ipf_run_first (fp : FP) (N : Num α) (hN : MinOK N) {s : List Nat} {p : List Nat × (List Int → α)} {P : Prob α}
    (h : ProbShape s (p :: P)) (hp : ProperProb s (p :: P)) {a a' : List Int → Fl}
    (ha : ∀ v, InRange s v → scaled fp N s p.1 p.2 a v = scaled fp N s p.1 p.2 a' v) :
    IPF.run false fp N (indicesOf (p :: P)) (marginalsOf s (p :: P)) (arr s a) =
      IPF.run false fp N (indicesOf (p :: P)) (marginalsOf s (p :: P)) (arr s a') := by
  unfold IPF.run
  cases hx : IPF.new fp N (indicesOf (p :: P)) (marginalsOf s (p :: P)) with
  | ok x =>
    simp only [Out.ok_bind]
    have hx' := hx
    unfold IPF.new at hx'
    obtain ⟨m, hm', hx'⟩ := Out.bind_eq_ok.mp hx'
    obtain ⟨pop, -, rfl⟩ := (new_ok_iff _ _ hN h).mp hm'
    obtain ⟨x', hx1, hx2⟩ := ipf_new_obj hm'
    rw [hx] at hx1
    injection hx1 with hx1
    subst hx1
    apply ipf_solve_congr _ _ h hp hx2 hx2
    show ∀ v, InRange s v → sweep _ N s P (scaled _ N s p.1 p.2 _) v = sweep _ N s P (scaled _ N s p.1 p.2 _) v
    apply sweep_congr
    exact ha
  | thrown e => rfl
  | ub u => rfl
  | diverges => rfl

/-- the adjusted cell depends on the cells of its own category only -/
theorem scaled_local (fp : FP) (N : Num α) {s ds : List Nat} {m : List Int → α} {a a' : List Int → Fl} {v : List Int}
    (hv : InRange s v) (ha : ∀ w, InRange s w → proj ds w = proj ds v → a w = a' w) :
    scaled fp N s ds m a v = scaled fp N s ds m a' v := by
  have hf : fsum fp s ds a (proj ds v) = fsum fp s ds a' (proj ds v) := by
    unfold fsum
    apply List.foldl_ext
    intro c w hw
    obtain ⟨h1, h2⟩ := List.mem_filter.mp hw
    rw [ha w (mem_allIdx.mp h1) (by simpa using h2)]
  unfold scaled
  rw [hf, ha v hv rfl]

theorem scaled_byCategory (N : Num α) {s ds : List Nat} (hd : ∀ d ∈ ds, d < s.length) {m : List Int → α} {q : List Int → ℚ}
    (hm : ∀ j, InRange (projSizes ds s) j → N.toFl (m j) = .fin (q j)) (b f : List Int → ℚ)
    (hf : ∀ j, InRange (projSizes ds s) j → f j ≠ 0) :
    ∀ v, InRange s v → scaled FP.exact N s ds m (fun v => .fin (f (proj ds v) * b v)) v =
      scaled FP.exact N s ds m (fun v => .fin (b v)) v := by
  intro v hv
  have h1 : scaled FP.exact N s ds m (fun w => .fin (f (proj ds w) * b w)) v =
      scaled FP.exact N s ds m (fun w => .fin (f (proj ds v) * b w)) v :=
    scaled_local _ _ hv (fun w _ hw => by rw [hw])
  rw [h1, scaled_exact hd hm (b := fun w => f (proj ds v) * b w) (fun _ _ => rfl) v hv,
    scaled_exact hd hm (b := b) (fun _ _ => rfl) v hv, qscaled_smul (hf _ (inRange_proj hd hv))]

/-! ### C132 -/

/-- **C132**, exact arithmetic: multiplying all the cells of the seed that belong to one category of the first marginal by a
non-zero factor of their own changes nothing in what `ipf` returns: table, iterations, error and flag. -/
theorem C132_ipf {s : List Nat} {q : List Nat × (List Int → ℚ)} {Q : Prob ℚ} (h : ProbShape s (q :: Q))
    (hp : ProperProb s (q :: Q)) (b f : List Int → ℚ) (hf : ∀ j, InRange (projSizes q.1 s) j → f j ≠ 0) :
    ipfExact s (q :: Q) (fun v => f (proj q.1 v) * b v) = ipfExact s (q :: Q) b := by
  have hP := probShape_congr (fst_finProb (q :: Q)).symm h
  exact ipf_run_first FP.exact (numFl FP.exact) (minOK_fl _) hP (properProb_fin hp)
    (scaled_byCategory (numFl FP.exact) (h.dims q (by simp)).2 (fun _ _ => rfl) b f hf)

/-- **C132**: so a seed of counts and the seed of the proportions within each category of the first marginal give the same. -/
theorem C132_proportions {s : List Nat} {q : List Nat × (List Int → ℚ)} {Q : Prob ℚ} (h : ProbShape s (q :: Q))
    (hp : ProperProb s (q :: Q)) {b : List Int → ℚ} (hb : ∀ v, InRange s v → 0 ≤ b v) :
    ipfExact s (q :: Q) (fun v => b v / marginalSum s q.1 b (proj q.1 v)) = ipfExact s (q :: Q) b := by
  rw [← C132_ipf h hp b (fun j => if marginalSum s q.1 b j = 0 then 1 else (marginalSum s q.1 b j)⁻¹) (by
    intro j _
    split
    · exact one_ne_zero
    · exact inv_ne_zero ‹_›)]
  unfold ipfExact
  congr 1
  apply arr_congr
  intro v hv
  congr 1
  show _ / _ = (if marginalSum s q.1 b (proj q.1 v) = 0 then 1 else (marginalSum s q.1 b (proj q.1 v))⁻¹) * b v
  split
  · rename_i h0
    have : b v = 0 := by
      unfold marginalSum at h0
      exact (Finset.sum_eq_zero_iff_of_nonneg (fun w hw => hb w (mem_cells.mp (Finset.mem_filter.mp hw).1))).mp h0 v
        (Finset.mem_filter.mpr ⟨mem_cells.mpr hv, rfl⟩)
    rw [this]; simp
  · rw [div_eq_inv_mul]

/-- **C132** for `qisi`: the same population, expectation and statistics, or the same exception, whatever the skips. -/
theorem C132_qisi (lm : Libm) {s : List Nat} {p : List Nat × (List Int → Int)} {P : Prob Int} {pop : Int}
    (h : ProbOK s (p :: P) pop) (hpop : pop < 2 ^ 52) (hp : ProperProb s (p :: P)) (b f : List Int → ℚ)
    (hf : ∀ j, InRange (projSizes p.1 s) j → f j ≠ 0) (skips : Int) :
    qisi FP.exact lm s (p :: P) (fun v => .fin (f (proj p.1 v) * b v)) skips =
      qisi FP.exact lm s (p :: P) (fun v => .fin (b v)) skips := by
  apply qisi_congr FP.exact_good lm h hpop hp
  intro hs hr hl
  have hsh := shape_remaining h.toProbShape hs
  rw [← indicesOf_remaining hs (p :: P)]
  exact ipf_run_first FP.exact (numInt FP.exact) (minOK_int _) hsh (properProb_remaining hp hs)
    (scaled_byCategory (numInt FP.exact) (h.dims p (by simp)).2 (fun _ _ => rfl) b f hf)

theorem scaled_byCategory_two (sqrt : Fl → Fl) (N : Num α) {s ds : List Nat} (hd : ∀ d ∈ ds, d < s.length) {m : List Int → α}
    (hm : ∀ j, InRange (projSizes ds s) j → ∃ q, N.toFl (m j) = .fin q ∧ Moderate (-100) 100 q) {b : List Int → ℚ}
    (hb : ∀ v, InRange s v → Moderate (-400) 400 (b v)) (hs : (allIdx s).length ≤ 2 ^ 53) {k : List Int → ℤ}
    (hk : ∀ j, |k j| ≤ 400) :
    ∀ v, InRange s v → scaled (FP.ieee sqrt) N s ds m (fun v => .fin (2 ^ k (proj ds v) * b v)) v =
      scaled (FP.ieee sqrt) N s ds m (fun v => .fin (b v)) v := by
  intro v hv
  rw [← scaled_pow_two sqrt N hd hm hb hs (hk (proj ds v)) v hv]
  exact scaled_local _ _ hv (fun w _ hw => by rw [hw])

/-- **C132** in double precision: if the entries of the seed are zero or between `2^-400` and `2^400` and those of the first
marginal zero or between `2^-100` and `2^100`, factors that are powers of two change nothing in what `ipf` returns, not a bit. -/
theorem C132_double (sqrt : Fl → Fl) (N : Num α) (hN : MinOK N) {s : List Nat} {p : List Nat × (List Int → α)} {P : Prob α}
    (h : ProbShape s (p :: P)) (hp : ProperProb s (p :: P)) (hcells : (allIdx s).length ≤ 2 ^ 53)
    (hm : ∀ j, InRange (projSizes p.1 s) j → ∃ q, N.toFl (p.2 j) = .fin q ∧ Moderate (-100) 100 q)
    {b : List Int → ℚ} (hb : ∀ v, InRange s v → Moderate (-400) 400 (b v)) {k : List Int → ℤ} (hk : ∀ j, |k j| ≤ 400) :
    IPF.run false (FP.ieee sqrt) N (indicesOf (p :: P)) (marginalsOf s (p :: P)) (finArr s (fun v => 2 ^ k (proj p.1 v) * b v)) =
      IPF.run false (FP.ieee sqrt) N (indicesOf (p :: P)) (marginalsOf s (p :: P)) (finArr s b) :=
  ipf_run_first (FP.ieee sqrt) N hN h hp (scaled_byCategory_two sqrt N (h.dims p (by simp)).2 hm hb hcells hk)

/-- **C132** in double precision for `qisi`. -/
theorem C132_qisi_double (sqrt : Fl → Fl) (lm : Libm) {s : List Nat} {p : List Nat × (List Int → Int)} {P : Prob Int} {pop : Int}
    (h : ProbOK s (p :: P) pop) (hpop : pop < 2 ^ 52) (hp : ProperProb s (p :: P)) (hcells : (allIdx s).length ≤ 2 ^ 53)
    {b : List Int → ℚ} (hb : ∀ v, InRange s v → Moderate (-400) 400 (b v)) {k : List Int → ℤ} (hk : ∀ j, |k j| ≤ 400)
    (skips : Int) :
    qisi (FP.ieee sqrt) lm s (p :: P) (fun v => .fin (2 ^ k (proj p.1 v) * b v)) skips =
      qisi (FP.ieee sqrt) lm s (p :: P) (fun v => .fin (b v)) skips := by
  apply qisi_congr (FP.ieee_good sqrt) lm h hpop hp
  intro hs hr hl
  by_cases ho : Overdrawn s (p :: P) hs
  · obtain ⟨e, he⟩ := new_overdrawn (FP.ieee_good sqrt) h hpop hr hl ho
    unfold IPF.run
    rw [he, Out.thrown_bind, Out.thrown_bind]
  · have hok := probOK_remaining_all h hr ho
    rw [← indicesOf_remaining hs (p :: P)]
    refine C132_double sqrt (numInt _) (minOK_int _) hok.toProbShape (properProb_remaining hp hs) hcells ?_ hb hk
    intro j hj
    obtain ⟨c, hc⟩ : ∃ c, c = p.2 j - (hs.countP (fun v => proj p.1 v = j) : Int) := ⟨_, rfl⟩
    have hp' : (p.1, fun j => p.2 j - (hs.countP (fun v => proj p.1 v = j) : Int)) ∈ remaining hs (p :: P) :=
      List.mem_cons_self
    have h1 : 0 ≤ c := hc ▸ hok.nonneg _ hp' j hj
    have h2 : c ≤ pop := hc ▸ (entry_le hok hp' hj).trans (by omega)
    refine ⟨(c : ℚ), ?_, ?_⟩
    · show (FP.ieee sqrt).ofInt (p.2 j - (hs.countP (fun v => proj p.1 v = j) : Int)) = _
      rw [← hc]
      exact ofInt_exact (FP.ieee_good sqrt) (by rw [abs_of_nonneg h1]; omega)
    · by_cases hz : c = 0
      · left; rw [hz]; rfl
      · right
        have h3 : (1 : ℚ) ≤ c := by exact_mod_cast (by omega : 1 ≤ c)
        have h4 : (c : ℚ) ≤ 2 ^ 52 := by exact_mod_cast (by omega : c ≤ 2 ^ 52)
        constructor
        · exact (zpow_le_one_of_nonpos₀ (by norm_num) (by norm_num)).trans h3
        · refine h4.trans ?_
          rw [show (2 : ℚ) ^ 52 = 2 ^ (52 : ℤ) from (zpow_ofNat _ _).symm]
          exact zpow_le_zpow_right₀ (by norm_num) (by norm_num)

/-- Two people in two categories each way, three quarters of them on the diagonal. -/
def exDiagonal : List Int → ℚ := fun v => if v = [0, 0] ∨ v = [1, 1] then 3 / 4 else 1 / 4

theorem exDiagonal_one : 1 / 10 ^ 8 ≤ qmax [2, 2] exUnits (qsweep [2, 2] exUnits
    (fun v => (if proj [1] v = [0] then 1 else 2) * exDiagonal v)) := by
  decide +kernel

/-- The first marginal is special: doubling the second column of this seed, a category of the *second* marginal, does make a
difference.  Without it, `ipf` is finished after one iteration and the table is the seed; with it, it is not. -/
theorem C132_second : RatOK [2, 2] exUnits 2 ∧ ProperProb [2, 2] exUnits ∧
    ∃ r r' : IPF Fl, ipfExact [2, 2] exUnits exDiagonal = .ok r ∧
      ipfExact [2, 2] exUnits (fun v => (if proj [1] v = [0] then 1 else 2) * exDiagonal v) = .ok r' ∧
      r.iters = 1 ∧ r.micro.array = finArr [2, 2] exDiagonal ∧ r'.iters ≠ 1 := by
  have hok : RatOK [2, 2] exUnits 2 := by
    have := exUnits_ok (k := 1) (n := 2) (by norm_num) (by norm_num)
    rwa [scaledProb_one] at this
  have hp : ProperProb [2, 2] exUnits := by
    have := exUnits_proper 1
    rwa [scaledProb_one] at this
  obtain ⟨r, hr⟩ := ipf_run_ok _ _ (minOK_fl _) (ratOK_accepted hok (by norm_num)) (properProb_fin hp)
    (fun v => .fin (exDiagonal v))
  obtain ⟨r', hr'⟩ := ipf_run_ok _ _ (minOK_fl _) (ratOK_accepted hok (by norm_num)) (properProb_fin hp)
    (fun v => .fin ((if proj [1] v = [0] then 1 else 2) * exDiagonal v))
  obtain ⟨e1, -, e2, -⟩ := C33_fixed_point hok.toProbShape hp hr (by intro v _; unfold exDiagonal; split <;> norm_num) (by
    intro q hq j hj
    have hj' := mem_allIdx.mpr hj
    simp only [exUnits, List.mem_cons, List.not_mem_nil, or_false] at hq
    rcases hq with rfl | rfl
    all_goals
      have : j = [0] ∨ j = [1] := by revert hj'; clear hj; revert j; decide
      rcases this with rfl | rfl <;> decide +kernel)
  obtain ⟨p0, n, -, n1, n2, n3, n4, n5, n6, n7, n8⟩ := ipf_exact_fin hok.toProbShape hp hr'
  refine ⟨hok, hp, r, r', hr, hr', e2, e1, ?_⟩
  rw [n6]
  rintro rfl
  rcases n3 with n3 | n3
  · exact absurd n3 (not_lt.mpr exDiagonal_one)
  · omega

/-- The hypotheses are met: the problem above with the first row of the seed multiplied by five and the second by minus one. -/
example : ProbShape [2, 2] exUnits ∧ ProperProb [2, 2] exUnits ∧
    ∀ j, InRange (projSizes [0] [2, 2]) j → (if j = [0] then (5 : ℚ) else -1) ≠ 0 :=
  ⟨C132_second.1.toProbShape, C132_second.2.1, fun j _ => by split <;> norm_num⟩

/-- and those for `qisi` and for double precision by the example problem with the seed of ones and the rows multiplied by different
powers of two. -/
example : ProbOK [2, 3] exProb 3 ∧ ProperProb [2, 3] exProb ∧ (allIdx [2, 3]).length ≤ 2 ^ 53 ∧
    (∀ v, InRange [2, 3] v → Moderate (-400) 400 (1 : ℚ)) ∧ ∀ j : List Int, |(if j = [0] then 10 else -3 : ℤ)| ≤ 400 :=
  ⟨exProb_ok, properProb_of_disjoint exProb_ok.toProbShape (by decide), by decide,
    fun _ _ => Or.inr ⟨zpow_le_one_of_nonpos₀ (by norm_num) (by norm_num), one_le_zpow₀ (by norm_num) (by norm_num)⟩,
    fun j => by split <;> norm_num⟩

end HL

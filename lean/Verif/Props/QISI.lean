import Verif.Props.IPF
import Verif.Proof.QISIDisjoint
import Verif.Props.Validation

/-
C36 and C41-C44 for `qisi`: quasirandom integer sampling from an IPF.

`qisi fp lm s P sd skips` is one call of `qisi` on the problem `P` for a table of sizes `s` with the seed `sd`; `fp` is
the floating-point arithmetic and `lm` the libm functions used for the p-value and the degeneracy.
-/

namespace HL
variable {fp : FP}

/-- One call of `qisi`, in a build without assertions: construct, then solve once. -/
abbrev qisi (fp : FP) (lm : Libm) (s : List Nat) (P : Prob Int) (sd : List Int → Fl) (skips : Int) : Out QISI :=
  QISI.run false fp lm (indicesOf P) (marginalsOf s P) (arr s sd) skips

/-! ### C44 -/

/-- **C44**: in exact arithmetic, if every fit performed on the way meets the marginals it is given, `qisi` returns
with `conv` true, for every number of skips from 0 to 2^31 and every population for which the Sobol sequence is long
enough. -/
theorem C44_conv (lm : Libm) {s : List Nat} {P : Prob Int} {pop : Int} (h : ProbOK s P pop) (hpop : pop ≤ 2 ^ 32 - 1)
    (hp : ProperProb s P) (hd : s.length ≤ 1111) {sd : List Int → Fl} {skips : Int} (h0 : 0 ≤ skips) (h1 : skips ≤ 2 ^ 31)
    (hfit : ∀ Q c, FitDone FP.exact s P sd Q c → ∃ b, (∀ v, InRange s v → c v = .fin (b v)) ∧ Meets s Q b) :
    ∃ x, qisi FP.exact lm s P sd skips = .ok x ∧ x.conv = true :=
  qisi_meets lm h hpop hp hd h0 h1 hfit

/-- The hypothesis about the fits holds whenever the seed is a positive constant and no two marginals share a
dimension, so there `qisi` always succeeds in exact arithmetic. -/
theorem C44_disjoint (lm : Libm) {s : List Nat} {P : Prob Int} {pop : Int} (h : ProbOK s P pop) (hpop : pop ≤ 2 ^ 32 - 1)
    (hd : (P.map Prod.fst).flatten.Nodup) (hl : s.length ≤ 1111) {k : ℚ} (hk : 0 < k) {skips : Int} (h0 : 0 ≤ skips)
    (h1 : skips ≤ 2 ^ 31) : ∃ x, qisi FP.exact lm s P (fun _ => .fin k) skips = .ok x ∧ x.conv = true :=
  C44_conv lm h hpop (properProb_of_disjoint h.toProbShape hd) hl h0 h1 (fitDone_disjoint h hd hk)

/-- In particular the problem `[1, 2]`, `[1, 1, 1]`: the hypothesis "`qisi` returns" of the theorems below is met. -/
theorem exProb_qisi (lm : Libm) {skips : Int} (h0 : 0 ≤ skips) (h1 : skips ≤ 2 ^ 31) :
    ∃ x, qisi FP.exact lm [2, 3] exProb (fun _ => .fin 1) skips = .ok x ∧ x.conv = true :=
  C44_disjoint lm exProb_ok (by norm_num) (by decide) (by decide) (by norm_num) h0 h1

theorem exProb_proper : ProperProb [2, 3] exProb := properProb_of_disjoint exProb_ok.toProbShape (by decide)

/-! ### C41 -/

/-- **C41**: when `qisi` returns, the result has the sizes of the table, no cell is negative, the cells sum to the
reported population, and `conv` is true exactly when every marginal is met.  For problems in which every marginal leaves
out a dimension (the others are known from the fit alone, C37). -/
theorem C41_population_conv (hfp : fp.Good) {lm : Libm} {s : List Nat} {P : Prob Int} {pop : Int} (h : ProbOK s P pop)
    (hpop : pop < 2 ^ 52) (hp : ProperProb s P) {sd : List Int → Fl} {skips : Int} {x : QISI}
    (hx : qisi fp lm s P sd skips = .ok x) :
    ∃ f, x.micro.array = arr s f ∧ (∀ v, InRange s v → 0 ≤ f v) ∧ ∑ v ∈ cells s, f v = x.micro.population ∧
      x.micro.population = pop ∧
      (x.conv = true ↔ ∀ p ∈ P, ∀ j, InRange (projSizes p.1 s) j → marginalSum s p.1 f j = p.2 j) := by
  obtain ⟨E, a, vs, hs⟩ := qisi_run_ok hfp h hpop hp hx
  have hpp : x.micro.population = pop := by rw [hs.at_.micro]; rfl
  refine ⟨fun v => (vs.count v : Int), by rw [hs.at_.micro], fun _ _ => Int.natCast_nonneg _, ?_, hpp, ?_⟩
  · rw [sum_count hs.placed.range, hs.size, hpp, Int.toNat_of_nonneg h.pop_nonneg]
  · rw [hs.conv, unspent_iff h hs.placed.range hs.size]

/-- **C41**, outcomes: on an accepted problem `qisi` never does anything undefined; it fails to terminate only when
`skips`, as an unsigned 32-bit number, is above 2^31. -/
theorem C41_outcomes (hfp : fp.Good) (lm : Libm) {s : List Nat} {P : Prob Int} {pop : Int} (h : ProbOK s P pop)
    (hpop : pop < 2 ^ 52) (hp : ProperProb s P) (sd : List Int → Fl) (skips : Int) :
    (∃ x, qisi fp lm s P sd skips = .ok x) ∨ (∃ e, qisi fp lm s P sd skips = .thrown e) ∨
      (2 ^ 31 < skips % 2 ^ 32 ∧ qisi fp lm s P sd skips = .diverges) := by
  rcases qisi_run_eq hfp lm h hpop (arr s sd) skips with ⟨-, e, h1, -⟩ | ⟨-, h1, h2⟩ | ⟨c, x0, h1, -, h3, -, h4⟩
  · exact Or.inr (Or.inl ⟨e, h1⟩)
  · exact Or.inr (Or.inr ⟨h1, h2⟩)
  · rw [qisi, h4]
    rcases qisi_solve_cases hfp lm h hpop hp h1 sd h3 false with h5 | ⟨E, a, vs, x', h5, -⟩
    · exact Or.inr (Or.inl h5)
    · exact Or.inl ⟨x', h5⟩

/-- A problem whose second marginal is the whole 2x2 table (all entries 1). -/
def exCoverI : Prob Int := [([0], fun _ => 2), ([0, 1], fun _ => 1)]

theorem exCoverI_ok : ProbOK [2, 2] exCoverI 4 := by
  refine ⟨⟨by decide, by decide, by decide, by simp [exCoverI], ?_⟩, ?_, ?_, ?_⟩
  · intro d hd
    simp only [List.length_cons, List.length_nil] at hd
    interval_cases d <;> simp [exCoverI]
  · intro p hp j hj
    simp only [exCoverI, List.mem_cons, List.not_mem_nil, or_false] at hp
    rcases hp with rfl | rfl <;> simp
  · intro p hp
    simp only [exCoverI, List.mem_cons, List.not_mem_nil, or_false] at hp
    rcases hp with rfl | rfl <;> rw [← sum_allIdx] <;> simp [projSizes, allIdx, List.range_succ]
  · have key : ∀ p ∈ exCoverI, ∀ a d, p.1[a]? = some d → ∀ x : Nat, x < 2 →
        marginalSum (projSizes p.1 [2, 2]) [a] p.2 [(x : Int)] = 2 := by
      intro p hp a d ha x hx
      have ha' : a < p.1.length := (List.getElem?_eq_some_iff.mp ha).1
      unfold marginalSum
      rw [← sum_filter_allIdx]
      simp only [exCoverI, List.mem_cons, List.not_mem_nil, or_false] at hp
      rcases hp with rfl | rfl
      · have : a = 0 := by simpa using ha'
        subst this
        interval_cases x <;> simp [projSizes, allIdx, List.range_succ, proj]
      · have : a < 2 := ha'
        interval_cases a <;> interval_cases x <;> simp [projSizes, allIdx, List.range_succ, proj]
    intro p hp q hq a b d ha hb x hx
    have hd : d < 2 := (exCoverI_dims p hp) d (List.mem_of_getElem? ha)
    have hx' : x < 2 := by
      interval_cases d <;> simpa using hx
    rw [key p hp a d ha x hx', key q hq b d hb x hx']
where
  exCoverI_dims : ∀ p ∈ exCoverI, ∀ d ∈ p.1, d < 2 := by simp [exCoverI]

/-- **C41**, the other problems: unless the table has too many dimensions for the Sobol generator or the skips do not
end, `qisi` ends as `ipf` does on the same problem whenever that does not return (C37: one marginal has more entries than the
table dimensions, covers all dimensions, or names one of size at least two twice). -/
theorem C41_improper (hfp : fp.Good) (lm : Libm) {s : List Nat} {P : Prob Int} {pop : Int} (h : ProbOK s P pop)
    (hpop : pop < 2 ^ 52) (hp : ¬ ProperProb s P) (hd : s.length ≤ 1111) (sd : List Int → Fl) {skips : Int}
    (hs : skips % 2 ^ 32 ≤ 2 ^ 31) :
    ∃ A p B, P = A ++ p :: B ∧ ProperProb s A ∧ ¬ ProperDims s p.1 ∧
      qisi fp lm s P sd skips = if s.length < p.1.length then .thrown .lengthError else .diverges := by
  have hg := h.toProbShape.good
  have h0 := h.pop_nonneg
  have hok : ProbOKG fp (numInt fp) s P pop := (probOK_iff hfp (fun p hp => by
    rw [h.total p hp, abs_lt]; omega)).mpr h
  rcases C37_outcomes (minOK_int fp) hok sd with ⟨h1, -⟩ | ⟨A, p, B, hP, hA, hpd, hr⟩
  · exact absurd h1 hp
  refine ⟨A, p, B, hP, hA, hpd, ?_⟩
  rcases qisi_run_eq hfp lm h hpop (arr s sd) skips with ⟨h1, -⟩ | ⟨-, h1, -⟩ | ⟨c, x, -, -, hx, -, h4⟩
  · omega
  · omega
  rw [qisi, h4]
  obtain ⟨g, hm⟩ := hx.micro
  obtain ⟨g1, e1⟩ := resize_either hg hx.ipf
  obtain ⟨g2, e2⟩ := resize_either hg hx.expected
  have es : x.micro.array.sizes = s := by rw [hm]; rfl
  have key : ∀ o : Out QISI, (∀ f : QISI → Out QISI, (o >>= f) = o) →
      (∀ y : QISI, y.micro = x.micro → QISI.recomputeIPF false fp (arr s sd) y = o) →
      QISI.solve false fp lm x (arr s sd) false = o := by
    intro o ho hrec
    unfold QISI.solve IPF.checkSeed QISI.resetIf QISI.begin
    rw [es, show (arr s sd).sizes = s from rfl, if_neg (by simp), if_neg (by simp)]
    simp only [Out.ok_bind, Out.pure_eq, Bool.false_eq_true, if_false]
    rw [es, e1]
    simp only [Out.ok_bind]
    rw [e2]
    simp only [Out.ok_bind]
    rw [hrec { x with ipf := arrO s g1, expected := arrO s g2 } rfl, ho, ho]
  refine key _ (fun f => by split_ifs <;> rfl) (fun y hy => ?_)
  unfold QISI.recomputeIPF
  rw [hy, show x.micro.indices = indicesOf P by rw [hm]; rfl, show x.micro.marginals = marginalsOf s P by rw [hm]; rfl, hr]
  split_ifs <;> rfl

/-- A 2x2 problem whose second marginal is the whole table is accepted, and `qisi` never returns on it. -/
example (lm : Libm) : ProbOK [2, 2] exCoverI 4 ∧ ¬ ProperProb [2, 2] exCoverI ∧
    qisi FP.exact lm [2, 2] exCoverI (fun _ => .fin 1) 0 = .diverges := by
  have hp : ¬ ProperProb [2, 2] exCoverI := by unfold ProperProb; decide
  refine ⟨exCoverI_ok, hp, ?_⟩
  obtain ⟨A, p, B, hP, -, -, h⟩ := C41_improper FP.exact_good lm exCoverI_ok (by norm_num) hp (by decide) (fun _ => .fin 1)
    (skips := 0) (by norm_num)
  rw [h, if_neg]
  have : p ∈ exCoverI := by rw [hP]; simp
  simp only [exCoverI, List.mem_cons, List.not_mem_nil, or_false] at this
  rcases this with rfl | rfl <;> decide

example (lm : Libm) : ProbOK [2, 3] exProb 3 ∧ ProperProb [2, 3] exProb ∧
    ∃ x, qisi FP.exact lm [2, 3] exProb (fun _ => .fin 1) 0 = .ok x := by
  obtain ⟨x, hx, -⟩ := exProb_qisi lm le_rfl (by norm_num)
  exact ⟨exProb_ok, exProb_proper, x, hx⟩

/-! ### C42 -/

/-- What the caller of `qisi` sees: the population, `ipf`, `conv`, `pop`, `chiSq`, `pValue`, `degeneracy`. -/
def QISI.visible (x : QISI) : NDArray Int × NDArray Fl × Bool × Int × Fl × Fl × Fl :=
  (x.micro.array, x.expected, x.conv, x.micro.population, x.chiSq, x.pValue, x.degeneracy)

/-- **C42 fails**: whatever the index lists, marginals and seed, any two numbers of skips with which a `qisi` object can
be constructed give the same outcome: the same exception, or results the caller cannot tell apart. -/
theorem C42_negation (fp : FP) (lm : Libm) (is : List (List Int)) (ms : List (NDArray Int)) (seed : NDArray Fl)
    {k l : Int} {xk xl : QISI} (hk : QISI.new fp is ms k = .ok xk) (hl : QISI.new fp is ms l = .ok xl) :
    (QISI.run false fp lm is ms seed k >>= fun x => .ok x.visible) =
      (QISI.run false fp lm is ms seed l >>= fun x => .ok x.visible) := by
  have he : xl = setGen xl.sobol xk := by
    unfold QISI.new at hk hl
    obtain ⟨m, hm, hk⟩ := Out.bind_eq_ok.mp hk
    rw [hm] at hl
    simp only [Out.ok_bind] at hl
    obtain ⟨g, hg, hk⟩ := Out.bind_eq_ok.mp hk
    rw [hg] at hl
    simp only [Out.ok_bind] at hl
    obtain ⟨g1, -, hk⟩ := Out.bind_eq_ok.mp hk
    obtain ⟨g2, -, hl⟩ := Out.bind_eq_ok.mp hl
    injection hk with hk
    injection hl with hl
    subst hk; subst hl
    rfl
  unfold QISI.run
  rw [hk, hl]
  simp only [Out.ok_bind]
  rw [he, solve_setGen, bind_assoc]
  rfl

/-- The hypotheses are met by every supported problem and all `k`, `l` from 0 to 2^31, here with 0 and 1000 skips. -/
example : ∃ xk xl, QISI.new FP.exact (indicesOf exProb) (marginalsOf [2, 3] exProb) 0 = .ok xk ∧
    QISI.new FP.exact (indicesOf exProb) (marginalsOf [2, 3] exProb) 1000 = .ok xl := by
  rcases qisi_run_eq FP.exact_good ⟨id, id, id, id, id⟩ exProb_ok (by norm_num) (arr [2, 3] (fun _ => .fin 1)) 0 with
    ⟨hb, -⟩ | ⟨-, hb, -⟩ | ⟨c, x0, -, -, -, h1, -⟩
  · simp at hb
  · norm_num at hb
  rcases qisi_run_eq FP.exact_good ⟨id, id, id, id, id⟩ exProb_ok (by norm_num) (arr [2, 3] (fun _ => .fin 1)) 1000 with
    ⟨hb, -⟩ | ⟨-, hb, -⟩ | ⟨c, x1, -, -, -, h2, -⟩
  · simp at hb
  · norm_num at hb
  exact ⟨x0, x1, h1, h2⟩

/-- **C42**, what is true: `qisi` always starts at the first point of the sequence; individual number `n` is drawn
with point number `n` (`Placed`), from the population fitted first and then whenever the cell drawn falls below zero;
the population returned counts the individuals, and the expectation is the first fit. -/
theorem C42_points_partial (hfp : fp.Good) {lm : Libm} {s : List Nat} {P : Prob Int} {pop : Int} (h : ProbOK s P pop)
    (hpop : pop < 2 ^ 52) (hp : ProperProb s P) {sd : List Int → Fl} {skips : Int} {x : QISI}
    (hx : qisi fp lm s P sd skips = .ok x) :
    ∃ vs a E, Placed fp s P sd vs a ∧ (vs.length : Int) = pop ∧ x.micro.array = arr s (fun v => (vs.count v : Int)) ∧
      Fit fp s P sd E ∧ x.expected = arr s E := by
  obtain ⟨E, a, vs, hs⟩ := qisi_run_ok hfp h hpop hp hx
  have := h.pop_nonneg
  have h2 := hs.size
  exact ⟨vs, a, E, hs.placed, by omega, by rw [hs.at_.micro], hs.fit, hs.expected⟩

/-- `Placed` determines the individuals. -/
theorem C42_placed_unique {s : List Nat} {P : Prob Int} {sd : List Int → Fl} (hd : s.length ≤ 1111)
    {hs hs' : List (List Int)} {a a' : List Int → Fl} (h : Placed fp s P sd hs a) (h' : Placed fp s P sd hs' a')
    (hl : hs.length = hs'.length) : hs = hs' ∧ ∀ v, InRange s v → a v = a' v := by
  induction h generalizing hs' a' with
  | start c hc =>
    cases h' with
    | start c' hc' => exact ⟨rfl, fit_unique hc hc'⟩
    | keep => simp at hl
    | refit => simp at hl
  | keep hs a seq v hpl hpt hdr hlt ih =>
    cases h' with
    | start => simp at hl
    | keep hs' a' seq' v' hpl' hpt' hdr' hlt' =>
      obtain ⟨rfl, ha⟩ := ih hpl' (by simpa using hl)
      obtain rfl := pointAt_unique hd hpt hpt'
      obtain rfl := drawn_unique (drawn_congr ha hdr) hdr'
      refine ⟨rfl, fun w hw => ?_⟩
      by_cases hwv : w = v
      · subst hwv; rw [Function.update_self, Function.update_self, ha w hw]
      · rw [Function.update_of_ne hwv, Function.update_of_ne hwv, ha w hw]
    | refit hs' a' seq' v' c' hpl' hpt' hdr' hlt' hc' =>
      obtain ⟨rfl, ha⟩ := ih hpl' (by simpa using hl)
      obtain rfl := pointAt_unique hd hpt hpt'
      obtain rfl := drawn_unique (drawn_congr ha hdr) hdr'
      rw [ha v hdr'.inRange, hlt'] at hlt
      cases hlt
  | refit hs a seq v c hpl hpt hdr hlt hc ih =>
    cases h' with
    | start => simp at hl
    | keep hs' a' seq' v' hpl' hpt' hdr' hlt' =>
      obtain ⟨rfl, ha⟩ := ih hpl' (by simpa using hl)
      obtain rfl := pointAt_unique hd hpt hpt'
      obtain rfl := drawn_unique (drawn_congr ha hdr) hdr'
      rw [ha v hdr'.inRange, hlt'] at hlt
      cases hlt
    | refit hs' a' seq' v' c' hpl' hpt' hdr' hlt' hc' =>
      obtain ⟨rfl, ha⟩ := ih hpl' (by simpa using hl)
      obtain rfl := pointAt_unique hd hpt hpt'
      obtain rfl := drawn_unique (drawn_congr ha hdr) hdr'
      exact ⟨rfl, fit_unique hc hc'⟩

/-! ### C43 -/

/-- **C43**: no individual is put where the seed is zero: if every cell of the seed is at least zero, every cell of the
result whose seed is zero is zero.  In exact arithmetic and in IEEE double precision. -/
theorem C43_zeros (hsg : fp = FP.exact ∨ ∃ sqrt, fp = FP.ieee sqrt) {lm : Libm} {s : List Nat} {P : Prob Int} {pop : Int}
    (h : ProbOK s P pop) (hpop : pop < 2 ^ 52) (hp : ProperProb s P) {sd : List Int → Fl}
    (hsd : ∀ v, InRange s v → FP.le (.fin 0) (sd v) = true) {skips : Int} {x : QISI}
    (hx : qisi fp lm s P sd skips = .ok x) {f : List Int → Int} (hf : x.micro.array = arr s f) :
    ∀ v, InRange s v → sd v = .fin 0 → f v = 0 := by
  have hok : fp.Good ∧ SignOK fp := by
    rcases hsg with rfl | ⟨sqrt, rfl⟩
    · exact ⟨FP.exact_good, signOK_exact⟩
    · exact ⟨FP.ieee_good sqrt, signOK_ieee sqrt⟩
  obtain ⟨E, a, vs, hs⟩ := qisi_run_ok hok.1 h hpop hp hx
  have hz := (placed_zero hok.2 h.toProbShape hp (fun v hv => Or.inr (hsd v hv)) hs.placed).2.2
  have ha : x.micro.array = arr s (fun v => (vs.count v : Int)) := by rw [hs.at_.micro]
  rw [hf] at ha
  intro v hv hv0
  rw [arr_inj ha v hv]
  have : vs.count v = 0 := List.count_eq_zero.mpr (fun hm => hz v hm hv0)
  rw [this]; rfl

/-- A problem and a seed with zeros on which `qisi` succeeds: all three individuals have to be in the second row. -/
example (lm : Libm) : ∃ x, qisi FP.exact lm [2, 3] exRow exRowSeed 0 = .ok x ∧ x.conv = true ∧
    (∀ v, InRange [2, 3] v → FP.le (.fin 0) (exRowSeed v) = true) ∧ exRowSeed [0, 1] = .fin 0 := by
  obtain ⟨x, hx, hc⟩ := C44_conv lm exRow_ok (by norm_num) exRow_proper (by decide) le_rfl (by norm_num) exRow_fits
  refine ⟨x, hx, hc, fun v _ => ?_, by decide⟩
  unfold exRowSeed exRowB
  split <;> decide

/-! ### C36 -/

/-- **C36** for `qisi`: with a seed of any shape other than that of the table an exception is raised, about the number of
dimensions or about the sizes. -/
theorem C36_qisi_seed_shape (hfp : fp.Good) (lm : Libm) {s : List Nat} {P : Prob Int} {pop : Int} (h : ProbOK s P pop)
    (hpop : pop < 2 ^ 52) (hd : s.length ≤ 1111) {t : List Nat} (g : List Int → Option Fl) (hts : t ≠ s) {skips : Int}
    (h0 : 0 ≤ skips) (h1 : skips ≤ 2 ^ 31) :
    QISI.run false fp lm (indicesOf P) (marginalsOf s P) (arrO t g) skips =
      .thrown (if t.length ≠ s.length then .seedDims else .seedSizes) := by
  rcases qisi_run_eq hfp lm h hpop (arrO t g) skips with ⟨hb, -⟩ | ⟨-, hb, -⟩ | ⟨c, x, -, -, hx, -, he⟩
  · omega
  · omega
  · rw [he]
    obtain ⟨g', hg'⟩ := hx.micro
    unfold QISI.solve IPF.checkSeed
    have e1 : x.micro.array.sizes = s := by rw [hg']; rfl
    have e2 : (arrO t g).sizes = t := rfl
    rw [e1, e2]
    by_cases hl : t.length = s.length
    · simp [hl, hts]
    · simp [hl]

end HL

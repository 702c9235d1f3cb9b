import Verif.Proof.MicroInt
import Mathlib.Tactic.IntervalCases

/-
C19, C20: which inputs the solvers accept, and the population they report.

`ipf`, `qis` and `qisi` all construct a `Microsynthesis` object from the caller's index and marginal lists;
`Micro.new` is that constructor.
-/

namespace HL

/-! ### C19 -/

/-- **C19**, integer marginals (`qis`, `qisi`; totals below 2^52).  For any index lists whatsoever and any
marginal arrays without empty dimensions, the input is accepted exactly when it describes a consistent problem,
and otherwise an exception is raised. -/
theorem C19_validation_int {β : Type} {fp : FP} (hfp : fp.Good) (is : List (List Int))
    (ms : List (List Nat × (List Int → Int))) (hg : ∀ m ∈ ms, GoodShape m.1)
    (hsm : ∀ m ∈ ms, |∑ j ∈ cells m.1, m.2 j| < 2 ^ 52) :
    ((∃ m, Micro.new (β := β) fp (numInt fp) is (ms.map (fun m => arr m.1 m.2)) = .ok m) ↔
      ∃ (s : List Nat) (P : Prob Int) (pop : Int), is = indicesOf P ∧
        ms.map (fun m => arr m.1 m.2) = marginalsOf s P ∧ ProbOK s P pop) ∧
    ((¬ ∃ m, Micro.new (β := β) fp (numInt fp) is (ms.map (fun m => arr m.1 m.2)) = .ok m) →
      ∃ e, Micro.new (β := β) fp (numInt fp) is (ms.map (fun m => arr m.1 m.2)) = .thrown e) := by
  have htot : ∀ {s : List Nat} {P : Prob Int}, ms.map (fun m => arr m.1 m.2) = marginalsOf s P →
      ∀ p ∈ P, |∑ j ∈ cells (projSizes p.1 s), p.2 j| < 2 ^ 52 := by
    intro s P h p hp
    have hmem : arr (projSizes p.1 s) p.2 ∈ ms.map (fun m => arr m.1 m.2) := by
      rw [h]; exact List.mem_map.mpr ⟨p, hp, rfl⟩
    obtain ⟨m, hm, he⟩ := List.mem_map.mp hmem
    have hs : m.1 = projSizes p.1 s := congrArg NDArray.sizes he
    rw [hs] at he
    have := hsm m hm
    rw [hs] at this
    rw [Finset.sum_congr rfl (fun j hj => (arr_inj he j (mem_cells.mp hj)).symm)]
    exact this
  have key : (∃ (s : List Nat) (P : Prob Int) (pop : Int), is = indicesOf P ∧
        ms.map (fun m => arr m.1 m.2) = marginalsOf s P ∧ ProbOK s P pop ∧
        Micro.new (β := β) fp (numInt fp) is (ms.map (fun m => arr m.1 m.2)) = .ok (mkMicro β s P pop)) ∨
      ((∃ e, Micro.new (β := β) fp (numInt fp) is (ms.map (fun m => arr m.1 m.2)) = .thrown e)) := by
    rcases new_raw (β := β) fp (numInt fp) (minOK_int fp) is ms hg with ⟨s, P, h1, h2, h3⟩ | h
    · have hm : ms.map (fun m => arr m.1 m.2) = marginalsOf s P := by rw [h2, marginalsOf_eq]
      have hsm' := htot hm
      rcases new_shape (β := β) fp (numInt fp) (minOK_int fp) h3 (fun p hp => by
        unfold roundedTotal
        rw [seqSum_int]
        exact rounded_int_ok hfp (hsm' p hp)) with ⟨pop, h4, h5⟩ | ⟨h4, -⟩
      · left
        exact ⟨s, P, pop, h1, hm, (probOK_iff hfp hsm').mp h4, by rw [hm, h1]; exact h5⟩
      · right
        rw [hm, h1]; exact h4
    · exact Or.inr h
  refine ⟨⟨?_, ?_⟩, ?_⟩
  · rintro ⟨m, hm⟩
    rcases key with ⟨s, P, pop, h1, h2, h3, -⟩ | ⟨e, he⟩
    · exact ⟨s, P, pop, h1, h2, h3⟩
    · rw [he] at hm; cases hm
  · rintro ⟨s, P, pop, h1, h2, h3⟩
    have hp : pop < 2 ^ 52 := by
      have hl := h3.lists
      obtain ⟨p, hp⟩ : ∃ p, p ∈ P := by
        cases P with
        | nil => simp at hl
        | cons p _ => exact ⟨p, by simp⟩
      have := htot h2 p hp
      rw [h3.total p hp] at this
      exact (abs_lt.mp this).2
    exact ⟨_, by rw [h1, h2]; exact micro_new_int hfp h3 hp⟩
  · intro hno
    rcases key with ⟨s, P, pop, -, -, -, h4⟩ | h
    · exact absurd ⟨_, h4⟩ hno
    · exact h

/-- A consistent 2x3 problem: `[1, 2]` along dimension 0 and `[1, 1, 1]` along dimension 1. -/
def exProb : Prob Int := [([0], fun j => j.getD 0 0 + 1), ([1], fun _ => 1)]

theorem exProb_ok : ProbOK [2, 3] exProb 3 where
  lists := by decide
  two := by decide
  pos := by decide
  dims := by simp [exProb]
  cover := by
    intro d hd
    simp only [List.length_cons, List.length_nil] at hd
    interval_cases d <;> simp [exProb]
  nonneg := by
    intro p hp j hj
    simp only [exProb, List.mem_cons, List.not_mem_nil, or_false] at hp
    rcases hp with rfl | rfl
    · have := inRange_getD hj (d := 0) (by decide)
      simp only at *; omega
    · simp
  total := by simp [exProb]; decide
  partials := by
    intro p hp q hq a b d ha hb x _
    simp only [exProb, List.mem_cons, List.not_mem_nil, or_false] at hp hq
    rcases hp with rfl | rfl <;> rcases hq with rfl | rfl
    all_goals
      rw [List.getElem?_singleton] at ha hb
      split at ha <;> split at hb <;> simp_all
    all_goals omega

/-- The hypotheses are met by the problem above (accepted) and by one with different totals (rejected). -/
example : ∃ ms : List (List Nat × (List Int → Int)), (∀ m ∈ ms, GoodShape m.1) ∧
    (∀ m ∈ ms, |∑ j ∈ cells m.1, m.2 j| < 2 ^ 52) ∧
    ms.map (fun m => arr m.1 m.2) = marginalsOf [2, 3] exProb ∧ ProbOK [2, 3] exProb 3 :=
  ⟨[([2], fun j => j.getD 0 0 + 1), ([3], fun _ => 1)], by decide, by decide, rfl, exProb_ok⟩

/-- **C19**, both element types (`ipf` uses `double`), in the code's own comparisons: whenever adding one half
to each total gives a number that fits in 64 bits, the input is accepted exactly when it describes a problem
with no negative entry, the same rounded total everywhere and 1-d sums within `1e-8` (`ProbOKG`), and otherwise an
exception is raised.
Partial: for totals that are infinite, NaN or at least 2^63 the behaviour is undefined
(`C19_negation_infinite_total`), and comparing after rounding accepts totals that differ by almost one. -/
theorem C19_validation_partial {α β : Type} (fp : FP) (N : Num α) (hN : MinOK N) (is : List (List Int))
    (ms : List (List Nat × (List Int → α))) (hg : ∀ m ∈ ms, GoodShape m.1)
    (hc : ∀ m ∈ ms, ∃ t, FP.toInt64 (fp.add (N.toFl (seqSum N m.1 m.2)) (.fin (1 / 2))) = .ok t) :
    ((∃ m, Micro.new (β := β) fp N is (ms.map (fun m => arr m.1 m.2)) = .ok m) ↔
      ∃ (s : List Nat) (P : Prob α) (pop : Int), is = indicesOf P ∧
        ms = P.map (fun p => (projSizes p.1 s, p.2)) ∧ ProbOKG fp N s P pop) ∧
    ((¬ ∃ m, Micro.new (β := β) fp N is (ms.map (fun m => arr m.1 m.2)) = .ok m) →
      ∃ e, Micro.new (β := β) fp N is (ms.map (fun m => arr m.1 m.2)) = .thrown e) := by
  have hcP : ∀ {s : List Nat} {P : Prob α}, ms = shapesOf s P →
      ∀ p ∈ P, ∃ t, roundedTotal fp N (projSizes p.1 s, p.2) = .ok t := by
    rintro s P h p hp
    exact hc (projSizes p.1 s, p.2) (by rw [h]; exact List.mem_map.mpr ⟨p, hp, rfl⟩)
  have key : (∃ (s : List Nat) (P : Prob α) (pop : Int), is = indicesOf P ∧ ms = shapesOf s P ∧ ProbOKG fp N s P pop ∧
        Micro.new (β := β) fp N is (ms.map (fun m => arr m.1 m.2)) = .ok (mkMicro β s P pop)) ∨
      (∃ e, Micro.new (β := β) fp N is (ms.map (fun m => arr m.1 m.2)) = .thrown e) := by
    rcases new_raw (β := β) fp N hN is ms hg with ⟨s, P, h1, h2, h3⟩ | h
    · have hm : ms.map (fun m => arr m.1 m.2) = marginalsOf s P := by rw [h2, marginalsOf_eq]
      rcases new_shape (β := β) fp N hN h3 (hcP h2) with ⟨pop, h4, h5⟩ | ⟨h4, -⟩
      · left
        exact ⟨s, P, pop, h1, h2, h4, by rw [hm, h1]; exact h5⟩
      · right
        rw [hm, h1]; exact h4
    · exact Or.inr h
  refine ⟨⟨?_, ?_⟩, ?_⟩
  · rintro ⟨m, hm⟩
    rcases key with ⟨s, P, pop, h1, h2, h3, -⟩ | ⟨e, he⟩
    · exact ⟨s, P, pop, h1, h2, h3⟩
    · rw [he] at hm; cases hm
  · rintro ⟨s, P, pop, h1, h2, h3⟩
    rcases new_shape (β := β) fp N hN h3.toProbShape (hcP h2) with ⟨pop', h4, h5⟩ | ⟨-, h4⟩
    · exact ⟨_, by
        rw [show ms.map (fun m => arr m.1 m.2) = marginalsOf s P by
          rw [marginalsOf_eq]; exact congrArg _ h2, h1]
        exact h5⟩
    · exact absurd h3 (h4 pop)
  · intro hno
    rcases key with ⟨s, P, pop, -, -, -, h4⟩ | h
    · exact absurd ⟨_, h4⟩ hno
    · exact h

/-- The element types of the library qualify. -/
example (fp : FP) : MinOK (numInt fp) ∧ MinOK (numFl fp) := ⟨minOK_int fp, minOK_fl fp⟩

/-- Two 1-d marginals of sizes 2 and 3 with every entry `x`. -/
def exConst (x : Fl) : Prob Fl := [([0], fun _ => x), ([1], fun _ => x)]

theorem exConst_shape (x : Fl) : ProbShape [2, 3] (exConst x) where
  lists := by simp [exConst]
  two := by decide
  pos := by decide
  dims := by simp [exConst]
  cover := by
    intro d hd
    simp only [List.length_cons, List.length_nil] at hd
    interval_cases d <;> simp [exConst]

/-- **C19**, negation for floating-point totals that are not finite: the marginals `[inf, inf]` and
`[inf, inf, inf]` are not rejected with an exception, converting the total to an integer is undefined. -/
theorem C19_negation_infinite_total {β : Type} (fp : FP) :
    Micro.new (β := β) fp (numFl fp) (indicesOf (exConst .pinf)) (marginalsOf [2, 3] (exConst .pinf)) =
      .ub .badCast := by
  have h := exConst_shape .pinf
  obtain ⟨m', h1, h2, h3⟩ := shape_stage h
  unfold Micro.new
  rw [if_neg (by simp [indicesOf, marginalsOf, exConst]), h1]
  simp only [Out.ok_bind]
  rw [if_neg (by simp at h2; omega)]
  have hlk : Micro.lookupAll (List.replicate m'.length []) 0 (indicesOf (exConst .pinf)) =
      .ok ((List.range 2).map (fun d => places d 0 ((exConst .pinf).map Prod.fst))) := by
    rw [h2]; decide
  rcases checkNonneg_cases (numFl fp) (minOK_fl fp) (shapesOf [2, 3] (exConst .pinf)) (by decide) with
    ⟨h4, -⟩ | ⟨-, m, hm, j, -, hneg⟩
  swap
  · simp only [shapesOf, exConst, List.map_cons, List.map_nil, List.mem_cons, List.not_mem_nil, or_false] at hm
    rcases hm with rfl | rfl <;> simp [numFl, FP.lt] at hneg
  rw [marginalsOf_eq, h4]
  simp only [Out.ok_bind]
  rw [h3]
  simp only [Out.ok_bind]
  rw [hlk]
  simp only [Out.ok_bind]
  rw [← marginalsOf_eq]
  simp only [marginalsOf, exConst, List.map_cons, List.map_nil]
  rw [roundedSum_eq]
  simp [seqSum, projSizes, allIdx, List.range_succ, numFl, FP.add, FP.toInt64]

/-! ### C20 -/

/-- **C20**, integer marginals: for every accepted input with totals below 2^52 the population reported is
the total of every marginal. -/
theorem C20_population_int {β : Type} {fp : FP} (hfp : fp.Good) (is : List (List Int))
    (ms : List (List Nat × (List Int → Int))) (hg : ∀ m ∈ ms, GoodShape m.1)
    (hsm : ∀ m ∈ ms, |∑ j ∈ cells m.1, m.2 j| < 2 ^ 52) {r : Micro β Int}
    (h : Micro.new (β := β) fp (numInt fp) is (ms.map (fun m => arr m.1 m.2)) = .ok r) :
    ∀ m ∈ ms, r.population = ∑ j ∈ cells m.1, m.2 j := by
  obtain ⟨s, P, pop, h1, h2, h3⟩ := (C19_validation_int (β := β) hfp is ms hg hsm).1.mp ⟨r, h⟩
  have htot : ∀ m ∈ ms, ∑ j ∈ cells m.1, m.2 j = pop := by
    intro m hm
    have hmem : arr m.1 m.2 ∈ marginalsOf s P := by rw [← h2]; exact List.mem_map.mpr ⟨m, hm, rfl⟩
    obtain ⟨p, hp, he⟩ := List.mem_map.mp hmem
    have hs : projSizes p.1 s = m.1 := congrArg NDArray.sizes he
    rw [← h3.total p hp]
    rw [hs] at he ⊢
    exact Finset.sum_congr rfl (fun j hj => (arr_inj he j (mem_cells.mp hj)).symm)
  have hpop : pop < 2 ^ 52 := by
    have hl := h3.lists
    have hne : ms ≠ [] := by
      rintro rfl
      have := congrArg List.length h2
      simp [marginalsOf] at this
      omega
    obtain ⟨m, hm⟩ := List.exists_mem_of_ne_nil ms hne
    have := hsm m hm
    rw [htot m hm] at this
    exact (abs_lt.mp this).2
  have := micro_new_int (β := β) hfp h3 hpop
  rw [h2, h1, this] at h
  injection h with h
  intro m hm
  rw [← h, htot m hm]; rfl

/-- The hypotheses are met: the example problem is accepted, with population 3. -/
example (fp : FP) (hfp : fp.Good) :
    ∃ r : Micro Int Int, Micro.new fp (numInt fp) (indicesOf exProb) (marginalsOf [2, 3] exProb) = .ok r ∧
      r.population = 3 :=
  ⟨_, micro_new_int hfp exProb_ok (by norm_num), rfl⟩

/-- Accepted floating-point problems in exact arithmetic: the population is within one half of every total
(for a total half-way between two integers, the larger). -/
theorem C20_population_float {β : Type} (is : List (List Int))
    (ms : List (List Nat × (List Int → ℚ))) (hg : ∀ m ∈ ms, GoodShape m.1)
    (hsm : ∀ m ∈ ms, |∑ j ∈ cells m.1, m.2 j| < 2 ^ 62) {r : Micro β Fl}
    (h : Micro.new (β := β) FP.exact (numFl FP.exact) is (ms.map (fun m => arr m.1 (fun j => Fl.fin (m.2 j)))) =
      .ok r) :
    ∀ m ∈ ms, (r.population : ℚ) - 1 / 2 ≤ ∑ j ∈ cells m.1, m.2 j ∧
      ∑ j ∈ cells m.1, m.2 j < (r.population : ℚ) + 1 / 2 := by
  have hsum : ∀ (t : List Nat) (g : List Int → ℚ), seqSum (numFl FP.exact) t (fun j => .fin (g j)) =
      .fin (∑ j ∈ cells t, g j) := by
    intro t g
    unfold seqSum
    have : ∀ (l : List (List Int)) (a : ℚ), l.foldl (fun acc v => (numFl FP.exact).add acc (.fin (g v))) (.fin a) =
        .fin (l.foldl (fun acc v => acc + g v) a) := by
      intro l
      induction l with
      | nil => simp
      | cons x l ih => intro a; simp only [List.foldl_cons]; exact ih (a + g x)
    have h0 := this (allIdx t) 0
    rw [foldl_add_sum g (allIdx t) 0, zero_add, sum_allIdx] at h0
    exact h0
  have hcast : ∀ q : ℚ, |q| < 2 ^ 62 → ∃ t, FP.toInt64 (.fin (q + 1 / 2)) = .ok t := by
    intro q hq
    have h1 := abs_lt.mp hq
    have : -2 ^ 63 ≤ FP.truncQ (q + 1 / 2) ∧ FP.truncQ (q + 1 / 2) < 2 ^ 63 := by
      unfold FP.truncQ
      split
      · constructor
        · refine le_trans ?_ (Int.floor_nonneg.mpr (by assumption)); norm_num
        · rw [Int.floor_lt]; push_cast; linarith
      · constructor
        · rw [← Int.lt_add_one_iff]
          have : ((-2 ^ 63 : Int) : ℚ) < ((⌈q + 1 / 2⌉ + 1 : Int) : ℚ) := by
            have := Int.le_ceil (q + 1 / 2)
            push_cast; linarith
          exact_mod_cast this
        · have : ⌈q + 1 / 2⌉ ≤ 0 := Int.ceil_le.mpr (by push_cast; linarith)
          omega
    unfold FP.toInt64
    simp only []
    rw [if_pos this]
    exact ⟨_, rfl⟩
  have hmap : ms.map (fun m => arr m.1 (fun j => Fl.fin (m.2 j))) =
      (ms.map (fun m => (m.1, fun j => Fl.fin (m.2 j)))).map (fun m => arr m.1 m.2) := by simp
  rw [hmap] at h
  have hg' : ∀ m ∈ ms.map (fun m => (m.1, fun j => Fl.fin (m.2 j))), GoodShape m.1 := by
    intro m hm
    obtain ⟨x, hx, rfl⟩ := List.mem_map.mp hm
    exact hg x hx
  have hc' : ∀ m ∈ ms.map (fun m => (m.1, fun j => Fl.fin (m.2 j))), ∃ t, FP.toInt64 (FP.exact.add
      ((numFl FP.exact).toFl (seqSum (numFl FP.exact) m.1 m.2)) (.fin (1 / 2))) = .ok t := by
    intro m hm
    obtain ⟨x, hx, rfl⟩ := List.mem_map.mp hm
    simp only
    rw [hsum]
    exact hcast _ (hsm x hx)
  obtain ⟨s, P, pop, h1, h2, h3⟩ := (C19_validation_partial (β := β) FP.exact (numFl FP.exact) (minOK_fl _) is _ hg' hc').1.mp ⟨r, h⟩
  have hr : r = mkMicro β s P pop := by
    rcases new_shape (β := β) FP.exact (numFl FP.exact) (minOK_fl _) h3.toProbShape
        (fun p hp => ⟨pop, h3.total p hp⟩) with ⟨pop', h4, h5⟩ | ⟨-, h4⟩
    · rw [show (ms.map (fun m => (m.1, fun j => Fl.fin (m.2 j)))).map (fun m => arr m.1 m.2) = marginalsOf s P by
        rw [marginalsOf_eq]; exact congrArg _ h2, h1, h5] at h
      injection h with h
      have hl := h3.lists
      obtain ⟨p, hp⟩ : ∃ p, p ∈ P := by
        cases P with
        | nil => simp at hl
        | cons p _ => exact ⟨p, by simp⟩
      have e1 := h3.total p hp
      rw [h4.total p hp] at e1
      injection e1 with e1
      rw [← h, e1]
    · exact absurd h3 (h4 pop)
  intro m hm
  have hmem : (m.1, fun j => Fl.fin (m.2 j)) ∈ P.map (fun p => (projSizes p.1 s, p.2)) := by
    rw [← h2]; exact List.mem_map.mpr ⟨m, hm, rfl⟩
  obtain ⟨p, hp, he⟩ := List.mem_map.mp hmem
  have ht := h3.total p hp
  have hn := h3.nonneg p hp
  simp only [Prod.mk.injEq] at he
  rw [he.1, he.2] at ht hn
  rw [hsum] at ht
  have hnn : 0 ≤ ∑ j ∈ cells m.1, m.2 j := by
    apply Finset.sum_nonneg
    intro j hj
    have := hn j (mem_cells.mp hj)
    simpa [numFl, FP.lt] using this
  have ht' : FP.toInt64 (.fin (∑ j ∈ cells m.1, m.2 j + 1 / 2)) = .ok pop := ht
  unfold FP.toInt64 at ht'
  simp only [] at ht'
  split at ht'
  · injection ht' with ht'
    unfold FP.truncQ at ht'
    rw [if_pos (by linarith)] at ht'
    rw [hr]
    show ((pop : Int) : ℚ) - 1 / 2 ≤ _ ∧ _ < ((pop : Int) : ℚ) + 1 / 2
    rw [Int.floor_eq_iff] at ht'
    constructor <;> linarith [ht'.1, ht'.2]
  · cases ht'

/-- The bound on the totals in `C20_population_int` is sharp: in IEEE arithmetic two marginals with the single
entry 2^52 + 1 are reported as a population of 2^52 + 2. -/
theorem C20_bound_is_sharp (sqrt : Fl → Fl) :
    ∃ r : Micro Int Int, Micro.new (FP.ieee sqrt) (numInt (FP.ieee sqrt)) [[0], [1]]
      [arr [1] (fun _ => 2 ^ 52 + 1), arr [1] (fun _ => 2 ^ 52 + 1)] = .ok r ∧
      r.population = 2 ^ 52 + 2 := by
  let P : Prob Int := [([0], fun _ => 2 ^ 52 + 1), ([1], fun _ => 2 ^ 52 + 1)]
  have hP : ProbShape [1, 1] P := by
    refine ⟨by decide, by decide, by decide, by simp [P], ?_⟩
    intro d hd
    simp only [List.length_cons, List.length_nil] at hd
    interval_cases d <;> simp [P]
  have hone : FP.toInt64 ((FP.ieee sqrt).add ((FP.ieee sqrt).ofInt (2 ^ 52 + 1)) (.fin (1 / 2))) =
      .ok (2 ^ 52 + 2) := by
    rw [ofInt_exact (FP.ieee_good sqrt) (by norm_num)]
    show FP.toInt64 (FP.rndIeee ((((2 ^ 52 + 1 : Int)) : ℚ) + 1 / 2)) = _
    have hl : FP.ilog2 ((((2 ^ 52 + 1 : Int)) : ℚ) + 1 / 2) = 52 := by
      apply FP.ilog2_unique <;> norm_num
    have hu : FP.ulp ((((2 ^ 52 + 1 : Int)) : ℚ) + 1 / 2) = 1 := by
      unfold FP.ulp; rw [hl]; norm_num
    have hr : FP.rne ((((2 ^ 52 + 1 : Int)) : ℚ) + 1 / 2) = 2 ^ 52 + 2 := by
      have hf : ⌊(((2 ^ 52 + 1 : Int)) : ℚ) + 1 / 2⌋ = 2 ^ 52 + 1 := by
        rw [Int.floor_eq_iff]; norm_num
      unfold FP.rne
      simp only [hf]
      norm_num
    rw [FP.rndIeee_pos (by norm_num), hu, div_one, hr]
    have hb : ¬ ((2 : ℚ) ^ 1024 ≤ (((2 ^ 52 + 2 : Int)) : ℚ) * 1) := by
      have h1 : (((2 ^ 52 + 2 : Int)) : ℚ) * 1 < 2 ^ 60 := by norm_num
      have h2 : (2 : ℚ) ^ 60 ≤ 2 ^ 1024 := pow_le_pow_right₀ (by norm_num) (by norm_num)
      exact not_le.mpr (lt_of_lt_of_le h1 h2)
    rw [if_neg hb]
    norm_num [FP.toInt64, FP.truncQ]
  have htot : ∀ p ∈ P, FP.toInt64 ((FP.ieee sqrt).add ((numInt (FP.ieee sqrt)).toFl
      (seqSum (numInt (FP.ieee sqrt)) (projSizes p.1 [1, 1]) p.2)) (.fin (1 / 2))) = .ok (2 ^ 52 + 2) := by
    intro p hp
    have : seqSum (numInt (FP.ieee sqrt)) (projSizes p.1 [1, 1]) p.2 = 2 ^ 52 + 1 := by
      simp only [P, List.mem_cons, List.not_mem_nil, or_false] at hp
      rcases hp with rfl | rfl <;> simp [seqSum, projSizes, allIdx, numInt]
    rw [this]; exact hone
  have hok : ProbOKG (FP.ieee sqrt) (numInt (FP.ieee sqrt)) [1, 1] P (2 ^ 52 + 2) := by
    refine ⟨hP, ?_, htot, ?_⟩
    · intro p hp j hj
      simp only [P, List.mem_cons, List.not_mem_nil, or_false] at hp
      rcases hp with rfl | rfl <;> simp [numInt]
    · intro d hd p q hp hq
      simp only [List.length_cons, List.length_nil] at hd
      interval_cases d <;> simp [P, places, placesIn] at hq
  rcases new_shape (β := Int) (FP.ieee sqrt) (numInt (FP.ieee sqrt)) (minOK_int _) hP
      (fun p hp => ⟨_, htot p hp⟩) with ⟨pop', h4, h5⟩ | ⟨-, h4⟩
  · refine ⟨_, h5, ?_⟩
    have := h4.total _ (List.mem_cons_self (l := [([1], fun _ => 2 ^ 52 + 1)]) (a := ([0], fun _ => 2 ^ 52 + 1)))
    rw [htot _ (by simp [P])] at this
    injection this with this
    exact this.symm
  · exact absurd hok (h4 _)

end HL

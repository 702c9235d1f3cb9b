import Verif.Proof.ChiBound
import Verif.Props.Stats
import Verif.Props.Whole

/-
C28 for `qisi`: the chi-squared statistic reported with the result.
-/

namespace HL
open Integerise
variable {fp : FP}

/-- **C28** for `qisi`, what is true: in exact arithmetic, when no marginal entry and no cell of the seed is zero, the reported
expectation is positive everywhere, and `chiSq` is a number, the sum over the cells of the squared difference between result and
expectation divided by the expectation. -/
theorem C28_qisi_partial {lm : Libm} {s : List Nat} {P : Prob Int} {pop : Int} (h : ProbOK s P pop) (hpop : pop < 2 ^ 52)
    (hp : ProperProb s P) (hpos : ∀ p ∈ P, ∀ j, InRange (projSizes p.1 s) j → 0 < p.2 j) {sd : List Int → ℚ}
    (hsd : ∀ v, InRange s v → 0 < sd v) {skips : Int} {x : QISI} (hx : qisi FP.exact lm s P (fun v => .fin (sd v)) skips = .ok x) :
    ∃ (f : List Int → Int) (E : List Int → ℚ), x.micro.array = arr s f ∧ x.expected = arr s (fun v => .fin (E v)) ∧
      (∀ v, InRange s v → 0 < E v) ∧ x.chiSq = .fin (∑ v ∈ cells s, (f v - E v) ^ 2 / E v) := by
  obtain ⟨E, a, vs, hs⟩ := qisi_run_ok FP.exact_good h hpop hp hx
  obtain ⟨n, -, hE, -⟩ := fit_exact h.toProbShape hp (fun v _ => rfl) hs.fit
  have hEp : ∀ v, InRange s v → 0 < (qsweep s (ratProb P))^[n] sd v := by
    clear hE
    induction n with
    | zero => exact hsd
    | succ n ih =>
      rw [Function.iterate_succ_apply']
      refine qsweep_pos _ ?_ ?_ ih
      · intro q hq
        obtain ⟨p, hp, rfl⟩ := List.mem_map.mp hq
        exact (h.dims p hp).2
      · intro q hq j hj
        obtain ⟨p, hp, rfl⟩ := List.mem_map.mp hq
        show (0 : ℚ) < (p.2 j : ℚ)
        exact_mod_cast hpos p hp j hj
  refine ⟨fun v => (vs.count v : Int), (qsweep s (ratProb P))^[n] sd, by rw [hs.at_.micro], ?_, hEp, ?_⟩
  · rw [hs.expected]
    exact arr_congr fun v hv => hE v hv
  · rw [hs.chiSq]
    exact chiSqVal_exact (fun v hv => hE v hv) (fun v hv => (hEp v hv).ne')

/-- **C28** for `qisi` in any arithmetic with `FP.Good`, in particular binary64: when every reported expectation is a number
between `2^-804` and `2^53`, `chiSq` is a number, not negative, and agrees with the sum over the cells of the squared difference
between the result and the reported expectation divided by the expectation, up to one rounding for each cell and four more, and
an absolute error of `2^-80`. -/
theorem C28_qisi_rounded_partial (hfp : fp.Good) {lm : Libm} {s : List Nat} {P : Prob Int} {pop : Int} (h : ProbOK s P pop)
    (hpop : pop < 2 ^ 52) (hp : ProperProb s P) (hsz : prodSizes s + 4 ≤ 2 ^ 52) {sd : List Int → Fl} {skips : Int} {x : QISI}
    (hx : qisi fp lm s P sd skips = .ok x) {f : List Int → Int} (hf : x.micro.array = arr s f) {E : List Int → ℚ}
    (hE : x.expected = arr s (fun v => .fin (E v))) (hlo : ∀ v, InRange s v → 1 / 2 ^ 804 ≤ E v)
    (hhi : ∀ v, InRange s v → E v ≤ 2 ^ 53) :
    ∃ c, x.chiSq = .fin c ∧ 0 ≤ c ∧ ∀ X : ℚ, X = ∑ v ∈ cells s, (f v - E v) ^ 2 / E v →
        (1 - (prodSizes s + 4) / 2 ^ 53) * X - 1 / 2 ^ 80 ≤ c ∧ (1 - (prodSizes s + 4) / 2 ^ 53) * c - 1 / 2 ^ 80 ≤ X := by
  obtain ⟨E', a, vs, hs⟩ := qisi_run_ok hfp h hpop hp hx
  have hm : x.micro.array = arr s (fun v => (vs.count v : Int)) := by rw [hs.at_.micro]
  have hb : bigQ * 16 = 2 ^ 804 := by rw [bigQ_eq, show (16 : ℚ) = 2 ^ 4 by norm_num, ← pow_add]
  have h8 : (0 : ℚ) < 2 ^ 804 := by positivity
  have hlo' : ∀ v, InRange s v → 1 ≤ E v * (bigQ * 16) := by
    intro v hv
    rw [hb]
    have := hlo v hv
    rwa [div_le_iff₀ h8] at this
  have hEp : ∀ v, InRange s v → 0 < E v := fun v hv => lt_of_lt_of_le (one_div_pos.mpr h8) (hlo v hv)
  obtain ⟨c, h1, h2, h3⟩ := chiSqVal_bound hfp (f := fun v => (vs.count v : Int)) (F := E') (E := E) (s := s)
    (fun v hv => (arr_inj (hs.expected.symm.trans hE) v hv)) (fun v => Int.natCast_nonneg _) (fun v => by
      have h1 := List.count_le_length (a := v) (l := vs)
      have h2 := hs.size
      omega) hlo' hEp hhi hsz
  refine ⟨c, by rw [hs.chiSq, h1], h2, fun X hX => h3 X ?_⟩
  rw [hX]
  refine Finset.sum_congr rfl fun v hv => ?_
  rw [arr_inj (hf.symm.trans hm) v (mem_cells.mp hv)]

/-- **C28 fails** for `qisi` whenever the seed, being nowhere negative, is zero at some cell: any population `qisi` then returns
comes with `chiSq` NaN, reported as a perfect fit (p-value 1). -/
theorem C28_negation_qisi_seed (hsg : fp = FP.exact ∨ ∃ sqrt, fp = FP.ieee sqrt) {lm : Libm} {s : List Nat} {P : Prob Int}
    {pop : Int} (h : ProbOK s P pop) (hpop : pop < 2 ^ 52) (hp : ProperProb s P) {sd : List Int → Fl}
    (hsd : ∀ v, InRange s v → FP.le (.fin 0) (sd v) = true) (hz : ∃ v, InRange s v ∧ sd v = .fin 0) {skips : Int} {x : QISI}
    (hx : qisi fp lm s P sd skips = .ok x) : x.chiSq = .nan ∧ x.pValue = .fin 1 := by
  have hok : fp.Good ∧ SignOK fp := by
    rcases hsg with rfl | ⟨sqrt, rfl⟩
    · exact ⟨FP.exact_good, signOK_exact⟩
    · exact ⟨FP.ieee_good sqrt, signOK_ieee sqrt⟩
  obtain ⟨E, a, vs, hs⟩ := qisi_run_ok hok.1 h hpop hp hx
  obtain ⟨v, hv, hv0⟩ := hz
  have h0 : ∀ v, InRange s v → NonNegNan (sd v) := fun v hv => Or.inr (hsd v hv)
  have hc : vs.count v = 0 :=
    List.count_eq_zero.mpr fun hm => (placed_zero hok.2 h.toProbShape hp h0 hs.placed).2.2 v hm hv0
  have hchi : x.chiSq = .nan := by
    rw [hs.chiSq]
    exact chiSqVal_nan hok.1 hv (by rw [hc]; rfl) ((fit_zero hok.2 h.toProbShape hp hs.fit h0).2 v hv hv0)
  refine ⟨hchi, ?_⟩
  rw [hs.pValue, hchi]
  unfold tablePValue
  rw [pValue_nan hok.1]

/-- **C28 fails** for `qisi` whenever a marginal is zero at some cell: if `qisi` then returns with `conv` true, `chiSq` is NaN,
and the reported p-value is 1, whatever the seed. -/
theorem C28_negation_qisi (hfp : fp.Good) {lm : Libm} {s : List Nat} {P : Prob Int} {pop : Int} (h : ProbOK s P pop)
    (hpop : pop < 2 ^ 52) (hp : ProperProb s P) (hz : ∃ v, InRange s v ∧ ∃ p ∈ P, p.2 (proj p.1 v) = 0) {sd : List Int → Fl}
    {skips : Int} {x : QISI} (hx : qisi fp lm s P sd skips = .ok x) (hc : x.conv = true) : x.chiSq = .nan ∧ x.pValue = .fin 1 := by
  obtain ⟨E, a, vs, hs⟩ := qisi_run_ok hfp h hpop hp hx
  obtain ⟨v, hv, p, hpm, hpj⟩ := hz
  have hm := (unspent_iff h hs.placed.range hs.size).mp (hs.conv.mp hc) p hpm _ (inRange_proj (h.dims p hpm).2 hv)
  rw [marginalSum_count hs.placed.range, hpj] at hm
  have hcount : vs.count v = 0 := by
    rw [List.count_eq_zero]
    intro hvm
    have : 0 < vs.countP (fun w => proj p.1 w = proj p.1 v) := List.countP_pos_iff.mpr ⟨v, hvm, by simp⟩
    omega
  have hchi : x.chiSq = .nan := by
    rw [hs.chiSq]
    exact chiSqVal_nan hfp hv (by rw [hcount]; rfl) (fit_zero_marginal hfp h.toProbShape hp hs.fit hv ⟨p, hpm, hpj⟩)
  refine ⟨hchi, ?_⟩
  rw [hs.pValue, hchi]
  unfold tablePValue
  rw [pValue_nan hfp]

/-! ### The hypotheses can be met -/

example (lm : Libm) : ∃ x, qisi FP.exact lm [2, 3] exProb (fun _ => .fin 1) 0 = .ok x ∧
    ∀ p ∈ exProb, ∀ j, InRange (projSizes p.1 [2, 3]) j → 0 < p.2 j := by
  obtain ⟨x, hx, -⟩ := exProb_qisi lm (skips := 0) le_rfl (by norm_num)
  refine ⟨x, hx, ?_⟩
  intro p hp j hj
  simp only [exProb, List.mem_cons, List.not_mem_nil, or_false] at hp
  rcases hp with rfl | rfl
  · have := (inRange_getD hj (d := 0) (by decide)).1
    simp only; omega
  · simp

/-- a seed with zeros and a marginal with a zero; `qisi` returns with `conv` true -/
example (lm : Libm) : ∃ x, qisi FP.exact lm [2, 3] exRow exRowSeed 0 = .ok x ∧ x.conv = true ∧
    (∀ v, InRange [2, 3] v → FP.le (.fin 0) (exRowSeed v) = true) ∧ (InRange [2, 3] [0, 1] ∧ exRowSeed [0, 1] = .fin 0) ∧
    (∃ p ∈ exRow, p.2 (proj p.1 [0, 1]) = 0) ∧ x.chiSq = .nan := by
  obtain ⟨x, hx, hc⟩ := C44_conv lm exRow_ok (by norm_num) exRow_proper (by decide) le_rfl (by norm_num) exRow_fits
  have h0 : ∀ v, InRange [2, 3] v → FP.le (.fin 0) (exRowSeed v) = true := by
    intro v _
    unfold exRowSeed exRowB
    split <;> decide
  have hr : InRange [2, 3] [0, 1] := by decide
  exact ⟨x, hx, hc, h0, ⟨hr, by decide⟩, ⟨_, List.mem_cons_self, by decide⟩,
    (C28_negation_qisi_seed (Or.inl rfl) exRow_ok (by norm_num) exRow_proper h0 ⟨_, hr, by decide⟩ hx).1⟩

/-- `[4, 2]` along the first and `[3, 3]` along the second dimension of a 2x2 table. -/
def fullProb : Prob Int := [([0], fun j => if j = [0] then 4 else 2), ([1], fun _ => 3)]

/-- the table with rows `2, 2` and `1, 1` -/
def fullSeed (v : List Int) : Int := if v.getD 0 0 = 0 then 2 else 1

theorem fullProb_ok : ProbOK [2, 2] fullProb 6 where
  lists := by decide
  two := by decide
  pos := by decide
  dims := by simp [fullProb]
  cover := by
    intro d hd
    simp only [List.length_cons, List.length_nil] at hd
    interval_cases d <;> simp [fullProb]
  nonneg := by
    intro p hp j _
    simp only [fullProb, List.mem_cons, List.not_mem_nil, or_false] at hp
    rcases hp with rfl | rfl
    · simp only; split <;> omega
    · simp
  total := by
    intro p hp
    simp only [fullProb, List.mem_cons, List.not_mem_nil, or_false] at hp
    rcases hp with rfl | rfl <;> decide
  partials := by
    intro p hp q hq a b d ha hb x _
    simp only [fullProb, List.mem_cons, List.not_mem_nil, or_false] at hp hq
    rcases hp with rfl | rfl <;> rcases hq with rfl | rfl
    all_goals
      rw [List.getElem?_singleton] at ha hb
      split at ha <;> split at hb <;> simp_all
    all_goals omega

/-- a run in rounded arithmetic whose expectations are within the bounds -/
example (hfp : fp.Good) (lm : Libm) : ∃ x, qisi fp lm [2, 2] fullProb (intFl fullSeed) 0 = .ok x ∧
    x.micro.array = arr [2, 2] fullSeed ∧ x.expected = arr [2, 2] (fun v => .fin (fullSeed v : ℚ)) ∧
    ∀ v, InRange [2, 2] v → 1 / 2 ^ 804 ≤ (fullSeed v : ℚ) ∧ (fullSeed v : ℚ) ≤ 2 ^ 53 := by
  have hp : ProperProb [2, 2] fullProb := by unfold ProperProb fullProb; decide
  have key : ∀ p ∈ fullProb, ∀ j ∈ allIdx (projSizes p.1 [2, 2]), marginalSum [2, 2] p.1 fullSeed j = p.2 j := by decide
  obtain ⟨x, h1, h2, -, h3⟩ := C72_qisi hfp lm fullProb_ok (by norm_num) hp (by decide) (g := fullSeed)
    (fun v _ => by unfold fullSeed; split <;> omega) (fun p hp j hj => key p hp j (mem_allIdx.mpr hj)) le_rfl (by norm_num)
  refine ⟨x, h1, h2, h3, fun v _ => ?_⟩
  have hone : (1 : ℚ) / 2 ^ 804 ≤ 1 := by
    rw [div_le_one (by positivity)]
    exact one_le_pow₀ (by norm_num)
  unfold fullSeed
  split <;> push_cast <;> constructor <;> first | linarith | norm_num

end HL

import Verif.Props.Integerise
import Verif.Props.IPF
import Verif.Proof.IPFFeasible
import Verif.Proof.IPFUnitRound
import Verif.Proof.IntegerisePad
import Verif.Props.Pipeline
import Verif.Props.QISISolvable
import Verif.Props.IPFDecomp

/-
C119: from a fitted table to a population (ipf, integerise).
-/

namespace HL
open Integerise

theorem sum_axis {γ : Type} [AddCommMonoid γ] {s : List Nat} (g : List Int → γ) {d : Nat} (hd : d < s.length) :
    ∑ v ∈ cells s, g v = ∑ i ∈ Finset.range (s.getD d 0), marginalSum s [d] g [(i : Int)] := by
  unfold marginalSum
  rw [← Finset.sum_biUnion]
  · apply Finset.sum_congr _ (fun _ _ => rfl)
    ext v
    simp only [Finset.mem_biUnion, Finset.mem_range, Finset.mem_filter]
    constructor
    · intro hv
      have hr := inRange_getD (mem_cells.mp hv) hd
      refine ⟨(v.getD d 0).toNat, by omega, hv, ?_⟩
      simp only [proj, List.map_cons, List.map_nil]
      rw [Int.toNat_of_nonneg hr.1]
    · rintro ⟨i, -, hv, -⟩
      exact hv
  · intro i _ j _ hij
    apply Finset.disjoint_left.mpr
    intro v h1 h2
    have := (Finset.mem_filter.mp h1).2.symm.trans (Finset.mem_filter.mp h2).2
    simp at this
    exact hij this

theorem near_of_fit {s : List Nat} {P : Prob Int} (h : ProbShape s P) (hn : ∀ p ∈ P, prodSizes (projSizes p.1 s) ≤ 10 ^ 4)
    {c : List Int → ℚ} (hc : ∀ p ∈ P, ∀ j, InRange (projSizes p.1 s) j → |marginalSum s p.1 c j - p.2 j| < 1 / 10 ^ 8)
    {p : List Nat × (List Int → Int)} (hp : p ∈ P) (A : List Int → Prop) [DecidablePred A] :
    |∑ v ∈ (cells s).filter (fun v => A (proj p.1 v)), c v - ((∑ j ∈ (cells (projSizes p.1 s)).filter A, p.2 j : Int) : ℚ)| ≤ 1 / 10 ^ 4 := by
  have e : ∑ v ∈ (cells s).filter (fun v => A (proj p.1 v)), c v = ∑ j ∈ (cells (projSizes p.1 s)).filter A, marginalSum s p.1 c j := by
    rw [sum_marginals]
    apply Finset.sum_congr _ (fun _ _ => rfl)
    ext v
    simp only [Finset.mem_filter]
    constructor
    · rintro ⟨hv, ha⟩
      exact ⟨hv, mem_cells.mpr (inRange_proj (h.dims p hp).2 (mem_cells.mp hv)), ha⟩
    · rintro ⟨hv, -, ha⟩
      exact ⟨hv, ha⟩
  rw [e, Int.cast_sum, ← Finset.sum_sub_distrib]
  refine (Finset.abs_sum_le_sum_abs _ _).trans ?_
  refine (Finset.sum_le_card_nsmul _ _ (1 / 10 ^ 8) ?_).trans ?_
  · intro j hj
    exact (hc p hp j (mem_cells.mp (Finset.mem_filter.mp hj).1)).le
  · have h1 : ((cells (projSizes p.1 s)).filter A).card ≤ 10 ^ 4 :=
      (Finset.card_filter_le _ _).trans (by rw [card_cells]; exact hn p hp)
    have h2 : (((cells (projSizes p.1 s)).filter A).card : ℚ) ≤ 10 ^ 4 := by exact_mod_cast h1
    rw [nsmul_eq_mul]
    linarith

theorem integerise_fit {s : List Nat} {P : Prob Int} {pop : Int} (h : ProbOK s P pop) (hpop : pop < 2 ^ 52)
    (hn : ∀ p ∈ P, prodSizes (projSizes p.1 s) ≤ 10 ^ 4) {c : List Int → ℚ}
    (hfit : ∀ p ∈ P, ∀ j, InRange (projSizes p.1 s) j → |marginalSum s p.1 c j - p.2 j| < 1 / 10 ^ 8) (lm : Libm) :
    ∃ N : Nat → Nat → Int, (∀ p ∈ P, ∀ a d, p.1[a]? = some d → ∀ i : Nat, i < s.getD d 0 →
        N d i = marginalSum (projSizes p.1 s) [a] p.2 [(i : Int)]) ∧
      ProbOK s (roundProb s N) pop ∧
      run false FP.exact lm (finArr s c) = (do
        let x ← qisi FP.exact lm s (roundProb s N) (fun v => .fin (c v)) 0
        let b ← NDArray.copy x.micro.array NDArray.empty
        let e ← sqErr FP.exact b (arr s (fun v => .fin (c v)))
        pure ⟨b, x.conv, FP.exact.sqrt (FP.exact.div e (FP.exact.ofInt b.storageSize))⟩) := by
  have hg : GoodShape s := h.good
  have hcov : ∀ d : Nat, ∃ pa : (List Nat × (List Int → Int)) × Nat, d < s.length → pa.1 ∈ P ∧ pa.1.1[pa.2]? = some d := by
    intro d
    by_cases hd : d < s.length
    · obtain ⟨p, hpp, hdp⟩ := h.cover d hd
      obtain ⟨a, ha, hae⟩ := List.getElem_of_mem hdp
      exact ⟨(p, a), fun _ => ⟨hpp, by simp [ha, hae]⟩⟩
    · exact ⟨(([], fun _ => 0), 0), fun h => absurd h hd⟩
  obtain ⟨pa, hpa⟩ := Classical.axiomOfChoice hcov
  set N : Nat → Nat → Int := fun d i => marginalSum (projSizes (pa d).1.1 s) [(pa d).2] (pa d).1.2 [(i : Int)] with hN
  have hsize : ∀ {p : List Nat × (List Int → Int)} {a d : Nat}, p.1[a]? = some d → a < (projSizes p.1 s).length ∧
      (projSizes p.1 s).getD a 0 = s.getD d 0 := by
    intro p a d ha
    have hal : a < p.1.length := by
      by_contra hh
      rw [List.getElem?_eq_none (by omega)] at ha; cases ha
    constructor
    · simpa [projSizes] using hal
    · unfold projSizes
      simp [List.getD_eq_getElem?_getD, ha]
  have hnear : ∀ d < s.length, ∀ i < s.getD d 0, |marginalSum s [d] c [(i : Int)] - N d i| ≤ 1 / 10 ^ 4 := by
    intro d hd i hi
    obtain ⟨k1, k2⟩ := hpa d hd
    have := near_of_fit h.toProbShape hn hfit k1 (fun j => proj [(pa d).2] j = [(i : Int)])
    have e : ∀ v : List Int, proj [(pa d).2] (proj (pa d).1.1 v) = proj [d] v := by
      intro v
      unfold proj
      simp [List.getD_eq_getElem?_getD, k2]
    simp only [e] at this
    exact this
  have htot : |∑ v ∈ cells s, c v - pop| ≤ 1 / 10 ^ 4 := by
    obtain ⟨p, hpp⟩ : ∃ p, p ∈ P := by
      have := h.lists
      exact ⟨P[0], List.getElem_mem (by omega)⟩
    have := near_of_fit h.toProbShape hn hfit hpp (fun _ => True)
    simp only [Finset.filter_true] at this
    rwa [h.total p hpp] at this
  have hpop0 : 0 ≤ pop := h.pop_nonneg
  have hNsum : ∀ d < s.length, ∑ i ∈ Finset.range (s.getD d 0), N d i = pop := by
    intro d hd
    obtain ⟨k1, k2⟩ := hpa d hd
    obtain ⟨k3, k4⟩ := hsize k2
    rw [← h.total _ k1, sum_axis _ k3, k4]
  have hNnn : ∀ d < s.length, ∀ i < s.getD d 0, 0 ≤ N d i := by
    intro d hd i hi
    obtain ⟨k1, k2⟩ := hpa d hd
    exact Finset.sum_nonneg (fun j hj => h.nonneg _ k1 j (mem_cells.mp (Finset.mem_filter.mp hj).1))
  have hok : ProbOK s (roundProb s N) pop := (roundProb_ok hg h.two).mpr (fun d hd => ⟨hNnn d hd, hNsum d hd⟩)
  have hNle : ∀ d < s.length, ∀ i < s.getD d 0, N d i ≤ pop := by
    intro d hd i hi
    rw [← hNsum d hd]
    exact Finset.single_le_sum (f := fun i => N d i) (fun i hi => hNnn d hd i (Finset.mem_range.mp hi)) (Finset.mem_range.mpr hi)
  have hpopq : (pop : ℚ) < 2 ^ 52 := by exact_mod_cast hpop
  have hpopq0 : (0 : ℚ) ≤ pop := by exact_mod_cast hpop0
  have hag : Agree s (fun v => .fin (c v)) c := fun _ _ => rfl
  have hck : ∀ d < s.length, ∀ i < s.getD d 0, checkedRound FP.exact (fsum FP.exact s [d] (fun v => .fin (c v)) [(i : Int)]) = .ok (N d i) := by
    intro d hd i hi
    rw [fsum_exact hag]
    have h3 := hnear d hd i hi
    refine checkedRound_of (nearInt_exact.mpr h3) ?_
    have h4 : (N d i : ℚ) ≤ pop := by exact_mod_cast hNle d hd i hi
    have h5 : (0 : ℚ) ≤ N d i := by exact_mod_cast hNnn d hd i hi
    rw [abs_le] at h3 ⊢
    constructor <;> linarith [h3.1, h3.2]
  have hTb : |∑ v ∈ cells s, c v| ≤ 2 ^ 62 := by
    have h3 := htot
    rw [abs_le] at h3 ⊢
    constructor <;> linarith [h3.1, h3.2]
  refine ⟨N, ?_, hok, ?_⟩
  · intro p hpp a d ha i hi
    obtain ⟨k1, k2⟩ := hpa d ((h.dims p hpp).2 d (List.mem_of_getElem? ha))
    exact (h.partials p hpp _ k1 a _ d ha k2 i hi).symm
  · rw [run_array h.two, seqSum_fin, checkedRound_of (nearInt_exact.mpr htot) hTb, Out.ok_bind, array_eq hg lm hck]

/-- **C119.**  When `ipf` converges to marginals of whole numbers (of at most ten thousand entries each), `integerise` of the result
raises, or returns a population: non-negative whole numbers that sum to the population, none where the seed of `ipf` is zero, and `conv`
is true exactly when the total of every category is what the marginals say. -/
theorem C119_ipf_integerise {s : List Nat} {P : Prob Int} {pop : Int} (h : ProbOK s P pop) (hpop : pop < 2 ^ 52) (hp : ProperProb s P)
    (hn : ∀ p ∈ P, prodSizes (projSizes p.1 s) ≤ 10 ^ 4) {b : List Int → ℚ} (hb : ∀ v, InRange s v → 0 ≤ b v) {r : IPF Fl}
    (hr : ipfExact s (ratProb P) b = .ok r) (hc : r.conv = true) (lm : Libm) :
    (∃ e, run false FP.exact lm r.micro.array = .thrown e) ∨
    ∃ (R : Result) (f : List Int → Int), run false FP.exact lm r.micro.array = .ok R ∧ R.result = arr s f ∧
      (∀ v, InRange s v → 0 ≤ f v) ∧ ∑ v ∈ cells s, f v = pop ∧ (∀ v, InRange s v → b v = 0 → f v = 0) ∧
      (R.conv = true ↔ ∀ p ∈ P, ∀ a d, p.1[a]? = some d → ∀ i : Nat, i < s.getD d 0 →
        marginalSum s [d] f [(i : Int)] = marginalSum (projSizes p.1 s) [a] p.2 [(i : Int)]) := by
  have hs' : ProbShape s (ratProb P) :=
    ⟨by simpa [ratProb] using h.lists, h.two, h.pos,
      by
        intro q hq
        obtain ⟨p, hpp, rfl⟩ := List.mem_map.mp hq
        exact h.dims p hpp,
      by
        intro d hd
        obtain ⟨p, hpp, hdp⟩ := h.cover d hd
        exact ⟨_, List.mem_map.mpr ⟨p, hpp, rfl⟩, hdp⟩⟩
  have hp' : ProperProb s (ratProb P) := by
    intro q hq
    obtain ⟨p, hpp, rfl⟩ := List.mem_map.mp hq
    exact hp p hpp
  have hg : GoodShape s := h.good
  obtain ⟨c, e, h1, -, -, -, -, h2⟩ := C29_conv_exact hs' hp' hr
  obtain ⟨c', h1', hz, hsg⟩ := C31_zeros_and_signs_exact hs' hp' hr
  have hcc : ∀ v, InRange s v → c v = c' v := by
    intro v hv
    have := arr_inj (h1.symm.trans h1') v hv
    simpa using this
  have hfit : ∀ p ∈ P, ∀ j, InRange (projSizes p.1 s) j → |marginalSum s p.1 c j - p.2 j| < 1 / 10 ^ 8 := by
    intro p hpp j hj
    exact h2 hc _ (List.mem_map.mpr ⟨p, hpp, rfl⟩) j hj
  obtain ⟨N, hN, hok, hrun⟩ := integerise_fit h hpop hn hfit lm
  have hpr := properProb_of_disjoint hok.toProbShape (roundProb_flatten s N)
  rw [h1, hrun]
  rcases C41_outcomes FP.exact_good lm hok hpop hpr (fun v => .fin (c v)) 0 with ⟨x, hx⟩ | ⟨e, he⟩ | ⟨h3, -⟩
  · right
    rw [hx, Out.ok_bind]
    obtain ⟨f, hf1, hf2, hf3, hf4, hf5⟩ := C41_population_conv FP.exact_good hok hpop hpr hx
    have hf6 := C43_zeros (.inl rfl) hok hpop hpr (sd := fun v => .fin (c v)) (by
      intro v hv
      have := hsg hb v hv
      rw [← hcc v hv] at this
      simpa [FP.le] using this) hx hf1
    rw [hf1, copy_empty hg, Out.ok_bind]
    obtain ⟨e, he⟩ := sqErr_ok (fp := FP.exact) hg f (fun v => .fin (c v))
    rw [he, Out.ok_bind]
    refine ⟨_, f, rfl, rfl, hf2, by rw [hf3, hf4], ?_, ?_⟩
    · intro v hv hv0
      apply hf6 v hv
      show Fl.fin (c v) = _
      rw [hcc v hv, hz v hv hv0]
    · show x.conv = true ↔ _
      rw [hf5]
      constructor
      · intro hm p hpp a d ha i hi
        have hd : d < s.length := (h.dims p hpp).2 d (List.mem_of_getElem? ha)
        have := hm _ (List.mem_map.mpr ⟨d, List.mem_range.mpr hd, rfl⟩) [(i : Int)]
          (by show InRange [s.getD d 0] _; simp [InRange]; simpa using hi)
        rw [← hN p hpp a d ha i hi]
        simpa using this
      · intro hm q hq j hj
        obtain ⟨d, hd, rfl⟩ := List.mem_map.mp hq
        have hd := List.mem_range.mp hd
        obtain ⟨p, hpp, hdp⟩ := h.cover d hd
        obtain ⟨a, ha, hae⟩ := List.getElem_of_mem hdp
        have ha' : p.1[a]? = some d := by simp [ha, hae]
        have hj' : InRange [s.getD d 0] j := hj
        cases hj' with
        | cons hi hnil =>
          cases hnil
          rename_i i
          have := hm p hpp a d ha' i.toNat (by omega)
          rw [← hN p hpp a d ha' i.toNat (by omega), Int.toNat_of_nonneg hi.1] at this
          simpa using this
  · left
    rw [he]; exact ⟨e, rfl⟩
  · norm_num at h3

theorem prod_first (k : Nat) (hk : 0 < k) (x : Nat → ℚ) (C : ℚ) :
    ((List.range k).map (fun d => x d * (if d = 0 then C else 1))).prod = ((List.range k).map x).prod * C := by
  obtain ⟨k, rfl⟩ := Nat.exists_eq_succ_of_ne_zero hk.ne'
  rw [List.range_succ_eq_map]
  simp only [List.map_cons, List.prod_cons, List.map_map, if_true]
  have : (fun d => x d * (if d = 0 then C else 1)) ∘ Nat.succ = x ∘ Nat.succ := by
    funext d
    simp
  rw [this]
  ring

/-- **C119.**  With one marginal for each attribute (at most 1111 attributes of at most ten thousand categories) and the same positive
number in every cell of the seed, every step succeeds: `ipf` converges, and `integerise` of its result returns a population with exactly
the marginals. -/
theorem C119_independent (lm : Libm) {fs : List (List Int)} (h2 : 2 ≤ fs.length) (hd : fs.length ≤ 1111) {pop : Int} (h0 : 0 < pop)
    (h1 : pop ≤ 2 ^ 32 - 1) (hlen : ∀ f ∈ fs, f.length ≤ 10 ^ 4) (hnn : ∀ f ∈ fs, ∀ k ∈ f, 0 ≤ k) (hs : ∀ f ∈ fs, f.sum = pop) {k : ℚ}
    (hk : 0 < k) :
    ∃ (r : IPF Fl) (R : Result) (g : List Int → Int), ipfExact (fs.map List.length) (ratProb (oneWay fs)) (fun _ => k) = .ok r ∧
      r.conv = true ∧ run false FP.exact lm r.micro.array = .ok R ∧ R.conv = true ∧ R.result = arr (fs.map List.length) g ∧
      (∀ v, InRange (fs.map List.length) v → 0 ≤ g v) ∧
      ∀ d < fs.length, ∀ i < (fs.getD d []).length, marginalSum (fs.map List.length) [d] g [(i : Int)] = (fs.getD d []).getD i 0 := by
  have hok := oneWay_ok h2 (fun f hf h => by
    have := hs f hf
    rw [h] at this
    simp at this
    omega) hnn hs
  set s := fs.map List.length with hsd
  have hsl : s.length = fs.length := by simp [hsd]
  have hsz : ∀ d, s.getD d 0 = (fs.getD d []).length := by
    intro d
    rw [hsd]
    by_cases hdl : d < fs.length
    · simp [List.getD_eq_getElem?_getD, hdl]
    · simp [List.getD_eq_getElem?_getD, List.getElem?_eq_none (Nat.not_lt.mp hdl)]
  have hflat : ((oneWay fs).map Prod.fst).flatten.Nodup := by rw [oneWay_eq]; exact roundProb_flatten _ _
  obtain ⟨r, hr, hc, -, -, ha⟩ := C34_independence (ratOK_ratProb hok) h0 (by omega) (by rw [fst_ratProb]; exact hflat) hk
  have hp : ProperProb s (oneWay fs) := properProb_of_disjoint hok.toProbShape hflat
  set c : List Int → ℚ := fun v => ((ratProb (oneWay fs)).map (fun q => q.2 (proj q.1 v))).prod / (pop : ℚ) ^ ((ratProb (oneWay fs)).length - 1) with hcd
  have hn : ∀ p ∈ oneWay fs, prodSizes (projSizes p.1 s) ≤ 10 ^ 4 := by
    intro p hp
    obtain ⟨d, hdm, rfl⟩ := List.mem_map.mp hp
    have hdm := List.mem_range.mp hdm
    show prodSizes [s.getD d 0] ≤ _
    rw [hsz]
    simp only [prodSizes, mul_one]
    apply hlen
    simp [List.getD_eq_getElem?_getD, hdm]
  have hs' : ProbShape s (ratProb (oneWay fs)) := (ratOK_ratProb hok).toProbShape
  have hp' : ProperProb s (ratProb (oneWay fs)) := by
    intro q hq
    obtain ⟨p, hpp, rfl⟩ := List.mem_map.mp hq
    exact hp p hpp
  have hfit : ∀ p ∈ oneWay fs, ∀ j, InRange (projSizes p.1 s) j → |marginalSum s p.1 c j - p.2 j| < 1 / 10 ^ 8 := by
    obtain ⟨c', e, k1, -, -, -, -, k2⟩ := C29_conv_exact hs' hp' hr
    intro p hpp j hj
    have := k2 hc _ (List.mem_map.mpr ⟨p, hpp, rfl⟩) j hj
    have hcc : marginalSum s p.1 c j = marginalSum s p.1 c' j := by
      apply Finset.sum_congr rfl
      intro v hv
      have := arr_inj (ha.symm.trans k1) v (mem_cells.mp (Finset.mem_filter.mp hv).1)
      simpa using this
    rw [hcc]
    exact this
  obtain ⟨N, hN, hokN, hrun⟩ := integerise_fit hok (by omega) hn hfit lm
  have hNv : ∀ d < fs.length, ∀ i < (fs.getD d []).length, N d i = (fs.getD d []).getD i 0 := by
    intro d hd i hi
    have := hN _ (List.mem_map.mpr ⟨d, List.mem_range.mpr hd, rfl⟩) 0 d rfl i (by rw [hsz]; exact hi)
    rw [this]
    show marginalSum [s.getD d 0] [0] (fun j : List Int => (fs.getD d []).getD (j.getD 0 0).toNat 0) [(i : Int)] = _
    unfold marginalSum
    rw [Finset.sum_eq_single [(i : Int)]]
    · simp
    · intro v hv hne
      obtain ⟨hv1, hv2⟩ := Finset.mem_filter.mp hv
      rw [cells_one] at hv1
      obtain ⟨m, -, rfl⟩ := Finset.mem_image.mp hv1
      exact absurd (by simpa [proj] using hv2) hne
    · intro hno
      refine absurd (Finset.mem_filter.mpr ⟨?_, by simp [proj]⟩) hno
      rw [cells_one, hsz]
      exact Finset.mem_image.mpr ⟨i, Finset.mem_range.mpr hi, rfl⟩
  have hflN := roundProb_flatten s N
  -- the seed is a product
  have hprod : ∀ v, InRange s v → c v = prodAt ((List.range s.length).map (fun d => ([d], fun j : List Int => ((N d (j.getD 0 0).toNat : Int) : ℚ) *
      (if d = 0 then 1 / (pop : ℚ) ^ (s.length - 1) else 1)))) v := by
    intro v hv
    have hpr1 : (ratProb (oneWay fs)).map (fun q => q.2 (proj q.1 v)) = (List.range s.length).map (fun d => ((N d (v.getD d 0).toNat : Int) : ℚ)) := by
      unfold ratProb oneWay
      rw [List.map_map, List.map_map, hsl]
      apply List.map_congr_left
      intro d hd
      have hd := List.mem_range.mp hd
      have hv' := inRange_getD hv (d := d) (by rw [hsl]; exact hd)
      rw [hsz] at hv'
      rw [hNv d hd _ (by omega)]
      simp [proj]
    have hpl : (ratProb (oneWay fs)).length = s.length := by simp [ratProb, oneWay, hsl]
    show ((ratProb (oneWay fs)).map (fun q => q.2 (proj q.1 v))).prod / (pop : ℚ) ^ ((ratProb (oneWay fs)).length - 1) = _
    unfold prodAt
    rw [hpr1, hpl, List.map_map, div_eq_mul_one_div, ← prod_first s.length (by omega)]
    congr 1
  obtain ⟨x, hx, hxc⟩ := C44_conv lm hokN h1 (properProb_of_disjoint hokN.toProbShape hflN) (by rw [hsl]; exact hd) (skips := 0) le_rfl (by norm_num)
    (fitDone_factors hokN hflN (G := (List.range s.length).map (fun d => ([d], fun j : List Int => ((N d (j.getD 0 0).toNat : Int) : ℚ) *
      (if d = 0 then 1 / (pop : ℚ) ^ (s.length - 1) else 1)))) (by
        unfold roundProb
        rw [List.forall₂_map_left_iff, List.forall₂_map_right_iff, List.forall₂_same]
        intro d hd
        refine ⟨rfl, ?_⟩
        intro j hj
        have hnnN := hokN.nonneg _ (List.mem_map.mpr ⟨d, hd, rfl⟩) j hj
        have hC : (0 : ℚ) < if d = 0 then 1 / (pop : ℚ) ^ (s.length - 1) else 1 := by
          have : (0 : ℚ) < pop := by exact_mod_cast h0
          split <;> positivity
        constructor
        · exact mul_nonneg (by exact_mod_cast hnnN) hC.le
        · intro h
          rcases mul_eq_zero.mp h with h | h
          · exact_mod_cast h
          · exact absurd h hC.ne') (sd := fun v => .fin (c v)) (by
        intro v hv
        rw [hprod v hv]))
  obtain ⟨f, hf1, hf2, hf3, hf4, hf5⟩ := C41_population_conv FP.exact_good hokN (by omega) (properProb_of_disjoint hokN.toProbShape hflN) hx
  obtain ⟨e, he⟩ := sqErr_ok (fp := FP.exact) hok.good f (fun v => .fin (c v))
  refine ⟨r, _, f, hr, hc, by rw [ha, hrun, hx, Out.ok_bind, hf1, copy_empty hok.good, Out.ok_bind, he, Out.ok_bind]; rfl, hxc, rfl, hf2, ?_⟩
  intro d hd i hi
  have := hf5.mp hxc _ (List.mem_map.mpr ⟨d, List.mem_range.mpr (by rw [hsl]; exact hd), rfl⟩) [(i : Int)]
    (by show InRange [s.getD d 0] _; rw [hsz]; simp [InRange]; simpa using hi)
  rw [← hNv d hd i hi]
  simpa using this

/-- three marginals, the last with an empty category -/
example (lm : Libm) : ∃ (r : IPF Fl) (R : Result), ipfExact [2, 3, 2] (ratProb (oneWay [[4, 2], [1, 2, 3], [6, 0]])) (fun _ => 1) = .ok r ∧
    r.conv = true ∧ run false FP.exact lm r.micro.array = .ok R ∧ R.conv = true := by
  obtain ⟨r, R, g, h1, h2, h3, h4, -⟩ := C119_independent lm (fs := [[4, 2], [1, 2, 3], [6, 0]]) (by decide) (by decide) (pop := 6) (by decide)
    (by decide) (by decide) (by decide) (by decide) one_pos
  exact ⟨r, R, h1, h2, h3, h4⟩

/-- marginals with two dimensions in common meet the hypotheses of the first theorem -/
example : ∃ r, (∀ p ∈ bandProb, prodSizes (projSizes p.1 [2, 2, 2, 2]) ≤ 10 ^ 4) ∧
    ipfExact [2, 2, 2, 2] (ratProb bandProb) (fun _ => 1) = .ok r ∧ r.conv = true := by
  have hp : ProperProb [2, 2, 2, 2] (ratProb bandProb) := by
    intro q hq
    obtain ⟨p, hp, rfl⟩ := List.mem_map.mp hq
    exact bandProb_inRange p hp
  obtain ⟨r, h1, h2, -⟩ := C101_ipf_decomposable (ratOK_ratProb bandProb_ok) (by norm_num) hp (decomposable_rat bandProb_decomposable) one_pos
  exact ⟨r, by unfold bandProb; decide, h1, h2⟩

end HL

import Verif.PipelineSpec
import Verif.Props.Arrays
import Verif.Props.Integerise
import Verif.Props.QIS
import Verif.Props.QISI
import Verif.Proof.IntegerisePad

/-
C118: from distributions to a table of individuals (integerise, qis, flatten).
-/

namespace HL
open Integerise
variable {fp : FP}

theorem tally_lists {s : List Nat} {g : List Int → Int} {off : Int} {cols : List (List Int)} (h : ListsPopulation s g off cols) {n : Nat}
    (hn : (n : Int) = ∑ v ∈ cells s, g v) {ds : List Nat} (hd : ∀ d ∈ ds, d < s.length) (j : List Int) :
    (tally cols n ds (j.map (off + ·)) : Int) = marginalSum s ds g j := by
  obtain ⟨rows, rfl, hl, hr, -, hc⟩ := h
  have hnl : n = rows.length := by omega
  subst hnl
  have e1 : marginalSum s ds g j = marginalSum s ds (fun v => (rows.count v : Int)) j := by
    unfold marginalSum
    apply Finset.sum_congr rfl
    intro v hv
    exact (hc v (mem_cells.mp (Finset.mem_filter.mp hv).1)).symm
  rw [e1, marginalSum_count hr]
  unfold tally
  have e2 : rows.countP (fun v => proj ds v = j) = ((List.range rows.length).map (fun r => rows.getD r [])).countP (fun v => proj ds v = j) := by
    congr 1
    apply List.ext_getElem (by simp)
    intro k h1 h2
    simp [List.getD_eq_getElem?_getD, h1]
  rw [e2, List.countP_map]
  congr 1
  apply List.countP_congr
  intro r hr'
  have hr' := List.mem_range.mp hr'
  have e3 : ds.map (fun d => (((List.range s.length).map (fun d => rows.map (fun v => off + v.getD d 0))).getD d []).getD r 0) =
      (proj ds (rows.getD r [])).map (off + ·) := by
    unfold proj
    rw [List.map_map]
    apply List.map_congr_left
    intro d hd'
    have := hd d hd'
    simp [List.getD_eq_getElem?_getD, this, hr']
  rw [e3]
  simp only [Function.comp, decide_eq_true_eq]
  constructor
  · intro h
    exact List.map_injective_iff.mpr (fun a b hab => by simpa using hab) h
  · intro h; rw [h]

theorem flatten_tally {s : List Nat} (hg : GoodShape s) {f : List Int → Int} (hnn : ∀ v, InRange s v → 0 ≤ f v) {pop : Int}
    (hs : ∑ v ∈ cells s, f v = pop) (hpop : pop < 2 ^ 52) :
    ∃ cols, flatten (arr s f) = .ok cols ∧ cols.length = s.length ∧ (∀ c ∈ cols, (c.length : Int) = pop) ∧
      ∀ ds : List Nat, (∀ d ∈ ds, d < s.length) → ∀ j, (tally cols pop.toNat ds j : Int) = marginalSum s ds f j := by
  have h0 : 0 ≤ pop := by
    rw [← hs]; exact Finset.sum_nonneg (fun v hv => hnn v (mem_cells.mp hv))
  obtain ⟨cols, h1, h2⟩ := C07_flatten hg f hnn (by omega)
  refine ⟨cols, h1, ?_, ?_, ?_⟩
  · obtain ⟨rows, rfl, -⟩ := h2
    simp
  · obtain ⟨rows, rfl, hl, -⟩ := h2
    intro c hc
    obtain ⟨d, -, rfl⟩ := List.mem_map.mp hc
    rw [List.length_map, hl, hs]
  · intro ds hds j
    have := tally_lists h2 (n := pop.toNat) (by omega) hds j
    simpa using this

/-! ### C118 -/

/-- **C118.**  When `qis` reports convergence, `flatten` of its result lists the whole population, one row for each individual and one
column for each attribute, and counting the rows by the attributes of any marginal gives that marginal back. -/
theorem C118_qis_flatten (hfp : fp.Good) {lm : Libm} {s : List Nat} {P : Prob Int} {pop : Int} (h : ProbOK s P pop) (hpop : pop < 2 ^ 52)
    {skips : Int} {x : QIS} (hx : qis fp lm s P skips = .ok x) (hc : x.conv = true) :
    ∃ cols, flatten x.micro.array = .ok cols ∧ cols.length = s.length ∧ (∀ c ∈ cols, (c.length : Int) = pop) ∧
      ∀ p ∈ P, ∀ j, InRange (projSizes p.1 s) j → (tally cols pop.toNat p.1 j : Int) = p.2 j := by
  obtain ⟨f, h1, h2, h3, h4⟩ := C21_population hfp h hpop hx
  have h5 := (C22_conv hfp h hpop hx h1).mp hc
  rw [h4] at h3
  obtain ⟨cols, k1, k2, k3, k4⟩ := flatten_tally h.good h2 h3 hpop
  refine ⟨cols, by rw [h1]; exact k1, k2, k3, ?_⟩
  intro p hp j hj
  rw [k4 p.1 (h.dims p hp).2, h5 p hp j hj]

/-- **C118.**  The same for `qisi`. -/
theorem C118_qisi_flatten (hfp : fp.Good) {lm : Libm} {s : List Nat} {P : Prob Int} {pop : Int} (h : ProbOK s P pop) (hpop : pop < 2 ^ 52)
    (hp : ProperProb s P) {sd : List Int → Fl} {skips : Int} {x : QISI} (hx : qisi fp lm s P sd skips = .ok x) (hc : x.conv = true) :
    ∃ cols, flatten x.micro.array = .ok cols ∧ cols.length = s.length ∧ (∀ c ∈ cols, (c.length : Int) = pop) ∧
      ∀ p ∈ P, ∀ j, InRange (projSizes p.1 s) j → (tally cols pop.toNat p.1 j : Int) = p.2 j := by
  obtain ⟨f, h1, h2, h3, h4, h5⟩ := C41_population_conv hfp h hpop hp hx
  rw [h4] at h3
  obtain ⟨cols, k1, k2, k3, k4⟩ := flatten_tally h.good h2 h3 hpop
  refine ⟨cols, by rw [h1]; exact k1, k2, k3, ?_⟩
  intro p hp j hj
  rw [k4 p.1 (h.dims p hp).2, h5.mp hc p hp j hj]

theorem oneWay_eq (fs : List (List Int)) : oneWay fs = roundProb (fs.map List.length) (fun d i => (fs.getD d []).getD i 0) := by
  unfold oneWay roundProb
  rw [List.length_map]

theorem sum_range_getD (l : List Int) : ∑ i ∈ Finset.range l.length, l.getD i 0 = l.sum := by
  rw [Finset.sum_range, ← List.sum_ofFn]
  congr 1
  apply List.ext_getElem (by simp)
  intro k h1 h2
  simp [List.getD_eq_getElem?_getD]

theorem oneWay_ok {fs : List (List Int)} (h2 : 2 ≤ fs.length) {pop : Int} (hpos : ∀ f ∈ fs, f ≠ []) (hnn : ∀ f ∈ fs, ∀ k ∈ f, 0 ≤ k)
    (hs : ∀ f ∈ fs, f.sum = pop) : ProbOK (fs.map List.length) (oneWay fs) pop := by
  rw [oneWay_eq]
  have hg : GoodShape (fs.map List.length) := by
    constructor
    · intro h
      rw [List.map_eq_nil_iff] at h
      rw [h] at h2; simp at h2
    · intro n hn
      obtain ⟨f, hf, rfl⟩ := List.mem_map.mp hn
      exact List.length_pos_of_ne_nil (hpos f hf)
  rw [roundProb_ok hg (by simpa using h2)]
  intro d hd
  rw [List.length_map] at hd
  have e : fs.getD d [] = fs[d] := by simp [List.getD_eq_getElem?_getD, hd]
  have e2 : (fs.map List.length).getD d 0 = fs[d].length := by simp [List.getD_eq_getElem?_getD, hd]
  simp only [e, e2]
  refine ⟨?_, ?_⟩
  · intro i hi
    have : fs[d].getD i 0 = fs[d][i] := by simp [List.getD_eq_getElem?_getD, hi]
    rw [this]
    exact hnn _ (List.getElem_mem hd) _ (List.getElem_mem hi)
  · rw [sum_range_getD, hs _ (List.getElem_mem hd)]

theorem oneWay_tree (fs : List (List Int)) : TreeDims ((oneWay fs).map Prod.fst) := by
  have e : (oneWay fs).map Prod.fst = (List.range fs.length).map (fun d => [d]) := by
    unfold oneWay
    rw [List.map_map]; rfl
  rw [e]
  intro A ds B hD
  have hds : ds ∈ (List.range fs.length).map (fun d => [d]) := by rw [hD]; simp
  obtain ⟨d, -, rfl⟩ := List.mem_map.mp hds
  refine ⟨by simp, ?_⟩
  intro a ha b hb _ _
  rw [List.mem_singleton] at ha hb
  rw [ha, hb]

theorem tally_one {cols : List (List Int)} {n d : Nat} (hl : (cols.getD d []).length = n) (i : Int) :
    tally cols n [d] [i] = (cols.getD d []).count i := by
  unfold tally
  simp only [List.map_cons, List.map_nil]
  generalize cols.getD d [] = c at hl ⊢
  subst hl
  have : c = (List.range c.length).map (fun r => c.getD r 0) := by
    apply List.ext_getElem (by simp)
    intro k h1 h2
    simp [List.getD_eq_getElem?_getD, h1]
  conv_rhs => rw [this]
  rw [List.count, List.countP_map]
  apply List.countP_congr
  intro r _
  simp

/-- **C118.**  The whole way, in any arithmetic that satisfies the IEEE laws: integerise any two or more distributions to the same
population, synthesise and flatten.  No step fails, and the table has one row for each individual, one column for each distribution, and
every category occurs in its column as often as its integerised frequency says. -/
theorem C118_pipeline (hfp : fp.Good) (lm : Libm) {xss : List (List ℚ)} (h2 : 2 ≤ xss.length) (hd : xss.length ≤ 1111) {pop : Int}
    (h0 : 0 ≤ pop) (h1 : pop < 2 ^ 31) (hn : ∀ xs ∈ xss, (pop + 2) * (xs.length + 3) ≤ 2 ^ 53)
    (hr : ∀ xs ∈ xss, ∀ x ∈ xs, fp.rnd x = .fin x) (hx : ∀ xs ∈ xss, ∀ x ∈ xs, x = 0 ∨ (2 : ℚ) ^ (-1022 : ℤ) ≤ x)
    (hs0 : ∀ xs ∈ xss, 0 < xs.sum) (hs1 : ∀ xs ∈ xss, xs.sum ≤ 2 ^ 1022) {skips : Int} (hk0 : 0 ≤ skips) (hk1 : skips ≤ 2 ^ 31) :
    ∃ (fs : List (List Int)) (x : QIS) (cols : List (List Int)),
      fs.length = xss.length ∧
      (∀ d < xss.length, (∃ e, oneD fp ((xss.getD d []).map Fl.fin) pop = .ok (fs.getD d [], e)) ∧
        (fs.getD d []).length = (xss.getD d []).length) ∧
      qis fp lm (fs.map List.length) (oneWay fs) skips = .ok x ∧ x.conv = true ∧
      flatten x.micro.array = .ok cols ∧ cols.length = xss.length ∧
      ∀ d < xss.length, ((cols.getD d []).length : Int) = pop ∧
        ∀ i < (xss.getD d []).length, ((cols.getD d []).count (i : Int) : Int) = (fs.getD d []).getD i 0 := by
  have hI : ∀ xs : List ℚ, ∃ f : List Int, xs ∈ xss → (∃ e, oneD fp (xs.map Fl.fin) pop = .ok (f, e)) ∧
      f.length = xs.length ∧ (∀ k ∈ f, 0 ≤ k) ∧ f.sum = pop := by
    intro xs
    by_cases hm : xs ∈ xss
    · obtain ⟨f, e, a, b⟩ := C45_sum_partial hfp h0 h1 (hn xs hm) (hr xs hm) (hx xs hm) (hs0 xs hm) (hs1 xs hm)
      exact ⟨f, fun _ => ⟨⟨e, a⟩, b⟩⟩
    · exact ⟨[], fun h => absurd h hm⟩
  obtain ⟨F, hF⟩ := Classical.axiomOfChoice hI
  have hlen : ((xss.map F).map List.length).length = xss.length := by simp
  have hget : ∀ d < xss.length, ∃ xs ∈ xss, xss.getD d [] = xs ∧ (xss.map F).getD d [] = F xs := by
    intro d hd
    exact ⟨xss[d], List.getElem_mem hd, by simp [List.getD_eq_getElem?_getD, hd], by simp [List.getD_eq_getElem?_getD, hd]⟩
  have hok : ProbOK ((xss.map F).map List.length) (oneWay (xss.map F)) pop := by
    apply oneWay_ok (by simpa using h2)
    · intro f hf
      obtain ⟨xs, hm, rfl⟩ := List.mem_map.mp hf
      intro h
      have := (hF xs hm).2.1
      rw [h] at this
      have h3 := hs0 xs hm
      rw [List.length_eq_zero_iff.mp this.symm] at h3
      simp at h3
    · intro f hf
      obtain ⟨xs, hm, rfl⟩ := List.mem_map.mp hf
      exact (hF xs hm).2.2.1
    · intro f hf
      obtain ⟨xs, hm, rfl⟩ := List.mem_map.mp hf
      exact (hF xs hm).2.2.2
  obtain ⟨x, hx1, hx2⟩ := C23_tree hfp lm hok h1 (oneWay_tree _) (by rw [hlen]; exact hd) hk0 hk1
  obtain ⟨cols, k1, k2, k3, k4⟩ := C118_qis_flatten hfp hok (by omega) hx1 hx2
  rw [hlen] at k2
  refine ⟨xss.map F, x, cols, by simp, ?_, hx1, hx2, k1, k2, ?_⟩
  · intro d hd
    obtain ⟨xs, hm, e1, e2⟩ := hget d hd
    rw [e1, e2]
    exact ⟨(hF xs hm).1, (hF xs hm).2.1⟩
  · intro d hd
    obtain ⟨xs, hm, e1, e2⟩ := hget d hd
    have hcm : cols.getD d [] ∈ cols := by
      have : d < cols.length := by omega
      simp [List.getD_eq_getElem?_getD, this]
    have hcl := k3 _ hcm
    refine ⟨hcl, ?_⟩
    intro i hi
    rw [e1] at hi
    have hmem : (([d] : List Nat), fun j : List Int => ((xss.map F).getD d []).getD (j.getD 0 0).toNat 0) ∈ oneWay (xss.map F) :=
      List.mem_map.mpr ⟨d, List.mem_range.mpr (by simpa using hd), rfl⟩
    have hsz : projSizes [d] ((xss.map F).map List.length) = [xs.length] := by
      have : ((xss.map F).map List.length).getD d 0 = ((xss.map F).getD d []).length := by
        simp [List.getD_eq_getElem?_getD, hd]
      unfold projSizes
      rw [List.map_singleton, this, e2, (hF xs hm).2.1]
    have := k4 _ hmem [(i : Int)] (by rw [hsz]; simp [InRange]; omega)
    rw [tally_one (by omega)] at this
    rw [this]
    simp

/-- three distributions, a thousand people, binary64: every hypothesis holds -/
example (sqrt : Fl → Fl) (lm : Libm) : ∃ (fs : List (List Int)) (x : QIS) (cols : List (List Int)),
    qis (FP.ieee sqrt) lm (fs.map List.length) (oneWay fs) 0 = .ok x ∧ x.conv = true ∧ flatten x.micro.array = .ok cols ∧ cols.length = 3 := by
  have hx : ∀ xs ∈ ([[1, 2, 3], [4, 5], [1, 0, 1]] : List (List ℚ)), ∀ x ∈ xs, ∃ n : Nat, n ≤ 5 ∧ x = n := by
    intro xs h x hx
    simp only [List.mem_cons, List.not_mem_nil, or_false] at h
    rcases h with rfl | rfl | rfl <;> simp only [List.mem_cons, List.not_mem_nil, or_false] at hx
    · rcases hx with rfl | rfl | rfl
      exacts [⟨1, by decide, by norm_num⟩, ⟨2, by decide, by norm_num⟩, ⟨3, by decide, by norm_num⟩]
    · rcases hx with rfl | rfl
      exacts [⟨4, by decide, by norm_num⟩, ⟨5, by decide, by norm_num⟩]
    · rcases hx with rfl | rfl | rfl
      exacts [⟨1, by decide, by norm_num⟩, ⟨0, by decide, by norm_num⟩, ⟨1, by decide, by norm_num⟩]
  obtain ⟨fs, x, cols, -, -, h1, h2, h3, h4, -⟩ := C118_pipeline (FP.ieee_good sqrt) lm (xss := [[1, 2, 3], [4, 5], [1, 0, 1]])
    (by decide) (by decide) (pop := 1000) (by decide) (by decide)
    (by intro xs h; simp only [List.mem_cons, List.not_mem_nil, or_false] at h; rcases h with rfl | rfl | rfl <;> norm_num)
    (by
      intro xs h x hx'
      obtain ⟨n, hn, rfl⟩ := hx xs h x hx'
      simpa using (FP.ieee_good sqrt).dyadic (n : Int) 0 (by rw [abs_of_nonneg (by omega)]; omega) (by omega))
    (by
      intro xs h x hx'
      obtain ⟨n, hn, rfl⟩ := hx xs h x hx'
      rcases Nat.eq_zero_or_pos n with rfl | hp
      · left; simp
      · right
        have : (1 : ℚ) ≤ n := by exact_mod_cast hp
        refine le_trans ?_ this
        exact zpow_le_one_of_nonpos₀ (by norm_num) (by norm_num))
    (by intro xs h; simp only [List.mem_cons, List.not_mem_nil, or_false] at h; rcases h with rfl | rfl | rfl <;> norm_num)
    (by
      intro xs h
      have : xs.sum ≤ 2 ^ 4 := by
        simp only [List.mem_cons, List.not_mem_nil, or_false] at h; rcases h with rfl | rfl | rfl <;> norm_num
      exact this.trans (pow_le_pow_right₀ (by norm_num) (by norm_num)))
    (skips := 0) (by decide) (by decide)
  exact ⟨fs, x, cols, h1, h2, h3, h4⟩

/-- the problem of `Props/QIS.lean` meets the hypotheses of the `flatten` theorems -/
example (hfp : fp.Good) (lm : Libm) : ∃ x cols, qis fp lm [2, 3] exProb 5 = .ok x ∧ flatten x.micro.array = .ok cols ∧
    ∀ p ∈ exProb, ∀ j, InRange (projSizes p.1 [2, 3]) j → (tally cols (3 : Int).toNat p.1 j : Int) = p.2 j := by
  obtain ⟨x, h1, h2⟩ := C23_tree hfp lm exProb_ok (by norm_num) exProb_tree (by simp) (skips := 5) (by norm_num) (by norm_num)
  obtain ⟨cols, h3, -, -, h4⟩ := C118_qis_flatten hfp exProb_ok (by norm_num) h1 h2
  exact ⟨x, cols, h1, h3, h4⟩

end HL

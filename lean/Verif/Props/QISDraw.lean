import Verif.Proof.QISDraw
import Verif.Props.QIS

/-
C77: what each individual of `qis` is drawn from, for marginals of any dimension.
-/

namespace HL
open QIS
variable {fp : FP}

/-- What is left of the marginal `p`, when the individuals `done` have been placed, in the cells that have `x` at
position `a` and agree with the individual `v` at the positions that are drawn before position `a`: those that come
after it in the marginal, and those whose dimension is one of `F`. -/
def condWeight (s : List Nat) (p : List Nat × (List Int → Int)) (F : List Nat) (done : List (List Int)) (v : List Int)
    (a x : Nat) : Int :=
  ∑ j ∈ condCells s p.1 F v a x, (p.2 j - (done.countP (fun w => proj p.1 w = j) : Int))

/-- **C77** The population `qis` returns consists of individuals `vs`.  The `i`-th is read off the Sobol point number
`c + i + 1`: for each marginal `p` in the order given, and each position `a` of it whose dimension `d` no earlier
marginal names, the coordinate `d` of the individual is the first state whose running total passes the fraction of the
total that coordinate `d` of the point asks for (a product rounded once, and exact when the total is at most 2^21).  The
weights are what the individuals before the `i`-th have left of `p`, in the cells that agree with the coordinates of
this individual drawn before. -/
theorem C77_draws (hfp : fp.Good) {lm : Libm} {s : List Nat} {P : Prob Int} {pop : Int} (h : ProbOK s P pop)
    (hpop : pop < 2 ^ 52) (hnd : ∀ p ∈ P, p.1.Nodup) {skips : Int} (h0 : 0 ≤ skips)
    (hsk : skips < 2 ^ 32) {x : QIS} (hx : qis fp lm s P skips = .ok x) :
    ∃ (c : Nat) (vs : List (List Int)), (skips ≤ 2 → c = 1) ∧ (2 ≤ skips → LargestPow2Below skips.toNat c) ∧
      (vs.length : Int) = pop ∧ x.micro.array = arr s (fun v => (vs.count v : Int)) ∧
      ∀ i < vs.length, ∃ pt v, IsPoint s.length (c + i + 1) pt ∧ vs[i]? = some v ∧ InRange s v ∧
        ∀ A p B, P = A ++ p :: B → ∀ a d, p.1[a]? = some d → (∀ q ∈ A, d ∉ q.1) →
          let w := condWeight s p (A.flatMap Prod.fst) (vs.take i) v a
          let total := ∑ x ∈ Finset.range (s.getD d 0), w x
          ∃ r : ℚ, FirstPast w (s.getD d 0) r (v.getD d 0) ∧
            RoundedTo (((pt.getD d 0).toNat : ℚ) / 2 ^ 32 * total) r ∧
            (|total| ≤ 2 ^ 21 → r = ((pt.getD d 0).toNat : ℚ) / 2 ^ 32 * total) := by
  obtain ⟨c, vs, hdim, hc, hs⟩ := run_ok hfp h hpop hx
  have hmod : (skips % 2 ^ 32).toNat = skips.toNat := by
    rw [Int.emod_eq_of_lt h0 (by omega)]
  rw [hmod] at hc
  obtain ⟨c1, c2⟩ := skipped_spec hc
  have hpn := h.pop_nonneg
  have hbound := hs.at_.sobol.bound
  refine ⟨c, vs.reverse, fun hk => c1 (by omega), fun hk => c2 (by omega), ?_, ?_, ?_⟩
  · rw [List.length_reverse, hs.size, Int.toNat_of_nonneg hpn]
  · rw [hs.at_.micro]
    simp only [List.count_reverse]
  · intro i hi
    rw [List.length_reverse, hs.size] at hi
    obtain ⟨seq, v, g1, g2, g3⟩ := hs.points i hi
    have hvm : v ∈ vs := by
      have := List.mem_of_getElem? g1
      simpa using this
    have h2 := h.two
    obtain ⟨pt, hpt⟩ := C09_point_exists (dim := s.length) (n := c + i + 1) (by omega) hdim (by omega) (by omega)
    have hpe : pt = seq := pointAt_unique hdim (isPoint_at hpt).1 g2
    subst hpe
    refine ⟨pt, v, hpt, g1, hs.range v hvm, ?_⟩
    intro A p B hP a d had hdA w total
    have hp : p ∈ P := by rw [hP]; simp
    have ha : a < p.1.length := by
      by_contra hc'
      rw [List.getElem?_eq_none (by omega)] at had
      cases had
    have hda : p.1.getD a 0 = d := by simp [List.getD_eq_getElem?_getD, had]
    set done := (vs.reverse.take i).reverse with hdone
    have hsub : done.Sublist vs := by
      have := (List.take_sublist i vs.reverse).reverse
      rwa [List.reverse_reverse] at this
    unfold Draw at g3
    have hd := sampleAll_draw (fp := fp) h.good g2.1 (remaining done P) [] (List.replicate s.length (-1)) v
      (partial_replicate s) (by
        intro q hq
        obtain ⟨r, hr, rfl⟩ := List.mem_map.mp hq
        exact ⟨(h.dims r hr).1, hnd r hr, (h.dims r hr).2⟩) (by
        intro e he
        rw [List.getD_eq_getElem?_getD, List.getElem?_replicate, if_pos he]
        simp) (by rw [indicesOf_remaining, mapsOf_remaining]; exact g3)
      (remaining done A) (p.1, fun j => p.2 j - (done.countP (fun v => proj p.1 v = j) : Int)) (remaining done B)
      (by rw [hP]; simp [remaining]) a ha (by
        simp only [List.nil_append]
        rw [hda]
        intro hm
        rw [List.mem_flatMap] at hm
        obtain ⟨q, hq, hdq⟩ := hm
        obtain ⟨r, hr, rfl⟩ := List.mem_map.mp hq
        exact hdA r hr hdq)
    have hfl : (remaining done A).flatMap Prod.fst = A.flatMap Prod.fst := by
      simp [remaining, List.flatMap_map]
    simp only [List.nil_append] at hd
    rw [hda, hfl] at hd
    obtain ⟨k, hk1, hk2⟩ := hd
    have hww : ∀ y, w y = ∑ j ∈ condCells s p.1 (A.flatMap Prod.fst) v a y, (p.2 j - (done.countP (fun w => proj p.1 w = j) : Int)) := by
      intro y
      show condWeight _ _ _ _ _ _ _ = _
      unfold condWeight
      apply Finset.sum_congr rfl
      intro j _
      rw [hdone, List.countP_reverse]
    have hcs : condSums s p.1 (A.flatMap Prod.fst) (fun j => p.2 j - (done.countP (fun v => proj p.1 v = j) : Int)) v a =
        (List.range (s.getD d 0)).map w := by
      unfold condSums
      rw [hda]
      apply List.map_congr_left
      intro y _
      exact (hww y).symm
    have habs : ((condSums s p.1 (A.flatMap Prod.fst) (fun j => p.2 j - (done.countP (fun v => proj p.1 v = j) : Int)) v a).map
        (fun x => |x|)).sum ≤ 2 ^ 53 := by
      refine (condSums_abs_le _ _ _ _ _ _).trans ?_
      have h3 : ∑ j ∈ cells (projSizes p.1 s), |p.2 j - (done.countP (fun v => proj p.1 v = j) : Int)| ≤
          ∑ j ∈ cells (projSizes p.1 s), (p.2 j + (done.countP (fun v => proj p.1 v = j) : Int)) := by
        apply Finset.sum_le_sum
        intro j hj
        have := h.nonneg p hp j (mem_cells.mp hj)
        rw [abs_le]
        constructor <;> omega
      refine h3.trans ?_
      rw [Finset.sum_add_distrib, h.total p hp, sum_countP (h.dims p hp).2 (fun u hu' => hs.range u (hsub.subset hu'))]
      have : done.length ≤ vs.length := hsub.length_le
      rw [hs.size] at this
      omega
    obtain ⟨r, e1, e2, e3, e4, e5⟩ := pick_int_level hfp habs hk2
    rw [hcs] at e1 e2 e3 e4 e5
    have hsum : ((List.range (s.getD d 0)).map w).sum = total := by
      have := take_map_range_sum w (le_refl (s.getD d 0))
      rw [List.take_of_length_le (by simp)] at this
      exact this
    rw [hsum] at e1 e2
    have hlen : ((List.range (s.getD d 0)).map w).length = s.getD d 0 := by simp
    rw [hlen] at e3
    refine ⟨r, ⟨k, hk1, e3, ?_, ?_⟩, e1, e2⟩
    · intro m hm
      have := e4 m hm
      rwa [take_map_range_sum w (by omega)] at this
    · rwa [take_map_range_sum w (by omega)] at e5

/-- Two marginals of a 2x2x2 table that share the middle dimension. -/
def bridgeProb : Prob Int := [([0, 1], fun j => 1 + j.getD 0 0), ([1, 2], fun j => 1 + j.getD 1 0)]

theorem bridgeProb_ok : ProbOK [2, 2, 2] bridgeProb 6 where
  lists := by decide
  two := by decide
  pos := by decide
  dims := by simp [bridgeProb]
  cover := by
    intro d hd
    simp only [List.length_cons, List.length_nil] at hd
    interval_cases d <;> simp [bridgeProb]
  nonneg := by
    intro p hp j hj
    simp only [bridgeProb, List.mem_cons, List.not_mem_nil, or_false] at hp
    rcases hp with rfl | rfl
    · have := (inRange_getD hj (d := 0) (by simp [projSizes])).1
      simp only []; omega
    · have := (inRange_getD hj (d := 1) (by simp [projSizes])).1
      simp only []; omega
  total := by
    intro p hp
    simp only [bridgeProb, List.mem_cons, List.not_mem_nil, or_false] at hp
    rcases hp with rfl | rfl <;> decide
  partials := by
    intro p hp q hq a b d ha hb x hx
    simp only [bridgeProb, List.mem_cons, List.not_mem_nil, or_false] at hp hq
    have hlp : p.1.length = 2 := by rcases hp with rfl | rfl <;> rfl
    have hlq : q.1.length = 2 := by rcases hq with rfl | rfl <;> rfl
    have ha2 : a < 2 := by
      have := (List.getElem?_eq_some_iff.mp ha).1
      rwa [hlp] at this
    have hb2 : b < 2 := by
      have := (List.getElem?_eq_some_iff.mp hb).1
      rwa [hlq] at this
    have hx2 : x < 2 := by
      have hd : d < 3 := by
        have := List.mem_of_getElem? ha
        rcases hp with rfl | rfl <;> simp at this <;> omega
      interval_cases d <;> exact hx
    rcases hp with rfl | rfl <;> rcases hq with rfl | rfl <;> interval_cases a <;> interval_cases b <;>
      simp at ha hb <;> subst ha <;> simp at hb <;> interval_cases x <;> decide

theorem bridgeProb_tree : TreeDims (bridgeProb.map Prod.fst) := by
  intro A ds B hAB
  simp only [bridgeProb, List.map_cons, List.map_nil] at hAB
  match A, hAB with
  | [], hAB =>
    simp only [List.nil_append, List.cons.injEq] at hAB
    obtain ⟨rfl, -⟩ := hAB
    exact ⟨by decide, by simp⟩
  | [e], hAB =>
    simp only [List.cons_append, List.nil_append, List.cons.injEq] at hAB
    obtain ⟨rfl, rfl, -⟩ := hAB
    refine ⟨by decide, ?_⟩
    intro a ha b hb h1 h2
    simp at ha hb h1 h2
    omega
  | e :: f :: A, hAB => simp at hAB

/-- The hypotheses are met, by marginals that overlap. -/
example (hfp : fp.Good) (lm : Libm) : (∀ p ∈ bridgeProb, p.1.Nodup) ∧ ∃ x, qis fp lm [2, 2, 2] bridgeProb 5 = .ok x := by
  refine ⟨by simp [bridgeProb], ?_⟩
  obtain ⟨x, hx, -⟩ := C23_tree hfp lm bridgeProb_ok (by norm_num) bridgeProb_tree (by simp) (skips := 5) (by norm_num) (by norm_num)
  exact ⟨x, hx⟩

/-- The weights of the last dimension are those of the row that the middle coordinate selects. -/
example (v : List Int) (hv : v.getD 1 0 = 1) : condWeight [2, 2, 2] ([1, 2], fun j => 1 + j.getD 1 0) [0, 1] [] v 1 0 = 1 ∧
    condWeight [2, 2, 2] ([1, 2], fun j => 1 + j.getD 1 0) [0, 1] [] v 1 1 = 2 := by
  have key : ∀ x : Nat, x < 2 → condCells [2, 2, 2] [1, 2] [0, 1] v 1 x = {[1, (x : Int)]} := by
    intro x hx
    ext j
    unfold condCells
    rw [Finset.mem_filter, mem_cells, Finset.mem_singleton]
    constructor
    · rintro ⟨h1, h2, h3⟩
      have h4 := h3 0 (by simp) (by simp) (Or.inr (by simp))
      have hl := inRange_length h1
      match j, hl with
      | [j0, j1], _ =>
        simp at h2 h4
        rw [h2, h4]
        simpa using hv
    · rintro rfl
      refine ⟨?_, by simp, ?_⟩
      · interval_cases x <;> decide
      · intro b hb hne hor
        simp only [List.length_cons, List.length_nil] at hb
        have : b = 0 := by omega
        subst this
        simpa using hv.symm
  unfold condWeight
  rw [key 0 (by norm_num), key 1 (by norm_num)]
  simp

/-- ... and by marginals that `qis` cannot meet. -/
example (hfp : fp.Good) (lm : Libm) : (∀ p ∈ crossProb, p.1.Nodup) ∧ ∃ x, qis fp lm [2, 2] crossProb 0 = .ok x :=
  ⟨by simp [crossProb], C23_full_first hfp lm crossProb_ok (by norm_num) (by decide)
    (by intro d hd; simp only [List.length_cons, List.length_nil] at hd; interval_cases d <;> simp) (by simp) (by norm_num) (by norm_num)⟩

end HL

import Verif.Proof.QISDraw
import Verif.Proof.QISMore

/-
Marginals that name a dimension no earlier marginal names.
-/

namespace HL
open QIS Sobol
variable {fp : FP}

/-- what a pick from non-negative integer weights tells -/
theorem pick_int_ok (hfp : fp.Good) {dist : List Int} (hn : ∀ x ∈ dist, 0 ≤ x) (hb : dist.sum ≤ 2 ^ 53) {u : U32} {i : Nat}
    (hp : pick fp (numInt fp) dist (variate fp u) = .ok i) : i < dist.length ∧ 0 < dist.getD i 0 := by
  rcases (List.sum_nonneg hn).eq_or_lt with h0 | h0
  · exfalso
    have hz : ∀ x ∈ dist, x = 0 := by
      intro x hx
      exact le_antisymm (h0 ▸ List.single_le_sum hn x hx) (hn x hx)
    rw [pick_int_zero hfp hz] at hp
    cases hp
  · obtain ⟨k, h1, h2, h3⟩ := pick_int_pos hfp hn h0 hb u
    rw [h1] at hp
    injection hp with hp
    subst hp
    exact ⟨h2, h3⟩

theorem condSums_nonneg {s ds F : List Nat} {g : List Int → Int} {v : List Int} {a : Nat}
    (hn : ∀ j, InRange (projSizes ds s) j → 0 ≤ g j) : ∀ x ∈ condSums s ds F g v a, 0 ≤ x := by
  intro x hx
  simp only [condSums, List.mem_map, List.mem_range] at hx
  obtain ⟨y, -, rfl⟩ := hx
  exact Finset.sum_nonneg (fun j hj => hn j (mem_cells.mp (Finset.mem_filter.mp hj).1))

theorem condSums_sum_le {s ds F : List Nat} {g : List Int → Int} {v : List Int} {a : Nat}
    (hn : ∀ j, InRange (projSizes ds s) j → 0 ≤ g j) : (condSums s ds F g v a).sum ≤ ∑ j ∈ cells (projSizes ds s), g j := by
  refine (le_abs_self _).trans ((abs_sum_le _).trans ((condSums_abs_le s ds F g v a).trans ?_))
  exact Finset.sum_le_sum (fun j hj => (abs_of_nonneg (hn j (mem_cells.mp hj))).le)

/-- A draw takes one unit from a positive entry of every marginal that names a new dimension and has no negative entry. -/
theorem sampleAll_new (hfp : fp.Good) {s : List Nat} (hg : GoodShape s) {seq : List U32} (hs : seq.length = s.length) {Q : Prob Int}
    {v : List Int} (hQ : ∀ p ∈ Q, p.1 ≠ [] ∧ p.1.Nodup ∧ ∀ d ∈ p.1, d < s.length)
    (hv : sampleAll fp seq (indicesOf Q) (mapsOf s Q) (marginalsOf s Q) (List.replicate s.length (-1)) = .ok v)
    {A B : Prob Int} {p : List Nat × (List Int → Int)} (hP : Q = A ++ p :: B) (hd : ∃ d ∈ p.1, ∀ q ∈ A, d ∉ q.1)
    (hn : ∀ j, InRange (projSizes p.1 s) j → 0 ≤ p.2 j) (hb : ∑ j ∈ cells (projSizes p.1 s), p.2 j ≤ 2 ^ 53) :
    0 < p.2 (proj p.1 v) := by
  classical
  obtain ⟨d, hdp, hdA⟩ := hd
  have hex : ∃ a, a < p.1.length ∧ ∀ q ∈ A, p.1.getD a 0 ∉ q.1 := by
    obtain ⟨a, ha, rfl⟩ := List.getElem_of_mem hdp
    exact ⟨a, ha, by simpa [List.getD_eq_getElem?_getD, ha] using hdA⟩
  obtain ⟨ha, haA⟩ := Nat.find_spec hex
  have hmin := fun b (hb : b < Nat.find hex) => Nat.find_min hex hb
  generalize Nat.find hex = a at *
  obtain ⟨i, hi1, hi2⟩ := sampleAll_draw (fp := fp) hg hs Q [] (List.replicate s.length (-1)) v (partial_replicate s) hQ (by
      intro e he
      rw [List.getD_eq_getElem?_getD, List.getElem?_replicate, if_pos he]
      simp) hv A p B hP a ha (by
      simp only [List.nil_append, List.mem_flatMap, not_exists, not_and]
      exact haA)
  obtain ⟨h1, h2⟩ := pick_int_ok hfp (condSums_nonneg hn) ((condSums_sum_le hn).trans hb) hi2
  have hlt : i < s.getD (p.1.getD a 0) 0 := by simpa [condSums] using h1
  have h3 : (condSums s p.1 ([] ++ A.flatMap Prod.fst) p.2 v a).getD i 0 =
      ∑ j ∈ condCells s p.1 ([] ++ A.flatMap Prod.fst) v a i, p.2 j := by
    unfold condSums
    rw [List.getD_eq_getElem?_getD, List.getElem?_map, List.getElem?_range hlt]
    rfl
  rw [h3] at h2
  obtain ⟨j, hj, hjp⟩ := Finset.exists_lt_of_sum_lt (s := condCells s p.1 ([] ++ A.flatMap Prod.fst) v a i) (f := fun _ => (0 : Int))
    (g := p.2) (by simpa using h2)
  obtain ⟨hjc, hja, hjb⟩ := Finset.mem_filter.mp hj
  have hjl := inRange_length (mem_cells.mp hjc)
  have : j = proj p.1 v := by
    apply ext_getD (by rw [hjl]; simp [projSizes, proj])
    intro b hb
    have hb' : b < p.1.length := by rw [hjl] at hb; simpa [projSizes] using hb
    have e : (proj p.1 v).getD b 0 = v.getD (p.1.getD b 0) 0 := by
      simp [proj, List.getD_eq_getElem?_getD, hb']
    rw [e]
    rcases lt_trichotomy b a with hlt | rfl | hgt
    · refine hjb b hb' hlt.ne (Or.inr ?_)
      have := hmin b hlt
      push Not at this
      obtain ⟨q, hq, hbq⟩ := this hb'
      rw [List.nil_append, List.mem_flatMap]
      exact ⟨q, hq, hbq⟩
    · rw [hja, hi1]
    · exact hjb b hb' hgt.ne' (Or.inl hgt)
  rw [← this]
  exact hjp

/-- No individual is taken from a spent entry of a marginal that names a new dimension. -/
theorem count_new (hfp : fp.Good) {lm : Libm} {s : List Nat} {P : Prob Int} {pop : Int} (h : ProbOK s P pop) (hpop : pop < 2 ^ 52)
    (hnd : ∀ p ∈ P, p.1.Nodup) {c : Nat} {E : List Int → Fl} {vs : List (List Int)} {x : QIS} (hs : Solved fp lm s P pop c E vs x)
    {A B : Prob Int} {p : List Nat × (List Int → Int)} (hP : P = A ++ p :: B) (hd : ∃ d ∈ p.1, ∀ q ∈ A, d ∉ q.1) {j : List Int}
    (hj : InRange (projSizes p.1 s) j) :
    ∀ i ≤ vs.length, ((vs.reverse.take i).countP (fun v => proj p.1 v = j) : Int) ≤ p.2 j := by
  have hp : p ∈ P := by rw [hP]; simp
  have key : ∀ i ≤ vs.length, ∀ j, InRange (projSizes p.1 s) j →
      ((vs.reverse.take i).countP (fun v => proj p.1 v = j) : Int) ≤ p.2 j := by
    intro i
    induction i with
    | zero => intro _ j hj; simpa using h.nonneg p hp j hj
    | succ i ih =>
      intro hi j hj
      obtain ⟨seq, v, g1, g2, g3⟩ := hs.points i (by rw [← hs.size]; omega)
      have ih' := ih (by omega)
      set done := (vs.reverse.take i).reverse with hdone
      have hcd : ∀ j, done.countP (fun v => proj p.1 v = j) = (vs.reverse.take i).countP (fun v => proj p.1 v = j) := by
        intro j; rw [hdone, List.countP_reverse]
      unfold Draw at g3
      have hdr : ∀ u ∈ done, InRange s u := by
        intro u hu
        rw [hdone, List.mem_reverse] at hu
        exact hs.range u (List.mem_reverse.mp (List.mem_of_mem_take hu))
      have := sampleAll_new hfp h.good g2.1 (Q := remaining done P) (v := v) (by
          intro q hq
          obtain ⟨r, hr, rfl⟩ := List.mem_map.mp hq
          exact ⟨(h.dims r hr).1, hnd r hr, (h.dims r hr).2⟩) (by rw [indicesOf_remaining, mapsOf_remaining]; exact g3)
        (A := remaining done A) (B := remaining done B) (p := (p.1, fun j => p.2 j - (done.countP (fun v => proj p.1 v = j) : Int)))
        (by rw [hP]; simp [remaining]) (by
          obtain ⟨d, h1, h2⟩ := hd
          refine ⟨d, h1, ?_⟩
          intro q hq
          obtain ⟨r, hr, rfl⟩ := List.mem_map.mp hq
          exact h2 r hr) (by
          intro j hj
          have := ih' j hj
          rw [← hcd] at this
          simpa using this) (by
          simp only []
          rw [Finset.sum_sub_distrib, h.total p hp, sum_countP (h.dims p hp).2 hdr]
          omega)
      simp only [] at this
      rw [hcd] at this
      have hlt : i < vs.reverse.length := by rw [List.length_reverse]; omega
      rw [List.take_succ_eq_append_getElem hlt, List.countP_append]
      have hve : vs.reverse[i] = v := by
        rw [List.getElem?_eq_getElem hlt] at g1
        injection g1
      rw [hve, List.countP_singleton]
      by_cases hvj : proj p.1 v = j
      · rw [hvj] at this
        simp only [hvj, decide_true, if_true]
        push_cast
        omega
      · simp only [hvj, decide_false, Bool.false_eq_true, if_false]
        have := ih' j hj
        simpa using this
  exact fun i hi => key i hi j hj

theorem met_new (hfp : fp.Good) {lm : Libm} {s : List Nat} {P : Prob Int} {pop : Int} (h : ProbOK s P pop) (hpop : pop < 2 ^ 52)
    (hnd : ∀ p ∈ P, p.1.Nodup) {c : Nat} {E : List Int → Fl} {vs : List (List Int)} {x : QIS} (hs : Solved fp lm s P pop c E vs x)
    {A B : Prob Int} {p : List Nat × (List Int → Int)} (hP : P = A ++ p :: B) (hd : ∃ d ∈ p.1, ∀ q ∈ A, d ∉ q.1) {j : List Int}
    (hj : InRange (projSizes p.1 s) j) : marginalSum s p.1 (fun v => (vs.count v : Int)) j = p.2 j := by
  have hp : p ∈ P := by rw [hP]; simp
  have hle : ∀ j ∈ cells (projSizes p.1 s), (vs.countP (fun v => proj p.1 v = j) : Int) ≤ p.2 j := by
    intro j hj
    have := count_new hfp h hpop hnd hs hP hd (mem_cells.mp hj) vs.length le_rfl
    rw [List.take_of_length_le (by simp), List.countP_reverse] at this
    exact this
  have hsum : ∑ j ∈ cells (projSizes p.1 s), (vs.countP (fun v => proj p.1 v = j) : Int) = ∑ j ∈ cells (projSizes p.1 s), p.2 j := by
    rw [sum_countP (h.dims p hp).2 hs.range, h.total p hp, hs.size, Int.toNat_of_nonneg h.pop_nonneg]
  rw [marginalSum_count hs.range]
  exact (Finset.sum_eq_sum_iff_of_le hle).mp hsum j (mem_cells.mpr hj)

end HL

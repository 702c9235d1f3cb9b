import Verif.Proof.QISFollow
import Verif.Props.QISDraw
import Verif.QISRuleSpec

/-
A draw of the code is a reading off the point by the rule.
-/

namespace HL
open QIS
variable {fp : FP}

theorem firstPast_unique {w : Nat → Int} {n : Nat} {r : ℚ} {i i' : Int} (h : FirstPast w n r i) (h' : FirstPast w n r i') : i = i' := by
  obtain ⟨k, rfl, -, h1, h2⟩ := h
  obtain ⟨k', rfl, -, h3, h4⟩ := h'
  rcases Nat.lt_trichotomy k k' with hk | hk | hk
  · exact absurd (h3 k hk) (not_le.mpr h2)
  · rw [hk]
  · exact absurd (h1 k' hk) (not_le.mpr h4)

/-- the weights as the code has them -/
theorem condSums_left {s : List Nat} {p : List Nat × (List Int → Int)} {F : List Nat} {done : List (List Int)} {v : List Int} {a d : Nat}
    (hda : p.1.getD a 0 = d) :
    condSums s p.1 F (fun j => p.2 j - (done.reverse.countP (fun v => proj p.1 v = j) : Int)) v a =
      (List.range (s.getD d 0)).map (leftAt s p F done v a) := by
  unfold condSums
  rw [hda]
  apply List.map_congr_left
  intro y _
  unfold leftAt
  apply Finset.sum_congr rfl
  intro j _
  dsimp only
  rw [List.countP_reverse]

theorem condSums_left_abs {s : List Nat} {P : Prob Int} {pop : Int} (h : ProbOK s P pop) (hpop : pop < 2 ^ 52) {done : List (List Int)}
    (hr : ∀ v ∈ done, InRange s v) (hl : (done.length : Int) ≤ pop) {p : List Nat × (List Int → Int)} (hp : p ∈ P) (F : List Nat)
    (v : List Int) (a : Nat) :
    ((condSums s p.1 F (fun j => p.2 j - (done.reverse.countP (fun v => proj p.1 v = j) : Int)) v a).map (fun x => |x|)).sum ≤ 2 ^ 53 := by
  refine (condSums_abs_le _ _ _ _ _ _).trans ?_
  have h3 : ∑ j ∈ cells (projSizes p.1 s), |p.2 j - (done.reverse.countP (fun v => proj p.1 v = j) : Int)| ≤
      ∑ j ∈ cells (projSizes p.1 s), (p.2 j + (done.reverse.countP (fun v => proj p.1 v = j) : Int)) := by
    apply Finset.sum_le_sum
    intro j hj
    have := h.nonneg p hp j (mem_cells.mp hj)
    rw [abs_le]
    constructor <;> omega
  refine h3.trans ?_
  rw [Finset.sum_add_distrib, h.total p hp, sum_countP (h.dims p hp).2 (fun u hu' => hr u (by simpa using hu')), List.length_reverse]
  omega

/-- what `pick` returns from those weights -/
theorem pick_left (hfp : fp.Good) {s : List Nat} {P : Prob Int} {pop : Int} (h : ProbOK s P pop) (hpop : pop < 2 ^ 52) {done : List (List Int)}
    (hr : ∀ v ∈ done, InRange s v) (hl : (done.length : Int) ≤ pop) {p : List Nat × (List Int → Int)} (hp : p ∈ P) (F : List Nat)
    (v : List Int) {a d : Nat} (hda : p.1.getD a 0 = d) {u : U32} {z : Int} :
    (∃ i : Nat, z = i ∧ pick fp (numInt fp)
        (condSums s p.1 F (fun j => p.2 j - (done.reverse.countP (fun v => proj p.1 v = j) : Int)) v a) (variate fp u) = .ok i) ↔
      ∃ r : ℚ, fp.rnd ((u.toNat : ℚ) / 2 ^ 32 * ((∑ x ∈ Finset.range (s.getD d 0), leftAt s p F done v a x : Int) : ℚ)) = .fin r ∧
        FirstPast (leftAt s p F done v a) (s.getD d 0) r z := by
  have habs := condSums_left_abs h hpop hr hl hp F v a
  have hsum : ((List.range (s.getD d 0)).map (leftAt s p F done v a)).sum = ∑ x ∈ Finset.range (s.getD d 0), leftAt s p F done v a x := by
    have := take_map_range_sum (leftAt s p F done v a) (le_refl (s.getD d 0))
    rw [List.take_of_length_le (by simp)] at this
    exact this
  have key : ∀ i : Nat, pick fp (numInt fp)
        (condSums s p.1 F (fun j => p.2 j - (done.reverse.countP (fun v => proj p.1 v = j) : Int)) v a) (variate fp u) = .ok i ↔
      ∃ r : ℚ, fp.rnd ((u.toNat : ℚ) / 2 ^ 32 * ((∑ x ∈ Finset.range (s.getD d 0), leftAt s p F done v a x : Int) : ℚ)) = .fin r ∧
        i < s.getD d 0 ∧ (∀ m < i, ((∑ b ∈ Finset.range (m + 1), leftAt s p F done v a b : Int) : ℚ) ≤ r) ∧
        r < ((∑ b ∈ Finset.range (i + 1), leftAt s p F done v a b : Int) : ℚ) := by
    intro i
    rw [pick_int_iff hfp habs, condSums_left hda, hsum]
    have hlen : ((List.range (s.getD d 0)).map (leftAt s p F done v a)).length = s.getD d 0 := by simp
    rw [hlen]
    refine exists_congr fun r => and_congr_right fun _ => ?_
    constructor
    · rintro ⟨h1, h2, h3⟩
      refine ⟨h1, fun m hm => ?_, ?_⟩
      · have := h2 m hm
        rwa [take_map_range_sum _ (by omega)] at this
      · rwa [take_map_range_sum _ (by omega)] at h3
    · rintro ⟨h1, h2, h3⟩
      refine ⟨h1, fun m hm => ?_, ?_⟩
      · rw [take_map_range_sum _ (by omega)]
        exact h2 m hm
      · rwa [take_map_range_sum _ (by omega)]
  constructor
  · rintro ⟨i, rfl, h1⟩
    obtain ⟨r, h2, h3, h4, h5⟩ := (key i).mp h1
    exact ⟨r, h2, i, rfl, h3, h4, h5⟩
  · rintro ⟨r, h2, i, rfl, h3, h4, h5⟩
    exact ⟨i, rfl, (key i).mpr ⟨r, h2, h3, h4, h5⟩⟩

theorem draw_iff (hfp : fp.Good) {s : List Nat} {P : Prob Int} {pop : Int} (h : ProbOK s P pop) (hpop : pop < 2 ^ 52)
    (hnd : ∀ p ∈ P, p.1.Nodup) {done : List (List Int)} (hr : ∀ v ∈ done, InRange s v) (hl : (done.length : Int) ≤ pop) {seq : List U32}
    (hs : seq.length = s.length) {v : List Int} :
    Draw fp s P seq done.reverse v ↔ ReadOff fp.rnd s P done (fun d => (seq.getD d 0).toNat) v := by
  have hQ : ∀ q ∈ remaining done.reverse P, q.1 ≠ [] ∧ q.1.Nodup ∧ ∀ d ∈ q.1, d < s.length := by
    intro q hq
    obtain ⟨r, hr, rfl⟩ := List.mem_map.mp hq
    exact ⟨(h.dims r hr).1, hnd r hr, (h.dims r hr).2⟩
  have hrep : ∀ d < s.length, d ∈ ([] : List Nat) ↔ 0 ≤ (List.replicate s.length (-1 : Int)).getD d 0 := by
    intro e he
    rw [List.getD_eq_getElem?_getD, List.getElem?_replicate, if_pos he]
    simp
  have hfl : ∀ A : Prob Int, (remaining done.reverse A).flatMap Prod.fst = A.flatMap Prod.fst := by
    intro A
    simp [remaining, List.flatMap_map]
  have hcov : ∀ w, (∀ p ∈ remaining done.reverse P, ∀ d ∈ p.1, 0 ≤ List.getD w d (0 : Int)) → ∀ d < s.length, 0 ≤ List.getD w d (0 : Int) := by
    intro w hw d hd
    obtain ⟨p, hp, hdp⟩ := h.cover d hd
    exact hw _ (List.mem_map.mpr ⟨p, hp, rfl⟩) d hdp
  have hcases := sampleAll_cases (fp := fp) h.good hs (remaining done.reverse P) _ (fun p hp => ⟨(hQ p hp).1, (hQ p hp).2.2⟩)
    (partial_replicate s)
  constructor
  · intro hD
    unfold Draw at hD
    refine ⟨?_, ?_⟩
    · rw [indicesOf_remaining, mapsOf_remaining, hD] at hcases
      rcases hcases with hc | ⟨w, hc, hp1, hp2, -⟩
      · cases hc
      · injection hc with hc
        subst hc
        exact inRange_of_partial hp1 (hcov _ hp2)
    · intro A p B hP a d had hdA
      have hp : p ∈ P := by rw [hP]; simp
      have ha : a < p.1.length := (List.getElem?_eq_some_iff.mp had).1
      have hda : p.1.getD a 0 = d := by simp [List.getD_eq_getElem?_getD, had]
      have hd := sampleAll_draw (fp := fp) h.good hs (remaining done.reverse P) [] (List.replicate s.length (-1)) v
        (partial_replicate s) hQ hrep (by rw [indicesOf_remaining, mapsOf_remaining]; exact hD)
        (remaining done.reverse A) (p.1, fun j => p.2 j - (done.reverse.countP (fun v => proj p.1 v = j) : Int)) (remaining done.reverse B)
        (by rw [hP]; simp [remaining]) a ha (by
          simp only [List.nil_append]
          rw [hda, hfl]
          intro hm
          rw [List.mem_flatMap] at hm
          obtain ⟨q, hq, hdq⟩ := hm
          exact hdA q hq hdq)
      simp only [List.nil_append] at hd
      rw [hfl] at hd
      have := (pick_left hfp h hpop hr hl hp _ v hda).mp hd
      rwa [hda] at this
  · rintro ⟨hv, hrule⟩
    obtain ⟨w, hw, hwv⟩ := sampleAll_of (fp := fp) h.good hs hv (remaining done.reverse P) [] (List.replicate s.length (-1))
      (partial_replicate s) hQ hrep (by
        intro d hd
        by_cases hds : d < s.length
        · rw [List.getD_eq_getElem?_getD, List.getElem?_replicate, if_pos hds] at hd
          simp at hd
        · rw [List.getD_eq_default _ _ (by rw [inRange_length hv]; omega), List.getD_eq_default _ _ (by simp; omega)]) (by
        intro A p B hAB a ha haF
        obtain ⟨A0, B0, hP, hA, hB⟩ := List.map_eq_append_iff.mp hAB
        obtain ⟨p0, B1, hB0, hp0, hB1⟩ := List.map_eq_cons_iff.mp hB
        subst hp0 hA hB0
        have hp : p0 ∈ P := by rw [hP]; simp
        have e := hfl A0
        unfold remaining at e
        simp only [List.nil_append] at haF ⊢
        rw [e] at haF ⊢
        have hda : p0.1[a]? = some (p0.1.getD a 0) := by
          have ha' : a < p0.1.length := ha
          simp [List.getD_eq_getElem?_getD, ha']
        exact (pick_left hfp h hpop hr hl hp _ v rfl).mpr (hrule A0 p0 B1 hP a _ hda (by
          intro q hq hdq
          exact haF (List.mem_flatMap.mpr ⟨q, hq, hdq⟩))))
    rw [hw] at hcases
    rcases hcases with hc | ⟨w', hc, hp1, hp2, -⟩
    · cases hc
    · injection hc with hc
      subst hc
      have hwr := inRange_of_partial hp1 (hcov _ hp2)
      have hwv' : w = v := by
        apply List.ext_getElem (by rw [inRange_length hwr, inRange_length hv])
        intro k h1 h2
        have h3 := hwv k (hcov _ hp2 k (by rw [← inRange_length hwr]; exact h1))
        simp only [List.getD_eq_getElem?_getD, List.getElem?_eq_getElem h1, List.getElem?_eq_getElem h2, Option.getD_some] at h3
        exact h3.symm
      rw [hwv', indicesOf_remaining, mapsOf_remaining] at hw
      exact hw

end HL

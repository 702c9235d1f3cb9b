import Verif.Proof.QISPad

/-
Runs of `qis` on a problem with empty categories.
-/

namespace HL
open QIS Sobol
variable {fp : FP} {e : Nat → Nat → Nat} {s s' : List Nat}

theorem proj_emb {v : List Int} (hv : InRange s v) {ds : List Nat} (hd : ∀ d ∈ ds, d < s.length) :
    proj ds (embIdx e v) = place e ds (proj ds v) := by
  have hl := inRange_length hv
  apply List.ext_getElem (by simp [proj, place])
  intro k h1 h2
  have hk : k < ds.length := by simpa [proj] using h1
  have h3 := hd _ (List.getElem_mem hk)
  have h4 := embIdx_getD (e := e) (idx := v) (d := ds[k]) (by omega)
  have h5 := (inRange_getD hv h3).1
  rw [if_neg (by omega)] at h4
  simp only [proj, List.getElem_map, place, List.getElem_zipWith]
  exact h4

theorem projSizes_all (s : List Nat) : projSizes (List.range s.length) s = s := by
  apply List.ext_getElem (by simp [projSizes])
  intro k h1 h2
  simp [projSizes, List.getD_eq_getElem?_getD, h2]

theorem proj_range {v : List Int} {n : Nat} (h : v.length = n) : proj (List.range n) v = v := by
  subst h
  apply List.ext_getElem (by simp [proj])
  intro k h1 h2
  simp [proj, List.getD_eq_getElem?_getD, h2]

theorem emb_eq_place {v : List Int} (hv : InRange s v) : embIdx e v = place e (List.range s.length) v := by
  have hl := inRange_length hv
  have := proj_emb (e := e) hv (ds := List.range s.length) (by simp)
  rwa [proj_range (by rw [embIdx_length, hl]), proj_range hl] at this

theorem emb_inj (he : Places e s s') {v w : List Int} (hv : InRange s v) (hw : InRange s w) (h : embIdx e v = embIdx e w) : v = w := by
  rw [emb_eq_place hv, emb_eq_place hw] at h
  refine place_inj he (ds := List.range s.length) (by simp) ?_ ?_ h <;> rw [projSizes_all] <;> assumption

theorem count_emb (he : Places e s s') {ds : List Nat} (hd : ∀ d ∈ ds, d < s.length) {j : List Int} (hj : InRange (projSizes ds s) j) :
    ∀ {hs : List (List Int)}, (∀ v ∈ hs, InRange s v) →
      (hs.map (embIdx e)).countP (fun v => proj ds v = place e ds j) = hs.countP (fun v => proj ds v = j) := by
  intro hs h
  rw [List.countP_map]
  apply List.countP_congr
  intro v hv
  simp only [Function.comp, decide_eq_true_eq]
  rw [proj_emb (h v hv) hd]
  exact ⟨fun h1 => place_inj he hd (inRange_proj hd (h v hv)) hj h1, fun h1 => by rw [h1]⟩

theorem count_emb_zero {ds : List Nat} (hd : ∀ d ∈ ds, d < s.length) {j' : List Int}
    (hno : ∀ j, InRange (projSizes ds s) j → place e ds j ≠ j') {hs : List (List Int)} (h : ∀ v ∈ hs, InRange s v) :
    (hs.map (embIdx e)).countP (fun v => proj ds v = j') = 0 := by
  rw [List.countP_eq_zero]
  intro w hw
  obtain ⟨v, hv, rfl⟩ := List.mem_map.mp hw
  simp only [decide_eq_true_eq]
  rw [proj_emb (h v hv) hd]
  exact hno _ (inRange_proj hd (h v hv))

theorem remaining_pad (he : Places e s s') {P P' : Prob Int} (hd : ∀ p ∈ P, ∀ d ∈ p.1, d < s.length) (h : Padded e s s' P P')
    {hs : List (List Int)} (hr : ∀ v ∈ hs, InRange s v) : Padded e s s' (remaining hs P) (remaining (hs.map (embIdx e)) P') := by
  unfold Padded remaining
  rw [List.forall₂_map_left_iff, List.forall₂_map_right_iff]
  have : ∀ p ∈ P, ∀ p' : List Nat × (List Int → Int), (p'.1 = p.1 ∧ PadOf e s s' p.1 p.2 p'.2) → (p'.1 = p.1 ∧ PadOf e s s' p.1
      (fun j => p.2 j - (hs.countP (fun v => proj p.1 v = j) : Int))
      (fun j => p'.2 j - ((hs.map (embIdx e)).countP (fun v => proj p'.1 v = j) : Int))) := by
    rintro p hp p' ⟨h1, h2⟩
    refine ⟨h1, ?_, ?_⟩
    · intro j hj
      simp only []
      rw [h1, count_emb he (hd p hp) hj hr, h2.1 j hj]
    · intro j' hj' hno
      simp only []
      rw [h1, count_emb_zero (hd p hp) hno hr, h2.2 j' hj' hno]
      rfl
  clear hd
  induction h with
  | nil => exact .nil
  | cons h1 _ ih => exact .cons (this _ (by simp) _ h1) (ih (fun p hp => this p (by simp [hp])))

theorem forall₂_split {α β : Type} {R : α → β → Prop} : ∀ {A : List α} {p : α} {B : List α} {Q : List β},
    List.Forall₂ R (A ++ p :: B) Q → ∃ A' p' B', Q = A' ++ p' :: B' ∧ List.Forall₂ R A A' ∧ R p p'
  | [], p, B, Q, h => by
    obtain ⟨p', Q', h1, -, rfl⟩ := List.forall₂_cons_left_iff.mp h
    exact ⟨[], p', Q', rfl, .nil, h1⟩
  | a :: A, p, B, Q, h => by
    obtain ⟨a', Q', h1, h2, rfl⟩ := List.forall₂_cons_left_iff.mp h
    obtain ⟨A', p', B', rfl, h3, h4⟩ := forall₂_split h2
    exact ⟨a' :: A', p', B', rfl, .cons h1 h3, h4⟩

/-- the marginals that name a new dimension have no negative entry -/
def NewOK (s : List Nat) (Q : Prob Int) : Prop :=
  ∀ A p B, Q = A ++ p :: B → (∃ d ∈ p.1, ∀ q ∈ A, d ∉ q.1) →
    (∀ j, InRange (projSizes p.1 s) j → 0 ≤ p.2 j) ∧ ∑ j ∈ cells (projSizes p.1 s), p.2 j ≤ 2 ^ 53

theorem newOK_unpad (he : Places e s s') {Q Q' : Prob Int} (hd : ∀ p ∈ Q, ∀ d ∈ p.1, d < s.length) (h : Padded e s s' Q Q')
    (hn : NewOK s' Q') : NewOK s Q := by
  rintro A p B rfl ⟨d, h1, h2⟩
  obtain ⟨A', p', B', rfl, h3, h4, h5⟩ := forall₂_split h
  obtain ⟨h6, h7⟩ := hn A' p' B' rfl ⟨d, by rw [h4]; exact h1, by
    intro q' hq'
    obtain ⟨k, hk, rfl⟩ := List.getElem_of_mem hq'
    have hl := h3.length_eq
    have := (List.forall₂_iff_get.mp h3).2 k (by omega) hk
    simp only [List.get_eq_getElem] at this
    rw [this.1]
    exact h2 _ (List.getElem_mem _)⟩
  have hdp : ∀ d ∈ p.1, d < s.length := hd p (by simp)
  rw [h4] at h6 h7
  refine ⟨fun j hj => ?_, ?_⟩
  · rw [← h5.1 j hj]
    exact h6 _ (place_inRange he hdp hj)
  · rw [← pad_sum he hdp h5]; exact h7

theorem newOK_points (hfp : fp.Good) {lm : Libm} {P : Prob Int} {pop : Int} (h : ProbOK s P pop) (hpop : pop < 2 ^ 52)
    (hnd : ∀ p ∈ P, p.1.Nodup) {c : Nat} {E : List Int → Fl} {vs : List (List Int)} {x : QIS} (hs : Solved fp lm s P pop c E vs x)
    {i : Nat} (hi : i ≤ vs.length) : NewOK s (remaining (vs.reverse.take i).reverse P) := by
  intro A p B hAB hd
  obtain ⟨A0, B0, hP, hA, hB⟩ := List.map_eq_append_iff.mp hAB
  obtain ⟨p0, B1, hB0, hp0, hB1⟩ := List.map_eq_cons_iff.mp hB
  subst hp0 hA hB0
  have hp : p0 ∈ P := by rw [hP]; simp
  refine ⟨fun j hj => ?_, ?_⟩
  · have := count_new hfp h hpop hnd hs hP (by
      obtain ⟨d, h1, h2⟩ := hd
      refine ⟨d, h1, fun q hq => ?_⟩
      have h3 := h2 _ (List.mem_map_of_mem hq)
      exact h3) hj i hi
    simp only []
    rw [List.countP_reverse]
    omega
  · simp only []
    rw [Finset.sum_sub_distrib, h.total p0 hp, sum_countP (h.dims p0 hp).2 (by
      intro u hu
      rw [List.mem_reverse] at hu
      exact hs.range u (List.mem_reverse.mp (List.mem_of_mem_take hu)))]
    omega

theorem good_of (he : Places e s s') (hg : GoodShape s) : GoodShape s' := by
  have hl := he.length
  refine ⟨by rintro rfl; exact hg.1 (List.eq_nil_of_length_eq_zero (by simpa using hl.symm)), ?_⟩
  intro n hn
  obtain ⟨d, hd, rfl⟩ := List.getElem_of_mem hn
  have hd' : d < s.length := by omega
  have h1 : 0 < s.getD d 0 := by
    rw [List.getD_eq_getElem?_getD, List.getElem?_eq_getElem hd']
    exact hg.2 _ (List.getElem_mem hd')
  have := he.bound d hd' 0 h1
  rw [List.getD_eq_getElem?_getD, List.getElem?_eq_getElem hd] at this
  simp only [Option.getD_some] at this
  omega

theorem embIdx_replicate (n : Nat) : embIdx e (List.replicate n (-1)) = List.replicate n (-1) := by
  apply List.ext_getElem (by simp [embIdx])
  intro k h1 h2
  simp [embIdx]

theorem draw_pad (hfp : fp.Good) (he : Places e s s') {P P' : Prob Int} (h : ProbShape s P) (hpad : Padded e s s' P P') {hs : List (List Int)}
    (hr : ∀ v ∈ hs, InRange s v) (hn : NewOK s (remaining hs P)) {seq : List U32} (hq : seq.length = s.length) :
    (∀ v, Draw fp s P seq hs v → Draw fp s' P' seq (hs.map (embIdx e)) (embIdx e v)) ∧
    ∀ v', Draw fp s' P' seq (hs.map (embIdx e)) v' → ∃ v, Draw fp s P seq hs v ∧ v' = embIdx e v := by
  have hdR : ∀ p ∈ remaining hs P, p.1 ≠ [] ∧ ∀ d ∈ p.1, d < s.length := by
    intro p hp
    obtain ⟨r, hr, rfl⟩ := List.mem_map.mp hp
    exact h.dims r hr
  have key := sampleAll_pad (fp := fp) hfp he h.good (good_of he h.good) hq (remaining hs P) (remaining (hs.map (embIdx e)) P') []
    (List.replicate s.length (-1)) (remaining_pad he (fun p hp => (h.dims p hp).2) hpad hr) hdR (partial_replicate s) (by simp) (by
      rintro A p B hP ⟨d, h1, -, h2⟩
      exact hn A p B hP ⟨d, h1, h2⟩)
  have hc := sampleAll_cases (fp := fp) h.good hq (remaining hs P) _ hdR (partial_replicate s)
  rw [indicesOf_remaining, mapsOf_remaining] at key hc
  rw [indicesOf_remaining, mapsOf_remaining, embIdx_replicate] at key
  unfold Draw
  rw [he.length]
  refine ⟨key.2, fun v' hv' => ?_⟩
  rcases hc with hc | ⟨v, hc, -⟩
  · rw [key.1 hc] at hv'; cases hv'
  · refine ⟨v, hc, ?_⟩
    rw [key.2 v hc] at hv'
    injection hv' with hv'
    exact hv'.symm

/-- The padded problem is consistent. -/
theorem padded_ok (he : Places e s s') {P P' : Prob Int} {pop : Int} (h : ProbOK s P pop) (hpad : Padded e s s' P P') : ProbOK s' P' pop := by
  have hg := good_of he h.good
  have hfst : P'.map Prod.fst = P.map Prod.fst := by
    clear h
    induction hpad with
    | nil => rfl
    | cons h1 _ ih => simp [h1.1, ih]
  have hmem : ∀ p' ∈ P', ∃ p ∈ P, p'.1 = p.1 ∧ PadOf e s s' p.1 p.2 p'.2 := by
    clear h hfst
    induction hpad with
    | nil => simp
    | cons h1 _ ih =>
      intro p' hp'
      rcases List.mem_cons.mp hp' with rfl | hp'
      · exact ⟨_, by simp, h1⟩
      · obtain ⟨p, hp, h2⟩ := ih p' hp'
        exact ⟨p, by simp [hp], h2⟩
  have hmem' : ∀ d < s.length, ∃ p' ∈ P', d ∈ p'.1 := by
    intro d hd
    obtain ⟨p, hp, hdp⟩ := h.cover d hd
    have : p.1 ∈ P'.map Prod.fst := by rw [hfst]; exact List.mem_map.mpr ⟨p, hp, rfl⟩
    obtain ⟨p', hp', h1⟩ := List.mem_map.mp this
    exact ⟨p', hp', by rw [h1]; exact hdp⟩
  have hms : ∀ p ∈ P, ∀ g', PadOf e s s' p.1 p.2 g' → ∀ a d, p.1[a]? = some d → ∀ x : Nat, x < s'.getD d 0 →
      marginalSum (projSizes p.1 s') [a] g' [(x : Int)] =
        if hx : ∃ k, k < s.getD d 0 ∧ e d k = x then marginalSum (projSizes p.1 s) [a] p.2 [((Classical.choose hx : Nat) : Int)] else 0 := by
    intro p hp g' hpp a d had x hx
    have hdp := (h.dims p hp).2
    have ha : a < p.1.length := (List.getElem?_eq_some_iff.mp had).1
    have hda : p.1.getD a 0 = d := by simp [List.getD_eq_getElem?_getD, had]
    have hds : d < s.length := hdp d (List.mem_of_getElem? had)
    unfold marginalSum
    rw [Finset.sum_filter]
    have hproj : ∀ (l : List Int) (y : Int), proj [a] l = [y] ↔ l.getD a 0 = y := by intro l y; simp [proj]
    split
    · rename_i hk
      obtain ⟨k1, k2⟩ := Classical.choose_spec hk
      generalize Classical.choose hk = k at *
      rw [Finset.sum_filter]
      refine pad_sum he hdp (g := fun v => if proj [a] v = [(k : Int)] then p.2 v else 0)
        (g' := fun v => if proj [a] v = [(x : Int)] then g' v else 0) ⟨?_, ?_⟩
      · intro j hj
        have hjl : j.length = p.1.length := by rw [inRange_length hj, projSizes_length]
        have hjr := inRange_getD hj (d := a) (by rw [projSizes_length]; exact ha)
        rw [projSizes_at ha, hda] at hjr
        simp only [hproj]
        rw [place_getD ha hjl, hda, hpp.1 j hj]
        have : ((e d (j.getD a 0).toNat : Nat) : Int) = x ↔ j.getD a 0 = k := by
          constructor
          · intro h1
            have := inj_of he hds (i := (j.getD a 0).toNat) (j := k) (by omega) k1 (by rw [k2]; exact_mod_cast h1)
            omega
          · intro h1
            rw [h1]
            simpa using k2
        by_cases h2 : j.getD a 0 = k
        · rw [if_pos (this.mpr h2), if_pos h2]
        · rw [if_neg (fun h1 => h2 (this.mp h1)), if_neg h2]
      · intro j' hj' hno
        simp only []
        rw [hpp.2 j' hj' hno, ite_self]
    · rename_i hk
      apply Finset.sum_eq_zero
      intro v hv
      split
      · rename_i hva
        rw [hproj] at hva
        refine hpp.2 v (mem_cells.mp hv) ?_
        rintro j hj rfl
        have hjl : j.length = p.1.length := by rw [inRange_length hj, projSizes_length]
        have hjr := inRange_getD hj (d := a) (by rw [projSizes_length]; exact ha)
        rw [projSizes_at ha, hda] at hjr
        rw [place_getD ha hjl, hda] at hva
        exact hk ⟨(j.getD a 0).toNat, by omega, by exact_mod_cast hva⟩
      · rfl
  refine { lists := ?_, two := ?_, pos := hg.2, dims := ?_, cover := ?_, nonneg := ?_, total := ?_, partials := ?_ }
  · rw [← List.Forall₂.length_eq hpad]; exact h.lists
  · rw [he.length]; exact h.two
  · intro p' hp'
    obtain ⟨p, hp, h1, -⟩ := hmem p' hp'
    rw [h1, he.length]; exact h.dims p hp
  · rw [he.length]; exact hmem'
  · intro p' hp'
    obtain ⟨p, hp, h1, h2⟩ := hmem p' hp'
    rw [h1]
    exact pad_nonneg h2 (h.nonneg p hp)
  · intro p' hp'
    obtain ⟨p, hp, h1, h2⟩ := hmem p' hp'
    rw [h1, pad_sum he (h.dims p hp).2 h2]
    exact h.total p hp
  · intro p' hp' q' hq' a b d ha hb x hx
    obtain ⟨p, hp, h1, h2⟩ := hmem p' hp'
    obtain ⟨q, hq, h3, h4⟩ := hmem q' hq'
    rw [h1] at ha ⊢
    rw [h3] at hb ⊢
    rw [hms p hp _ h2 a d ha x hx, hms q hq _ h4 b d hb x hx]
    split
    · rename_i hk
      exact h.partials p hp q hq a b d ha hb _ (Classical.choose_spec hk).1
    · rfl

theorem unspent_pad (he : Places e s s') {P P' : Prob Int} (hd : ∀ p ∈ P, ∀ d ∈ p.1, d < s.length) (hpad : Padded e s s' P P')
    {vs : List (List Int)} (hr : ∀ v ∈ vs, InRange s v) : Unspent P' (vs.map (embIdx e)) ↔ Unspent P vs := by
  have key : ∀ p ∈ P, ∀ p' : List Nat × (List Int → Int), (p'.1 = p.1 ∧ PadOf e s s' p.1 p.2 p'.2) →
      ((∀ v ∈ vs.map (embIdx e), ((vs.map (embIdx e)).countP (fun w => proj p'.1 w = proj p'.1 v) : Int) ≤ p'.2 (proj p'.1 v)) ↔
        ∀ v ∈ vs, (vs.countP (fun w => proj p.1 w = proj p.1 v) : Int) ≤ p.2 (proj p.1 v)) := by
    rintro p hp p' ⟨h1, h2⟩
    rw [h1, List.forall_mem_map]
    refine forall₂_congr (fun v hv => ?_)
    have hj := inRange_proj (hd p hp) (hr v hv)
    rw [proj_emb (hr v hv) (hd p hp), count_emb he (hd p hp) hj hr, h2.1 _ hj]
  unfold Unspent
  clear hd
  induction hpad with
  | nil => simp
  | cons h1 _ ih =>
    rw [List.forall_mem_cons, List.forall_mem_cons, key _ (by simp) _ h1]
    exact and_congr_right (fun _ => ih (fun p hp => key p (by simp [hp])))

theorem pad_counts (he : Places e s s') {vs : List (List Int)} (hr : ∀ v ∈ vs, InRange s v) :
    PadOf e s s' (List.range s.length) (fun v => (vs.count v : Int)) (fun v => ((vs.map (embIdx e)).count v : Int)) := by
  constructor
  · intro v hv
    rw [projSizes_all] at hv
    rw [← emb_eq_place hv]
    simp only []
    congr 1
    unfold List.count
    rw [List.countP_map]
    apply List.countP_congr
    intro w hw
    simp only [Function.comp, beq_iff_eq]
    exact ⟨fun h => emb_inj he (hr w hw) hv h, fun h => by rw [h]⟩
  · intro v' _ hno
    have : v' ∉ vs.map (embIdx e) := by
      intro hm
      obtain ⟨v, hv, rfl⟩ := List.mem_map.mp hm
      exact hno v (by rw [projSizes_all]; exact hr v hv) (emb_eq_place (hr v hv)).symm
    simp only []
    rw [List.count_eq_zero.mpr this]
    rfl

theorem take_map_reverse (vs : List (List Int)) (i : Nat) :
    (((vs.reverse.map (embIdx e)).take i).reverse) = ((vs.reverse.take i).reverse).map (embIdx e) := by
  rw [← List.map_take, List.map_reverse]

/-- from the problem to the padded one -/
theorem run_pad (hfp : fp.Good) {lm : Libm} (he : Places e s s') {P P' : Prob Int} {pop : Int} (h : ProbOK s P pop) (hpop : pop < 2 ^ 52)
    (hnd : ∀ p ∈ P, p.1.Nodup) (hpad : Padded e s s' P P') {skips : Int} {x : QIS}
    (hx : QIS.run fp lm (indicesOf P) (marginalsOf s P) skips = .ok x) :
    ∃ y f f', QIS.run fp lm (indicesOf P') (marginalsOf s' P') skips = .ok y ∧ x.micro.array = arr s f ∧ y.micro.array = arr s' f' ∧
      PadOf e s s' (List.range s.length) f f' ∧ y.conv = x.conv := by
  obtain ⟨c, vs, hdim, hc, hs⟩ := run_ok hfp h hpop hx
  have hbound := hs.at_.sobol.bound
  have hpn := h.pop_nonneg
  have hr : ∀ v ∈ vs, InRange s v := hs.range
  obtain ⟨y, h1, h2, h3⟩ := qis_script hfp lm (padded_ok he h hpad) hpop (by rw [he.length]; exact hdim) hc
    (vs := vs.reverse.map (embIdx e)) (by rw [List.length_map, List.length_reverse, hs.size, Int.toNat_of_nonneg hpn])
    (by rw [List.length_map, List.length_reverse, hs.size]; exact hbound) (by
      intro i hi seq hseq
      rw [List.length_map, List.length_reverse, hs.size] at hi
      rw [he.length] at hseq
      obtain ⟨seq0, v, g1, g2, g3⟩ := hs.points i hi
      have := pointAt_unique hdim hseq g2
      subst this
      have hvi : (vs.reverse.map (embIdx e)).getD i [] = embIdx e v := by
        rw [List.getD_eq_getElem?_getD, List.getElem?_map, g1]; rfl
      rw [hvi, take_map_reverse]
      refine (draw_pad hfp he h.toProbShape hpad ?_ (newOK_points hfp h hpop hnd hs (by rw [hs.size]; omega)) g2.1).1 v g3
      intro u hu
      rw [List.mem_reverse] at hu
      exact hr u (List.mem_reverse.mp (List.mem_of_mem_take hu)))
  refine ⟨y, fun v => (vs.count v : Int), fun v => ((vs.map (embIdx e)).count v : Int), h1, by rw [hs.at_.micro], ?_, pad_counts he hr, ?_⟩
  · rw [h2]
    congr 1
    funext v
    rw [List.map_reverse, List.count_reverse]
  · rw [Bool.eq_iff_iff, h3, hs.conv, ← List.map_reverse, List.reverse_reverse]
    exact unspent_pad he (fun p hp => (h.dims p hp).2) hpad hr

/-- and back -/
theorem run_unpad (hfp : fp.Good) {lm : Libm} (he : Places e s s') {P P' : Prob Int} {pop : Int} (h : ProbOK s P pop) (hpop : pop < 2 ^ 52)
    (hnd : ∀ p ∈ P, p.1.Nodup) (hpad : Padded e s s' P P') {skips : Int} {y : QIS}
    (hy : QIS.run fp lm (indicesOf P') (marginalsOf s' P') skips = .ok y) :
    ∃ x, QIS.run fp lm (indicesOf P) (marginalsOf s P) skips = .ok x := by
  have h' := padded_ok he h hpad
  obtain ⟨c, vs', hdim, hc, hs⟩ := run_ok hfp h' hpop hy
  rw [he.length] at hdim
  have hbound := hs.at_.sobol.bound
  have hpn := h.pop_nonneg
  have hnd' : ∀ p' ∈ P', p'.1.Nodup := by
    clear h h' hs hy
    induction hpad with
    | nil => simp
    | cons h1 _ ih =>
      intro p' hp'
      rcases List.mem_cons.mp hp' with rfl | hp'
      · rw [h1.1]; exact hnd _ (by simp)
      · exact ih (fun p hp => hnd p (by simp [hp])) p' hp'
  have key : ∀ i ≤ pop.toNat, ∃ ws : List (List Int), ws.length = i ∧ (∀ v ∈ ws, InRange s v) ∧ ws.map (embIdx e) = vs'.reverse.take i ∧
      ∀ k < i, ∀ seq, PointAt s.length (c + k + 1) seq → Draw fp s P seq (ws.take k).reverse (ws.getD k []) := by
    intro i
    induction i with
    | zero => intro _; exact ⟨[], rfl, by simp, by simp, by omega⟩
    | succ i ih =>
      intro hi
      obtain ⟨ws, h1, h2, h3, h4⟩ := ih (by omega)
      obtain ⟨seq, v', g1, g2, g3⟩ := hs.points i (by omega)
      rw [he.length] at g2
      have hd3 : ws.reverse.map (embIdx e) = (vs'.reverse.take i).reverse := by rw [List.map_reverse, h3]
      have hrr : ∀ v ∈ ws.reverse, InRange s v := by simpa using h2
      have hn := newOK_points hfp h' hpop hnd' hs (i := i) (by rw [hs.size]; omega)
      rw [← hd3] at hn g3
      have hn' := newOK_unpad he (by
        intro p hp
        obtain ⟨r, hr, rfl⟩ := List.mem_map.mp hp
        exact (h.dims r hr).2) (remaining_pad he (fun p hp => (h.dims p hp).2) hpad hrr) hn
      obtain ⟨v, h5, rfl⟩ := (draw_pad hfp he h.toProbShape hpad hrr hn' g2.1).2 v' g3
      have hv : InRange s v := by
        have hc := sampleAll_cases (fp := fp) h.good (seq := seq) g2.1 (remaining ws.reverse P) _ (by
          intro p hp
          obtain ⟨r, hr, rfl⟩ := List.mem_map.mp hp
          exact h.dims r hr) (partial_replicate s)
        unfold Draw at h5
        rw [indicesOf_remaining, mapsOf_remaining, h5] at hc
        rcases hc with hc | ⟨w, hc, hp1, hp2, -⟩
        · cases hc
        · injection hc with hc
          subst hc
          refine inRange_of_partial hp1 ?_
          intro d hd
          obtain ⟨p, hp, hdp⟩ := h.cover d hd
          exact hp2 _ (List.mem_map.mpr ⟨p, hp, rfl⟩) d hdp
      refine ⟨ws ++ [v], by simp [h1], ?_, ?_, ?_⟩
      · intro u hu
        rcases List.mem_append.mp hu with hu | hu
        · exact h2 u hu
        · rw [List.mem_singleton] at hu
          rw [hu]; exact hv
      · rw [List.map_append, h3, List.take_add_one, g1]
        rfl
      · intro k hk seq' hseq'
        rcases Nat.lt_succ_iff_lt_or_eq.mp hk with hk | rfl
        · have e1 : (ws ++ [v]).take k = ws.take k := by rw [List.take_append_of_le_length (by omega)]
          have e2 : (ws ++ [v]).getD k [] = ws.getD k [] := by
            rw [List.getD_eq_getElem?_getD, List.getElem?_append_left (by omega), ← List.getD_eq_getElem?_getD]
          rw [e1, e2]
          exact h4 k hk seq' hseq'
        · have := pointAt_unique hdim hseq' g2
          subst this
          have e1 : (ws ++ [v]).take k = ws := by rw [← h1, List.take_left' rfl]
          have e2 : (ws ++ [v]).getD k [] = v := by
            rw [List.getD_eq_getElem?_getD, ← h1]; simp
          rw [e1, e2]
          exact h5
  obtain ⟨ws, h1, h2, h3, h4⟩ := key pop.toNat le_rfl
  obtain ⟨x, hx, -⟩ := qis_script hfp lm h hpop hdim hc (vs := ws) (by rw [h1, Int.toNat_of_nonneg hpn])
    (by rw [h1]; exact hbound) (by rw [h1]; exact h4)
  exact ⟨x, hx⟩

end HL

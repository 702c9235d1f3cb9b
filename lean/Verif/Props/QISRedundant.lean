import Verif.Props.QISRule

/-
C116: a marginal whose attributes are all named by earlier marginals takes no part in the drawing.
-/

namespace HL
open QIS
variable {fp : FP}

theorem leftAt_known {s : List Nat} {p : List Nat × (List Int → Int)} {F F' : List Nat} (hF : ∀ d, d ∈ F ↔ d ∈ F')
    (done : List (List Int)) (v : List Int) (a : Nat) : leftAt s p F done v a = leftAt s p F' done v a := by
  funext x
  unfold leftAt condCells
  simp only [hF]

theorem redundant_names {A C : Prob Int} {p : List Nat × (List Int → Int)} (hp : ∀ d ∈ p.1, ∃ q ∈ A, d ∈ q.1) (d : Nat) :
    d ∈ (A ++ p :: C).flatMap Prod.fst ↔ d ∈ (A ++ C).flatMap Prod.fst := by
  simp only [List.flatMap_append, List.flatMap_cons, List.mem_append]
  constructor
  · rintro (h | h | h)
    · exact Or.inl h
    · obtain ⟨q, hq, hd⟩ := hp d h
      exact Or.inl (List.mem_flatMap.mpr ⟨q, hq, hd⟩)
    · exact Or.inr h
  · rintro (h | h)
    · exact Or.inl h
    · exact Or.inr (Or.inr h)

theorem readOff_redundant {rnd : ℚ → Fl} {s : List Nat} {A B : Prob Int} {p : List Nat × (List Int → Int)}
    (hp : ∀ d ∈ p.1, ∃ q ∈ A, d ∈ q.1) {done : List (List Int)} {pt : Nat → Nat} {v : List Int} :
    ReadOff rnd s (A ++ p :: B) done pt v ↔ ReadOff rnd s (A ++ B) done pt v := by
  refine and_congr_right fun _ => ?_
  constructor
  · intro h A1 q B1 hP a d had hno
    rcases List.append_eq_append_iff.mp hP with ⟨C, h1, h2⟩ | ⟨C, h1, h2⟩
    · -- the split is in B
      have := h (A ++ p :: C) q B1 (by rw [h2]; simp) a d had (by
        intro q' hq' hd
        have hm := (redundant_names hp d).mp (List.mem_flatMap.mpr ⟨q', hq', hd⟩)
        rw [← h1] at hm
        obtain ⟨q'', hq'', hd'⟩ := List.mem_flatMap.mp hm
        exact hno q'' hq'' hd')
      rw [leftAt_known (redundant_names hp)] at this
      rw [h1]
      exact this
    · match C, h2 with
      | [], h2 =>
        simp only [List.append_nil] at h1
        simp only [List.nil_append] at h2
        have := h (A ++ [p]) q B1 (by rw [← h2]; simp) a d had (by
          intro q' hq' hd
          have hm := (redundant_names hp d).mp (List.mem_flatMap.mpr ⟨q', hq', hd⟩)
          rw [List.append_nil, h1] at hm
          obtain ⟨q'', hq'', hd'⟩ := List.mem_flatMap.mp hm
          exact hno q'' hq'' hd')
        rw [leftAt_known (redundant_names hp), List.append_nil, h1] at this
        exact this
      | c :: C, h2 =>
        simp only [List.cons_append, List.cons.injEq] at h2
        obtain ⟨rfl, h2⟩ := h2
        exact h A1 q (C ++ p :: B) (by rw [h1]; simp) a d had hno
  · intro h A1 q B1 hP a d had hno
    rcases List.append_eq_append_iff.mp hP with ⟨C, h1, h2⟩ | ⟨C, h1, h2⟩
    · match C, h2 with
      | [], h2 =>
        simp only [List.nil_append, List.cons.injEq] at h2
        simp only [List.append_nil] at h1
        obtain ⟨q', hq', hd⟩ := hp d (by rw [h2.1]; exact List.mem_of_getElem? had)
        exact absurd hd (hno q' (by rw [h1]; exact hq'))
      | c :: C, h2 =>
        simp only [List.cons_append, List.cons.injEq] at h2
        obtain ⟨rfl, h2⟩ := h2
        have := h (A ++ C) q B1 (by rw [h2]; simp) a d had (by
          intro q' hq' hd
          apply hno q' _ hd
          rw [h1]
          rw [List.mem_append] at hq' ⊢
          exact hq'.imp_right (List.mem_cons_of_mem _))
        rw [← leftAt_known (redundant_names hp)] at this
        rw [h1]
        exact this
    · match C, h2 with
      | [], h2 =>
        simp only [List.append_nil] at h1
        simp only [List.nil_append, List.cons.injEq] at h2
        obtain ⟨q', hq', hd⟩ := hp d (by rw [← h2.1]; exact List.mem_of_getElem? had)
        exact absurd hd (hno q' (by rw [← h1]; exact hq'))
      | c :: C, h2 =>
        simp only [List.cons_append, List.cons.injEq] at h2
        obtain ⟨rfl, h2⟩ := h2
        exact h A1 q (C ++ B) (by rw [h1]; simp) a d had hno

theorem probOK_redundant {s : List Nat} {A B : Prob Int} {p : List Nat × (List Int → Int)} {pop : Int} (h : ProbOK s (A ++ p :: B) pop)
    (hp : ∀ d ∈ p.1, ∃ q ∈ A, d ∈ q.1) (h2 : 2 ≤ (A ++ B).length) : ProbOK s (A ++ B) pop where
  lists := h2
  two := h.two
  pos := h.pos
  dims := fun q hq => h.dims q (by rw [List.mem_append] at hq ⊢; exact hq.imp_right (List.mem_cons_of_mem _))
  cover := by
    intro d hd
    obtain ⟨q, hq, hdq⟩ := h.cover d hd
    have := (redundant_names hp d).mp (List.mem_flatMap.mpr ⟨q, hq, hdq⟩)
    obtain ⟨q', hq', hd'⟩ := List.mem_flatMap.mp this
    exact ⟨q', hq', hd'⟩
  nonneg := fun q hq => h.nonneg q (by rw [List.mem_append] at hq ⊢; exact hq.imp_right (List.mem_cons_of_mem _))
  total := fun q hq => h.total q (by rw [List.mem_append] at hq ⊢; exact hq.imp_right (List.mem_cons_of_mem _))
  partials := fun q hq q' hq' => h.partials q (by rw [List.mem_append] at hq ⊢; exact hq.imp_right (List.mem_cons_of_mem _))
    q' (by rw [List.mem_append] at hq' ⊢; exact hq'.imp_right (List.mem_cons_of_mem _))

/-- the sums of sums -/
theorem marginalSum_twice {γ : Type} [AddCommMonoid γ] {s ds ks : List Nat} (hd : ∀ d ∈ ds, d < s.length) (hk : ∀ k ∈ ks, k < ds.length) (t : List Int → γ)
    (j : List Int) : marginalSum s (ks.map (fun k => ds.getD k 0)) t j = marginalSum (projSizes ds s) ks (marginalSum s ds t) j := by
  have hpp : ∀ v : List Int, proj (ks.map (fun k => ds.getD k 0)) v = proj ks (proj ds v) := by
    intro v
    unfold proj
    rw [List.map_map]
    apply List.map_congr_left
    intro k hk'
    have := hk k hk'
    simp [List.getD_eq_getElem?_getD, this]
  unfold marginalSum
  rw [Finset.sum_sigma']
  refine Finset.sum_bij' (fun v _ => ⟨proj ds v, v⟩) (fun x _ => x.2) ?_ ?_ ?_ ?_ ?_
  · intro v hv
    obtain ⟨h1, h2⟩ := Finset.mem_filter.mp hv
    rw [hpp] at h2
    exact Finset.mem_sigma.mpr ⟨Finset.mem_filter.mpr ⟨mem_cells.mpr (inRange_proj hd (mem_cells.mp h1)), h2⟩,
      Finset.mem_filter.mpr ⟨h1, rfl⟩⟩
  · rintro ⟨i, v⟩ hx
    obtain ⟨h1, h2⟩ := Finset.mem_sigma.mp hx
    obtain ⟨h3, h4⟩ := Finset.mem_filter.mp h2
    obtain ⟨h5, h6⟩ := Finset.mem_filter.mp h1
    refine Finset.mem_filter.mpr ⟨h3, ?_⟩
    rw [hpp]
    dsimp only at h4 h6
    rw [h4]
    exact h6
  · intro v _; rfl
  · rintro ⟨i, v⟩ hx
    obtain ⟨h1, h2⟩ := Finset.mem_sigma.mp hx
    have := (Finset.mem_filter.mp h2).2
    dsimp only at this ⊢
    rw [this]
  · intro v _; rfl

/-! ### C116 -/

/-- **C116.**  Adding a marginal `p` whose attributes are all named by earlier marginals makes no difference to whether `qis` returns a
population, nor to the population. -/
theorem C116_redundant (hfp : fp.Good) (lm : Libm) {s : List Nat} {A B : Prob Int} {p : List Nat × (List Int → Int)} {pop : Int}
    (h : ProbOK s (A ++ p :: B) pop) (hpop : pop < 2 ^ 52) (hnd : ∀ q ∈ A ++ p :: B, q.1.Nodup) (h2 : 2 ≤ (A ++ B).length)
    (hp : ∀ d ∈ p.1, ∃ q ∈ A, d ∈ q.1) {skips : Int} (h0 : 0 ≤ skips) (h1 : skips ≤ 2 ^ 31) :
    ((∃ x, qis fp lm s (A ++ p :: B) skips = .ok x) ↔ ∃ y, qis fp lm s (A ++ B) skips = .ok y) ∧
      ∀ x y, qis fp lm s (A ++ p :: B) skips = .ok x → qis fp lm s (A ++ B) skips = .ok y →
        x.micro.array = y.micro.array ∧
          (x.conv = true ↔ y.conv = true ∧ ∀ f : List Int → Int, y.micro.array = arr s f →
            ∀ j, InRange (projSizes p.1 s) j → marginalSum s p.1 f j = p.2 j) := by
  have h' := probOK_redundant h hp h2
  have hnd' : ∀ q ∈ A ++ B, q.1.Nodup := fun q hq => hnd q (by rw [List.mem_append] at hq ⊢; exact hq.imp_right (List.mem_cons_of_mem _))
  by_cases hdim : s.length ≤ 1111
  · obtain ⟨c, hc⟩ : ∃ c, SkipTo skips c := by
      rcases skipCount_cases (skips % 2 ^ 32).toNat with ⟨c, hc, -⟩ | ⟨hb, -⟩
      · exact ⟨c, (skipTo_iff h0 h1).mpr hc⟩
      · rw [Int.emod_eq_of_lt h0 (by omega)] at hb
        omega
    obtain ⟨pt, hpt⟩ := C115_points hdim c
    have hby : ∀ vs, ByRule fp.rnd s (A ++ p :: B) pt vs ↔ ByRule fp.rnd s (A ++ B) pt vs := fun vs =>
      forall_congr' fun i => forall_congr' fun v => imp_congr_right fun _ => readOff_redundant hp
    refine ⟨?_, ?_⟩
    · rw [C115_returns hfp lm h hpop hnd hdim h0 h1 hc hpt, C115_returns hfp lm h' hpop hnd' hdim h0 h1 hc hpt]
      simp only [hby]
    · intro x y hx hy
      obtain ⟨-, vs, g1, g2⟩ := (C115_returns hfp lm h hpop hnd hdim h0 h1 hc hpt).mp ⟨x, hx⟩
      obtain ⟨e1, e2⟩ := C115_result hfp h hpop hnd h0 h1 hc hpt hx g1 g2
      obtain ⟨e3, e4⟩ := C115_result hfp h' hpop hnd' h0 h1 hc hpt hy g1 ((hby vs).mp g2)
      refine ⟨by rw [e1, e3], ?_⟩
      rw [e2, C22_conv hfp h' hpop hy e3]
      constructor
      · intro H
        refine ⟨fun q hq => H q (by rw [List.mem_append] at hq ⊢; exact hq.imp_right (List.mem_cons_of_mem _)), ?_⟩
        intro f hf
        have : x.micro.array = arr s f := by rw [e1, ← e3, hf]
        exact (C22_conv hfp h hpop hx this).mp (e2.mpr H) p (by simp)
      · rintro ⟨H1, H2⟩ q hq
        rw [List.mem_append, List.mem_cons] at hq
        rcases hq with hq | rfl | hq
        · exact H1 q (List.mem_append_left _ hq)
        · exact H2 _ e3
        · exact H1 q (List.mem_append_right _ hq)
  · have no : ∀ {Q : Prob Int}, ProbOK s Q pop → ∀ x, qis fp lm s Q skips ≠ .ok x := by
      intro Q hQ x hx
      rcases C25_outcomes hfp lm hQ hpop skips with ⟨-, h2 | h2⟩ | ⟨h2, -⟩ | ⟨h2, -⟩
      · rw [hx] at h2; cases h2
      · rw [hx] at h2; cases h2
      · exact hdim h2
      · exact hdim h2
    refine ⟨⟨fun ⟨x, hx⟩ => absurd hx (no h x), fun ⟨x, hx⟩ => absurd hx (no h' x)⟩, fun x _ hx _ => absurd hx (no h x)⟩

/-- **C116.**  A marginal that only repeats sums of an earlier one (some of its attributes, in any order) makes no difference to what
`qis` reports as convergence either. -/
theorem C116_repeated (hfp : fp.Good) {lm : Libm} {s : List Nat} {A B : Prob Int} {q : List Nat × (List Int → Int)} (hq : q ∈ A)
    {ks : List Nat} (hks : ∀ k ∈ ks, k < q.1.length) {m : List Int → Int}
    (hm : ∀ j, InRange (projSizes (ks.map (fun k => q.1.getD k 0)) s) j → m j = marginalSum (projSizes q.1 s) ks q.2 j) {pop : Int}
    (h : ProbOK s (A ++ (ks.map (fun k => q.1.getD k 0), m) :: B) pop) (hpop : pop < 2 ^ 52)
    (hnd : ∀ p ∈ A ++ (ks.map (fun k => q.1.getD k 0), m) :: B, p.1.Nodup) (h2 : 2 ≤ (A ++ B).length)
    {skips : Int} (h0 : 0 ≤ skips) (h1 : skips ≤ 2 ^ 31) :
    ((∃ x, qis fp lm s (A ++ (ks.map (fun k => q.1.getD k 0), m) :: B) skips = .ok x) ↔ ∃ y, qis fp lm s (A ++ B) skips = .ok y) ∧
      ∀ x y, qis fp lm s (A ++ (ks.map (fun k => q.1.getD k 0), m) :: B) skips = .ok x → qis fp lm s (A ++ B) skips = .ok y →
        x.micro.array = y.micro.array ∧ x.conv = y.conv := by
  have hp : ∀ d ∈ (ks.map (fun k => q.1.getD k 0), m).1, ∃ q ∈ A, d ∈ q.1 := by
    intro d hd
    obtain ⟨k, hk, rfl⟩ := List.mem_map.mp hd
    refine ⟨q, hq, ?_⟩
    rw [List.getD_eq_getElem _ _ (hks k hk)]
    exact List.getElem_mem _
  obtain ⟨g1, g2⟩ := C116_redundant hfp lm h hpop hnd h2 hp h0 h1
  refine ⟨g1, fun x y hx hy => ?_⟩
  obtain ⟨e1, e2⟩ := g2 x y hx hy
  refine ⟨e1, ?_⟩
  rw [Bool.eq_iff_iff, e2, and_iff_left_iff_imp]
  intro hc f hf j hj
  have h' := probOK_redundant h hp h2
  have hmeet := (C22_conv hfp h' hpop hy hf).mp hc q (List.mem_append_left _ hq)
  have hqd := (h'.dims q (List.mem_append_left _ hq)).2
  dsimp only at hj ⊢
  rw [hm j hj, marginalSum_twice hqd hks]
  exact marginalSum_congr (fun v hv => hmeet v hv) j

/-- Two overlapping marginals and the sums they share. -/
def bridgeProb3 : Prob Int := bridgeProb ++ ([1], fun _ => 3) :: []

theorem bridgeProb3_ok : ProbOK [2, 2, 2] bridgeProb3 6 where
  lists := by decide
  two := by decide
  pos := by decide
  dims := by simp [bridgeProb3, bridgeProb]
  cover := by
    intro d hd
    simp only [List.length_cons, List.length_nil] at hd
    interval_cases d <;> simp [bridgeProb3, bridgeProb]
  nonneg := by
    intro p hp j hj
    rcases List.mem_append.mp hp with hp | hp
    · exact bridgeProb_ok.nonneg p hp j hj
    · simp only [List.mem_cons, List.not_mem_nil, or_false] at hp
      subst hp
      norm_num
  total := by
    intro p hp
    simp only [bridgeProb3, bridgeProb, List.cons_append, List.nil_append, List.mem_cons, List.not_mem_nil, or_false] at hp
    rcases hp with rfl | rfl | rfl <;> decide
  partials := by
    intro p hp q hq a b d ha hb x hx
    simp only [bridgeProb3, bridgeProb, List.cons_append, List.nil_append, List.mem_cons, List.not_mem_nil, or_false] at hp hq
    have hlp : p.1.length ≤ 2 := by rcases hp with rfl | rfl | rfl <;> decide
    have hlq : q.1.length ≤ 2 := by rcases hq with rfl | rfl | rfl <;> decide
    have ha2 : a < 2 := lt_of_lt_of_le (List.getElem?_eq_some_iff.mp ha).1 hlp
    have hb2 : b < 2 := lt_of_lt_of_le (List.getElem?_eq_some_iff.mp hb).1 hlq
    have hx2 : x < 2 := by
      have hd : d < 3 := by
        have := List.mem_of_getElem? ha
        rcases hp with rfl | rfl | rfl <;> simp at this <;> omega
      interval_cases d <;> exact hx
    rcases hp with rfl | rfl | rfl <;> rcases hq with rfl | rfl | rfl <;> interval_cases a <;> interval_cases b <;>
      simp at ha hb <;> (try subst ha) <;> (try simp at hb) <;> interval_cases x <;> decide

/-- The hypotheses are met: the third marginal repeats the sums of the second one along its first attribute. -/
example (hfp : fp.Good) (lm : Libm) : (∀ p ∈ bridgeProb3, p.1.Nodup) ∧
    (∀ j, InRange (projSizes [1] [2, 2, 2]) j → (3 : Int) = marginalSum (projSizes [1, 2] [2, 2, 2]) [0] (fun j => 1 + j.getD 1 0) j) ∧
    ∃ x y, qis fp lm [2, 2, 2] bridgeProb3 5 = .ok x ∧ qis fp lm [2, 2, 2] bridgeProb 5 = .ok y ∧
      x.micro.array = y.micro.array := by
  have hnd : ∀ p ∈ bridgeProb3, p.1.Nodup := by simp [bridgeProb3, bridgeProb]
  have key : ∀ j ∈ allIdx (projSizes [1] [2, 2, 2]), (3 : Int) = marginalSum (projSizes [1, 2] [2, 2, 2]) [0] (fun j => 1 + j.getD 1 0) j := by
    decide
  refine ⟨hnd, fun j hj => key j (mem_allIdx.mpr hj), ?_⟩
  obtain ⟨y, hy, -⟩ := C23_tree hfp lm bridgeProb_ok (by norm_num) bridgeProb_tree (by simp) (skips := 5) (by norm_num) (by norm_num)
  have hr := C116_redundant hfp lm (A := bridgeProb) (B := []) (p := ([1], fun _ => 3)) bridgeProb3_ok (by norm_num) hnd (by decide) (by
    simp [bridgeProb]) (skips := 5) (by norm_num) (by norm_num)
  rw [List.append_nil] at hr
  obtain ⟨x, hx⟩ := hr.1.mpr ⟨y, hy⟩
  exact ⟨x, y, hx, hy, (hr.2 x y hx hy).1⟩

end HL

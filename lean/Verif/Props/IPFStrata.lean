import Verif.Proof.IPFStrata
import Verif.Props.IPF

/-
C124: problems put together region by region are solved region by region.
-/

namespace HL
variable {α : Type} {fp : FP} {N : Num α} {n : Nat} {t : List Nat}

theorem stratum_shape {P : Prob α} (h : ProbShape (n :: t) P) (hP : Stratified P) (ht : 2 ≤ t.length) (x : Nat) :
    ProbShape t (stratum x P) where
  lists := by simpa [stratum] using h.lists
  two := ht
  pos := fun m hm => h.pos m (by simp [hm])
  dims := by
    intro q hq
    obtain ⟨p, hp, rfl⟩ := List.mem_map.mp hq
    obtain ⟨ds, h1, hds⟩ := hP p hp
    simp only [hds, List.tail_cons, sub_add_map]
    refine ⟨h1, fun d hd => ?_⟩
    have := (h.dims p hp).2 (d + 1) (by rw [hds]; simp [hd])
    simpa using this
  cover := by
    intro d hd
    obtain ⟨p, hp, hd'⟩ := h.cover (d + 1) (by simpa using hd)
    obtain ⟨ds, h1, hds⟩ := hP p hp
    refine ⟨_, List.mem_map.mpr ⟨p, hp, rfl⟩, ?_⟩
    rw [hds] at hd'
    simp only [hds, List.tail_cons, sub_add_map]
    simpa using hd'

theorem stratum_proper {P : Prob α} (h : ProperProb (n :: t) P) (hP : Stratified P) (x : Nat) :
    ProperProb t (stratum x P) := by
  intro q hq
  obtain ⟨p, hp, rfl⟩ := List.mem_map.mp hq
  obtain ⟨ds, h1, hds⟩ := hP p hp
  obtain ⟨h2, ⟨d, h3, h4⟩, h5⟩ := h p hp
  simp only [hds, List.tail_cons, sub_add_map]
  rw [hds] at h2 h4 h5
  refine ⟨by simpa using h2, ?_, ?_⟩
  · cases d with
    | zero => simp at h4
    | succ d => exact ⟨d, by simpa using h3, by simpa using h4⟩
  · unfold Loose at h5 ⊢
    rw [List.pairwise_cons, List.pairwise_map] at h5
    refine h5.2.imp ?_
    intro a b hab hne
    have := hab (by omega)
    simpa using this

/-- **C124**: after any number of iterations, the part of the table for region `x` is what that many iterations for
region `x` alone make of the part of the seed, bit for bit in any arithmetic. -/
theorem C124_iterates (hN : MinOK N) {P : Prob α} (h : ProbShape (n :: t) P) (hp : ProperProb (n :: t) P) (hP : Stratified P)
    (a : List Int → Fl) {r : IPF α}
    (hr : IPF.run false fp N (indicesOf P) (marginalsOf (n :: t) P) (arr (n :: t) a) = .ok r) :
    ∃ f, r.micro.array = arr (n :: t) f ∧
      ∀ x < n, part x f = (sweep fp N t (stratum x P))^[r.iters] (part x a) := by
  obtain ⟨pop, k, -, -, -, -, -, rfl⟩ := ipf_run fp N hN h hp a hr
  exact ⟨_, rfl, fun x hx => iterate_strat hx t hP a k⟩

/-- **C124**: if the first dimension of every marginal is dimension 0 of the table (the region), fitting all regions in one
call of `ipf` and fitting each by itself give the same tables, bit for bit in any arithmetic, for every region that takes as
many iterations as all together; all together converge only if each does, after no fewer iterations; and if all converge
after the same number, so do all together. -/
theorem C124_parts (hN : MinOK N) {P : Prob α} (h : ProbShape (n :: t) P) (hp : ProperProb (n :: t) P) (hP : Stratified P)
    (ht : 2 ≤ t.length) (a : List Int → Fl) {r : IPF α} {rs : Nat → IPF α}
    (hr : IPF.run false fp N (indicesOf P) (marginalsOf (n :: t) P) (arr (n :: t) a) = .ok r)
    (hrs : ∀ x < n, IPF.run false fp N (indicesOf (stratum x P)) (marginalsOf t (stratum x P)) (arr t (part x a)) = .ok (rs x)) :
    (∃ f, r.micro.array = arr (n :: t) f ∧ ∀ x < n, (rs x).iters = r.iters → (rs x).micro.array = arr t (part x f)) ∧
    (r.conv = true → ∀ x < n, (rs x).conv = true ∧ (rs x).iters ≤ r.iters) ∧
    (∀ x < n, (rs x).conv = false → r.conv = false ∧ r.iters = (rs x).iters) ∧
    (∀ k, (∀ x < n, (rs x).conv = true ∧ (rs x).iters = k) → r.conv = true ∧ r.iters = k) := by
  have hn : 0 < n := h.pos n (by simp)
  obtain ⟨pop, k, -, hk1, hk2, hk3, hk4, rfl⟩ := ipf_run fp N hN h hp a hr
  have hc : ((ipfState fp N (n :: t) P pop ((sweep fp N (n :: t) P)^[k] a) k).1).conv = true ↔
      ∀ x < n, convAt fp N t (stratum x P) ((sweep fp N t (stratum x P))^[k] (part x a)) := by
    refine (convAt_strat hn t hP ((sweep fp N (n :: t) P)^[k] a)).trans ?_
    refine forall_congr' fun x => forall_congr' fun hx => ?_
    rw [iterate_strat hx t hP]
  have key : ∀ x < n, ∃ pop' m, 1 ≤ m ∧ m ≤ 1000 ∧
      (convAt fp N t (stratum x P) ((sweep fp N t (stratum x P))^[m] (part x a)) ∨ m = 1000) ∧
      (∀ i, 1 ≤ i → i < m → ¬ convAt fp N t (stratum x P) ((sweep fp N t (stratum x P))^[i] (part x a))) ∧
      rs x = (ipfState fp N t (stratum x P) pop' ((sweep fp N t (stratum x P))^[m] (part x a)) m).1 := by
    intro x hx
    obtain ⟨pop', m, -, h1, h2, h3, h4, h5⟩ := ipf_run fp N hN (stratum_shape h hP ht x) (stratum_proper hp hP x) _ (hrs x hx)
    exact ⟨pop', m, h1, h2, h3, h4, h5⟩
  refine ⟨⟨_, rfl, ?_⟩, ?_, ?_, ?_⟩
  · intro x hx hi
    obtain ⟨pop', m, -, -, -, -, h5⟩ := key x hx
    rw [h5] at hi ⊢
    have hi : m = k := hi
    subst hi
    show arr t _ = arr t _
    rw [iterate_strat hx t hP]
  · intro hconv x hx
    obtain ⟨pop', m, h1, h2, h3, h4, h5⟩ := key x hx
    have hcx := hc.mp hconv x hx
    have hmk : m ≤ k := by
      by_contra hlt
      exact h4 k hk1 (by omega) hcx
    rw [h5]
    refine ⟨?_, hmk⟩
    rcases h3 with h3 | h3
    · exact h3
    · have : m = k := by omega
      subst this
      exact hcx
  · intro x hx hcx
    obtain ⟨pop', m, h1, h2, h3, h4, h5⟩ := key x hx
    rw [h5] at hcx ⊢
    have hno : ¬ convAt fp N t (stratum x P) ((sweep fp N t (stratum x P))^[m] (part x a)) := by
      intro hcc
      have h6 : FP.lt (maxDev fp N t (stratum x P) ((sweep fp N t (stratum x P))^[m] (part x a)) (.fin (-dblMax))) (tol8 fp) = false :=
        hcx
      exact absurd hcc (by unfold convAt; rw [h6]; simp)
    have hm : m = 1000 := by
      rcases h3 with h3 | h3
      · exact absurd h3 hno
      · exact h3
    have hk : k = 1000 := by
      rcases hk3 with h6 | h6
      · exfalso
        have h7 := (convAt_strat hn t hP _).mp h6 x hx
        rw [iterate_strat hx t hP] at h7
        by_cases hkm : k < m
        · exact h4 k hk1 hkm h7
        · have : k = m := by omega
          subst this
          exact hno h7
      · exact h6
    refine ⟨?_, by rw [show IPF.iters _ = k from rfl, show IPF.iters _ = m from rfl]; omega⟩
    rw [Bool.eq_false_iff]
    intro hcc
    have h7 := hc.mp hcc x hx
    rw [hk, ← hm] at h7
    exact hno h7
  · intro m hall
    have hm : ∀ x < n, 1 ≤ m ∧ m ≤ 1000 ∧ convAt fp N t (stratum x P) ((sweep fp N t (stratum x P))^[m] (part x a)) ∧
        ∀ i, 1 ≤ i → i < m → ¬ convAt fp N t (stratum x P) ((sweep fp N t (stratum x P))^[i] (part x a)) := by
      intro x hx
      obtain ⟨pop', m', h1, h2, h3, h4, h5⟩ := key x hx
      obtain ⟨h6, h7⟩ := hall x hx
      rw [h5] at h6 h7
      have h7 : m' = m := h7
      subst h7
      exact ⟨h1, h2, h6, h4⟩
    have hkm : k = m := by
      rcases Nat.lt_trichotomy k m with hlt | heq | hgt
      · exfalso
        rcases hk3 with h6 | h6
        · have h7 := (convAt_strat hn t hP _).mp h6 0 hn
          rw [iterate_strat hn t hP] at h7
          exact (hm 0 hn).2.2.2 k hk1 hlt h7
        · have := (hm 0 hn).2.1
          omega
      · exact heq
      · exfalso
        refine hk4 m (hm 0 hn).1 hgt ((convAt_strat hn t hP _).mpr fun x hx => ?_)
        rw [iterate_strat hx t hP]
        exact (hm x hx).2.2.1
    subst hkm
    exact ⟨hc.mpr fun x hx => (hm x hx).2.2.1, rfl⟩

/-- **C124**: regions have no influence on each other but through the number of iterations: change the marginals and the seed
of the other regions as you like; if the number of iterations is the same, so is the table of region `x`. -/
theorem C124_independent (hN : MinOK N) {n' : Nat} {P P' : Prob α} (h : ProbShape (n :: t) P) (hp : ProperProb (n :: t) P)
    (hP : Stratified P) (h' : ProbShape (n' :: t) P') (hp' : ProperProb (n' :: t) P') (hP' : Stratified P')
    {a a' : List Int → Fl} {r r' : IPF α} {x x' : Nat} (hx : x < n) (hx' : x' < n') (hs : stratum x P = stratum x' P')
    (ha : part x a = part x' a')
    (hr : IPF.run false fp N (indicesOf P) (marginalsOf (n :: t) P) (arr (n :: t) a) = .ok r)
    (hr' : IPF.run false fp N (indicesOf P') (marginalsOf (n' :: t) P') (arr (n' :: t) a') = .ok r')
    (hi : r.iters = r'.iters) :
    ∃ f f', r.micro.array = arr (n :: t) f ∧ r'.micro.array = arr (n' :: t) f' ∧ part x f = part x' f' := by
  obtain ⟨f, h1, h2⟩ := C124_iterates hN h hp hP a hr
  obtain ⟨f', h3, h4⟩ := C124_iterates hN h' hp' hP' a' hr'
  exact ⟨f, f', h1, h3, by rw [h2 x hx, h4 x' hx', hs, ha, hi]⟩

theorem sum_flatMap_range {γ : Type} (F : Nat → List γ) (g : γ → ℚ) :
    ∀ n, (((List.range n).flatMap F).map g).sum = ∑ x ∈ Finset.range n, ((F x).map g).sum
  | 0 => by simp
  | n + 1 => by
    rw [List.range_succ, List.flatMap_append, List.map_append, List.sum_append, sum_flatMap_range F g n, Finset.sum_range_succ]
    simp

theorem sum_cells_cons (n : Nat) (t : List Nat) (g : List Int → ℚ) :
    ∑ j ∈ cells (n :: t), g j = ∑ x ∈ Finset.range n, ∑ j ∈ cells t, part x g j := by
  rw [← sum_allIdx, allIdx, sum_flatMap_range]
  refine Finset.sum_congr rfl fun x _ => ?_
  rw [← sum_allIdx, List.map_map]
  rfl

theorem marginalSum_region {n x : Nat} (hx : x < n) (u : List Nat) (g : List Int → ℚ) :
    marginalSum (n :: u) [0] g [(x : Int)] = ∑ j ∈ cells u, part x g j := by
  unfold marginalSum
  rw [Finset.sum_filter, sum_cells_cons, Finset.sum_eq_single x]
  · refine Finset.sum_congr rfl fun j _ => ?_
    simp [part, proj]
  · intro y _ hy
    refine Finset.sum_eq_zero fun j _ => ?_
    simp [part, proj, hy]
  · intro h
    exact absurd (Finset.mem_range.mpr hx) h

theorem marginalSum_inner (n : Nat) (u : List Nat) (d : Nat) (g : List Int → ℚ) (y : Int) :
    marginalSum (n :: u) [d + 1] g [y] = ∑ x ∈ Finset.range n, marginalSum u [d] (part x g) [y] := by
  unfold marginalSum
  rw [Finset.sum_filter, sum_cells_cons]
  refine Finset.sum_congr rfl fun x _ => ?_
  rw [Finset.sum_filter]
  refine Finset.sum_congr rfl fun j _ => ?_
  simp [part, proj]

/-- **C124**: the regions' problems being consistent, so is the problem of all regions together; its population is the sum of
theirs. -/
theorem C124_accepted {Q : Prob ℚ} (hQ : Stratified Q) (hn : 0 < n) {pops : Nat → Int} (h : ∀ x < n, RatOK t (stratum x Q) (pops x)) :
    RatOK (n :: t) Q (∑ x ∈ Finset.range n, pops x) := by
  have hmem : ∀ {q : List Nat × (List Int → ℚ)}, q ∈ Q → ∀ {ds : List Nat}, q.1 = 0 :: ds.map (· + 1) → ∀ x,
      (ds, part x q.2) ∈ stratum x Q := by
    intro q hq ds hds x
    refine List.mem_map.mpr ⟨q, hq, ?_⟩
    rw [hds, List.tail_cons, sub_add_map]
  have h0 := h 0 hn
  refine ⟨⟨?_, ?_, ?_, ?_, ?_⟩, ?_, ?_, ?_⟩
  · simpa [stratum] using h0.lists
  · have := h0.two
    simp only [List.length_cons]; omega
  · intro m hm
    rcases List.mem_cons.mp hm with rfl | hm
    · exact hn
    · exact h0.pos m hm
  · intro q hq
    obtain ⟨ds, h1, hds⟩ := hQ q hq
    rw [hds]
    refine ⟨by simp, ?_⟩
    intro d hd
    rcases List.mem_cons.mp hd with rfl | hd
    · simp
    · obtain ⟨e, he, rfl⟩ := List.mem_map.mp hd
      simpa using (h0.dims _ (hmem hq hds 0)).2 e he
  · intro d hd
    cases d with
    | zero =>
      obtain ⟨q, hq⟩ : ∃ q, q ∈ Q := by
        cases Q with
        | nil => have := h0.lists; simp [stratum] at this
        | cons q Q => exact ⟨q, by simp⟩
      obtain ⟨ds, h1, hds⟩ := hQ q hq
      exact ⟨q, hq, by rw [hds]; simp⟩
    | succ d =>
      obtain ⟨q', hq', hd'⟩ := h0.cover d (by simpa using hd)
      obtain ⟨q, hq, rfl⟩ := List.mem_map.mp hq'
      obtain ⟨ds, h1, hds⟩ := hQ q hq
      simp only [hds, List.tail_cons, sub_add_map] at hd'
      exact ⟨q, hq, by rw [hds]; simp [hd']⟩
  · intro q hq j hj
    obtain ⟨ds, h1, hds⟩ := hQ q hq
    rw [hds, projSizes_strat] at hj
    obtain ⟨x, w, hx, hw, rfl⟩ := inRange_cons_iff.mp hj
    exact (h x hx).nonneg _ (hmem hq hds x) w hw
  · intro q hq
    obtain ⟨ds, h1, hds⟩ := hQ q hq
    rw [hds, projSizes_strat, sum_cells_cons, Int.cast_sum]
    refine Finset.sum_congr rfl fun x hx => ?_
    exact (h x (Finset.mem_range.mp hx)).total _ (hmem hq hds x)
  · intro p hp q hq a b d ha hb x hx
    obtain ⟨ds, h1, hds⟩ := hQ p hp
    obtain ⟨es, h2, hes⟩ := hQ q hq
    rw [hds] at ha
    rw [hes] at hb
    rw [hds, hes, projSizes_strat, projSizes_strat]
    cases d with
    | zero =>
      have ha0 : a = 0 := by
        cases a with
        | zero => rfl
        | succ a => simp at ha
      have hb0 : b = 0 := by
        cases b with
        | zero => rfl
        | succ b => simp at hb
      subst ha0 hb0
      have hx : x < n := by simpa using hx
      rw [marginalSum_region hx, marginalSum_region hx, (h x hx).total _ (hmem hp hds x), (h x hx).total _ (hmem hq hes x)]
    | succ d =>
      cases a with
      | zero => simp at ha
      | succ a =>
        cases b with
        | zero => simp at hb
        | succ b =>
          rw [marginalSum_inner, marginalSum_inner]
          refine Finset.sum_congr rfl fun y hy => ?_
          refine (h y (Finset.mem_range.mp hy)).partials _ (hmem hp hds y) _ (hmem hq hes y) a b d ?_ ?_ x ?_
          · simpa using ha
          · simpa using hb
          · simpa using hx

/-- Two regions: the problem `exQ`, and the same with twice as many people. -/
def exRegions : Prob ℚ :=
  [([0, 1], fun j => (j.getD 0 0 + 1) * (j.getD 1 0 + 1)), ([0, 2], fun j => j.getD 0 0 + 1)]

theorem exRegions_strat : Stratified exRegions := by
  intro p hp
  simp only [exRegions, List.mem_cons, List.not_mem_nil, or_false] at hp
  rcases hp with rfl | rfl
  · exact ⟨[0], by simp⟩
  · exact ⟨[1], by simp⟩

theorem stratum_exRegions (x : Nat) : stratum x exRegions = exQ.map (fun q => (q.1, fun j => ((x : ℚ) + 1) * q.2 j)) := by
  simp only [stratum, exRegions, exQ, List.map_cons, List.map_nil, List.cons.injEq, Prod.mk.injEq, and_true]
  exact ⟨⟨rfl, by funext j; simp [part]⟩, rfl, by funext j; simp [part]⟩

theorem exRegions_parts (x : Nat) : RatOK [2, 3] (stratum x exRegions) (3 * (x + 1)) := by
  rw [stratum_exRegions]
  have h := exQ_ok
  refine ⟨probShape_congr (by simp [Function.comp_def]) h.toProbShape, ?_, ?_, ?_⟩
  · intro p hp j hj
    obtain ⟨q, hq, rfl⟩ := List.mem_map.mp hp
    exact mul_nonneg (by positivity) (h.nonneg q hq j hj)
  · intro p hp
    obtain ⟨q, hq, rfl⟩ := List.mem_map.mp hp
    rw [← Finset.mul_sum, h.total q hq]
    push_cast; ring
  · intro p hp p' hp' a b d ha hb y hy
    obtain ⟨q, hq, rfl⟩ := List.mem_map.mp hp
    obtain ⟨q', hq', rfl⟩ := List.mem_map.mp hp'
    have := h.partials q hq q' hq' a b d ha hb y hy
    unfold marginalSum at this ⊢
    rw [← Finset.mul_sum, ← Finset.mul_sum, this]

theorem exRegions_ok : RatOK [2, 2, 3] exRegions 9 :=
  C124_accepted exRegions_strat (by decide) (pops := fun x => 3 * (x + 1)) (fun x _ => exRegions_parts x)

theorem finProb_strat {Q : Prob ℚ} (h : Stratified Q) : Stratified (finProb Q) := by
  intro p hp
  obtain ⟨q, hq, rfl⟩ := mem_finProb.mp hp
  exact h q hq

theorem stratum_finProb (x : Nat) (Q : Prob ℚ) : stratum x (finProb Q) = finProb (stratum x Q) := by
  unfold stratum finProb
  rw [List.map_map, List.map_map]
  rfl

/-- The hypotheses of `C124_parts` hold for these two regions, whatever the seed. -/
example (b : List Int → ℚ) : ProbShape [2, 2, 3] (finProb exRegions) ∧ ProperProb [2, 2, 3] (finProb exRegions) ∧
    Stratified (finProb exRegions) ∧
    (∃ r, ipfExact [2, 2, 3] exRegions b = .ok r) ∧
    ∀ x < 2, ∃ r, IPF.run false FP.exact (numFl FP.exact) (indicesOf (stratum x (finProb exRegions)))
      (marginalsOf [2, 3] (stratum x (finProb exRegions))) (arr [2, 3] (part x (fun v => .fin (b v)))) = .ok r := by
  have hs := probShape_congr (fst_finProb exRegions).symm exRegions_ok.toProbShape
  have hp : ProperProb [2, 2, 3] (finProb exRegions) := properProb_fin (by unfold ProperProb; decide)
  refine ⟨hs, hp, finProb_strat exRegions_strat,
    ipf_run_ok _ _ (minOK_fl _) (ratOK_accepted exRegions_ok (by norm_num)) hp _, ?_⟩
  intro x hx
  refine ipf_run_ok _ _ (minOK_fl _) (pop := 3 * (x + 1)) ?_ (stratum_proper hp (finProb_strat exRegions_strat) x) _
  rw [stratum_finProb]
  exact ratOK_accepted (exRegions_parts x) (by interval_cases x <;> norm_num)

/-- Two regions whose marginals disagree about the attribute they have in common: the first has everybody in one category of
it, the second everybody in the other, and in the other region it is the other way round. -/
def crossQ : Prob ℚ :=
  [([0, 1, 2], fun j => if j.getD 0 0 = j.getD 2 0 then 1 else 0), ([0, 2, 3], fun j => if j.getD 0 0 = j.getD 1 0 then 0 else 1)]

theorem crossQ_strat : Stratified crossQ := by
  intro p hp
  simp only [crossQ, List.mem_cons, List.not_mem_nil, or_false] at hp
  rcases hp with rfl | rfl
  · exact ⟨[0, 1], by simp⟩
  · exact ⟨[1, 2], by simp⟩

theorem crossQ_ok : ProbOKG FP.exact (numFl FP.exact) [2, 1, 2, 1] (finProb crossQ) 2 where
  lists := by decide
  two := by decide
  pos := by decide
  dims := by simp [finProb, crossQ]
  cover := by
    intro d hd
    simp only [List.length_cons, List.length_nil] at hd
    interval_cases d <;> simp [finProb, crossQ]
  nonneg := by
    intro p hp j hj
    simp only [finProb, crossQ, List.map_cons, List.map_nil, List.mem_cons, List.not_mem_nil, or_false] at hp
    rcases hp with rfl | rfl
    · show FP.lt (.fin (if _ then _ else _)) (.fin 0) = false
      split <;> simp [FP.lt]
    · show FP.lt (.fin (if _ then _ else _)) (.fin 0) = false
      split <;> simp [FP.lt]
  total := by
    intro p hp
    simp only [finProb, crossQ, List.map_cons, List.map_nil, List.mem_cons, List.not_mem_nil, or_false] at hp
    rcases hp with rfl | rfl <;> decide +kernel
  partials := by
    have : ∀ d < 4, ∀ p ∈ (places d 0 ((finProb crossQ).map Prod.fst)).head?,
        ∀ q ∈ (places d 0 ((finProb crossQ).map Prod.fst)).tail,
        (numFl FP.exact).allclose (sumsAt (numFl FP.exact) [2, 1, 2, 1] (finProb crossQ) q)
          (sumsAt (numFl FP.exact) [2, 1, 2, 1] (finProb crossQ) p) = true := by decide +kernel
    intro d hd p q hp hq
    exact this d hd p hp q hq

/-- **C124**: the converse is not so: `ipf` accepts the two regions together although it refuses each by itself, because the
attribute the marginals have in common is compared for all regions together only. -/
theorem C124_negation_refused (b : List Int → ℚ) : (∃ r, ipfExact [2, 1, 2, 1] crossQ b = .ok r) ∧
    ∀ x < 2, ¬ ∃ r, ipfExact [1, 2, 1] (stratum x crossQ) (part x b) = .ok r := by
  have hp : ProperProb [2, 1, 2, 1] crossQ := by unfold ProperProb; decide
  refine ⟨ipf_run_ok _ _ (minOK_fl _) crossQ_ok (properProb_fin hp) _, ?_⟩
  rintro x hx ⟨r, hr⟩
  have hsh := stratum_shape crossQ_ok.toProbShape (finProb_strat crossQ_strat) (by decide) x
  have hpr := stratum_proper (properProb_fin hp) (finProb_strat crossQ_strat) x
  rw [stratum_finProb] at hsh hpr
  obtain ⟨pop, -, h, -⟩ := ipf_run FP.exact _ (minOK_fl _) hsh hpr _ hr
  have := h.partials 1 (by decide) (0, 1) (1, 0) (by interval_cases x <;> rfl) (by interval_cases x <;> decide)
  revert this
  interval_cases x <;> decide +kernel

end HL

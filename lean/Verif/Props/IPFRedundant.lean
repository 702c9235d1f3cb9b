import Verif.Props.IPF
import Verif.Proof.IPFDecomp

/-
C125: marginals that say nothing new to `ipf`.
-/

namespace HL
variable {s : List Nat}

theorem qsweep_append (A B : Prob ℚ) (b : List Int → ℚ) : qsweep s (A ++ B) b = qsweep s B (qsweep s A b) := by
  unfold qsweep; rw [List.foldl_append]

theorem qsweep_cons (q : List Nat × (List Int → ℚ)) (B : Prob ℚ) (b : List Int → ℚ) :
    qsweep s (q :: B) b = qsweep s B (qscaled s q.1 q.2 b) := rfl

theorem marginalSum_class {ds : List Nat} {b c : List Int → ℚ} {j : List Int} (k : ℚ)
    (h : ∀ w, InRange s w → proj ds w = j → c w = k * b w) : marginalSum s ds c j = k * marginalSum s ds b j := by
  unfold marginalSum
  rw [Finset.mul_sum]
  refine Finset.sum_congr rfl fun w hw => ?_
  obtain ⟨h1, h2⟩ := Finset.mem_filter.mp hw
  exact h w (mem_cells.mp h1) h2

/-- scaling to the same marginal again changes nothing -/
theorem qscaled_twice (ds : List Nat) (m b : List Int → ℚ) : qscaled s ds m (qscaled s ds m b) = qscaled s ds m b := by
  funext v
  by_cases h0 : marginalSum s ds b (proj ds v) = 0
  · have : qscaled s ds m b v = 0 := by unfold qscaled; rw [if_pos h0]
    rw [qscaled_zero this, this]
  · have h1 : marginalSum s ds (qscaled s ds m b) (proj ds v) = m (proj ds v) := by
      rw [marginalSum_class (b := b) (m (proj ds v) / marginalSum s ds b (proj ds v))]
      · exact div_mul_cancel₀ _ h0
      · intro w _ hw
        unfold qscaled
        rw [hw, if_neg h0, mul_comm]
    rw [qscaled, h1]
    split
    · rename_i h2
      unfold qscaled
      rw [if_neg h0, h2]; simp
    · rename_i h2
      rw [div_self h2, mul_one]

theorem foldl_max_le {y : ℚ} : ∀ (l : List ℚ) (c : ℚ), l.foldl max c ≤ y ↔ c ≤ y ∧ ∀ x ∈ l, x ≤ y
  | [], c => by simp
  | x :: l, c => by
    rw [List.foldl_cons, foldl_max_le l]
    simp only [max_le_iff, List.mem_cons, forall_eq_or_imp, and_assoc]

theorem qmax_mono {Q Q' : Prob ℚ} (h : ∀ q ∈ Q, q ∈ Q') (b : List Int → ℚ) : qmax s Q b ≤ qmax s Q' b := by
  unfold qmax
  rw [foldl_max_le]
  obtain ⟨h1, h2⟩ := (foldl_max_le (qdevs s Q' b) (-dblMax)).mp le_rfl
  refine ⟨h1, fun x hx => h2 x ?_⟩
  obtain ⟨q, hq, j, hj, hx⟩ := mem_qdevs.mp hx
  exact mem_qdevs.mpr ⟨q, h q hq, j, hj, hx⟩

/-- **C125**: in exact arithmetic, listing a marginal twice in a row makes no difference to `ipf`, whatever the seed: the same
table, `conv`, number of iterations, population and largest error. -/
theorem C125_repeated {A B : Prob ℚ} {p : List Nat × (List Int → ℚ)} {pop : Int} (h : RatOK s (A ++ p :: B) pop) (hpop : pop < 2 ^ 62)
    (hp : ProperProb s (A ++ p :: B)) (b : List Int → ℚ) :
    ∃ r r', ipfExact s (A ++ p :: B) b = .ok r ∧ ipfExact s (A ++ p :: p :: B) b = .ok r' ∧
      r'.micro.array = r.micro.array ∧ r'.conv = r.conv ∧ r'.iters = r.iters ∧ r'.micro.population = r.micro.population ∧
      r'.maxError = r.maxError := by
  have hm : ∀ q, q ∈ A ++ p :: p :: B ↔ q ∈ A ++ p :: B := by intro q; simp
  have hp' : ProperProb s (A ++ p :: p :: B) := fun q hq => hp q ((hm q).mp hq)
  have h' : RatOK s (A ++ p :: p :: B) pop := by
    refine ⟨⟨?_, h.two, h.pos, fun q hq => h.dims q ((hm q).mp hq), ?_⟩, fun q hq => h.nonneg q ((hm q).mp hq),
      fun q hq => h.total q ((hm q).mp hq), fun q hq q' hq' => h.partials q ((hm q).mp hq) q' ((hm q').mp hq')⟩
    · have := h.lists
      simp only [List.length_append, List.length_cons] at this ⊢
      omega
    · intro d hd
      obtain ⟨q, hq, hd⟩ := h.cover d hd
      exact ⟨q, (hm q).mpr hq, hd⟩
  obtain ⟨r, hr⟩ := ipf_run_ok _ _ (minOK_fl _) (ratOK_accepted h hpop) (properProb_fin hp) (fun v => .fin (b v))
  obtain ⟨r', hr'⟩ := ipf_run_ok _ _ (minOK_fl _) (ratOK_accepted h' hpop) (properProb_fin hp') (fun v => .fin (b v))
  obtain ⟨pop1, n, ok1, h1, h2, h3, h4, h5, h6, h7, h8⟩ := ipf_exact_fin h.toProbShape hp hr
  obtain ⟨pop2, n', ok2, h1', h2', h3', h4', h5', h6', h7', h8'⟩ := ipf_exact_fin h'.toProbShape hp' hr'
  have hsw : qsweep s (A ++ p :: p :: B) = qsweep s (A ++ p :: B) := by
    funext c
    rw [qsweep_append, qsweep_append, qsweep_cons, qsweep_cons, qsweep_cons, qscaled_twice]
  have hq : ∀ c, qmax s (A ++ p :: p :: B) c = qmax s (A ++ p :: B) c := fun c =>
    le_antisymm (qmax_mono (fun q hq => (hm q).mp hq) c) (qmax_mono (fun q hq => (hm q).mpr hq) c)
  rw [hsw] at h3' h4' h5' h7' h8'
  simp only [hq] at h3' h4' h7' h8'
  have hn : n' = n := by
    rcases Nat.lt_trichotomy n' n with hlt | heq | hgt
    · rcases h3' with h9 | h9
      · exact absurd (h4 n' h1' hlt) (not_le.mpr h9)
      · omega
    · exact heq
    · rcases h3 with h9 | h9
      · exact absurd (h4' n h1 hgt) (not_le.mpr h9)
      · omega
  subst hn
  refine ⟨r, r', hr, hr', ?_, ?_, ?_, ?_, ?_⟩
  · rw [h5, h5']
  · rw [h7, h7']
  · rw [h6, h6']
  · have e1 := ok1.total (p.1, fun j => .fin (p.2 j)) (mem_finProb.mpr ⟨p, by simp, rfl⟩)
    have e2 := ok2.total (p.1, fun j => .fin (p.2 j)) (mem_finProb.mpr ⟨p, by simp, rfl⟩)
    rw [e1] at e2
    injection e2 with e2
    rw [h5, h5']
    exact e2.symm
  · rw [h8, h8']

/-- scaling to a coarser marginal just before a finer one that implies it changes nothing -/
theorem qscaled_coarser {ds : List Nat} {m : List Int → ℚ} {ks : List Nat} {m' : List Int → ℚ} {b : List Int → ℚ}
    (hd : ∀ d ∈ ds, d < s.length) (hk : ∀ k ∈ ks, k < ds.length) (hm : ∀ j, InRange (projSizes ds s) j → 0 ≤ m j)
    (hm' : ∀ j, InRange (projSizes (ks.map (fun k => ds.getD k 0)) s) j → m' j = marginalSum (projSizes ds s) ks m j)
    (hb : ∀ v, InRange s v → 0 ≤ b v) :
    ∀ v, InRange s v → qscaled s ds m (qscaled s (ks.map (fun k => ds.getD k 0)) m' b) v = qscaled s ds m b v := by
  intro v hv
  set es := ks.map (fun k => ds.getD k 0) with hes
  have hproj : ∀ w, proj es w = proj ks (proj ds w) := by
    intro w
    unfold proj
    rw [hes, List.map_map]
    refine List.map_congr_left fun k hk' => ?_
    have := hk k hk'
    simp [List.getD, this]
  have hed : ∀ d ∈ es, d < s.length := by
    intro d hd'
    obtain ⟨k, hk', rfl⟩ := List.mem_map.mp hd'
    have := hk k hk'
    have h1 : ds.getD k 0 ∈ ds := by
      rw [List.getD, List.getElem?_eq_getElem this]
      exact List.getElem_mem this
    exact hd _ h1
  by_cases h0 : marginalSum s es b (proj es v) = 0
  · have hbv : b v = 0 := by
      unfold marginalSum at h0
      rw [Finset.sum_eq_zero_iff_of_nonneg (fun w hw => hb w (mem_cells.mp (Finset.mem_filter.mp hw).1))] at h0
      exact h0 v (Finset.mem_filter.mpr ⟨mem_cells.mpr hv, rfl⟩)
    rw [qscaled_zero (qscaled_zero hbv), qscaled_zero hbv]
  · set f := m' (proj es v) / marginalSum s es b (proj es v) with hf
    have hc : ∀ w, proj ds w = proj ds v → qscaled s es m' b w = f * b w := by
      intro w hw
      unfold qscaled
      rw [hproj w, hw, ← hproj v, if_neg h0, mul_comm]
    have hS : marginalSum s ds (qscaled s es m' b) (proj ds v) = f * marginalSum s ds b (proj ds v) :=
      marginalSum_class f (fun w _ hw => hc w hw)
    unfold qscaled at hS ⊢
    rw [hS]
    have hc' := hc v rfl
    unfold qscaled at hc'
    rw [hc']
    by_cases hsp : marginalSum s ds b (proj ds v) = 0
    · rw [hsp]; simp
    · by_cases hf0 : f = 0
      · have hm0 : m (proj ds v) = 0 := by
          have h1 : m' (proj es v) = 0 := by
            rcases div_eq_zero_iff.mp hf0 with h1 | h1
            · exact h1
            · exact absurd h1 h0
          rw [hm' _ (inRange_proj hed hv)] at h1
          unfold marginalSum at h1
          rw [Finset.sum_eq_zero_iff_of_nonneg (fun w hw => hm w (mem_cells.mp (Finset.mem_filter.mp hw).1))] at h1
          exact h1 _ (Finset.mem_filter.mpr ⟨mem_cells.mpr (inRange_proj hd hv), (hproj v).symm⟩)
        rw [hf0, hm0]; simp
      · rw [if_neg (mul_ne_zero hf0 hsp), if_neg hsp]
        field_simp

/-- **C125**: in exact arithmetic, listing before a marginal a coarser one that it implies (its sums over some of its
dimensions) makes no difference to the table after each number of iterations, for seeds without negative cells: if `ipf`
converges with it then it does without, after no more iterations, and for the same number of iterations the table is the same. -/
theorem C125_implied {A B : Prob ℚ} {p : List Nat × (List Int → ℚ)} {ks : List Nat} (hks : ∀ k ∈ ks, k < p.1.length) {m : List Int → ℚ}
    (hm : ∀ j, InRange (projSizes (ks.map (fun k => p.1.getD k 0)) s) j → m j = marginalSum (projSizes p.1 s) ks p.2 j) {pop : Int}
    (h : RatOK s (A ++ (ks.map (fun k => p.1.getD k 0), m) :: p :: B) pop) (h2 : 2 ≤ (A ++ p :: B).length) (hpop : pop < 2 ^ 62)
    (hp : ProperProb s (A ++ (ks.map (fun k => p.1.getD k 0), m) :: p :: B)) {b : List Int → ℚ} (hb : ∀ v, InRange s v → 0 ≤ b v) :
    ∃ r r' c c', ipfExact s (A ++ p :: B) b = .ok r ∧ ipfExact s (A ++ (ks.map (fun k => p.1.getD k 0), m) :: p :: B) b = .ok r' ∧
      r.micro.array = finArr s c ∧ r'.micro.array = finArr s c' ∧ (r'.iters = r.iters → ∀ v, InRange s v → c v = c' v) ∧
      (r'.conv = true → r.conv = true) ∧ r.iters ≤ r'.iters ∧ r'.micro.population = r.micro.population := by
  set es := ks.map (fun k => p.1.getD k 0) with hes
  have hsub : ∀ q ∈ A ++ p :: B, q ∈ A ++ (es, m) :: p :: B := by
    intro q hq
    simp only [List.mem_append, List.mem_cons] at hq ⊢
    tauto
  have hp1 : ProperProb s (A ++ p :: B) := fun q hq => hp q (hsub q hq)
  have h1 : RatOK s (A ++ p :: B) pop := by
    refine ⟨⟨h2, h.two, h.pos, fun q hq => h.dims q (hsub q hq), ?_⟩, fun q hq => h.nonneg q (hsub q hq),
      fun q hq => h.total q (hsub q hq), fun q hq q' hq' => h.partials q (hsub q hq) q' (hsub q' hq')⟩
    intro d hd
    obtain ⟨q, hq, hd⟩ := h.cover d hd
    simp only [List.mem_append, List.mem_cons] at hq
    rcases hq with hq | rfl | rfl | hq
    · exact ⟨q, by simp [hq], hd⟩
    · obtain ⟨k, hk, rfl⟩ := List.mem_map.mp hd
      refine ⟨p, by simp, ?_⟩
      rw [List.getD, List.getElem?_eq_getElem (hks k hk)]
      exact List.getElem_mem (hks k hk)
    · exact ⟨q, by simp, hd⟩
    · exact ⟨q, by simp [hq], hd⟩
  obtain ⟨r, hr⟩ := ipf_run_ok _ _ (minOK_fl _) (ratOK_accepted h1 hpop) (properProb_fin hp1) (fun v => .fin (b v))
  obtain ⟨r', hr'⟩ := ipf_run_ok _ _ (minOK_fl _) (ratOK_accepted h hpop) (properProb_fin hp) (fun v => .fin (b v))
  obtain ⟨pop1, n, ok1, g1, g2, g3, g4, g5, g6, g7, g8⟩ := ipf_exact_fin h1.toProbShape hp1 hr
  obtain ⟨pop2, n', ok2, g1', g2', g3', g4', g5', g6', g7', g8'⟩ := ipf_exact_fin h.toProbShape hp hr'
  have hpm : p ∈ A ++ (es, m) :: p :: B := by simp
  have hAd : ∀ q ∈ A, ∀ d ∈ q.1, d < s.length := fun q hq => (h.dims q (by simp [hq])).2
  have hAn : ∀ q ∈ A, ∀ j, InRange (projSizes q.1 s) j → 0 ≤ q.2 j := fun q hq => h.nonneg q (by simp [hq])
  have hsw : ∀ {c : List Int → ℚ}, (∀ v, InRange s v → 0 ≤ c v) →
      ∀ v, InRange s v → qsweep s (A ++ (es, m) :: p :: B) c v = qsweep s (A ++ p :: B) c v := by
    intro c hc
    rw [qsweep_append, qsweep_append, qsweep_cons, qsweep_cons, qsweep_cons]
    exact qsweep_congr B (qscaled_coarser (h.dims p hpm).2 hks (h.nonneg p hpm) hm (qsweep_nonneg A hAd hAn hc))
  have hnn : ∀ k v, InRange s v → 0 ≤ (qsweep s (A ++ p :: B))^[k] b v := by
    intro k
    induction k with
    | zero => exact hb
    | succ k ih =>
      rw [Function.iterate_succ_apply']
      exact qsweep_nonneg _ (fun q hq => (h1.dims q hq).2) h1.nonneg ih
  have hit : ∀ k v, InRange s v → (qsweep s (A ++ (es, m) :: p :: B))^[k] b v = (qsweep s (A ++ p :: B))^[k] b v := by
    intro k
    induction k with
    | zero => intro v _; rfl
    | succ k ih =>
      intro v hv
      rw [Function.iterate_succ_apply', Function.iterate_succ_apply', qsweep_congr _ ih v hv, hsw (hnn k) v hv]
  have hmx : ∀ k, qmax s (A ++ p :: B) ((qsweep s (A ++ p :: B))^[k] b) ≤
      qmax s (A ++ (es, m) :: p :: B) ((qsweep s (A ++ (es, m) :: p :: B))^[k] b) := by
    intro k
    rw [qmax_congr _ (hit k)]
    exact qmax_mono hsub _
  have hle : n ≤ n' := by
    by_contra hlt
    rcases g3' with h9 | h9
    · exact absurd (g4 n' g1' (by omega)) (not_le.mpr (lt_of_le_of_lt (hmx n') h9))
    · omega
  refine ⟨r, r', _, _, hr, hr', by rw [g5], by rw [g5'], ?_, ?_, by omega, ?_⟩
  · intro hi v hv
    have : n' = n := by rw [← g6, ← g6', hi]
    subst this
    exact (hit n' v hv).symm
  · intro hc
    rw [g7', decide_eq_true_eq] at hc
    rw [g7, decide_eq_true_eq]
    rcases g3 with h9 | h9
    · exact h9
    · have : n' = n := by omega
      subst this
      exact lt_of_le_of_lt (hmx n') hc
  · have e1 := ok1.total (p.1, fun j => .fin (p.2 j)) (mem_finProb.mpr ⟨p, by simp, rfl⟩)
    have e2 := ok2.total (p.1, fun j => .fin (p.2 j)) (mem_finProb.mpr ⟨p, by simp, rfl⟩)
    rw [e1] at e2
    injection e2 with e2
    rw [g5, g5']
    exact e2.symm

/-- The hypotheses of `C125_repeated` hold for `exQ`. -/
example (b : List Int → ℚ) : ∃ r r', ipfExact [2, 3] exQ b = .ok r ∧
    ipfExact [2, 3] (([0], fun j => j.getD 0 0 + 1) :: exQ) b = .ok r' ∧ r'.micro.array = r.micro.array ∧ r'.conv = r.conv ∧
      r'.iters = r.iters ∧ r'.micro.population = r.micro.population ∧ r'.maxError = r.maxError :=
  C125_repeated (A := []) (p := ([0], fun j => j.getD 0 0 + 1)) (B := [([1], fun _ => 1)]) exQ_ok (by norm_num) exQ_proper b

/-- a marginal over two attributes, its sums over the second listed before it, and a third attribute -/
def sumsQ : Prob ℚ := [([0], fun j => 2 * (j.getD 0 0 + 1)), ([0, 1], fun j => j.getD 0 0 + 1), ([2], fun _ => 3)]

theorem sumsQ_ok : RatOK [2, 2, 2] sumsQ 6 where
  lists := by decide
  two := by decide
  pos := by decide
  dims := by simp [sumsQ]
  cover := by
    intro d hd
    simp only [List.length_cons, List.length_nil] at hd
    interval_cases d <;> simp [sumsQ]
  nonneg := by
    intro p hp j hj
    simp only [sumsQ, List.mem_cons, List.not_mem_nil, or_false] at hp
    have h0 : ∀ {d : List Nat}, InRange (projSizes (0 :: d) [2, 2, 2]) j → (0 : ℚ) ≤ ((j.getD 0 0 : Int) : ℚ) := by
      intro d hj
      have := (inRange_getD hj (d := 0) (by simp [projSizes])).1
      exact_mod_cast this
    rcases hp with rfl | rfl | rfl
    · have := h0 hj
      simp only; linarith
    · have := h0 hj
      simp only; linarith
    · simp
  total := by
    intro p hp
    simp only [sumsQ, List.mem_cons, List.not_mem_nil, or_false] at hp
    rcases hp with rfl | rfl | rfl <;> rw [← sum_allIdx] <;> decide +kernel
  partials := by
    have key : ∀ p ∈ sumsQ, ∀ q ∈ sumsQ, ∀ a < 2, ∀ b < 2, p.1[a]? = q.1[b]? → p.1[a]? ≠ none →
        (List.range 2).all (fun x => decide (marginalSum (projSizes p.1 [2, 2, 2]) [a] p.2 [(x : Int)] =
          marginalSum (projSizes q.1 [2, 2, 2]) [b] q.2 [(x : Int)])) = true := by decide +kernel
    intro p hp q hq a b d ha hb x hx
    have hl : ∀ p ∈ sumsQ, p.1.length ≤ 2 ∧ ∀ d ∈ p.1, d < 3 := by decide
    have h1 := (List.getElem?_eq_some_iff.mp ha).1
    have h2 := (List.getElem?_eq_some_iff.mp hb).1
    have h3 := (hl p hp).2 d (List.mem_of_getElem? ha)
    have h4 := key p hp q hq a (by have := (hl p hp).1; omega) b (by have := (hl q hq).1; omega) (by rw [ha, hb]) (by rw [ha]; simp)
    have h5 : x < 2 := by interval_cases d <;> exact hx
    exact of_decide_eq_true (List.all_eq_true.mp h4 x (List.mem_range.mpr h5))

/-- The hypotheses of `C125_implied` hold for it. -/
example {b : List Int → ℚ} (hb : ∀ v, InRange [2, 2, 2] v → 0 ≤ b v) :
    ∃ r r' c c', ipfExact [2, 2, 2] sumsQ.tail b = .ok r ∧ ipfExact [2, 2, 2] sumsQ b = .ok r' ∧
      r.micro.array = finArr [2, 2, 2] c ∧ r'.micro.array = finArr [2, 2, 2] c' ∧
      (r'.iters = r.iters → ∀ v, InRange [2, 2, 2] v → c v = c' v) ∧
      (r'.conv = true → r.conv = true) ∧ r.iters ≤ r'.iters ∧ r'.micro.population = r.micro.population := by
  have hm : ∀ j ∈ allIdx [2], (fun j : List Int => 2 * ((j.getD 0 0 : ℚ) + 1)) j =
      marginalSum (projSizes [0, 1] [2, 2, 2]) [0] (fun j => (j.getD 0 0 : ℚ) + 1) j := by decide +kernel
  exact C125_implied (A := []) (p := ([0, 1], fun j => j.getD 0 0 + 1)) (ks := [0]) (by simp)
    (m := fun j => 2 * (j.getD 0 0 + 1)) (B := [([2], fun _ => 3)]) (fun j hj => hm j (mem_allIdx.mpr hj)) sumsQ_ok (by decide)
    (by norm_num) (by unfold ProperProb; decide) hb

end HL

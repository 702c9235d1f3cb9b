import Verif.Props.IPFOrder

/-
C98: what the limit of ipf depends on.
-/

namespace HL
open Ent Filter Topology

/-- The table `b` with every cell multiplied by factors, each of which depends only on some of the dimensions. -/
def timesFactors (F : Prob ℚ) (b : List Int → ℚ) : List Int → ℚ := fun v => b v * (F.map (fun f => f.2 (proj f.1 v))).prod

/-- the relative entropy to a table with one factor -/
theorem entropy_factor {s ds : List Nat} (hd : ∀ d ∈ ds, d < s.length) {t b g : List Int → ℝ} (hv : VanishesWith s t b)
    (hg : ∀ j, InRange (projSizes ds s) j → 0 < g j) :
    relEntropy s t (fun v => b v * g (proj ds v)) =
      relEntropy s t b - ∑ j ∈ cells (projSizes ds s), marginalSum s ds t j * Real.log (g j) := by
  rw [← sum_mul_proj hd t (fun j => Real.log (g j))]
  unfold relEntropy
  rw [← Finset.sum_sub_distrib]
  apply Finset.sum_congr rfl
  intro v hvm
  have hr := mem_cells.mp hvm
  by_cases h0 : t v = 0
  · rw [h0]; simp
  · have hb : b v ≠ 0 := fun h => h0 (hv v hr h)
    have hgp := (hg _ (inRange_proj hd hr)).ne'
    rw [← div_div, Real.log_div (div_ne_zero h0 hb) hgp]
    ring

/-- the relative entropy to a table with factors changes by the same amount for all tables with the same sums -/
theorem entropy_factors {s : List Nat} {Q F : Prob ℚ} (hd : ∀ q ∈ Q, ∀ d ∈ q.1, d < s.length)
    (hF : ∀ f ∈ F, (∃ q ∈ Q, q.1 = f.1) ∧ ∀ j, InRange (projSizes f.1 s) j → 0 < f.2 j) {t t' : List Int → ℝ}
    (ht : MeetsMarginals s Q t) (ht' : MeetsMarginals s Q t') :
    ∀ {b : List Int → ℚ}, VanishesWith s t (realTable b) → VanishesWith s t' (realTable b) →
      relEntropy s t (realTable (timesFactors F b)) - relEntropy s t (realTable b) =
      relEntropy s t' (realTable (timesFactors F b)) - relEntropy s t' (realTable b) := by
  induction F with
  | nil =>
    intro b _ _
    have : realTable (timesFactors [] b) = realTable b := by funext v; simp [realTable, timesFactors]
    rw [this]; ring
  | cons f F ih =>
    intro b hv hv'
    obtain ⟨⟨q, hq, hqf⟩, hpos⟩ := hF f (by simp)
    have hd' : ∀ d ∈ f.1, d < s.length := hqf ▸ hd q hq
    have e : realTable (timesFactors (f :: F) b) = fun v => realTable (timesFactors F b) v * (fun j => (f.2 j : ℝ)) (proj f.1 v) := by
      funext v
      simp only [realTable, timesFactors, List.map_cons, List.prod_cons]
      push_cast
      ring
    have hposF : ∀ v, InRange s v → (F.map (fun f => f.2 (proj f.1 v))).prod ≠ 0 := by
      intro v hr
      refine (List.prod_pos ?_).ne'
      intro x hx
      obtain ⟨g, hg, rfl⟩ := List.mem_map.mp hx
      obtain ⟨⟨q', hq', hqf'⟩, hpos'⟩ := hF g (List.mem_cons_of_mem _ hg)
      exact hpos' _ (inRange_proj (hqf' ▸ hd q' hq') hr)
    have van : ∀ {t : List Int → ℝ}, VanishesWith s t (realTable b) → VanishesWith s t (realTable (timesFactors F b)) := by
      intro t hv v hr h0
      apply hv v hr
      have h1 : timesFactors F b v = 0 := Rat.cast_eq_zero.mp h0
      exact Rat.cast_eq_zero.mpr ((mul_eq_zero.mp h1).resolve_right (hposF v hr))
    have hpos'' : ∀ j, InRange (projSizes f.1 s) j → (0 : ℝ) < (fun j => (f.2 j : ℝ)) j := fun j hj => Rat.cast_pos.mpr (hpos j hj)
    rw [e, entropy_factor hd' (van hv) hpos'', entropy_factor hd' (van hv') hpos'']
    have hsum : ∑ j ∈ cells (projSizes f.1 s), marginalSum s f.1 t j * Real.log ((fun j => (f.2 j : ℝ)) j) =
        ∑ j ∈ cells (projSizes f.1 s), marginalSum s f.1 t' j * Real.log ((fun j => (f.2 j : ℝ)) j) := by
      apply Finset.sum_congr rfl
      intro j hj
      have hjr : InRange (projSizes q.1 s) j := by rw [hqf]; exact mem_cells.mp hj
      have h1 := ht q hq j hjr
      have h2 := ht' q hq j hjr
      rw [hqf] at h1 h2
      rw [h1, h2]
    rw [hsum]
    have := ih (fun f hf => hF f (List.mem_cons_of_mem _ hf)) hv hv'
    linarith

variable {s : List Nat} {Q Q' : Prob ℚ} {pop pop' : Int}

/-- **C98**: two problems whose marginals are met by the same tables, and two seeds of which the second is the first multiplied
by positive factors that each depend only on the dimensions of one of the marginals: the tables obtained by calling `ipf` again and
again tend to the same limit. -/
theorem C98_same_limit (h : RatOK s Q pop) (hlt : pop < 2 ^ 62) (hp : ProperProb s Q) (h' : RatOK s Q' pop') (hlt' : pop' < 2 ^ 62)
    (hp' : ProperProb s Q') (hQ : ∀ t, NonnegTable s t → (MeetsMarginals s Q t ↔ MeetsMarginals s Q' t)) {b : List Int → ℚ}
    (hb : ∀ v, InRange s v → 0 ≤ b v) {F : Prob ℚ}
    (hF : ∀ f ∈ F, (∃ q ∈ Q, q.1 = f.1) ∧ ∀ j, InRange (projSizes f.1 s) j → 0 < f.2 j)
    {t : List Int → ℝ} (ht : NonnegTable s t) (hm : MeetsMarginals s Q t) (hv : VanishesWith s t (realTable b)) :
    ∃ (c c' : Nat → List Int → ℚ) (x : List Int → ℝ),
      (∀ k, ∃ r, ipfCalls s Q b k = .ok r ∧ r.micro.array = finArr s (c k)) ∧
      (∀ k, ∃ r, ipfCalls s Q' (timesFactors F b) k = .ok r ∧ r.micro.array = finArr s (c' k)) ∧
      ∀ v, InRange s v → Tendsto (fun k => (c k v : ℝ)) atTop (𝓝 (x v)) ∧ Tendsto (fun k => (c' k v : ℝ)) atTop (𝓝 (x v)) := by
  have hd : ∀ q ∈ Q, ∀ d ∈ q.1, d < s.length := fun q hq => (h.dims q hq).2
  have hprod : ∀ v, InRange s v → 0 < (F.map (fun f => f.2 (proj f.1 v))).prod := by
    intro v hr
    refine List.prod_pos ?_
    intro x hx
    obtain ⟨g, hg, rfl⟩ := List.mem_map.mp hx
    obtain ⟨⟨q', hq', hqf'⟩, hpos'⟩ := hF g hg
    exact hpos' _ (inRange_proj (hqf' ▸ hd q' hq') hr)
  have van : ∀ t : List Int → ℝ, VanishesWith s t (realTable b) ↔ VanishesWith s t (realTable (timesFactors F b)) := by
    intro t
    have : ∀ v, InRange s v → (realTable (timesFactors F b) v = 0 ↔ realTable b v = 0) := by
      intro v hr
      simp only [realTable, timesFactors, Rat.cast_eq_zero, mul_eq_zero, (hprod v hr).ne', or_false]
    exact ⟨fun h v hr h0 => h v hr ((this v hr).mp h0), fun h v hr h0 => h v hr ((this v hr).mpr h0)⟩
  have hb' : ∀ v, InRange s v → 0 ≤ timesFactors F b v := fun v hr => mul_nonneg (hb v hr) (hprod v hr).le
  obtain ⟨c, x, h1, h2, h3, h4, h5, h6⟩ := C70_limit h hlt hp hb ht hm hv
  obtain ⟨c', x', h1', h2', h3', h4', h5', h6'⟩ := C70_limit h' hlt' hp' hb' ht ((hQ t ht).mp hm) ((van t).mp hv)
  refine ⟨c, c', x, h1, h1', fun v hv => ⟨h2 v hv, ?_⟩⟩
  have g4 := (hQ x' h3').mpr h4'
  have g5 := (van x').mpr h5'
  have k1 := h6 x' h3' g4 g5
  have k2 := h6' x h3 ((hQ x h3).mp h4) ((van x).mp h5)
  have k3 := entropy_factors hd hF h4 g4 h5 g5
  have e : relEntropy s x' (realTable b) = relEntropy s x (realTable b) := by linarith [k1.1, k2.1]
  rw [← k1.2 e v hv]
  exact h2' v hv

/-- **C98**, the seed: only what the marginals do not determine matters. -/
theorem C98_seed (h : RatOK s Q pop) (hlt : pop < 2 ^ 62) (hp : ProperProb s Q) {b : List Int → ℚ}
    (hb : ∀ v, InRange s v → 0 ≤ b v) {F : Prob ℚ}
    (hF : ∀ f ∈ F, (∃ q ∈ Q, q.1 = f.1) ∧ ∀ j, InRange (projSizes f.1 s) j → 0 < f.2 j)
    {t : List Int → ℝ} (ht : NonnegTable s t) (hm : MeetsMarginals s Q t) (hv : VanishesWith s t (realTable b)) :
    ∃ (c c' : Nat → List Int → ℚ) (x : List Int → ℝ),
      (∀ k, ∃ r, ipfCalls s Q b k = .ok r ∧ r.micro.array = finArr s (c k)) ∧
      (∀ k, ∃ r, ipfCalls s Q (timesFactors F b) k = .ok r ∧ r.micro.array = finArr s (c' k)) ∧
      ∀ v, InRange s v → Tendsto (fun k => (c k v : ℝ)) atTop (𝓝 (x v)) ∧ Tendsto (fun k => (c' k v : ℝ)) atTop (𝓝 (x v)) :=
  C98_same_limit h hlt hp h hlt hp (fun _ _ => Iff.rfl) hb hF ht hm hv

/-- the sums of sums -/
theorem marginalSum_again {s ds ks : List Nat} (hd : ∀ d ∈ ds, d < s.length) (hk : ∀ k ∈ ks, k < ds.length) (t : List Int → ℝ)
    (j : List Int) : marginalSum s (ks.map (fun k => ds.getD k 0)) t j = marginalSum (projSizes ds s) ks (marginalSum s ds t) j := by
  have hpp : ∀ v : List Int, proj (ks.map (fun k => ds.getD k 0)) v = proj ks (proj ds v) := by
    intro v
    unfold proj
    rw [List.map_map]
    apply List.map_congr_left
    intro k hk'
    have := hk k hk'
    simp [List.getD_eq_getElem?_getD, this]
  unfold marginalSum
  rw [Finset.sum_sigma']
  refine Finset.sum_bij' (fun v _ => ⟨proj ds v, v⟩) (fun x _ => x.2) ?_ ?_ ?_ ?_ ?_
  · intro v hv
    obtain ⟨h1, h2⟩ := Finset.mem_filter.mp hv
    rw [hpp] at h2
    exact Finset.mem_sigma.mpr ⟨Finset.mem_filter.mpr ⟨mem_cells.mpr (inRange_proj hd (mem_cells.mp h1)), h2⟩,
      Finset.mem_filter.mpr ⟨h1, rfl⟩⟩
  · rintro ⟨i, v⟩ hx
    obtain ⟨h1, h2⟩ := Finset.mem_sigma.mp hx
    obtain ⟨h3, h4⟩ := Finset.mem_filter.mp h2
    obtain ⟨h5, h6⟩ := Finset.mem_filter.mp h1
    refine Finset.mem_filter.mpr ⟨h3, ?_⟩
    rw [hpp]
    dsimp only at h4 h6
    rw [h4]
    exact h6
  · intro v _; rfl
  · rintro ⟨i, v⟩ hx
    obtain ⟨h1, h2⟩ := Finset.mem_sigma.mp hx
    have := (Finset.mem_filter.mp h2).2
    dsimp only at this ⊢
    rw [this]
  · intro v _; rfl

/-- **C98**, the marginals: giving a marginal that only repeats sums of one of the others (some of its dimensions, in any order)
makes no difference. -/
theorem C98_redundant (h : RatOK s Q pop) (hlt : pop < 2 ^ 62) (hp : ProperProb s Q) {q : List Nat × (List Int → ℚ)} (hq : q ∈ Q)
    {ks : List Nat} (hks : ∀ k ∈ ks, k < q.1.length) {m : List Int → ℚ}
    (hmm : ∀ j, InRange (projSizes (ks.map (fun k => q.1.getD k 0)) s) j → m j = marginalSum (projSizes q.1 s) ks q.2 j)
    (h' : RatOK s ((ks.map (fun k => q.1.getD k 0), m) :: Q) pop)
    (hp' : ProperProb s ((ks.map (fun k => q.1.getD k 0), m) :: Q)) {b : List Int → ℚ} (hb : ∀ v, InRange s v → 0 ≤ b v)
    {t : List Int → ℝ} (ht : NonnegTable s t) (hm : MeetsMarginals s Q t) (hv : VanishesWith s t (realTable b)) :
    ∃ (c c' : Nat → List Int → ℚ) (x : List Int → ℝ),
      (∀ k, ∃ r, ipfCalls s Q b k = .ok r ∧ r.micro.array = finArr s (c k)) ∧
      (∀ k, ∃ r, ipfCalls s ((ks.map (fun k => q.1.getD k 0), m) :: Q) b k = .ok r ∧ r.micro.array = finArr s (c' k)) ∧
      ∀ v, InRange s v → Tendsto (fun k => (c k v : ℝ)) atTop (𝓝 (x v)) ∧ Tendsto (fun k => (c' k v : ℝ)) atTop (𝓝 (x v)) := by
  have e : timesFactors [] b = b := by funext v; simp [timesFactors]
  have key := C98_same_limit h hlt hp h' hlt hp' (fun t _ => ?_) hb (F := []) (by simp) ht hm hv
  · rwa [e] at key
  · constructor
    · intro hm q' hq'
      rcases List.mem_cons.mp hq' with rfl | hq'
      · intro j hj
        rw [marginalSum_again (h.dims q hq).2 hks]
        show marginalSum (projSizes q.1 s) ks (marginalSum s q.1 t) j = (m j : ℝ)
        rw [hmm j hj]
        unfold marginalSum
        push_cast
        apply Finset.sum_congr rfl
        intro i hi
        exact hm q hq i (mem_cells.mp (Finset.mem_filter.mp hi).1)
      · exact hm q' hq'
    · exact fun hm q' hq' => hm q' (List.mem_cons_of_mem _ hq')

/-- eight people, one for each combination of the first two attributes twice, and half of them in each category of the third -/
def exR : Prob ℚ := [([0, 1], fun _ => 2), ([2], fun _ => 4)]

/-- the same and the sums of the second attribute -/
def exR' : Prob ℚ := ([1], fun _ => 4) :: exR

theorem exR'_ok : RatOK [2, 2, 2] exR' 8 where
  lists := by decide
  two := by decide
  pos := by decide
  dims := by simp [exR', exR]
  cover := by
    intro d hd
    simp only [List.length_cons, List.length_nil] at hd
    interval_cases d <;> simp [exR', exR]
  nonneg := by
    intro p hp j _
    simp only [exR', exR, List.mem_cons, List.not_mem_nil, or_false] at hp
    rcases hp with rfl | rfl | rfl <;> norm_num
  total := by
    have : ∀ p ∈ exR', ∑ j ∈ cells (projSizes p.1 [2, 2, 2]), p.2 j = 8 := by decide +kernel
    exact_mod_cast this
  partials := by
    have key : ∀ p ∈ exR', ∀ a < 2, ∀ d, p.1[a]? = some d → ∀ x < 2,
        marginalSum (projSizes p.1 [2, 2, 2]) [a] p.2 [((x : Nat) : Int)] = 4 := by
      intro p hp a ha d hd x hx
      have : ∀ p ∈ exR', ∀ a < 2, (p.1[a]?).isSome → ∀ x < 2,
          marginalSum (projSizes p.1 [2, 2, 2]) [a] p.2 [((x : Nat) : Int)] = 4 := by decide +kernel
      exact this p hp a ha (by rw [hd]; rfl) x hx
    have len : ∀ p ∈ exR', p.1.length ≤ 2 := by decide
    have sz : ∀ d, ([2, 2, 2] : List Nat).getD d 0 ≤ 2 := by
      intro d
      match d with
      | 0 | 1 | 2 => decide
      | n + 3 => simp
    intro p hp q hq a b d ha hb x hx
    have h1 : a < 2 := lt_of_lt_of_le (List.getElem?_eq_some_iff.mp ha).1 (len p hp)
    have h2 : b < 2 := lt_of_lt_of_le (List.getElem?_eq_some_iff.mp hb).1 (len q hq)
    have h3 := lt_of_lt_of_le hx (sz d)
    rw [key p hp a h1 d ha x h3, key q hq b h2 d hb x h3]

theorem exR_ok : RatOK [2, 2, 2] exR 8 where
  lists := by decide
  two := by decide
  pos := by decide
  dims := by simp [exR]
  cover := by
    intro d hd
    simp only [List.length_cons, List.length_nil] at hd
    interval_cases d <;> simp [exR]
  nonneg := fun p hp => exR'_ok.nonneg p (List.mem_cons_of_mem _ hp)
  total := fun p hp => exR'_ok.total p (List.mem_cons_of_mem _ hp)
  partials := fun p hp q hq => exR'_ok.partials p (List.mem_cons_of_mem _ hp) q (List.mem_cons_of_mem _ hq)

theorem exR'_proper : ProperProb [2, 2, 2] exR' := by
  intro p hp
  simp only [exR', exR, List.mem_cons, List.not_mem_nil, or_false] at hp
  rcases hp with rfl | rfl | rfl <;> (constructor <;> decide)

/-- The hypotheses of C98 are met: the example problem with and without a marginal that repeats sums of another, a seed with a
zero, factors for it that vary, and a table that meets the marginals. -/
example : RatOK [2, 2, 2] exR 8 ∧ ProperProb [2, 2, 2] exR ∧ RatOK [2, 2, 2] exR' 8 ∧ ProperProb [2, 2, 2] exR' ∧
    exR' = (([1].map (fun k => ([0, 1] : List Nat).getD k 0), fun _ => 4) :: exR) ∧
    (∀ j, InRange (projSizes [1] [2, 2, 2]) j → (4 : ℚ) = marginalSum (projSizes [0, 1] [2, 2, 2]) [1] (fun _ => 2) j) ∧
    (∀ f ∈ ([([0, 1], fun j => j.getD 0 0 + 2 * j.getD 1 0 + 1)] : Prob ℚ),
      (∃ q ∈ exR, q.1 = f.1) ∧ ∀ j, InRange (projSizes f.1 [2, 2, 2]) j → 0 < f.2 j) ∧
    ∃ (b : List Int → ℚ) (t : List Int → ℝ), b [0, 0, 0] = 0 ∧ NonnegTable [2, 2, 2] t ∧
      MeetsMarginals [2, 2, 2] exR t ∧ VanishesWith [2, 2, 2] t (realTable b) := by
  refine ⟨exR_ok, fun p hp => exR'_proper p (List.mem_cons_of_mem _ hp), exR'_ok, exR'_proper, rfl, ?_, ?_, ?_⟩
  · have : ∀ j ∈ cells (projSizes [1] [2, 2, 2]), (4 : ℚ) = marginalSum (projSizes [0, 1] [2, 2, 2]) [1] (fun _ => 2) j := by
      decide +kernel
    exact fun j hj => this j (mem_cells.mpr hj)
  · intro f hf
    rw [List.mem_singleton] at hf
    subst hf
    refine ⟨⟨_, List.mem_cons_self, rfl⟩, ?_⟩
    have : ∀ j ∈ cells (projSizes [0, 1] [2, 2, 2]), (0 : ℚ) < j.getD 0 0 + 2 * j.getD 1 0 + 1 := by decide +kernel
    exact fun j hj => this j (mem_cells.mpr hj)
  · refine ⟨fun v => if v = [0, 0, 0] then 0 else 1, realTable (fun v => if v.getD 0 0 + v.getD 1 0 = 1 then 1 else
      if v.getD 0 0 = v.getD 2 0 then 0 else 2), rfl, ?_, ?_, ?_⟩
    · intro v _
      apply Rat.cast_nonneg.mpr
      dsimp only
      split_ifs <;> norm_num
    · intro q hq j hj
      rw [margin_cast, Rat.cast_inj]
      have : ∀ q ∈ exR, ∀ j ∈ cells (projSizes q.1 [2, 2, 2]), marginalSum [2, 2, 2] q.1
          (fun v => if v.getD 0 0 + v.getD 1 0 = 1 then (1 : ℚ) else if v.getD 0 0 = v.getD 2 0 then 0 else 2) j = q.2 j := by
        decide +kernel
      exact this q hq j (mem_cells.mpr hj)
    · intro v _ h
      have h0 := Rat.cast_eq_zero.mp h
      dsimp only at h0
      by_cases hv : v = [0, 0, 0]
      · subst hv
        apply Rat.cast_eq_zero.mpr
        rfl
      · rw [if_neg hv] at h0
        norm_num at h0

end HL

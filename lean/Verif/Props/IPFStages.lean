import Verif.Props.IPFSame
import Verif.Props.IPFAccuracy

/-
C140: a table fitted to some of the marginals, or to earlier values of them, is as good a seed as the one it was fitted from.
-/

namespace HL
open Ent Rate Micro Filter Topology

/-- what some dimensions are is determined by more dimensions -/
theorem proj_of_subset {ds es : List Nat} (h : ∀ d ∈ ds, d ∈ es) {v w : List Int} (he : proj es w = proj es v) : proj ds w = proj ds v := by
  unfold proj at he ⊢
  exact List.map_congr_left fun d hd => List.map_inj_left.mp he d (h d hd)

/-- a factor on some of the dimensions of `es` as a factor on `es` -/
theorem proj_idxOf {ds es : List Nat} (h : ∀ d ∈ ds, d ∈ es) (v : List Int) : proj (ds.map fun d => es.idxOf d) (proj es v) = proj ds v := by
  unfold proj
  rw [List.map_map]
  refine List.map_congr_left fun d hd => ?_
  have hi := List.idxOf_lt_length_iff.mpr (h d hd)
  simp only [Function.comp]
  rw [List.getD_eq_getElem?_getD, List.getElem?_map, List.getElem?_eq_getElem hi, List.getElem_idxOf hi]
  simp

/-- one scaling multiplies by positive factors, if no entry of the marginal is zero -/
theorem qscaled_factors {s : List Nat} {q : List Nat × (List Int → ℚ)}
    (hq : ∀ j, InRange (projSizes q.1 s) j → 0 < q.2 j) {b : List Int → ℚ} (hb : ∀ v, InRange s v → 0 ≤ b v) :
    ∃ g : List Int → ℚ, (∀ j, InRange (projSizes q.1 s) j → 0 < g j) ∧ ∀ v, InRange s v → qscaled s q.1 q.2 b v = b v * g (proj q.1 v) := by
  refine ⟨fun j => if marginalSum s q.1 b j = 0 then 1 else q.2 j / marginalSum s q.1 b j, fun j hj => ?_, fun v hv => ?_⟩
  · dsimp only
    split
    · exact one_pos
    · rename_i h0
      exact div_pos (hq j hj) (lt_of_le_of_ne (marginalSum_nonneg hb j) (Ne.symm h0))
  · unfold qscaled
    dsimp only
    split
    · rename_i h0
      have : b v ≤ marginalSum s q.1 b (proj q.1 v) := by
        unfold marginalSum
        exact Finset.single_le_sum (f := b) (fun w hw => hb w (mem_cells.mp (Finset.mem_filter.mp hw).1))
          (Finset.mem_filter.mpr ⟨mem_cells.mpr hv, rfl⟩)
      have h1 := hb v hv
      have : b v = 0 := le_antisymm (by rwa [h0] at this) h1
      rw [this]; ring
    · rfl

/-- any number of scalings -/
theorem sweeps_factors {s : List Nat} {Q : Prob ℚ} (hd : ∀ q ∈ Q, ∀ d ∈ q.1, d < s.length)
    (hq : ∀ q ∈ Q, ∀ j, InRange (projSizes q.1 s) j → 0 < q.2 j) {b : List Int → ℚ} (hb : ∀ v, InRange s v → 0 ≤ b v) (n : Nat) :
    ∃ F : Prob ℚ, (∀ f ∈ F, (∃ q ∈ Q, q.1 = f.1) ∧ ∀ j, InRange (projSizes f.1 s) j → 0 < f.2 j) ∧
      ∀ v, InRange s v → (qsweep s Q)^[n] b v = timesFactors F b v := by
  have one : ∀ (L : Prob ℚ), (∀ q ∈ L, q ∈ Q) → ∀ b : List Int → ℚ, (∀ v, InRange s v → 0 ≤ b v) →
      ∃ F : Prob ℚ, (∀ f ∈ F, (∃ q ∈ Q, q.1 = f.1) ∧ ∀ j, InRange (projSizes f.1 s) j → 0 < f.2 j) ∧
        ∀ v, InRange s v → qsweep s L b v = timesFactors F b v := by
    intro L
    induction L with
    | nil => intro _ b _; exact ⟨[], by simp, fun v _ => by simp [qsweep, timesFactors]⟩
    | cons q L ih =>
      intro hL b hb
      have hqQ := hL q (by simp)
      obtain ⟨g, h1, h2⟩ := qscaled_factors (hq q hqQ) hb
      obtain ⟨F, h3, h4⟩ := ih (fun q' h => hL q' (by simp [h])) _ (qscaled_nonneg (hd q hqQ) (fun j hj => (hq q hqQ j hj).le) hb)
      refine ⟨(q.1, g) :: F, ?_, fun v hv => ?_⟩
      · intro f hf
        rcases List.mem_cons.mp hf with rfl | hf
        · exact ⟨⟨q, hqQ, rfl⟩, h1⟩
        · exact h3 f hf
      · show qsweep s L (qscaled s q.1 q.2 b) v = _
        rw [h4 v hv]
        unfold timesFactors
        rw [h2 v hv, List.map_cons, List.prod_cons, mul_assoc]
  induction n with
  | zero => exact ⟨[], by simp, fun v _ => by simp [timesFactors]⟩
  | succ n ih =>
    obtain ⟨F, h1, h2⟩ := ih
    have hn : ∀ v, InRange s v → 0 ≤ (qsweep s Q)^[n] b v := by
      intro v hv
      rw [h2 v hv]
      unfold timesFactors
      refine mul_nonneg (hb v hv) (List.prod_nonneg fun x hx => ?_)
      obtain ⟨f, hf, rfl⟩ := List.mem_map.mp hx
      obtain ⟨⟨q, hq', he⟩, hp⟩ := h1 f hf
      exact (hp _ (inRange_proj (he ▸ hd q hq') hv)).le
    obtain ⟨G, h3, h4⟩ := one Q (fun _ h => h) _ hn
    refine ⟨F ++ G, fun f hf => (List.mem_append.mp hf).elim (h1 f) (h3 f), fun v hv => ?_⟩
    rw [Function.iterate_succ_apply', h4 v hv]
    unfold timesFactors
    rw [h2 v hv]
    unfold timesFactors
    rw [List.map_append, List.prod_append, mul_assoc]

variable {s : List Nat} {Q Q₀ : Prob ℚ} {pop pop₀ : Int}

/-- factors on the dimensions of the marginals `Q₀` as factors on those of the marginals `Q` -/
theorem lift_factors (hdQ : ∀ q ∈ Q, ∀ d ∈ q.1, d < s.length) (hsub : ∀ q₀ ∈ Q₀, ∃ q ∈ Q, ∀ d ∈ q₀.1, d ∈ q.1) :
    ∀ L : Prob ℚ, (∀ f ∈ L, (∃ q ∈ Q₀, q.1 = f.1) ∧ ∀ j, InRange (projSizes f.1 s) j → 0 < f.2 j) →
      ∃ G : Prob ℚ, (∀ f ∈ G, (∃ q ∈ Q, q.1 = f.1) ∧ ∀ j, InRange (projSizes f.1 s) j → 0 < f.2 j) ∧
        ∀ v, InRange s v → (G.map (fun f => f.2 (proj f.1 v))).prod = (L.map (fun f => f.2 (proj f.1 v))).prod := by
  intro L
  induction L with
  | nil => intro _; exact ⟨[], by simp, fun v _ => rfl⟩
  | cons f L ih =>
    intro hL
    obtain ⟨G, g1, g2⟩ := ih fun f hf => hL f (List.mem_cons_of_mem _ hf)
    obtain ⟨⟨q₀, hq₀, e₀⟩, hfp⟩ := hL f (by simp)
    obtain ⟨q, hq, hs⟩ := hsub q₀ hq₀
    rw [e₀] at hs
    have hfd : ∀ d ∈ f.1, d < s.length := fun d hd => hdQ q hq d (hs d hd)
    refine ⟨(q.1, fun j => f.2 (proj (f.1.map fun d => q.1.idxOf d) j)) :: G, ?_, fun v hv => ?_⟩
    · intro g hg
      rcases List.mem_cons.mp hg with rfl | hg
      · refine ⟨⟨q, hq, rfl⟩, fun j hj => hfp _ ?_⟩
        have e1 : projSizes f.1 s = projSizes (f.1.map fun d => q.1.idxOf d) (projSizes q.1 s) := by
          unfold projSizes
          rw [List.map_map]
          refine (List.map_congr_left fun d hd => ?_)
          have hi := List.idxOf_lt_length_iff.mpr (hs d hd)
          simp only [Function.comp]
          rw [List.getD_eq_getElem?_getD, List.getD_eq_getElem?_getD, List.getElem?_map, List.getElem?_eq_getElem hi, List.getElem_idxOf hi]
          simp [List.getD_eq_getElem?_getD]
        rw [e1]
        refine inRange_proj (fun d hd => ?_) hj
        obtain ⟨d', hd', rfl⟩ := List.mem_map.mp hd
        have hi := List.idxOf_lt_length_iff.mpr (hs d' hd')
        simpa [projSizes] using hi
      · exact g1 g hg
    · rw [List.map_cons, List.prod_cons, List.map_cons, List.prod_cons, g2 v hv]
      dsimp only
      rw [proj_idxOf hs]

/-- what a stage leaves: the seed times factors of the marginals of the next stage -/
theorem stage_factors (h₀ : RatOK s Q₀ pop₀) (hlt₀ : pop₀ < 2 ^ 62) (hp₀ : ProperProb s Q₀)
    (hpos : ∀ q ∈ Q₀, ∀ j, InRange (projSizes q.1 s) j → 0 < q.2 j) (h : RatOK s Q pop)
    (hsub : ∀ q₀ ∈ Q₀, ∃ q ∈ Q, ∀ d ∈ q₀.1, d ∈ q.1) {b : List Int → ℚ} (hb : ∀ v, InRange s v → 0 ≤ b v) {k : Nat} {r₀ : IPF Fl}
    (hr₀ : ipfCalls s Q₀ b k = .ok r₀) {c₀ : List Int → ℚ} (hc₀ : r₀.micro.array = finArr s c₀) :
    ∃ F : Prob ℚ, (∀ f ∈ F, (∃ q ∈ Q, q.1 = f.1) ∧ ∀ j, InRange (projSizes f.1 s) j → 0 < f.2 j) ∧
      ∀ v, InRange s v → c₀ v = timesFactors F b v := by
  obtain ⟨r, n, m, h1, h2, -⟩ := ipfCalls_eq h₀ hlt₀ hp₀ b k
  have e : r = r₀ := by rw [h1] at hr₀; exact Out.ok.inj hr₀
  subst e
  rw [hc₀] at h2
  obtain ⟨F, h3, h4⟩ := sweeps_factors (fun q hq => (h₀.dims q hq).2) hpos hb n
  have hdQ : ∀ q ∈ Q, ∀ d ∈ q.1, d < s.length := fun q hq => (h.dims q hq).2
  have lift := lift_factors (Q₀ := Q₀) hdQ hsub
  obtain ⟨G, g1, g2⟩ := lift F h3
  refine ⟨G, g1, fun v hv => ?_⟩
  have e : c₀ v = (qsweep s Q₀)^[n] b v := by
    have := arr_inj h2 v hv
    exact Fl.fin.inj this
  rw [e, h4 v hv]
  unfold timesFactors
  rw [g2 v hv]

/-- factors do not change which cells are zero -/
theorem timesFactors_zero {F : Prob ℚ} (hd : ∀ q ∈ Q, ∀ d ∈ q.1, d < s.length)
    (hF : ∀ f ∈ F, (∃ q ∈ Q, q.1 = f.1) ∧ ∀ j, InRange (projSizes f.1 s) j → 0 < f.2 j) {v : List Int} (hv : InRange s v) :
    0 < (F.map (fun f => f.2 (proj f.1 v))).prod := by
  refine List.prod_pos fun x hx => ?_
  obtain ⟨f, hf, rfl⟩ := List.mem_map.mp hx
  obtain ⟨⟨q, hq, he⟩, hp⟩ := hF f hf
  exact hp _ (inRange_proj (he ▸ hd q hq) hv)

/-- positive factors on the dimensions of the marginals do not change which table is the closest -/
theorem closest_of_times (hd : ∀ q ∈ Q, ∀ d ∈ q.1, d < s.length) {F : Prob ℚ}
    (h1 : ∀ f ∈ F, (∃ q ∈ Q, q.1 = f.1) ∧ ∀ j, InRange (projSizes f.1 s) j → 0 < f.2 j) {b c₀ : List Int → ℚ}
    (h2 : ∀ v, InRange s v → c₀ v = timesFactors F b v) (x : List Int → ℝ) : IsClosest s Q c₀ x ↔ IsClosest s Q b x := by
  have zero : ∀ v, InRange s v → (realTable c₀ v = 0 ↔ realTable b v = 0) := by
    intro v hv
    unfold realTable
    rw [Rat.cast_eq_zero, Rat.cast_eq_zero, h2 v hv]
    unfold timesFactors
    constructor
    · intro h0
      exact (mul_eq_zero.mp h0).resolve_right (timesFactors_zero hd h1 hv).ne'
    · intro h0; rw [h0, zero_mul]
  have van : ∀ t : List Int → ℝ, VanishesWith s t (realTable c₀) ↔ VanishesWith s t (realTable b) := fun t =>
    ⟨fun g v hv h0 => g v hv ((zero v hv).mpr h0), fun g v hv h0 => g v hv ((zero v hv).mp h0)⟩
  have ent : ∀ t, relEntropy s t (realTable c₀) = relEntropy s t (realTable (timesFactors F b)) := by
    intro t
    unfold relEntropy realTable
    exact Finset.sum_congr rfl fun v hv => by rw [h2 v (mem_cells.mp hv)]
  constructor
  · rintro ⟨g1, g2, g3, g4⟩
    refine ⟨g1, g2, (van x).mp g3, fun t k1 k2 k3 => ?_⟩
    have := g4 t k1 k2 ((van t).mpr k3)
    rw [ent, ent] at this
    have := entropy_factors hd h1 g2 k2 ((van x).mp g3) k3
    linarith
  · rintro ⟨g1, g2, g3, g4⟩
    refine ⟨g1, g2, (van x).mpr g3, fun t k1 k2 k3 => ?_⟩
    have := g4 t k1 k2 ((van t).mp k3)
    rw [ent, ent]
    have := entropy_factors hd h1 g2 k2 g3 ((van t).mp k3)
    linarith

/-- nor the cross-product ratios -/
theorem odds_of_times (hdq : ∀ q ∈ Q, ∀ d ∈ q.1, d < s.length) {F : Prob ℚ}
    (h1 : ∀ f ∈ F, (∃ q ∈ Q, q.1 = f.1) ∧ ∀ j, InRange (projSizes f.1 s) j → 0 < f.2 j) {b c₀ : List Int → ℚ}
    (h2 : ∀ v, InRange s v → c₀ v = timesFactors F b v) {ρ : ℚ}
    (hR : ∀ k (hk : k < Q.length), OddsAtMost (ρ ^ 2) s Q[k].1 (restDims Q k) b) :
    ∀ k (hk : k < Q.length), OddsAtMost (ρ ^ 2) s Q[k].1 (restDims Q k) c₀ := by
  intro k hk v v' w w' hv hv' hw hw' e1 e2 e3 e4
  have key := hR k hk v v' w w' hv hv' hw hw' e1 e2 e3 e4
  have hprod : ∀ L : Prob ℚ, (∀ f ∈ L, (∃ q ∈ Q, q.1 = f.1) ∧ ∀ j, InRange (projSizes f.1 s) j → 0 < f.2 j) →
      (L.map (fun f => f.2 (proj f.1 v))).prod * (L.map (fun f => f.2 (proj f.1 v'))).prod =
      (L.map (fun f => f.2 (proj f.1 w))).prod * (L.map (fun f => f.2 (proj f.1 w'))).prod := by
    intro L
    induction L with
    | nil => intro _; rfl
    | cons f L ih =>
      intro hL
      have ih := ih fun f hf => hL f (List.mem_cons_of_mem _ hf)
      obtain ⟨⟨q, hq, he⟩, -⟩ := hL f (by simp)
      have hf : f.2 (proj f.1 v) * f.2 (proj f.1 v') = f.2 (proj f.1 w) * f.2 (proj f.1 w') := by
        obtain ⟨i, hi, hqi⟩ := List.mem_iff_getElem.mp hq
        by_cases hik : i = k
        · subst hik
          rw [← he, ← hqi, e1, e3]
        · have hmem : ∀ d ∈ f.1, d ∈ restDims Q k := by
            intro d hd
            unfold restDims
            refine List.mem_flatten.mpr ⟨f.1, List.mem_map.mpr ⟨q, ?_, he⟩, hd⟩
            exact List.mem_eraseIdx_iff_getElem.mpr ⟨i, hi, hik, hqi⟩
          rw [proj_of_subset hmem e2, proj_of_subset hmem e4, mul_comm]
      simp only [List.map_cons, List.prod_cons]
      calc _ = (f.2 (proj f.1 v) * f.2 (proj f.1 v')) * ((L.map (fun f => f.2 (proj f.1 v))).prod * (L.map (fun f => f.2 (proj f.1 v'))).prod) := by
            ring
        _ = _ := by rw [hf, ih]; ring
  rw [h2 v hv, h2 v' hv', h2 w hw, h2 w' hw']
  unfold timesFactors
  have hp := mul_pos (timesFactors_zero hdq h1 hv) (timesFactors_zero hdq h1 hv')
  have hpr := hprod F h1
  calc _ = (b v * b v') * ((F.map (fun f => f.2 (proj f.1 v))).prod * (F.map (fun f => f.2 (proj f.1 v'))).prod) := by ring
    _ ≤ (ρ ^ 2 * (b w * b w')) * ((F.map (fun f => f.2 (proj f.1 v))).prod * (F.map (fun f => f.2 (proj f.1 v'))).prod) :=
        mul_le_mul_of_nonneg_right key hp.le
    _ = _ := by rw [hpr]; ring

/-- **C140** for the closest tables: first fit the marginals `Q₀` (all entries positive) from the seed `b` by any number of calls of `ipf` in
exact arithmetic, converged or not, and take the result as the seed for the marginals `Q`, which cover the dimensions of each marginal of `Q₀`
by those of one marginal.  The tables for `Q` closest to this seed are those closest to `b`. -/
theorem C140_closest (h₀ : RatOK s Q₀ pop₀) (hlt₀ : pop₀ < 2 ^ 62) (hp₀ : ProperProb s Q₀)
    (hpos : ∀ q ∈ Q₀, ∀ j, InRange (projSizes q.1 s) j → 0 < q.2 j) (h : RatOK s Q pop)
    (hsub : ∀ q₀ ∈ Q₀, ∃ q ∈ Q, ∀ d ∈ q₀.1, d ∈ q.1) {b : List Int → ℚ} (hb : ∀ v, InRange s v → 0 ≤ b v) {k : Nat} {r₀ : IPF Fl}
    (hr₀ : ipfCalls s Q₀ b k = .ok r₀) {c₀ : List Int → ℚ} (hc₀ : r₀.micro.array = finArr s c₀) (x : List Int → ℝ) :
    IsClosest s Q c₀ x ↔ IsClosest s Q b x := by
  obtain ⟨F, h1, h2⟩ := stage_factors h₀ hlt₀ hp₀ hpos h hsub hb hr₀ hc₀
  exact closest_of_times (fun q hq => (h.dims q hq).2) h1 h2 x

/-- **C140** for repeated calls of `ipf` in exact arithmetic: with the result of the first stage as the seed, and with the original seed, the
tables for `Q` tend to the same limit, whenever some table meets the marginals of `Q` and vanishes where the original seed does. -/
theorem C140_limit (h₀ : RatOK s Q₀ pop₀) (hlt₀ : pop₀ < 2 ^ 62) (hp₀ : ProperProb s Q₀)
    (hpos : ∀ q ∈ Q₀, ∀ j, InRange (projSizes q.1 s) j → 0 < q.2 j) (h : RatOK s Q pop) (hlt : pop < 2 ^ 62) (hp : ProperProb s Q)
    (hsub : ∀ q₀ ∈ Q₀, ∃ q ∈ Q, ∀ d ∈ q₀.1, d ∈ q.1) {b : List Int → ℚ} (hb : ∀ v, InRange s v → 0 ≤ b v) {k : Nat} {r₀ : IPF Fl}
    (hr₀ : ipfCalls s Q₀ b k = .ok r₀) {c₀ : List Int → ℚ} (hc₀ : r₀.micro.array = finArr s c₀)
    {t : List Int → ℝ} (ht : NonnegTable s t) (hm : MeetsMarginals s Q t) (hv : VanishesWith s t (realTable b)) :
    ∃ (c c' : Nat → List Int → ℚ) (x : List Int → ℝ),
      (∀ k, ∃ r, ipfCalls s Q b k = .ok r ∧ r.micro.array = finArr s (c k)) ∧
      (∀ k, ∃ r, ipfCalls s Q c₀ k = .ok r ∧ r.micro.array = finArr s (c' k)) ∧
      ∀ v, InRange s v → Tendsto (fun k => (c k v : ℝ)) atTop (𝓝 (x v)) ∧ Tendsto (fun k => (c' k v : ℝ)) atTop (𝓝 (x v)) := by
  obtain ⟨F, h1, h2⟩ := stage_factors h₀ hlt₀ hp₀ hpos h hsub hb hr₀ hc₀
  have e : ∀ k, ipfCalls s Q (timesFactors F b) k = ipfCalls s Q c₀ k := by
    intro k
    induction k with
    | zero =>
      show ipfExact _ _ _ = ipfExact _ _ _
      unfold ipfExact
      rw [arr_congr (fun v hv => by rw [← h2 v hv])]
    | succ k ih =>
      show (ipfCalls s Q (timesFactors F b) k >>= fun r => _) = (ipfCalls s Q c₀ k >>= fun r => _)
      rw [ih]
  obtain ⟨c, c', x, g1, g2, g3⟩ := C98_seed h hlt hp hb h1 ht hm hv
  exact ⟨c, c', x, g1, fun k => by rw [← e]; exact g2 k, g3⟩

/-- **C140** for a single call of `ipf` in exact arithmetic, the marginals of `Q` without common dimensions and the original seed under the
conditions of C136: with reported deviations `e` and `e'` of at most `m / 2`, the tables fitted from the two seeds are the same up to the factor
`exp ((2 K / (1 - lam) + 1) (2 e / m + 2 e' / m))` in every cell. -/
theorem C140_exact (h₀ : RatOK s Q₀ pop₀) (hlt₀ : pop₀ < 2 ^ 62) (hp₀ : ProperProb s Q₀)
    (hpos : ∀ q ∈ Q₀, ∀ j, InRange (projSizes q.1 s) j → 0 < q.2 j) (h : RatOK s Q pop) (hpop : 0 < pop)
    (hd : (Q.map Prod.fst).flatten.Nodup) (hsub : ∀ q₀ ∈ Q₀, ∃ q ∈ Q, ∀ d ∈ q₀.1, d ∈ q.1) {b : List Int → ℚ}
    (hb : ∀ v, InRange s v → 0 < b v) {k : Nat} {r₀ : IPF Fl} (hr₀ : ipfCalls s Q₀ b k = .ok r₀) {c₀ : List Int → ℚ}
    (hc₀ : r₀.micro.array = finArr s c₀) {m : ℚ} (hm0 : 0 < m) (hm : ∀ q ∈ Q, ∀ j, InRange (projSizes q.1 s) j → m ≤ q.2 j) {ρ : ℚ}
    (hρ : 1 ≤ ρ) (hR : ∀ k (hk : k < Q.length), OddsAtMost (ρ ^ 2) s Q[k].1 (restDims Q k) b) {lam : ℚ}
    (hlam : lam = ((Q.length - 1 : Nat) : ℚ) * ((ρ - 1) / (ρ + 1))) (hlam1 : lam < 1) {r r' : IPF Fl} (hr : ipfExact s Q b = .ok r)
    (hr' : ipfExact s Q c₀ = .ok r') :
    ∃ (c c' : List Int → ℚ) (e e' : ℚ), r.micro.array = finArr s c ∧ r.maxError = .fin e ∧ r'.micro.array = finArr s c' ∧
      r'.maxError = .fin e' ∧ (2 * e ≤ m → 2 * e' ≤ m → ∀ v, InRange s v →
        (c v : ℝ) ≤ Real.exp ((2 * Q.length / (1 - lam) + 1) * (2 * (e / m) + 2 * (e' / m))) * c' v ∧
        (c' v : ℝ) ≤ Real.exp ((2 * Q.length / (1 - lam) + 1) * (2 * (e / m) + 2 * (e' / m))) * c v) := by
  have hb0 : ∀ v, InRange s v → 0 ≤ b v := fun v hv => (hb v hv).le
  obtain ⟨F, h1, h2⟩ := stage_factors h₀ hlt₀ hp₀ hpos h hsub hb0 hr₀ hc₀
  have hdq : ∀ q ∈ Q, ∀ d ∈ q.1, d < s.length := fun q hq => (h.dims q hq).2
  have hc0 : ∀ v, InRange s v → 0 < c₀ v := by
    intro v hv
    rw [h2 v hv]
    exact mul_pos (hb v hv) (timesFactors_zero hdq h1 hv)
  have hR' := odds_of_times hdq h1 h2 hR
  obtain ⟨x, hx, -⟩ := C136_exists h hd hpop hb
  have hx' := (C140_closest h₀ hlt₀ hp₀ hpos h hsub hb0 hr₀ hc₀ x).mpr hx
  obtain ⟨c, e, k1, k2, k3⟩ := C136_exact h hd hm0 hm hb hρ hR hlam hlam1 hx hr
  obtain ⟨c', e', k1', k2', k3'⟩ := C136_exact h hd hm0 hm hc0 hρ hR' hlam hlam1 hx' hr'
  refine ⟨c, c', e, e', k1, k2, k1', k2', fun he he' v hv => ?_⟩
  have n1 := k3 he v hv
  have n2 := k3' he' v hv
  set B := (2 * (Q.length : ℝ) / (1 - lam) + 1) * (2 * ((e : ℝ) / m)) with hB
  set B' := (2 * (Q.length : ℝ) / (1 - lam) + 1) * (2 * ((e' : ℝ) / m)) with hB'
  have eB : (2 * (Q.length : ℝ) / (1 - lam) + 1) * (2 * ((e : ℝ) / m) + 2 * ((e' : ℝ) / m)) = B + B' := by rw [hB, hB']; ring
  rw [eB]
  constructor
  · rw [Real.exp_add, mul_assoc]
    exact n1.1.trans (mul_le_mul_of_nonneg_left n2.2 (Real.exp_pos B).le)
  · rw [add_comm, Real.exp_add, mul_assoc]
    exact n2.1.trans (mul_le_mul_of_nonneg_left n1.2 (Real.exp_pos B').le)

/-- **C140**, why the entries must be positive: if a category was empty in the first stage and is not in the second, `ipf` with the result of the
first stage as the seed never converges. -/
theorem C140_zero (h₀ : RatOK s Q₀ pop₀) (hlt₀ : pop₀ < 2 ^ 62) (hp₀ : ProperProb s Q₀) (h : RatOK s Q pop) (hlt : pop < 2 ^ 62)
    (hp : ProperProb s Q) {b : List Int → ℚ} {k : Nat} {r₀ : IPF Fl} (hr₀ : ipfCalls s Q₀ b k = .ok r₀) {c₀ : List Int → ℚ}
    (hc₀ : r₀.micro.array = finArr s c₀) {q₀ q : List Nat × (List Int → ℚ)} (hq₀ : q₀ ∈ Q₀) (hq : q ∈ Q) (hdims : q.1 = q₀.1) {j : List Int}
    (hj : InRange (projSizes q.1 s) j) (hz : q₀.2 j = 0) (hm : 1 / 10 ^ 8 ≤ q.2 j) :
    ∃ r, ipfExact s Q c₀ = .ok r ∧ r.conv = false ∧ r.iters = 1000 := by
  refine (C40_blocked_exact h hlt hp hq hj hm fun v hv hpv => ?_).1
  obtain ⟨r, n, m, h1, h2, h3, -⟩ := ipfCalls_eq h₀ hlt₀ hp₀ b k
  have e : r = r₀ := by rw [h1] at hr₀; exact Out.ok.inj hr₀
  subst e
  rw [hc₀] at h2
  have e : c₀ v = (qsweep s Q₀)^[n] b v := Fl.fin.inj (arr_inj h2 v hv)
  rw [e]
  obtain ⟨n, rfl⟩ : ∃ i, n = i + 1 := ⟨n - 1, by omega⟩
  rw [Function.iterate_succ_apply']
  have fold : ∀ (L : Prob ℚ), q₀ ∈ L → ∀ a : List Int → ℚ, qsweep s L a v = 0 := by
    intro L
    induction L with
    | nil => intro hL; simp at hL
    | cons p L ih =>
      intro hL a
      show qsweep s L (qscaled s p.1 p.2 a) v = 0
      rcases List.mem_cons.mp hL with rfl | hL
      · refine qsweep_zero L ?_
        unfold qscaled
        split
        · rfl
        · rw [← hdims, hpv, hz, zero_div, mul_zero]
      · exact ih hL _
  exact fold Q₀ hq₀ _

/-! ### The hypotheses are met -/

/-- Last year's values of the same marginals: `[2, 1]` and `[1, 1, 1]`. -/
def lastYear : Prob ℚ := [([0], fun j => 2 - j.getD 0 0), ([1], fun _ => 1)]

theorem lastYear_ok : RatOK [2, 3] lastYear 3 where
  lists := by decide
  two := by decide
  pos := by decide
  dims := by simp [lastYear]
  cover := by
    intro d hd
    simp only [List.length_cons, List.length_nil] at hd
    interval_cases d <;> simp [lastYear]
  nonneg := by
    have : ∀ q ∈ lastYear, ∀ j ∈ cells (projSizes q.1 [2, 3]), 0 ≤ q.2 j := by decide +kernel
    exact fun q hq j hj => this q hq j (mem_cells.mpr hj)
  total := by decide +kernel
  partials := by
    intro p hp q hq a b d ha hb x _
    simp only [lastYear, List.mem_cons, List.not_mem_nil, or_false] at hp hq
    rcases hp with rfl | rfl <;> rcases hq with rfl | rfl
    all_goals
      rw [List.getElem?_singleton] at ha hb
      split at ha <;> split at hb <;> simp_all
    all_goals omega

/-- From last year's marginals to this year's: every hypothesis of `C140_closest` and `C140_limit`, with a seed that is not flat. -/
example : ∃ (r₀ : IPF Fl) (c₀ : List Int → ℚ), ipfCalls [2, 3] lastYear (fun v => if v = [0, 0] then 5 else 1) 0 = .ok r₀ ∧
    r₀.micro.array = finArr [2, 3] c₀ ∧ ∀ x, IsClosest [2, 3] exQ c₀ x ↔ IsClosest [2, 3] exQ (fun v => if v = [0, 0] then 5 else 1) x := by
  have hp : ProperProb [2, 3] lastYear := by unfold ProperProb; decide
  obtain ⟨r, n, m, h1, h2, -⟩ := ipfCalls_eq lastYear_ok (by norm_num) hp (fun v => if v = [0, 0] then 5 else 1) 0
  refine ⟨r, _, h1, h2, fun x => C140_closest lastYear_ok (by norm_num) hp ?_ exQ_ok ?_ ?_ h1 h2 x⟩
  · have : ∀ q ∈ lastYear, ∀ j ∈ cells (projSizes q.1 [2, 3]), 0 < q.2 j := by decide +kernel
    exact fun q hq j hj => this q hq j (mem_cells.mpr hj)
  · intro q hq
    have hq' : q.1 = [0] ∨ q.1 = [1] := by
      simp only [lastYear, List.mem_cons, List.not_mem_nil, or_false] at hq
      rcases hq with rfl | rfl <;> simp
    rcases hq' with e | e
    · exact ⟨exQ[0], by simp, by rw [e]; simp [exQ]⟩
    · exact ⟨exQ[1], by simp [exQ], by rw [e]; simp [exQ]⟩
  · intro v _
    split <;> norm_num

end HL

import Verif.Proof.QISIDisjoint

/-
C100: QISI when no dimension is shared between marginals and the seed is a product of factors, one for each marginal.
-/

namespace HL
open QISI

/-- the factor of the seed for a marginal: on the same dimensions, not negative, zero only where the marginal is, and not
zero everywhere -/
def FactorFor (s : List Nat) (q g : List Nat × (List Int → ℚ)) : Prop :=
  g.1 = q.1 ∧ (∀ j, InRange (projSizes q.1 s) j → g.2 j = 0 → q.2 j = 0) ∧ ∑ j ∈ cells (projSizes q.1 s), g.2 j ≠ 0

theorem FactorFor.fst {s : List Nat} {L G : Prob ℚ} (h : List.Forall₂ (FactorFor s) L G) : G.map Prod.fst = L.map Prod.fst := by
  induction h with
  | nil => rfl
  | cons h _ ih => simp [h.1, ih]

theorem FactorFor.prod_ne {s : List Nat} {L G : Prob ℚ} (h : List.Forall₂ (FactorFor s) L G) :
    (G.map (fun q => ∑ j ∈ cells (projSizes q.1 s), q.2 j)).prod ≠ 0 := by
  induction h with
  | nil => simp
  | cons h _ ih =>
    simp only [List.map_cons, List.prod_cons]
    exact mul_ne_zero (by rw [h.1]; exact h.2.2) ih

/-- scaling a product of factors to marginals on disjoint groups of dimensions, one after the other -/
theorem qsweep_factors {s : List Nat} {Q : Prob ℚ} (h : ProbShape s Q) (hs : Splits s Q) {T : ℚ} (hT : T ≠ 0)
    (htot : ∀ q ∈ Q, ∑ j ∈ cells (projSizes q.1 s), q.2 j = T) {L2 G : Prob ℚ} (hG : List.Forall₂ (FactorFor s) L2 G) :
    ∀ (L1 : Prob ℚ), Q = L1 ++ L2 → L2 ≠ [] → ∀ C : ℚ, C ≠ 0 → ∀ b : List Int → ℚ,
      (∀ v, InRange s v → b v = C * prodAt (L1 ++ G) v) →
      ∀ v, InRange s v → qsweep s L2 b v = prodAt Q v / T ^ (Q.length - 1) := by
  induction hG with
  | nil => intro L1 _ h; exact absurd rfl h
  | @cons q g L2 G hg hG ih =>
    intro L1 hQ _ C hC b hb v hv
    have hqQ : q ∈ Q := by rw [hQ]; simp
    have hd := (h.dims q hqQ).2
    set K : ℚ := (G.map (fun q => ∑ j ∈ cells (projSizes q.1 s), q.2 j)).prod with hK
    have hK0 : K ≠ 0 := FactorFor.prod_ne hG
    have hTL := pow_ne_zero L1.length hT
    have hS : ∀ j, InRange (projSizes q.1 s) j → marginalSum s q.1 b j = C * (T ^ L1.length * g.2 j * K) := by
      intro j hj
      rw [marginalSum_congr hb, marginalSum_smul]
      congr 1
      have hs' : Splits s (L1 ++ g :: G) := hs.congr (by rw [hQ]; simp [hg.1, FactorFor.fst hG])
      have := marginalSum_prodAt hs' (j := j) (by rw [hg.1]; exact hj)
      rw [prod_const_map (T := T) (fun q hq => htot q (by rw [hQ]; simp [hq])), hg.1] at this
      exact this
    have hb' : ∀ w, InRange s w → qscaled s q.1 q.2 b w = 1 / (T ^ L1.length * K) * prodAt ((L1 ++ [q]) ++ G) w := by
      intro w hw
      have hj := inRange_proj hd hw
      have e : prodAt ((L1 ++ [q]) ++ G) w = prodAt L1 w * q.2 (proj q.1 w) * prodAt G w := by
        rw [prodAt_append, prodAt_append]; simp [prodAt]
      have e' : prodAt (L1 ++ g :: G) w = prodAt L1 w * g.2 (proj q.1 w) * prodAt G w := by
        rw [prodAt_append]; simp [prodAt, hg.1]; ring
      unfold qscaled
      rw [hS _ hj, hb w hw, e, e']
      by_cases h0 : g.2 (proj q.1 w) = 0
      · rw [h0, hg.2.1 _ hj h0]; simp
      · rw [if_neg (mul_ne_zero hC (mul_ne_zero (mul_ne_zero hTL h0) hK0))]
        field_simp
    show qsweep s L2 (qscaled s q.1 q.2 b) v = _
    by_cases hL2 : L2 = []
    · subst hL2
      cases hG
      show qscaled s q.1 q.2 b v = _
      rw [hb' v hv, List.append_nil, ← hQ]
      have : K = 1 := by simp [hK]
      rw [this, mul_one]
      have hlen : Q.length - 1 = L1.length := by rw [hQ]; simp
      rw [hlen]
      field_simp
    · exact ih (L1 ++ [q]) (by rw [hQ]; simp) hL2 _ (div_ne_zero one_ne_zero (mul_ne_zero hTL hK0)) _ hb' v hv

/-- the factors of a seed: one function for each marginal, not negative, zero only where the marginal is -/
def SeedFactor (s : List Nat) (p : List Nat × (List Int → Int)) (g : List Nat × (List Int → ℚ)) : Prop :=
  g.1 = p.1 ∧ ∀ j, InRange (projSizes p.1 s) j → 0 ≤ g.2 j ∧ (g.2 j = 0 → p.2 j = 0)

theorem factorFor_of_seed {s : List Nat} {Q : Prob Int} {G : Prob ℚ} (h : List.Forall₂ (SeedFactor s) Q G) {T : Int} (hT : T ≠ 0)
    (htot : ∀ p ∈ Q, ∑ j ∈ cells (projSizes p.1 s), p.2 j = T) : List.Forall₂ (FactorFor s) (ratProb Q) G := by
  induction h with
  | nil => exact .nil
  | @cons p g Q G h hQ ih =>
    refine .cons ⟨h.1, ?_, ?_⟩ (ih (fun p hp => htot p (by simp [hp])))
    · intro j hj h0
      show ((p.2 j : ℤ) : ℚ) = 0
      exact_mod_cast (h.2 j hj).2 h0
    · show ∑ j ∈ cells (projSizes p.1 s), g.2 j ≠ 0
      intro hc
      have hz := (Finset.sum_eq_zero_iff_of_nonneg (fun j hj => (h.2 j (mem_cells.mp hj)).1)).mp hc
      refine hT ?_
      rw [← htot p (by simp)]
      exact Finset.sum_eq_zero (fun j hj => (h.2 j (mem_cells.mp hj)).2 (hz j hj))

theorem prodAt_nonneg {s : List Nat} {Q : Prob Int} {G : Prob ℚ} (h : List.Forall₂ (SeedFactor s) Q G)
    (hd : ∀ q ∈ Q, ∀ d ∈ q.1, d < s.length) {v : List Int} (hv : InRange s v) : 0 ≤ prodAt G v := by
  induction h with
  | nil => simp [prodAt]
  | @cons p g Q G h hQ ih =>
    have e : prodAt (g :: G) v = g.2 (proj g.1 v) * prodAt G v := rfl
    rw [e]
    refine mul_nonneg ?_ (ih (fun q hq => hd q (by simp [hq])))
    rw [h.1]
    exact (h.2 _ (inRange_proj (hd p (by simp)) hv)).1

/-- with such a seed and no shared dimensions, every fit meets its marginals -/
theorem fit_factors {s : List Nat} {Q : Prob Int} (hQ : ProbShape s Q) {T : Int} (hnn : ∀ p ∈ Q, ∀ j, InRange (projSizes p.1 s) j → 0 ≤ p.2 j)
    (htot : ∀ p ∈ Q, ∑ j ∈ cells (projSizes p.1 s), p.2 j = T) (hd : (Q.map Prod.fst).flatten.Nodup) {G : Prob ℚ}
    (hG : List.Forall₂ (SeedFactor s) Q G) {sd : List Int → Fl} (hsd : ∀ v, InRange s v → sd v = .fin (prodAt G v))
    {c : List Int → Fl} (hf : Fit FP.exact s Q sd c) : ∃ b, Agree s c b ∧ Meets s Q b := by
  have hp := properProb_of_disjoint hQ hd
  have hs := splits_of_disjoint (fst_ratProb Q) hQ hd
  have hQ' : ProbShape s (ratProb Q) := probShape_congr (fst_ratProb Q).symm hQ
  have htot' : ∀ q ∈ ratProb Q, ∑ j ∈ cells (projSizes q.1 s), q.2 j = (T : ℚ) := by
    intro q hq
    obtain ⟨p, hp, rfl⟩ := List.mem_map.mp hq
    rw [← htot p hp]; push_cast; rfl
  have hne : ratProb Q ≠ [] := by
    intro hc
    have := hQ.lists
    have h2 : (ratProb Q).length = Q.length := by simp [ratProb]
    rw [hc] at h2
    simp at h2
    omega
  obtain ⟨n, hn, hag, hmin, hpos⟩ := fit_exact hQ hp (b := prodAt G) hsd hf
  refine ⟨_, hag, hpos (fun v hv => prodAt_nonneg hG (fun q hq => (hQ.dims q hq).2) hv), ?_⟩
  by_cases hT : T = 0
  · have hz : ∀ p ∈ Q, ∀ j, InRange (projSizes p.1 s) j → p.2 j = 0 := by
      intro p hp j hj
      have := htot p hp
      rw [hT] at this
      exact (Finset.sum_eq_zero_iff_of_nonneg (fun i hi => hnn p hp i (mem_cells.mp hi))).mp this j (mem_cells.mpr hj)
    have hv0 : ∀ v, InRange s v → (qsweep s (ratProb Q))^[n] (prodAt G) v = 0 := by
      obtain ⟨m, rfl⟩ : ∃ m, n = m + 1 := ⟨n - 1, by omega⟩
      intro v hv
      rw [Function.iterate_succ_apply']
      refine qsweep_allzero (fun q hq => (hQ'.dims q hq).2) hne ?_ _ hv
      intro q hq j hj
      obtain ⟨p, hp, rfl⟩ := List.mem_map.mp hq
      have := hz p hp j hj
      show (p.2 j : ℚ) = 0
      rw [this]; rfl
    intro p hp j hj
    rw [hz p hp j hj, marginalSum_congr hv0]
    simp [marginalSum]
  · have hT' : (T : ℚ) ≠ 0 := by exact_mod_cast hT
    have hsw : ∀ v, InRange s v → (qsweep s (ratProb Q))^[1] (prodAt G) v = prodAt (ratProb Q) v / (T : ℚ) ^ ((ratProb Q).length - 1) :=
      qsweep_factors hQ' hs hT' htot' (factorFor_of_seed hG hT htot) [] rfl hne 1 one_ne_zero _ (fun v _ => by simp)
    have hq0 : qmax s (ratProb Q) ((qsweep s (ratProb Q))^[1] (prodAt G)) = 0 :=
      (qmax_congr _ hsw).trans (qmax_zero hQ' (fun q hq j hj => marginalSum_product hs hT' htot' hq hj))
    have h1 : n = 1 := by
      by_contra hne
      have := hmin 1 le_rfl (by omega)
      rw [hq0] at this
      norm_num at this
    subst h1
    intro p hp j hj
    have hm : (p.1, fun j => (p.2 j : ℚ)) ∈ ratProb Q := List.mem_map.mpr ⟨p, hp, rfl⟩
    rw [marginalSum_congr hsw]
    exact marginalSum_product hs hT' htot' hm hj

theorem seedFactor_remaining {s : List Nat} {P : Prob Int} {G : Prob ℚ} (hG : List.Forall₂ (SeedFactor s) P G) (hs : List (List Int))
    (hnn : ∀ p ∈ remaining hs P, ∀ j, InRange (projSizes p.1 s) j → 0 ≤ p.2 j) : List.Forall₂ (SeedFactor s) (remaining hs P) G := by
  induction hG with
  | nil => exact .nil
  | @cons p g P G h hP ih =>
    refine .cons ⟨h.1, ?_⟩ (ih (fun p hp => hnn p (List.mem_cons_of_mem _ hp)))
    intro j hj
    refine ⟨(h.2 j hj).1, fun h0 => ?_⟩
    have h1 := (h.2 j hj).2 h0
    have h2 := hnn _ (List.mem_cons_self ..) j hj
    simp only at h2 ⊢
    have : (0 : Int) ≤ (hs.countP (fun v => proj p.1 v = j) : Int) := Int.natCast_nonneg _
    omega

theorem fitDone_factors {s : List Nat} {P : Prob Int} {pop : Int} (h : ProbOK s P pop) (hd : (P.map Prod.fst).flatten.Nodup)
    {G : Prob ℚ} (hG : List.Forall₂ (SeedFactor s) P G) {sd : List Int → Fl} (hsd : ∀ v, InRange s v → sd v = .fin (prodAt G v))
    (Q : Prob Int) (c : List Int → Fl) (hf : FitDone FP.exact s P sd Q c) : ∃ b, Agree s c b ∧ Meets s Q b := by
  obtain ⟨hf, hQ⟩ := hf
  have hp := properProb_of_disjoint h.toProbShape hd
  rcases hQ with rfl | ⟨hs, a, seq, v, hpl, -, hdr, -, rfl⟩
  · exact fit_factors h.toProbShape h.nonneg h.total hd hG hsd hf
  · have hsh := shape_remaining h.toProbShape (v :: hs)
    obtain ⟨r, hr, ha⟩ := hf
    obtain ⟨pop', n, hok, -⟩ := ipf_exact (minOK_int _) hsh (properProb_remaining hp _) (reads_rat s _)
      (b := prodAt G) hsd hr
    have hnn : ∀ p ∈ remaining (v :: hs) P, ∀ j, InRange (projSizes p.1 s) j → 0 ≤ p.2 j := by
      intro p hp j hj
      have := hok.nonneg p hp j hj
      simpa [numInt] using this
    refine fit_factors hsh hnn (remaining_total h.toProbShape h.total (hs := v :: hs) ?_) ?_ (seedFactor_remaining hG _ hnn) hsd ⟨r, hr, ha⟩
    · intro w hw
      rcases List.mem_cons.mp hw with rfl | hw
      · exact hdr.inRange
      · exact hpl.range w hw
    · have : (remaining (v :: hs) P).map Prod.fst = P.map Prod.fst := by simp [remaining, Function.comp_def]
      rw [this]; exact hd

end HL

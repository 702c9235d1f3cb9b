import Verif.SensitivitySpec
import Verif.Proof.IPFSensitivity
import Verif.Props.IPFAccuracy

/-
C137: how much the answer of ipf changes when the seed and the marginals change a little.
-/

namespace HL
open Rate Micro

/-- **C137** for the closest tables.  Marginals without common dimensions (`K` of them) with positive entries, and a positive seed in which
every cross-product ratio between the dimensions of one marginal and those of the others is at most `ρ²`, where
`lam = (K - 1) (ρ - 1) / (ρ + 1)` is below one.  Changing the cells of the seed by factors up to `exp β` and the entries of the marginals by
factors up to `exp δ` changes every cell of the closest table by a factor of at most
`exp ((2 K / (1 - lam) + 2) β + (2 K / (1 - lam) + 1) δ)`. -/
theorem C137_closest {s : List Nat} {Q Q' : Prob ℚ} {pop pop' : Int} (h : RatOK s Q pop) (h' : RatOK s Q' pop')
    (hd : (Q.map Prod.fst).flatten.Nodup) (hm : ∀ q ∈ Q, ∀ j, InRange (projSizes q.1 s) j → 0 < q.2 j)
    (hm' : ∀ q ∈ Q', ∀ j, InRange (projSizes q.1 s) j → 0 < q.2 j) {b b' : List Int → ℚ} (hb : ∀ v, InRange s v → 0 < b v)
    (hb' : ∀ v, InRange s v → 0 < b' v) {ρ : ℚ} (hρ : 1 ≤ ρ)
    (hR : ∀ k (hk : k < Q.length), OddsAtMost (ρ ^ 2) s Q[k].1 (restDims Q k) b) {lam : ℚ}
    (hlam : lam = ((Q.length - 1 : Nat) : ℚ) * ((ρ - 1) / (ρ + 1))) (hlam1 : lam < 1) {β δ : ℝ} (hβ : 0 ≤ β) (hδ : 0 ≤ δ)
    (hbb : SeedsWithin (Real.exp β) s b' b) (hmm : MarginalsWithin (Real.exp δ) s Q' Q)
    {x x' : List Int → ℝ} (hx : IsClosest s Q b x) (hx' : IsClosest s Q' b' x') {v : List Int} (hv : InRange s v) :
    x' v ≤ Real.exp ((2 * Q.length / (1 - lam) + 2) * β + (2 * Q.length / (1 - lam) + 1) * δ) * x v ∧
    x v ≤ Real.exp ((2 * Q.length / (1 - lam) + 2) * β + (2 * Q.length / (1 - lam) + 1) * δ) * x' v := by
  have key := closest_closest h hd hm hb hρ hR (lam := (lam : ℝ)) (by rw [hlam]; push_cast; rfl) (by exact_mod_cast hlam1) hx h' hmm.dims hm'
    hb' hβ hδ hbb hmm.near hx' hv
  have e : (Q.length : ℝ) * (2 * (β + δ) / (1 - lam)) + 2 * β + δ =
      (2 * Q.length / (1 - lam) + 2) * β + (2 * Q.length / (1 - lam) + 1) * δ := by ring
  rw [e] at key
  exact key

/-- **C137** for what `ipf` returns, in exact arithmetic.  With entries of at least `m` in both problems and reported deviations `e` and
`e'` of at most `m / 2`, the cells of the two tables differ by a factor of at most
`exp ((2 K / (1 - lam) + 2) β + (2 K / (1 - lam) + 1) (δ + 2 e / m + 2 e' / m))`, converged or not. -/
theorem C137_exact {s : List Nat} {Q Q' : Prob ℚ} {pop pop' : Int} (h : RatOK s Q pop) (h' : RatOK s Q' pop')
    (hd : (Q.map Prod.fst).flatten.Nodup) (hpop : 0 < pop) {m : ℚ} (hm0 : 0 < m)
    (hm : ∀ q ∈ Q, ∀ j, InRange (projSizes q.1 s) j → m ≤ q.2 j) (hm' : ∀ q ∈ Q', ∀ j, InRange (projSizes q.1 s) j → m ≤ q.2 j)
    {b b' : List Int → ℚ} (hb : ∀ v, InRange s v → 0 < b v) (hb' : ∀ v, InRange s v → 0 < b' v) {ρ : ℚ} (hρ : 1 ≤ ρ)
    (hR : ∀ k (hk : k < Q.length), OddsAtMost (ρ ^ 2) s Q[k].1 (restDims Q k) b) {lam : ℚ}
    (hlam : lam = ((Q.length - 1 : Nat) : ℚ) * ((ρ - 1) / (ρ + 1))) (hlam1 : lam < 1) {β δ : ℝ} (hβ : 0 ≤ β) (hδ : 0 ≤ δ)
    (hbb : SeedsWithin (Real.exp β) s b' b) (hmm : MarginalsWithin (Real.exp δ) s Q' Q)
    {r r' : IPF Fl} (hr : ipfExact s Q b = .ok r) (hr' : ipfExact s Q' b' = .ok r') :
    ∃ (c c' : List Int → ℚ) (e e' : ℚ), r.micro.array = finArr s c ∧ r.maxError = .fin e ∧ r'.micro.array = finArr s c' ∧
      r'.maxError = .fin e' ∧ (2 * e ≤ m → 2 * e' ≤ m → ∀ v, InRange s v → 0 ≤ c v ∧ 0 ≤ c' v ∧
        (c' v : ℝ) ≤ Real.exp ((2 * Q.length / (1 - lam) + 2) * β + (2 * Q.length / (1 - lam) + 1) * (δ + 2 * (e / m) + 2 * (e' / m))) * c v ∧
        (c v : ℝ) ≤ Real.exp ((2 * Q.length / (1 - lam) + 2) * β + (2 * Q.length / (1 - lam) + 1) * (δ + 2 * (e / m) + 2 * (e' / m))) * c' v) := by
  obtain ⟨x, hx, -⟩ := C136_exists h hd hpop hb
  obtain ⟨c, e, h1, h2, h3⟩ := C136_exact h hd hm0 hm hb hρ hR hlam hlam1 hx hr
  have hd' : (Q'.map Prod.fst).flatten.Nodup := by rw [hmm.dims]; exact hd
  have hK := h.lists
  have hs' : Splits s Q' := splits_of_disjoint rfl h'.toProbShape hd'
  have hK' := h'.lists
  obtain ⟨_, n, -, -, -, -, -, h4, -, -, h5⟩ := ipf_exact_fin h'.toProbShape (properProb_of_disjoint h'.toProbShape hd') hr'
  set e' := qmax s Q' ((qsweep s Q')^[n] b') with hed
  refine ⟨c, (qsweep s Q')^[n] b', e, e', h1, h2, by rw [h4], h5, ?_⟩
  intro he he' v hv
  have hspec := (qmax_spec h'.toProbShape ((qsweep s Q')^[n] b')).1
  have e0 : 0 ≤ e' := by
    obtain ⟨q0, hq0⟩ : ∃ q, q ∈ Q' := List.exists_mem_of_ne_nil Q' (by rintro rfl; simp at hK')
    exact (abs_nonneg _).trans (hspec q0 hq0 _ (inRange_proj (dims_lt hs' _ hq0) hv))
  have hmR : (0 : ℝ) < m := by exact_mod_cast hm0
  have e0R : (0 : ℝ) ≤ e' := by exact_mod_cast e0
  have key := sweep_near h hd (fun q hq j hj => hm0.trans_le (hm q hq j hj)) hb hρ hR (lam := (lam : ℝ)) (by rw [hlam]; push_cast; rfl)
    (by exact_mod_cast hlam1) hx h' hmm.dims (fun q hq j hj => hm0.trans_le (hm' q hq j hj)) hb' hβ hδ hbb hmm.near (n := n)
    (δ' := 2 * ((e' : ℝ) / m)) (by positivity) (by
      intro q hq j hj
      have g1 : marginalSum s q.1 (fun v => (((qsweep s Q')^[n] b' v : ℚ) : ℝ)) j =
          ((marginalSum s q.1 ((qsweep s Q')^[n] b') j : ℚ) : ℝ) := by
        unfold marginalSum; push_cast; rfl
      rw [g1]
      exact nr_of_abs hmR (by exact_mod_cast hm' q hq j hj) (by exact_mod_cast he') (by exact_mod_cast hspec q hq j hj)) hv
  have h6 : Nr ((2 * Q.length / (1 - lam) + 1) * (2 * ((e : ℝ) / m))) (c v : ℝ) (x v) := h3 he v hv
  have h7 := key.trans h6.symm
  have eB : (Q.length : ℝ) * (2 * (β + (2 * ((e' : ℝ) / m) + δ)) / (1 - lam)) + 2 * β + (2 * ((e' : ℝ) / m) + δ) +
      (2 * Q.length / (1 - lam) + 1) * (2 * ((e : ℝ) / m)) =
      (2 * Q.length / (1 - lam) + 2) * β + (2 * Q.length / (1 - lam) + 1) * (δ + 2 * (e / m) + 2 * (e' / m)) := by ring
  rw [eB] at h7
  have hx0 := hx.nonneg v hv
  have pos : ∀ {B : ℝ} {a : ℚ}, Nr B (a : ℝ) (x v) → 0 ≤ a := by
    intro B a hn
    have g1 : 0 ≤ Real.exp B * (a : ℝ) := hx0.trans hn.2
    exact Rat.cast_nonneg.mp (nonneg_of_mul_nonneg_right g1 (Real.exp_pos B))
  exact ⟨pos h6, pos key, h7⟩

/-- **C137**, an instance: two marginals without common dimensions, entries of at least one, and cross-product ratios of the first seed of
at most four.  If the seeds are within a factor `F` of each other and the marginals within a factor `G`, and both calls of `ipf` converge,
then the tables are within a factor `F⁸ G⁷ (1 + 3e-7)` of each other. -/
theorem C137_two {s : List Nat} {p q p' q' : List Nat × (List Int → ℚ)} {pop pop' : Int} (h : RatOK s [p, q] pop) (h' : RatOK s [p', q'] pop')
    (hd : (p.1 ++ q.1).Nodup) (hpop : 0 < pop) (hm : ∀ u ∈ [p, q], ∀ j, InRange (projSizes u.1 s) j → 1 ≤ u.2 j)
    (hm' : ∀ u ∈ [p', q'], ∀ j, InRange (projSizes u.1 s) j → 1 ≤ u.2 j) {b b' : List Int → ℚ} (hb : ∀ v, InRange s v → 0 < b v)
    (hb' : ∀ v, InRange s v → 0 < b' v) (hR : OddsAtMost 4 s p.1 q.1 b) {F G : ℝ} (hF : 1 ≤ F) (hG : 1 ≤ G)
    (hbb : SeedsWithin F s b' b) (hmm : MarginalsWithin G s [p', q'] [p, q])
    {r r' : IPF Fl} (hr : ipfExact s [p, q] b = .ok r) (hr' : ipfExact s [p', q'] b' = .ok r') (hc : r.conv = true) (hc' : r'.conv = true) :
    ∃ c c' : List Int → ℚ, r.micro.array = finArr s c ∧ r'.micro.array = finArr s c' ∧ ∀ v, InRange s v →
      (c' v : ℝ) ≤ F ^ 8 * G ^ 7 * (1 + 3 / 10 ^ 7) * c v ∧ (c v : ℝ) ≤ F ^ 8 * G ^ 7 * (1 + 3 / 10 ^ 7) * c' v := by
  have hR' : OddsAtMost 4 s q.1 p.1 b := by
    intro v v' w w' hv hv' hw hw' e1 e2 e3 e4
    have := hR v v' w' w hv hv' hw' hw e4 e3 e2 e1
    rwa [mul_comm (b w') (b w)] at this
  have hd1 : ([p, q].map Prod.fst).flatten.Nodup := by simpa using hd
  have hd2 : ([p', q'].map Prod.fst).flatten.Nodup := by rw [hmm.dims]; exact hd1
  have hF0 : 0 < F := by linarith
  have hG0 : 0 < G := by linarith
  obtain ⟨c, c', e, e', h1, h2, h3, h4, h5⟩ := C137_exact h h' hd1 hpop (m := 1) one_pos hm hm' hb hb' (ρ := 2) (by norm_num) (by
    intro k hk
    have e : ((2 : ℚ) ^ 2) = 4 := by norm_num
    rw [e]
    have hk' : k < 2 := hk
    interval_cases k
    · simpa [restDims] using hR
    · simpa [restDims] using hR') (lam := 1 / 3) (by norm_num) (by norm_num) (Real.log_nonneg hF) (Real.log_nonneg hG)
    (by rwa [Real.exp_log hF0]) (by rwa [Real.exp_log hG0]) hr hr'
  have small : ∀ {Q : Prob ℚ} {P : Int} {a : List Int → ℚ} {r : IPF Fl} {e : ℚ}, RatOK s Q P → (Q.map Prod.fst).flatten.Nodup →
      ipfExact s Q a = .ok r → r.conv = true → r.maxError = .fin e → 0 ≤ (e : ℝ) ∧ (e : ℝ) ≤ 1 / 10 ^ 8 := by
    intro Q P a r e h hd hr hc h2
    obtain ⟨_, e', _, g2, _, ⟨_, _, _, _, g4⟩, g5, -⟩ := C29_conv_exact h.toProbShape (properProb_of_disjoint h.toProbShape hd) hr
    rw [h2] at g2
    injection g2 with g2
    subst g2
    have he0 : 0 ≤ e := g4 ▸ abs_nonneg _
    have : (e : ℝ) < ((1 / 10 ^ 8 : ℚ) : ℝ) := by exact_mod_cast g5.mp hc
    push_cast at this
    exact ⟨by exact_mod_cast he0, this.le⟩
  obtain ⟨e0, e1⟩ := small h hd1 hr hc h2
  obtain ⟨e0', e1'⟩ := small h' hd2 hr' hc' h4
  refine ⟨c, c', h1, h3, fun v hv => ?_⟩
  obtain ⟨k1, k2, key⟩ := h5 (by
    have : ((2 * e : ℚ) : ℝ) ≤ ((1 : ℚ) : ℝ) := by push_cast; norm_num at e1 ⊢; linarith
    exact_mod_cast this) (by
    have : ((2 * e' : ℚ) : ℝ) ≤ ((1 : ℚ) : ℝ) := by push_cast; norm_num at e1' ⊢; linarith
    exact_mod_cast this) v hv
  have eB : (2 * (([p, q].length : Nat) : ℝ) / (1 - ((1 / 3 : ℚ) : ℝ)) + 2) * Real.log F +
      (2 * (([p, q].length : Nat) : ℝ) / (1 - ((1 / 3 : ℚ) : ℝ)) + 1) *
        (Real.log G + 2 * ((e : ℝ) / ((1 : ℚ) : ℝ)) + 2 * ((e' : ℝ) / ((1 : ℚ) : ℝ))) =
      8 * Real.log F + 7 * Real.log G + 14 * (e + e') := by
    push_cast
    simp only [List.length_cons, List.length_nil]
    norm_num
    ring
  rw [eB] at key
  have eF : Real.exp (8 * Real.log F + 7 * Real.log G + 14 * (e + e')) = F ^ 8 * G ^ 7 * Real.exp (14 * (e + e')) := by
    rw [Real.exp_add, Real.exp_add, show (8 : ℝ) * Real.log F = ((8 : Nat) : ℝ) * Real.log F by norm_num,
      show (7 : ℝ) * Real.log G = ((7 : Nat) : ℝ) * Real.log G by norm_num, Real.exp_nat_mul, Real.exp_nat_mul, Real.exp_log hF0,
      Real.exp_log hG0]
  rw [eF] at key
  have hsm : Real.exp (14 * (e + e')) ≤ 1 + 3 / 10 ^ 7 := by
    have g0 : (0 : ℝ) ≤ 14 * (e + e') := by linarith
    have g1 : (14 : ℝ) * (e + e') ≤ 28 / 10 ^ 8 := by linarith
    have g2 : |(14 : ℝ) * (e + e')| ≤ 1 := by
      rw [abs_of_nonneg g0]; norm_num at g1 ⊢; linarith
    have g3 := (abs_le.mp (Real.abs_exp_sub_one_sub_id_le g2)).2
    have g4 : ((14 : ℝ) * (e + e')) ^ 2 ≤ (28 / 10 ^ 8) ^ 2 := pow_le_pow_left₀ g0 g1 2
    norm_num at g1 g3 g4 ⊢
    linarith
  have hc0 : 0 ≤ (c v : ℝ) ∧ 0 ≤ (c' v : ℝ) := ⟨Rat.cast_nonneg.mpr k1, Rat.cast_nonneg.mpr k2⟩
  have hFG : 0 ≤ F ^ 8 * G ^ 7 := by positivity
  exact ⟨key.1.trans (mul_le_mul_of_nonneg_right (mul_le_mul_of_nonneg_left hsm hFG) hc0.1),
    key.2.trans (mul_le_mul_of_nonneg_right (mul_le_mul_of_nonneg_left hsm hFG) hc0.2)⟩

/-! ### Double precision -/

/-- the part of `C136_double` is at most one -/
theorem part_le_one {K f : Nat} (hK : 2 ≤ K) (h : 4 * K ^ 2 * (f + 2) + f + 1 ≤ 89000000) :
    ((8 : ℝ) * K + 4) * (22 / 10 ^ 9 + 13 / 10 ^ 15 * (K * (f + 2))) ≤ 1 := by
  have g1 : ((4 * K ^ 2 * (f + 2) + f + 1 : Nat) : ℝ) ≤ 89000000 := by exact_mod_cast h
  push_cast at g1
  have hKr : (2 : ℝ) ≤ K := by exact_mod_cast hK
  have hf : (0 : ℝ) ≤ f := Nat.cast_nonneg f
  generalize (K : ℝ) = K at *
  generalize (f : ℝ) = f at *
  have a1 : 0 ≤ K * (f + 2) := mul_nonneg (by linarith) (by linarith)
  have a2 : 2 * (K * (f + 2)) ≤ K * (K * (f + 2)) := mul_le_mul_of_nonneg_right hKr a1
  have a3 : K * 4 ≤ K * (K * (f + 2)) := by
    refine mul_le_mul_of_nonneg_left ?_ (by linarith)
    nlinarith
  have e1 : 4 * K ^ 2 * (f + 2) = 4 * (K * (K * (f + 2))) := by ring
  rw [e1] at g1
  have e2 : (8 * K + 4) * (22 / 10 ^ 9 + 13 / 10 ^ 15 * (K * (f + 2))) =
      22 / 10 ^ 9 * (8 * K + 4) + 13 / 10 ^ 15 * (8 * (K * (K * (f + 2))) + 4 * (K * (f + 2))) := by ring
  rw [e2]
  norm_num
  linarith

/-- the cross-product ratios of a seed between `lo` and `hi` -/
theorem odds_of_spread {s : List Nat} {b : List Int → ℚ} {lo hi : ℚ} (hlo : 0 < lo) (hb : ∀ v, InRange s v → lo ≤ b v ∧ b v ≤ hi)
    (hord : lo ≤ hi) (ds es : List Nat) : OddsAtMost ((hi / lo) ^ 2) s ds es b := by
  intro v v' w w' hv hv' hw hw' _ _ _ _
  have g3 := mul_le_mul (hb v hv).2 (hb v' hv').2 (hlo.le.trans (hb v' hv').1) (hlo.le.trans hord)
  have g4 := mul_le_mul (hb w hw).1 (hb w' hw').1 hlo.le (hlo.le.trans (hb w hw).1)
  have g5 := mul_le_mul_of_nonneg_left g4 (sq_nonneg (hi / lo))
  refine g3.trans (le_trans (le_of_eq ?_) g5)
  field_simp

/-- the spread of the seed as a bound on `hi / lo` -/
theorem near_of_spread {K : Nat} {lo hi : ℚ} (hlo : 0 < lo) (hsp : ((K - 1 : Nat) : ℚ) * (hi - lo) ≤ 9 / 10 * lo) :
    ((K - 1 : Nat) : ℚ) * (hi / lo - 1) ≤ 9 / 10 := by
  have e : ((K - 1 : Nat) : ℚ) * (hi / lo - 1) = ((K - 1 : Nat) : ℚ) * (hi - lo) / lo := by field_simp
  rw [e, div_le_iff₀ hlo]
  exact hsp

/-- two tables, each near one of two tables that are near each other -/
theorem two_near {E B : ℝ} (hE0 : 0 ≤ E) (hE1 : E ≤ 1) (hB0 : 0 < B) {c c' : ℚ} {x x' : ℝ} (h : |(c : ℝ) - x| ≤ E * x)
    (h' : |(c' : ℝ) - x'| ≤ E * x') (k1 : x' ≤ B * x) (k2 : x ≤ B * x') (hx0 : 0 ≤ x) (hx0' : 0 ≤ x') :
    0 ≤ c ∧ 0 ≤ c' ∧ (1 - E) * c' ≤ (1 + E) * B * c ∧ (1 - E) * c ≤ (1 + E) * B * c' := by
  have comb : ∀ {u u' w w' : ℝ}, |u - w| ≤ E * w → |u' - w'| ≤ E * w' → w' ≤ B * w → 0 ≤ w → 0 ≤ w' → (1 - E) * u' ≤ (1 + E) * B * u := by
    intro u u' w w' a1 a2 a3 _ _
    have a4 := (abs_le.mp a1).1
    have a5 := (abs_le.mp a2).2
    have a6 : (1 - E) * u' ≤ (1 - E) * ((1 + E) * (B * w)) := by
      refine mul_le_mul_of_nonneg_left ?_ (by linarith)
      have := mul_le_mul_of_nonneg_left a3 (show 0 ≤ 1 + E by linarith)
      linarith
    have a7 : (1 + E) * B * ((1 - E) * w) ≤ (1 + E) * B * u :=
      mul_le_mul_of_nonneg_left (by linarith) (mul_nonneg (by linarith) hB0.le)
    linarith
  have pos : ∀ {a : ℚ} {w : ℝ}, |(a : ℝ) - w| ≤ E * w → 0 ≤ w → 0 ≤ a := by
    intro a w a1 a2
    have a3 := (abs_le.mp a1).1
    have a4 := mul_nonneg (show 0 ≤ 1 - E by linarith) a2
    exact Rat.cast_nonneg.mp (show (0 : ℝ) ≤ (a : ℝ) by linarith)
  exact ⟨pos (h) hx0, pos (h') hx0', comb (h) (h') k1 hx0 hx0', comb (h') (h) k2 hx0' hx0⟩

/-- **C137** in double precision, under the conditions of `C136_odds` for both calls: if the seeds are within a factor `exp β` of each other and
the marginals within a factor `exp δ`, then the tables that `ipf` returns are within a factor
`exp ((4 K + 2) β + (4 K + 1) δ) (1 + E) / (1 - E)` of each other, where `E = (8 K + 4) (2.2e-8 + 1.3e-14 K (f + 2))`. -/
theorem C137_odds {s : List Nat} {Q Q' : Prob ℚ} {pop pop' : Int} (h : RatOK s Q pop) (h' : RatOK s Q' pop')
    (hd : (Q.map Prod.fst).flatten.Nodup) {b b' : List Int → ℚ} {lo hi ρ lo' hi' ρ' : ℚ} {f : Nat}
    (hmo : Modest s Q pop b lo hi ρ f) (hmo' : Modest s Q' pop' b' lo' hi' ρ' f) (hfp : fp.Good)
    {R R' : ℚ} (hR1 : 1 ≤ R) (hodds : ∀ k (hk : k < Q.length), OddsAtMost (R ^ 2) s Q[k].1 (restDims Q k) b)
    (hnear : ((Q.length - 1 : Nat) : ℚ) * (R - 1) ≤ 9 / 10) (hR1' : 1 ≤ R')
    (hodds' : ∀ k (hk : k < Q'.length), OddsAtMost (R' ^ 2) s Q'[k].1 (restDims Q' k) b') (hnear' : ((Q'.length - 1 : Nat) : ℚ) * (R' - 1) ≤ 9 / 10)
    (hsmall : pop * (4 * Q.length ^ 2 * (f + 2) + f + 1) ≤ 89000000) (hsmall' : pop' * (4 * Q'.length ^ 2 * (f + 2) + f + 1) ≤ 89000000)
    (hone : ∀ q ∈ Q, ∀ j, InRange (projSizes q.1 s) j → 1 ≤ q.2 j) (hone' : ∀ q ∈ Q', ∀ j, InRange (projSizes q.1 s) j → 1 ≤ q.2 j)
    {β δ : ℝ} (hβ : 0 ≤ β) (hδ : 0 ≤ δ) (hbb : SeedsWithin (Real.exp β) s b' b) (hmm : MarginalsWithin (Real.exp δ) s Q' Q)
    {E : ℝ} (hE : E = (8 * Q.length + 4) * (22 / 10 ^ 9 + 13 / 10 ^ 15 * (Q.length * (f + 2)))) {r r' : IPF Fl}
    (hr : IPF.run false fp (numFl fp) (indicesOf (finProb Q)) (marginalsOf s (finProb Q)) (finArr s b) = .ok r)
    (hr' : IPF.run false fp (numFl fp) (indicesOf (finProb Q')) (marginalsOf s (finProb Q')) (finArr s b') = .ok r') :
    ∃ c c' : List Int → ℚ, r.micro.array = finArr s c ∧ r'.micro.array = finArr s c' ∧ E ≤ 1 ∧ ∀ v, InRange s v → 0 ≤ c v ∧ 0 ≤ c' v ∧
      (1 - E) * c' v ≤ (1 + E) * Real.exp ((4 * Q.length + 2) * β + (4 * Q.length + 1) * δ) * c v ∧
      (1 - E) * c v ≤ (1 + E) * Real.exp ((4 * Q.length + 2) * β + (4 * Q.length + 1) * δ) * c' v := by
  have hK := h.lists
  have hl : Q'.length = Q.length := dims_same hmm.dims
  have hd' : (Q'.map Prod.fst).flatten.Nodup := by rw [hmm.dims]; exact hd
  have hlo := hmo.lo_pos
  have hb0 : ∀ v, InRange s v → 0 < b v := fun v hv => hlo.trans_le (hmo.seed v hv).1
  have hb0' : ∀ v, InRange s v → 0 < b' v := fun v hv => hmo'.lo_pos.trans_le (hmo'.seed v hv).1
  have hpopp : (0 : Int) < pop := by
    have : (0 : ℚ) < (pop : ℚ) := pop_pos h hmo.pos
    exact_mod_cast this
  have hpopp' : (0 : Int) < pop' := by
    have : (0 : ℚ) < (pop' : ℚ) := pop_pos h' hmo'.pos
    exact_mod_cast this
  obtain ⟨x, hx, -⟩ := C136_exists h hd hpopp hb0
  obtain ⟨x', hx', -⟩ := C136_exists h' hd' hpopp' hb0'
  obtain ⟨c, h1, h2⟩ := C136_odds h hd hmo hfp hR1 hodds hnear hsmall hone hx hr
  obtain ⟨c', h1', h2'⟩ := C136_odds h' hd' hmo' hfp hR1' hodds' hnear' hsmall' hone' hx' hr'
  rw [hl, ← hE] at h2'
  rw [← hE] at h2
  have hE0 : 0 ≤ E := by rw [hE]; positivity
  have hE1 : E ≤ 1 := by
    rw [hE]
    refine part_le_one hK ?_
    have g1 : (0 : Int) ≤ 4 * (Q.length : Int) ^ 2 * (f + 2) + f + 1 := by positivity
    have g2 : (4 * (Q.length : Int) ^ 2 * (f + 2) + f + 1) ≤ 89000000 := le_trans (le_mul_of_one_le_left g1 (by omega)) hsmall
    exact_mod_cast g2
  refine ⟨c, c', h1, h1', hE1, fun v hv => ?_⟩
  -- the closest tables
  set lam : ℚ := ((Q.length - 1 : Nat) : ℚ) * ((R - 1) / (R + 1)) with hlam
  have hl2 : lam ≤ 1 / 2 := by
    rw [hlam, ← mul_div_assoc, div_le_iff₀ (by linarith)]
    linarith
  have key := C137_closest h h' hd hmo.pos hmo'.pos hb0 hb0' hR1 hodds hlam
    (by linarith) hβ hδ hbb hmm hx hx' hv
  have hl2R : (lam : ℝ) ≤ 1 / 2 := by
    have : (lam : ℝ) ≤ ((1 / 2 : ℚ) : ℝ) := by exact_mod_cast hl2
    push_cast at this
    exact this
  have hC : 2 * (Q.length : ℝ) / (1 - lam) ≤ 4 * Q.length := by
    rw [div_le_iff₀ (by linarith)]
    have : (0 : ℝ) ≤ Q.length := Nat.cast_nonneg _
    nlinarith
  have hB : Real.exp ((2 * Q.length / (1 - lam) + 2) * β + (2 * Q.length / (1 - lam) + 1) * δ) ≤
      Real.exp ((4 * Q.length + 2) * β + (4 * Q.length + 1) * δ) := by
    refine Real.exp_le_exp.mpr ?_
    have g1 := mul_le_mul_of_nonneg_right hC hβ
    have g2 := mul_le_mul_of_nonneg_right hC hδ
    linarith
  set B := Real.exp ((4 * Q.length + 2) * β + (4 * Q.length + 1) * δ) with hBd
  have hB0 : 0 < B := Real.exp_pos _
  have hx0 := hx.nonneg v hv
  have hx0' := hx'.nonneg v hv
  have k1 := key.1.trans (mul_le_mul_of_nonneg_right hB hx0)
  have k2 := key.2.trans (mul_le_mul_of_nonneg_right hB hx0')
  exact two_near hE0 hE1 hB0 (h2 v hv) (h2' v hv) k1 k2 hx0 hx0'

/-- **C137** in double precision, under the conditions of C136 for both calls: if the seeds are within a factor `exp β` of each other and
the marginals within a factor `exp δ`, then the tables that `ipf` returns are within a factor
`exp ((4 K + 2) β + (4 K + 1) δ) (1 + E) / (1 - E)` of each other, where `E = (8 K + 4) (2.2e-8 + 1.3e-14 K (f + 2))`. -/
theorem C137_double {s : List Nat} {Q Q' : Prob ℚ} {pop pop' : Int} (h : RatOK s Q pop) (h' : RatOK s Q' pop')
    (hd : (Q.map Prod.fst).flatten.Nodup) {b b' : List Int → ℚ} {lo hi ρ lo' hi' ρ' : ℚ} {f : Nat}
    (hmo : Modest s Q pop b lo hi ρ f) (hmo' : Modest s Q' pop' b' lo' hi' ρ' f) (hfp : fp.Good)
    (hspread : ((Q.length - 1 : Nat) : ℚ) * (hi - lo) ≤ 9 / 10 * lo) (hspread' : ((Q'.length - 1 : Nat) : ℚ) * (hi' - lo') ≤ 9 / 10 * lo')
    (hsmall : pop * (4 * Q.length ^ 2 * (f + 2) + f + 1) ≤ 89000000) (hsmall' : pop' * (4 * Q'.length ^ 2 * (f + 2) + f + 1) ≤ 89000000)
    (hone : ∀ q ∈ Q, ∀ j, InRange (projSizes q.1 s) j → 1 ≤ q.2 j) (hone' : ∀ q ∈ Q', ∀ j, InRange (projSizes q.1 s) j → 1 ≤ q.2 j)
    {β δ : ℝ} (hβ : 0 ≤ β) (hδ : 0 ≤ δ) (hbb : SeedsWithin (Real.exp β) s b' b) (hmm : MarginalsWithin (Real.exp δ) s Q' Q)
    {E : ℝ} (hE : E = (8 * Q.length + 4) * (22 / 10 ^ 9 + 13 / 10 ^ 15 * (Q.length * (f + 2)))) {r r' : IPF Fl}
    (hr : IPF.run false fp (numFl fp) (indicesOf (finProb Q)) (marginalsOf s (finProb Q)) (finArr s b) = .ok r)
    (hr' : IPF.run false fp (numFl fp) (indicesOf (finProb Q')) (marginalsOf s (finProb Q')) (finArr s b') = .ok r') :
    ∃ c c' : List Int → ℚ, r.micro.array = finArr s c ∧ r'.micro.array = finArr s c' ∧ E ≤ 1 ∧ ∀ v, InRange s v → 0 ≤ c v ∧ 0 ≤ c' v ∧
      (1 - E) * c' v ≤ (1 + E) * Real.exp ((4 * Q.length + 2) * β + (4 * Q.length + 1) * δ) * c v ∧
      (1 - E) * c v ≤ (1 + E) * Real.exp ((4 * Q.length + 2) * β + (4 * Q.length + 1) * δ) * c' v := by
  exact C137_odds h h' hd hmo hmo' hfp ((one_le_div hmo.lo_pos).mpr hmo.seedOrder) (fun k hk => odds_of_spread hmo.lo_pos hmo.seed hmo.seedOrder _ _)
    (near_of_spread hmo.lo_pos hspread) ((one_le_div hmo'.lo_pos).mpr hmo'.seedOrder) (fun k hk => odds_of_spread hmo'.lo_pos hmo'.seed hmo'.seedOrder _ _)
    (near_of_spread hmo'.lo_pos hspread') hsmall hsmall' hone hone' hβ hδ hbb hmm hE hr hr'

/-! ### The hypotheses are met -/

/-- the rows and columns of `midProb` with one in a hundred of the first category moved -/
def nudgedRows (j : List Int) : Int := if j = [0] then 404000 else 596000
def nudgedCols (j : List Int) : Int := if j = [0] then 303000 else 697000
def nudged : Prob Int := [([0], nudgedRows), ([1], nudgedCols)]

theorem nudged_ok : ProbOK [2, 2] nudged 1000000 where
  lists := by simp [nudged]
  two := by decide
  pos := by decide
  dims := by simp [nudged]
  cover := by
    intro d hd
    simp only [List.length_cons, List.length_nil] at hd
    interval_cases d <;> simp [nudged]
  nonneg := by
    intro p hp j _
    simp only [nudged, List.mem_cons, List.not_mem_nil, or_false] at hp
    rcases hp with rfl | rfl
    · show 0 ≤ nudgedRows j
      unfold nudgedRows; split <;> norm_num
    · show 0 ≤ nudgedCols j
      unfold nudgedCols; split <;> norm_num
  total := by
    simp only [nudged, List.mem_cons, List.not_mem_nil, or_false, forall_eq_or_imp, forall_eq]
    decide
  partials := by
    intro p hp q hq a b d h1 h2
    simp only [nudged, List.mem_cons, List.not_mem_nil, or_false] at hp hq
    rcases hp with rfl | rfl <;> rcases hq with rfl | rfl <;> rcases a with _ | a <;> rcases b with _ | b <;>
      simp at h1 h2 <;> intro x hx <;> first | rfl | omega

theorem nudged_one : ∀ q ∈ ratProb nudged, ∀ j, InRange (projSizes q.1 [2, 2]) j → 1 ≤ q.2 j := by
  have key : ∀ q ∈ ratProb nudged, ∀ j ∈ allIdx (projSizes q.1 [2, 2]), 1 ≤ q.2 j := by decide +kernel
  exact fun q hq j hj => key q hq j (mem_allIdx.mpr hj)

theorem nudged_within : MarginalsWithin (101 / 100) [2, 2] (ratProb nudged) (ratProb midProb) where
  dims := rfl
  near := by
    have key : ∀ j ∈ allIdx [2], ((ratProb nudged)[0].2 j ≤ 101 / 100 * (ratProb midProb)[0].2 j ∧
        (ratProb midProb)[0].2 j ≤ 101 / 100 * (ratProb nudged)[0].2 j) ∧ ((ratProb nudged)[1].2 j ≤ 101 / 100 * (ratProb midProb)[1].2 j ∧
        (ratProb midProb)[1].2 j ≤ 101 / 100 * (ratProb nudged)[1].2 j) := by decide +kernel
    intro k hk hk' j hj
    have cast : ∀ {a b : ℚ}, a ≤ 101 / 100 * b → (a : ℝ) ≤ 101 / 100 * b := by
      intro a b hab
      have : (a : ℝ) ≤ ((101 / 100 * b : ℚ) : ℝ) := by exact_mod_cast hab
      push_cast at this
      exact this
    have hk2 : k < 2 := hk
    interval_cases k
    · have g := (key j (mem_allIdx.mpr hj)).1
      exact ⟨cast g.1, cast g.2⟩
    · have g := (key j (mem_allIdx.mpr hj)).2
      exact ⟨cast g.1, cast g.2⟩

theorem flat_within : SeedsWithin (5 / 4) [2, 2] (fun _ => 1) gentleSeed := by
  intro v hv
  have g := gentle_modest.seed v hv
  have g1 : ((1 : ℚ) : ℝ) ≤ (gentleSeed v : ℝ) := by exact_mod_cast g.1
  have g2 : (gentleSeed v : ℝ) ≤ ((5 / 4 : ℚ) : ℝ) := by exact_mod_cast g.2
  push_cast at g1 g2 ⊢
  constructor <;> linarith

/-- A million people in two by two categories, exact arithmetic: the seed changes by a quarter in one cell and one in a hundred of the
first row and column move; both calls run and converge, and the bound holds. -/
example : ∃ r r' c c', ipfExact [2, 2] (ratProb midProb) gentleSeed = .ok r ∧ ipfExact [2, 2] (ratProb nudged) (fun _ => 1) = .ok r' ∧
    r.micro.array = finArr [2, 2] c ∧ r'.micro.array = finArr [2, 2] c' ∧ ∀ v, InRange [2, 2] v →
      (c' v : ℝ) ≤ (5 / 4) ^ 8 * (101 / 100) ^ 7 * (1 + 3 / 10 ^ 7) * c v ∧
      (c v : ℝ) ≤ (5 / 4) ^ 8 * (101 / 100) ^ 7 * (1 + 3 / 10 ^ 7) * c' v := by
  have hok := ratOK_ratProb midProb_ok
  have hok' := ratOK_ratProb nudged_ok
  have hp : ProperProb [2, 2] (ratProb midProb) := by unfold ProperProb; decide
  have hp' : ProperProb [2, 2] (ratProb nudged) := by unfold ProperProb; decide
  obtain ⟨r, hr⟩ := ipf_run_ok _ _ (minOK_fl _) (ratOK_accepted hok (by norm_num)) (properProb_fin hp) (fun v => .fin (gentleSeed v))
  obtain ⟨r', hr'⟩ := ipf_run_ok _ _ (minOK_fl _) (ratOK_accepted hok' (by norm_num)) (properProb_fin hp') (fun _ => .fin 1)
  have hodds : ∀ M : ℚ, 25 / 16 ≤ M → OddsAtMost M [2, 2] [0] [1] gentleSeed := by
    intro M hM v v' w w' hv hv' hw hw' e1 e2 e3 e4
    have g := odds_of_spread one_pos gentle_modest.seed (by norm_num) [0] [1] v v' w w' hv hv' hw hw' e1 e2 e3 e4
    refine g.trans (mul_le_mul_of_nonneg_right (by norm_num; linarith) (mul_pos (gentle_pos w hw) (gentle_pos w' hw')).le)
  have hflat : OddsAtMost 6400 [2, 2] [0] [1] (fun _ => 1) := by
    intro v v' w w' _ _ _ _ _ _ _ _
    norm_num
  have hc := C134_two (p := (ratProb midProb)[0]) (q := (ratProb midProb)[1]) hok.toProbShape (by decide) (T := 1000000) (by norm_num)
    (fun q hq => (hok.total q hq).trans (by norm_num)) (by norm_num) gentle_pos (hodds 6400 (by norm_num)) hr
  have hc' := C134_two (p := (ratProb nudged)[0]) (q := (ratProb nudged)[1]) hok'.toProbShape (by decide) (T := 1000000) (by norm_num)
    (fun q hq => (hok'.total q hq).trans (by norm_num)) (by norm_num) (b := fun _ => 1) (fun _ _ => one_pos) hflat hr'
  obtain ⟨c, c', h1, h2, h3⟩ := C137_two (p := (ratProb midProb)[0]) (q := (ratProb midProb)[1]) (p' := (ratProb nudged)[0])
    (q' := (ratProb nudged)[1]) hok hok' (by decide) (by norm_num) mid_one nudged_one gentle_pos (b' := fun _ => 1) (fun _ _ => one_pos)
    (hodds 4 (by norm_num)) (by norm_num) (by norm_num) flat_within nudged_within hr hr' hc hc'
  exact ⟨r, r', c, c', hr, hr', h1, h2, h3⟩

theorem flat_modest : Modest [2, 2] (ratProb midProb) 1000000 (fun _ => 1) 1 (5 / 4) (1 / 10) 2 :=
  { gentle_modest with seed := fun _ _ => by norm_num }

/-- The same marginals with both seeds, in binary64: the tables are within a factor `(5/4)^10` and a part in a million of each other. -/
example (sqrt : Fl → Fl) : ∃ r r' c c', IPF.run false (FP.ieee sqrt) (numFl (FP.ieee sqrt)) (indicesOf (finProb (ratProb midProb)))
      (marginalsOf [2, 2] (finProb (ratProb midProb))) (finArr [2, 2] gentleSeed) = .ok r ∧
      IPF.run false (FP.ieee sqrt) (numFl (FP.ieee sqrt)) (indicesOf (finProb (ratProb midProb)))
      (marginalsOf [2, 2] (finProb (ratProb midProb))) (finArr [2, 2] (fun _ => 1)) = .ok r' ∧
      r.micro.array = finArr [2, 2] c ∧ r'.micro.array = finArr [2, 2] c' ∧ ∀ v, InRange [2, 2] v →
      (1 - 5 / 10 ^ 7) * (c' v : ℝ) ≤ (1 + 5 / 10 ^ 7) * (5 / 4) ^ 10 * c v := by
  have hok := ratOK_ratProb midProb_ok
  obtain ⟨r0, h0, -, -⟩ := mid_run sqrt
  have hp : ProperProb [2, 2] (ratProb midProb) := by unfold ProperProb; decide
  obtain ⟨pop, n, hok', -⟩ := ipf_run (FP.ieee sqrt) (numFl (FP.ieee sqrt)) (minOK_fl _)
    (probShape_congr (fst_finProb (ratProb midProb)).symm hok.toProbShape) (properProb_fin hp) _
    (by rw [fin_ratProb]; exact h0)
  obtain ⟨r, hr⟩ := ipf_run_ok (FP.ieee sqrt) (numFl (FP.ieee sqrt)) (minOK_fl _) hok' (properProb_fin hp) (fun v => .fin (gentleSeed v))
  obtain ⟨r', hr'⟩ := ipf_run_ok (FP.ieee sqrt) (numFl (FP.ieee sqrt)) (minOK_fl _) hok' (properProb_fin hp) (fun _ => .fin 1)
  have hs1 : ((1 : Nat) : ℚ) * (5 / 4 - 1) ≤ 9 / 10 * 1 := by norm_num
  have hs2 : (1000000 : Int) * (4 * ((2 : Nat) : Int) ^ 2 * (((2 : Nat) : Int) + 2) + ((2 : Nat) : Int) + 1) ≤ 89000000 := by norm_num
  obtain ⟨c, c', h1, h2, -, h3⟩ := C137_double hok hok (by decide) gentle_modest flat_modest (FP.ieee_good sqrt) hs1 hs1 hs2 hs2
    mid_one mid_one (β := Real.log (5 / 4)) (δ := 0) (Real.log_nonneg (by norm_num)) le_rfl
    (by rw [Real.exp_log (by norm_num)]; exact flat_within) ⟨rfl, fun k _ _ j _ => by rw [Real.exp_zero]; constructor <;> linarith⟩
    rfl hr hr'
  refine ⟨r, r', c, c', hr, hr', h1, h2, fun v hv => ?_⟩
  obtain ⟨p1, p2, key, -⟩ := h3 v hv
  have e : Real.exp ((4 * ((ratProb midProb).length : ℝ) + 2) * Real.log (5 / 4) + (4 * ((ratProb midProb).length : ℝ) + 1) * 0) = (5 / 4) ^ 10 := by
    rw [mul_zero, add_zero, show (4 * ((ratProb midProb).length : ℝ) + 2) = ((10 : Nat) : ℝ) by
      show (4 * ((2 : Nat) : ℝ) + 2) = _; norm_num, Real.exp_nat_mul, Real.exp_log (by norm_num)]
  rw [e] at key
  have hE : ((8 : ℝ) * ((ratProb midProb).length : ℝ) + 4) * (22 / 10 ^ 9 + 13 / 10 ^ 15 * (((ratProb midProb).length : ℝ) * (((2 : Nat) : ℝ) + 2))) ≤
      5 / 10 ^ 7 := by
    show ((8 : ℝ) * ((2 : Nat) : ℝ) + 4) * (22 / 10 ^ 9 + 13 / 10 ^ 15 * (((2 : Nat) : ℝ) * (((2 : Nat) : ℝ) + 2))) ≤ 5 / 10 ^ 7
    norm_num
  generalize ((8 : ℝ) * ((ratProb midProb).length : ℝ) + 4) * (22 / 10 ^ 9 + 13 / 10 ^ 15 * (((ratProb midProb).length : ℝ) * (((2 : Nat) : ℝ) + 2))) = E
    at key hE
  have p1' : (0 : ℝ) ≤ c v := Rat.cast_nonneg.mpr p1
  have p2' : (0 : ℝ) ≤ c' v := Rat.cast_nonneg.mpr p2
  have a1 : (1 - 5 / 10 ^ 7) * (c' v : ℝ) ≤ (1 - E) * c' v := mul_le_mul_of_nonneg_right (by linarith) p2'
  have a2 : (1 + E) * (5 / 4) ^ 10 * (c v : ℝ) ≤ (1 + 5 / 10 ^ 7) * (5 / 4) ^ 10 * c v :=
    mul_le_mul_of_nonneg_right (mul_le_mul_of_nonneg_right (by linarith) (by positivity)) p1'
  exact a1.trans (key.trans a2)

end HL

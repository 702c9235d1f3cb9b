import Verif.Proof.IPFAccuracyLimit
import Verif.Props.IPFConverges

/-
C136: how near the table that ipf returns is to the closest table, in exact arithmetic and in double precision.
-/

namespace HL
open Rate Micro

/-- from an absolute to a relative deviation -/
theorem nr_of_abs {S q e m : ℝ} (hm : 0 < m) (hq : m ≤ q) (he : 2 * e ≤ m) (h : |S - q| ≤ e) : Nr (2 * (e / m)) S q := by
  have he0 : 0 ≤ e := (abs_nonneg _).trans h
  obtain ⟨h1, h2⟩ := abs_le.mp h
  set t := e / m with ht
  have ht0 : 0 ≤ t := div_nonneg he0 hm.le
  have ht1 : t ≤ 1 / 2 := by rw [ht, div_le_iff₀ hm]; linarith
  have het : e = t * m := by rw [ht, div_mul_cancel₀ _ hm.ne']
  have heq : e ≤ t * q := by rw [het]; exact mul_le_mul_of_nonneg_left hq ht0
  have hx := Real.add_one_le_exp (2 * t)
  have hq0 : 0 < q := hm.trans_le hq
  have hS0 : 0 ≤ S := by nlinarith
  constructor
  · have : (1 + t) * q ≤ Real.exp (2 * t) * q := mul_le_mul_of_nonneg_right (by linarith) hq0.le
    linarith
  · have h3 : (1 - t) * q ≤ S := by linarith
    have h4 : (1 + 2 * t) * S ≤ Real.exp (2 * t) * S := mul_le_mul_of_nonneg_right (by linarith) hS0
    have h5 : (1 + 2 * t) * ((1 - t) * q) ≤ (1 + 2 * t) * S := mul_le_mul_of_nonneg_left h3 (by linarith)
    have h6 : 0 ≤ t * (1 - 2 * t) * q := mul_nonneg (mul_nonneg ht0 (by linarith)) hq0.le
    nlinarith

/-- from a factor to a part -/
theorem part_of_nr {B a x : ℝ} (hB0 : 0 ≤ B) (hB : B ≤ 1) (h : Nr B a x) (hx : 0 ≤ x) : |a - x| ≤ 2 * B * x := by
  have h1 := Real.abs_exp_sub_one_le (x := B) (by rwa [abs_of_nonneg hB0])
  rw [abs_of_nonneg hB0] at h1
  have h2 := (le_abs_self _).trans h1
  have h3 := Real.add_one_le_exp (-B)
  have h4 : x ≤ Real.exp B * a := h.2
  have h5 := mul_le_mul_of_nonneg_left h4 (Real.exp_pos (-B)).le
  rw [← mul_assoc, ← Real.exp_add, neg_add_cancel, Real.exp_zero, one_mul] at h5
  have h6 := mul_le_mul_of_nonneg_right h3 hx
  have h7 := mul_le_mul_of_nonneg_right h2 hx
  have h8 := h.1
  have h9 := mul_nonneg hB0 hx
  rw [abs_le]
  constructor <;> nlinarith

/-- **C136** in exact arithmetic.  Marginals without common dimensions (`K` of them), with entries of at least `m`, and a positive seed in
which every cross-product ratio between the dimensions of one marginal and those of the others is at most `ρ²`, where
`lam = (K - 1) (ρ - 1) / (ρ + 1)` is below one.  If `ipf` reports a largest deviation `e` of at most `m / 2`, then every cell of its table
is, up to a factor `exp ((2 K / (1 - lam) + 1) * 2 e / m)`, the cell of the table closest to the seed.  So the reported deviation from
the marginals also bounds the error of the cells, converged or not. -/
theorem C136_exact {s : List Nat} {Q : Prob ℚ} {pop : Int} (h : RatOK s Q pop) (hd : (Q.map Prod.fst).flatten.Nodup) {m : ℚ} (hm0 : 0 < m)
    (hm : ∀ q ∈ Q, ∀ j, InRange (projSizes q.1 s) j → m ≤ q.2 j) {b : List Int → ℚ} (hb : ∀ v, InRange s v → 0 < b v) {ρ : ℚ} (hρ : 1 ≤ ρ)
    (hR : ∀ k (hk : k < Q.length), OddsAtMost (ρ ^ 2) s Q[k].1 (restDims Q k) b) {lam : ℚ}
    (hlam : lam = ((Q.length - 1 : Nat) : ℚ) * ((ρ - 1) / (ρ + 1))) (hlam1 : lam < 1) {x : List Int → ℝ} (hx : IsClosest s Q b x)
    {r : IPF Fl} (hr : ipfExact s Q b = .ok r) :
    ∃ (c : List Int → ℚ) (e : ℚ), r.micro.array = finArr s c ∧ r.maxError = .fin e ∧ (2 * e ≤ m → ∀ v, InRange s v →
      (c v : ℝ) ≤ Real.exp ((2 * Q.length / (1 - lam) + 1) * (2 * (e / m))) * x v ∧
      x v ≤ Real.exp ((2 * Q.length / (1 - lam) + 1) * (2 * (e / m))) * c v) := by
  have hK := h.lists
  have hs : Splits s Q := splits_of_disjoint rfl h.toProbShape hd
  have hmp : ∀ q ∈ Q, ∀ j, InRange (projSizes q.1 s) j → 0 < q.2 j := fun q hq j hj => hm0.trans_le (hm q hq j hj)
  obtain ⟨pop', n, -, -, -, -, -, h1, -, -, h2⟩ := ipf_exact_fin h.toProbShape (properProb_of_disjoint h.toProbShape hd) hr
  refine ⟨(qsweep s Q)^[n] b, _, by rw [h1], h2, ?_⟩
  intro he v hv
  set e := qmax s Q ((qsweep s Q)^[n] b) with hed
  have hspec := (qmax_spec h.toProbShape ((qsweep s Q)^[n] b)).1
  have e0 : 0 ≤ e := by
    obtain ⟨q0, hq0⟩ : ∃ q, q ∈ Q := List.exists_mem_of_ne_nil Q (by rintro rfl; simp at hK)
    exact (abs_nonneg _).trans (hspec q0 hq0 _ (inRange_proj (dims_lt hs _ hq0) hv))
  have hmR : (0 : ℝ) < m := by exact_mod_cast hm0
  have hrun := steps_run hs hK hmp hb hR (n * Q.length)
  have key := closest_near h hd hmp hb hρ hR (lam := (lam : ℝ)) (by rw [hlam]; push_cast; rfl) (by exact_mod_cast hlam1) hx hrun le_rfl
    (δ := 2 * ((e : ℝ) / m)) (by have : (0 : ℝ) ≤ e := by exact_mod_cast e0
                                 positivity) (fun _ _ => rfl) (by
      intro q hq j hj
      have g1 : marginalSum s q.1 (fun v => ((steps s Q b (n * Q.length) v : ℚ) : ℝ)) j =
          ((marginalSum s q.1 ((qsweep s Q)^[n] b) j : ℚ) : ℝ) := by
        rw [steps_sweep]; unfold marginalSum; push_cast; rfl
      show Nr _ (marginalSum s q.1 (fun v => ((steps s Q b (n * Q.length) v : ℚ) : ℝ)) j) _
      rw [g1]
      exact nr_of_abs hmR (by exact_mod_cast hm q hq j hj) (by exact_mod_cast he) (by exact_mod_cast hspec q hq j hj)) hv
  simp only [mul_zero, zero_add, add_zero, steps_sweep] at key
  have eB : (Q.length : ℝ) * (2 * (2 * ((e : ℝ) / m)) / (1 - lam)) + 2 * ((e : ℝ) / m) =
      (2 * Q.length / (1 - lam) + 1) * (2 * ((e : ℝ) / m)) := by
    ring
  rw [eB] at key
  exact key

/-- **C136** in exact arithmetic, an instance: two marginals without common dimensions, entries of at least one, and cross-product
ratios of the seed of at most four.  If `ipf` converges, every cell is right to within 0.3 parts in a million. -/
theorem C136_two {s : List Nat} {p q : List Nat × (List Int → ℚ)} {pop : Int} (h : RatOK s [p, q] pop) (hd : (p.1 ++ q.1).Nodup)
    (hm : ∀ q' ∈ [p, q], ∀ j, InRange (projSizes q'.1 s) j → 1 ≤ q'.2 j) {b : List Int → ℚ} (hb : ∀ v, InRange s v → 0 < b v)
    (hR : OddsAtMost 4 s p.1 q.1 b) {x : List Int → ℝ} (hx : IsClosest s [p, q] b x) {r : IPF Fl} (hr : ipfExact s [p, q] b = .ok r)
    (hc : r.conv = true) :
    ∃ c : List Int → ℚ, r.micro.array = finArr s c ∧ ∀ v, InRange s v → |(c v : ℝ) - x v| ≤ 3 / 10 ^ 7 * x v := by
  have hR' : OddsAtMost 4 s q.1 p.1 b := by
    intro v v' w w' hv hv' hw hw' e1 e2 e3 e4
    have := hR v v' w' w hv hv' hw' hw e4 e3 e2 e1
    rwa [mul_comm (b w') (b w)] at this
  have hd' : ([p, q].map Prod.fst).flatten.Nodup := by simpa using hd
  obtain ⟨c, e, h1, h2, h3⟩ := C136_exact h hd' (m := 1) one_pos hm hb (ρ := 2) (by norm_num) (by
    intro k hk
    have e : ((2 : ℚ) ^ 2) = 4 := by norm_num
    rw [e]
    have hk' : k < 2 := hk
    interval_cases k
    · simpa [restDims] using hR
    · simpa [restDims] using hR') (lam := 1 / 3) (by norm_num) (by norm_num) hx hr
  refine ⟨c, h1, fun v hv => ?_⟩
  obtain ⟨c', e', g1, g2, g3, ⟨q', hq', j, hj, g4⟩, g5, -⟩ := C29_conv_exact h.toProbShape (properProb_of_disjoint h.toProbShape hd') hr
  rw [h2] at g2
  injection g2 with g2
  subst g2
  have he := g5.mp hc
  have he0 : 0 ≤ e := g4 ▸ abs_nonneg _
  have key := h3 (by norm_num at he ⊢; linarith) v hv
  have eB : (2 * (([p, q].length : Nat) : ℝ) / (1 - ((1 / 3 : ℚ) : ℝ)) + 1) * (2 * ((e : ℝ) / ((1 : ℚ) : ℝ))) = 14 * e := by
    push_cast
    simp only [List.length_cons, List.length_nil]
    norm_num
    ring
  rw [eB] at key
  have heR : (e : ℝ) ≤ 1 / 10 ^ 8 := by
    have : (e : ℝ) < ((1 / 10 ^ 8 : ℚ) : ℝ) := by exact_mod_cast he
    push_cast at this
    exact this.le
  have heR0 : (0 : ℝ) ≤ e := by exact_mod_cast he0
  have hx0 := hx.nonneg v hv
  refine (part_of_nr (B := 14 * e) (by linarith) (by norm_num at heR ⊢; linarith) key hx0).trans ?_
  refine mul_le_mul_of_nonneg_right ?_ hx0
  norm_num at heR ⊢
  linarith

/-- **C136**: under these conditions there is exactly one closest table. -/
theorem C136_exists {s : List Nat} {Q : Prob ℚ} {pop : Int} (h : RatOK s Q pop) (hd : (Q.map Prod.fst).flatten.Nodup) (hpop : 0 < pop)
    {b : List Int → ℚ} (hb : ∀ v, InRange s v → 0 < b v) :
    ∃ x, IsClosest s Q b x ∧ ∀ x', IsClosest s Q b x' → ∀ v, InRange s v → x' v = x v := by
  have hs : Splits s Q := splits_of_disjoint rfl h.toProbShape hd
  have hT : (0 : ℚ) < pop := by exact_mod_cast hpop
  -- independence
  set t : List Int → ℚ := fun v => prodAt Q v / (pop : ℚ) ^ (Q.length - 1) with ht
  have hlen : ∀ A : Prob ℚ, (∀ q ∈ A, q ∈ Q) → (A.map (fun q => ∑ j ∈ cells (projSizes q.1 s), q.2 j)).prod = (pop : ℚ) ^ A.length := by
    intro A hA
    rw [List.map_congr_left (fun q hq => h.total q (hA q hq)), List.map_const', List.prod_replicate]
  have ht0 : NonnegTable s (realTable t) := by
    intro v hv
    refine Rat.cast_nonneg.mpr (div_nonneg (List.prod_nonneg ?_) (by positivity))
    intro a ha
    obtain ⟨q, hq, rfl⟩ := List.mem_map.mp ha
    exact h.nonneg q hq _ (inRange_proj (h.dims q hq).2 hv)
  have htm : MeetsMarginals s Q (realTable t) := by
    intro q hq j hj
    rw [Ent.margin_cast, Rat.cast_inj]
    obtain ⟨A, B, e⟩ := List.append_of_mem hq
    have h1 := marginalSum_prodAt (e ▸ hs) hj
    rw [hlen A (fun q hq => by rw [e]; simp [hq]), hlen B (fun q hq => by rw [e]; simp [hq]), ← e] at h1
    have h2 : marginalSum s q.1 t j = marginalSum s q.1 (prodAt Q) j / (pop : ℚ) ^ (Q.length - 1) := by
      unfold marginalSum
      rw [Finset.sum_div]
    have e3 : Q.length - 1 = A.length + B.length := by rw [e]; simp
    rw [h2, h1, e3, pow_add]
    field_simp
  have hv : VanishesWith s (realTable t) (realTable b) := fun v hv h0 =>
    absurd (Rat.cast_eq_zero.mp h0) (hb v hv).ne'
  obtain ⟨x, hx0, hxm, hxb, -, hxq⟩ := Ent.exists_limit (real_ne_nil h.toProbShape) (dims_real h.toProbShape)
    (fun v hv => Rat.cast_nonneg.mpr (hb v hv).le) ht0 (Ent.meets_real.mp htm) hv
  have hxm' := Ent.meets_real.mpr hxm
  have hc : IsClosest s Q b x := ⟨hx0, hxm', hxb, fun q hq0 hqm hqb => by
    obtain ⟨h1, h2⟩ := hxq q hq0 (Ent.meets_real.mp hqm) hqb
    change relEntropy s q (realTable b) = relEntropy s q x + relEntropy s x (realTable b) at h2
    have := Ent.entropy_nonneg hq0 hx0 h1 (by rw [total_pop h hqm, total_pop h hxm'])
    linarith⟩
  refine ⟨x, hc, fun x' hx' v hv => ?_⟩
  exact tendsto_nhds_unique (closest_limit h (fun v hv => (hb v hv).le) hx' v hv) (closest_limit h (fun v hv => (hb v hv).le) hc v hv)

/-! ### Double precision -/

/-- a deviation below the tolerance, as computed -/
theorem dev_true (hfp : fp.Good) {S m : ℚ} (hb : |S - m| ≤ Integerise.hugeQ)
    (h : fp.sub (.fin S) (.fin m) = .nan ∨ FP.lt (FP.abs (fp.sub (.fin S) (.fin m))) (tol8 fp) = true) : |S - m| ≤ 11 / 10 ^ 9 := by
  obtain ⟨d, hd1, hd2, -⟩ := relA_rnd hfp hb
  have e : fp.sub (.fin S) (.fin m) = .fin d := by
    show fp.rnd (S + -m) = _
    rw [← sub_eq_add_neg, hd1]
  obtain ⟨t, h1, h2, -⟩ := relA_rnd hfp (q := 1 / 10 ^ 8) (by
    rw [abs_of_pos (by norm_num)]
    have := Integerise.hugeQ_ge
    refine le_trans ?_ this
    norm_num)
  obtain ⟨t', h3, h4⟩ := tol8_good hfp
  have h3' := h3
  rw [tol8, h1] at h3
  injection h3 with h3
  subst h3
  rw [e, h3'] at h
  rcases h with h | h
  · cases h
  simp only [FP.abs, FP.lt, decide_eq_true_eq] at h
  rw [abs_of_pos h4, abs_of_pos (show (0 : ℚ) < 1 / 10 ^ 8 by norm_num)] at h2
  have h5 := h2.2
  have h6 := hd2.1
  have h7 := tinyQ_le'
  have h8 : (1 : ℚ) / 2 ^ 200 ≤ 1 / 10 ^ 50 := by norm_num
  unfold uu at h5 h6
  norm_num at h5 h6 h8 ⊢
  linarith

/-- the numbers of `C136_double` -/
theorem acc_part {Kn fn n : Nat} {lam : ℝ} (hK : 2 ≤ Kn) (hn : n ≤ 100) (hsm : 4 * Kn ^ 2 * (fn + 2) + fn + 1 ≤ 89000000) (hl2 : lam ≤ 1 / 2) :
    0 ≤ (Kn : ℝ) * (2 * (((n * Kn : Nat) : ℝ) * (((fn + 2 : Nat) : ℝ) * eta) + (fn * eta + 22 / 10 ^ 9)) / (1 - lam)) +
      2 * (((n * Kn : Nat) : ℝ) * (((fn + 2 : Nat) : ℝ) * eta)) + (fn * eta + 22 / 10 ^ 9) ∧
    (Kn : ℝ) * (2 * (((n * Kn : Nat) : ℝ) * (((fn + 2 : Nat) : ℝ) * eta) + (fn * eta + 22 / 10 ^ 9)) / (1 - lam)) +
      2 * (((n * Kn : Nat) : ℝ) * (((fn + 2 : Nat) : ℝ) * eta)) + (fn * eta + 22 / 10 ^ 9) ≤ 1 ∧
    2 * ((Kn : ℝ) * (2 * (((n * Kn : Nat) : ℝ) * (((fn + 2 : Nat) : ℝ) * eta) + (fn * eta + 22 / 10 ^ 9)) / (1 - lam)) +
      2 * (((n * Kn : Nat) : ℝ) * (((fn + 2 : Nat) : ℝ) * eta)) + (fn * eta + 22 / 10 ^ 9)) ≤
      (8 * Kn + 4) * (22 / 10 ^ 9 + 13 / 10 ^ 15 * (Kn * (fn + 2))) := by
  have heta := eta_ge
  have heta0 : 0 < eta := lt_of_lt_of_le (by norm_num) heta
  have heta1 := eta_le
  have e1 : ((n * Kn : Nat) : ℝ) = n * Kn := by push_cast; rfl
  have e2 : ((fn + 2 : Nat) : ℝ) = fn + 2 := by push_cast; rfl
  have g1 : ((4 * Kn ^ 2 * (fn + 2) + fn + 1 : Nat) : ℝ) ≤ 89000000 := by exact_mod_cast hsm
  push_cast at g1
  rw [e1, e2]
  have hKr : (2 : ℝ) ≤ Kn := by exact_mod_cast hK
  have hn0 : (0 : ℝ) ≤ n := Nat.cast_nonneg n
  have hn1 : (n : ℝ) ≤ 100 := by exact_mod_cast hn
  have hf0 : (0 : ℝ) ≤ fn := Nat.cast_nonneg fn
  generalize (Kn : ℝ) = K at *
  generalize (n : ℝ) = n at *
  generalize (fn : ℝ) = f at *
  generalize eta = η at *
  have hF2 : 2 ≤ f + 2 := by linarith
  set F := f + 2 with hF
  have hKF0 : 0 ≤ K * F := mul_nonneg (by linarith) (by linarith)
  have hKF1 : 2 * F ≤ K * F := mul_le_mul_of_nonneg_right hKr (by linarith)
  set β : ℝ := n * K * (F * η) with hβ
  have hKFη : 0 ≤ K * F * η := mul_nonneg hKF0 heta0.le
  have hβ1 : β ≤ 100 * (K * F * η) := by
    have := mul_le_mul_of_nonneg_right hn1 hKFη
    rw [hβ]
    linarith
  have hβ0 : 0 ≤ β := by
    have := mul_nonneg hn0 hKFη
    rw [hβ]
    linarith
  set δ : ℝ := f * η + 22 / 10 ^ 9 with hδ
  have hδ0 : 0 ≤ δ := by rw [hδ]; positivity
  have hfKF : f * η ≤ K * F * η := mul_le_mul_of_nonneg_right (by linarith) heta0.le
  set D : ℝ := 22 / 10 ^ 9 + 13 / 10 ^ 15 * (K * F) with hD
  have hsum : β + δ ≤ D := by
    have g1 := mul_le_mul_of_nonneg_left heta1 hKF0
    have g2 : β + δ ≤ 101 * (K * F * η) + 22 / 10 ^ 9 := by rw [hδ]; linarith
    rw [hD]
    norm_num at g1 g2 ⊢
    linarith
  have hB : K * (2 * (β + δ) / (1 - lam)) + 2 * β + δ ≤ (4 * K + 2) * D := by
    have g1 : 2 * (β + δ) / (1 - lam) ≤ 4 * (β + δ) := by
      rw [div_le_iff₀ (by linarith)]
      have := mul_nonneg (show 0 ≤ β + δ by linarith) (show 0 ≤ 1 / 2 - lam by linarith)
      linarith
    have g2 := mul_le_mul_of_nonneg_left g1 (show 0 ≤ K by linarith)
    have g3 := mul_le_mul_of_nonneg_left hsum (show 0 ≤ 4 * K + 2 by linarith)
    linarith
  have hB0 : 0 ≤ K * (2 * (β + δ) / (1 - lam)) + 2 * β + δ := by
    have : 0 ≤ 2 * (β + δ) / (1 - lam) := div_nonneg (by linarith) (by linarith)
    have := mul_nonneg (show 0 ≤ K by linarith) this
    linarith
  have hKKF : 4 * (K * (K * F)) ≤ 89000000 := by
    have e : 4 * K ^ 2 * F = 4 * (K * (K * F)) := by ring
    rw [e] at g1
    linarith
  have hKKF1 : K * (2 * F) ≤ K * (K * F) := mul_le_mul_of_nonneg_left hKF1 (by linarith)
  have hK4 : 16 * K ≤ 89000000 := by
    have : K * (2 * 2) ≤ K * (2 * F) := mul_le_mul_of_nonneg_left (by linarith) (by linarith)
    linarith
  have hD1 : (4 * K + 2) * D ≤ 1 := by
    have g1 : (4 * K + 2) * (K * F) ≤ 5 * (K * (K * F)) := by
      have := mul_le_mul_of_nonneg_right hKr hKF0
      linarith
    have e : (4 * K + 2) * D = 22 / 10 ^ 9 * (4 * K + 2) + 13 / 10 ^ 15 * ((4 * K + 2) * (K * F)) := by rw [hD]; ring
    rw [e]
    norm_num
    linarith
  refine ⟨hB0, hB.trans hD1, ?_⟩
  have : (8 * K + 4) * D = 2 * ((4 * K + 2) * D) := by ring
  rw [this]
  linarith

section double
variable {s : List Nat} {Q : Prob ℚ} {pop : Int} (h : RatOK s Q pop) (hd : (Q.map Prod.fst).flatten.Nodup) {b : List Int → ℚ}
  {lo hi ρ : ℚ} {f : Nat} (hmo : Modest s Q pop b lo hi ρ f)
include h hd hmo

/-- **C136** in double precision, under the conditions of `C135_odds` and with no entry of a marginal below one: every cell of the table
that `ipf` returns is the cell of the closest table (in exact arithmetic) up to the part `(8 K + 4) (2.2e-8 + 1.3e-14 K (f + 2))`. -/
theorem C136_odds (hfp : fp.Good) {R : ℚ} (hR1 : 1 ≤ R)
    (hodds : ∀ k (hk : k < Q.length), OddsAtMost (R ^ 2) s Q[k].1 (restDims Q k) b) (hnear : ((Q.length - 1 : Nat) : ℚ) * (R - 1) ≤ 9 / 10)
    (hsmall : pop * (4 * Q.length ^ 2 * (f + 2) + f + 1) ≤ 89000000) (hone : ∀ q ∈ Q, ∀ j, InRange (projSizes q.1 s) j → 1 ≤ q.2 j)
    {x : List Int → ℝ} (hx : IsClosest s Q b x) {r : IPF Fl}
    (hr : IPF.run false fp (numFl fp) (indicesOf (finProb Q)) (marginalsOf s (finProb Q)) (finArr s b) = .ok r) :
    ∃ c : List Int → ℚ, r.micro.array = finArr s c ∧ ∀ v, InRange s v →
      |(c v : ℝ) - x v| ≤ (8 * Q.length + 4) * (22 / 10 ^ 9 + 13 / 10 ^ 15 * (Q.length * (f + 2))) * x v := by
  have hK := h.lists
  obtain ⟨hconv, hit⟩ := C135_odds h hd hmo hfp hR1 hodds hnear hsmall hr
  have hs : Splits s Q := splits_of_disjoint rfl h.toProbShape hd
  have hlo := hmo.lo_pos
  have hpopp := pop_pos h hmo.pos
  have hpop1 : (1 : Int) ≤ pop := by
    have : (0 : ℚ) < (pop : ℚ) := hpopp
    have : (0 : Int) < pop := by exact_mod_cast this
    omega
  have hRN : 4 * Q.length ^ 2 * (f + 2) + f + 1 ≤ 89000000 := by
    have h1 : (0 : Int) ≤ 4 * (Q.length : Int) ^ 2 * (f + 2) + f + 1 := by positivity
    have h2 : (4 * (Q.length : Int) ^ 2 * (f + 2) + f + 1) ≤ 89000000 := le_trans (le_mul_of_one_le_left h1 hpop1) hsmall
    exact_mod_cast h2
  have hpop9 : (pop : ℚ) ≤ 89000000 := by
    have h1 : (1 : Int) ≤ 4 * (Q.length : Int) ^ 2 * (f + 2) + f + 1 := by
      have : (0 : Int) ≤ 4 * (Q.length : Int) ^ 2 * (f + 2) + f := by positivity
      omega
    have h2 : pop ≤ 89000000 := le_trans (le_mul_of_one_le_right (by omega) h1) hsmall
    exact_mod_cast h2
  obtain ⟨pop', n, -, h1, h2, h3, h4, rfl⟩ := ipf_run fp (numFl fp) (minOK_fl _)
    (probShape_congr (fst_finProb Q).symm h.toProbShape) (properProb_fin (properProb_of_disjoint h.toProbShape hd)) _ hr
  have hit : n ≤ 100 := hit
  obtain ⟨c, W', hW, -, hc⟩ := modest_run h hd hmo hfp (n := n) h2
  have hrun := near_run h hd hmo hfp (N := n * Q.length) (Nat.mul_lt_mul_of_pos_right (by omega) (by omega))
  have hyc : ∀ v, InRange s v → flVal (dtab fp s Q b (n * Q.length) v) = c v := by
    intro v hv
    have e2 : n * Q.length = n * Q.length + 0 := by omega
    rw [e2, dtab_at n (Nat.zero_le _) (by omega)]
    have : sweep fp (numFl fp) s ((finProb Q).take 0) ((sweep fp (numFl fp) s (finProb Q))^[n] (fun v => .fin (b v))) v =
      .fin (c v) := hc.agree v hv
    rw [this]
    rfl
  refine ⟨c, arr_congr fun v hv => hc.agree v hv, fun v hv => ?_⟩
  have heta := eta_ge
  have heta0 : 0 < eta := lt_of_lt_of_le (by norm_num) heta
  have heta1 := eta_le
  -- the margins
  have hmar : ∀ q ∈ Q, ∀ j, InRange (projSizes q.1 s) j → Nr (f * eta + 22 / 10 ^ 9) ((marginalSum s q.1 c j : ℚ) : ℝ) (q.2 j : ℝ) := by
    intro q hq j hj
    have hf' : f ≤ 2 ^ 50 := by have := hmo.few; omega
    have hB : marginalSum s q.1 c j ≤ 2 ^ 251 := by
      have h5 : marginalSum s q.1 c j ≤ ((cells s).filter (fun w => proj q.1 w = j)).card • (2 : ℚ) ^ 201 :=
        Finset.sum_le_card_nsmul _ _ _ (fun w hw => (hc.size w (mem_cells.mp (Finset.mem_filter.mp hw).1)).2)
      rw [nsmul_eq_mul] at h5
      have h6 : ((((cells s).filter (fun w => proj q.1 w = j)).card : ℕ) : ℚ) ≤ 2 ^ 50 := by
        exact_mod_cast (hmo.cellsPer q hq j).trans hf'
      refine h5.trans ((mul_le_mul_of_nonneg_right h6 (by positivity)).trans (le_of_eq ?_))
      rw [← pow_add]
    obtain ⟨S, hS1, hS2⟩ := fsum_rel hfp (s := s) (ds := q.1) (j := j) (K := 0) (f := f)
      (a := (sweep fp (numFl fp) s (finProb Q))^[n] (fun v => .fin (b v))) (y := c) (lo := 1 / 2 ^ 200) (B := 2 ^ 251)
      (by
        have := tinyQ_le_mid
        refine le_trans (mul_le_mul_of_nonneg_left this (by norm_num)) ?_
        rw [← mul_div_assoc, div_le_div_iff₀ (by positivity) (by positivity), mul_one, one_mul, ← pow_succ']
        exact pow_le_pow_right₀ (by norm_num) (by norm_num))
      (by
        refine le_trans ?_ hugeQ_ge_mid
        rw [← pow_succ']
        exact pow_le_pow_right₀ (by norm_num) (by norm_num))
      (fun v hv => ⟨c v, hc.agree v hv, Rel.refl _, .inr (hc.size v hv).1⟩) (hmo.cellsPer q hq j) (by omega) hB
    rw [zero_add] at hS2
    have hc0 : 0 ≤ marginalSum s q.1 c j := marginalSum_nonneg (fun v hv => le_trans (by positivity) (hc.size v hv).1) j
    have hS0 := hS2.nonneg hc0
    have hq1 := hone q hq j hj
    have hqp : q.2 j ≤ pop := by
      rw [← h.total q hq]
      exact Finset.single_le_sum (f := q.2) (fun j hj => h.nonneg q hq j (mem_cells.mp hj)) (mem_cells.mpr hj)
    have hSB : S ≤ 2 ^ 252 := by
      have hu := uu_pow_ge f
      have hf9 : (f : ℚ) ≤ 2 ^ 50 := by exact_mod_cast hf'
      have h5 : (1 / 2 : ℚ) ≤ uu ^ f := by
        refine le_trans ?_ hu
        have : (f : ℚ) / 2 ^ 53 ≤ 2 ^ 50 / 2 ^ 53 := by gcongr
        norm_num at this ⊢
        linarith
      have h6 := mul_le_mul_of_nonneg_right h5 hS0
      have h7 := hS2.2
      have e : (2 : ℚ) ^ 252 = 2 * 2 ^ 251 := by rw [← pow_succ']
      rw [e]
      linarith
    have hdev := (maxDev_lt fp (numFl fp) (finProb Q) hconv).2 _ (mem_finProb.mpr ⟨q, hq, rfl⟩) j hj
    change fp.sub (fsum fp s q.1 _ j) (.fin (q.2 j)) = .nan ∨
      FP.lt (FP.abs (fp.sub (fsum fp s q.1 _ j) (.fin (q.2 j)))) (tol8 fp) = true at hdev
    rw [hS1] at hdev
    have hhuge : |S - q.2 j| ≤ Integerise.hugeQ := by
      refine le_trans ?_ hugeQ_ge_mid
      have g1 : (2 : ℚ) ^ 252 ≤ 2 ^ 700 := pow_le_pow_right₀ (by norm_num) (by norm_num)
      have g2 : (89000000 : ℚ) ≤ 2 ^ 700 := le_trans (by norm_num : (89000000 : ℚ) ≤ 2 ^ 30) (pow_le_pow_right₀ (by norm_num) (by norm_num))
      have g3 : S - q.2 j ≤ 2 ^ 252 := by linarith
      have g4 : q.2 j - S ≤ 89000000 := by linarith
      exact abs_le'.mpr ⟨g3.trans g1, by rw [neg_sub]; exact g4.trans g2⟩
    have habs := dev_true hfp hhuge hdev
    have n1 : Nr (2 * ((11 / 10 ^ 9 : ℝ) / 1)) (S : ℝ) (q.2 j : ℝ) := by
      refine nr_of_abs one_pos (by exact_mod_cast hq1) (by norm_num) ?_
      have : ((|S - q.2 j| : ℚ) : ℝ) ≤ ((11 / 10 ^ 9 : ℚ) : ℝ) := by exact_mod_cast habs
      push_cast at this
      exact this
    have n2 : Nr (f * eta) (S : ℝ) ((marginalSum s q.1 c j : ℚ) : ℝ) := nr_iff_rel.mpr hS2
    have n3 := n2.symm.trans n1
    convert n3 using 1
    norm_num
  -- the seed
  have hb0 : ∀ v, InRange s v → 0 < b v := fun v hv => hlo.trans_le (hmo.seed v hv).1
  set lam : ℝ := ((Q.length - 1 : Nat) : ℝ) * (((R : ℝ) - 1) / ((R : ℝ) + 1)) with hlam
  have hR1R : (1 : ℝ) ≤ (R : ℝ) := by exact_mod_cast hR1
  have hl2 : lam ≤ 1 / 2 := by
    rw [hlam, ← mul_div_assoc, div_le_iff₀ (by linarith)]
    have g2 : ((Q.length - 1 : Nat) : ℝ) * ((R : ℝ) - 1) ≤ 9 / 10 := by
      have : ((((Q.length - 1 : Nat) : ℚ) * (R - 1) : ℚ) : ℝ) ≤ ((9 / 10 : ℚ) : ℝ) := by exact_mod_cast hnear
      push_cast at this
      exact this
    linarith
  have key := closest_near h hd hmo.pos hb0 hR1 hodds (lam := lam) rfl (by linarith) hx hrun (by positivity)
    (δ := f * eta + 22 / 10 ^ 9) (by positivity)
    (fun v hv => by
      have e2 : (0 : Nat) = 0 * Q.length + 0 := by omega
      show ((flVal (dtab fp s Q b 0 v) : ℚ) : ℝ) = _
      rw [e2, dtab_at 0 (Nat.zero_le _) (by omega)]
      rfl)
    (fun q hq j hj => by
      have := hmar q hq j hj
      convert this using 1
      unfold marginalSum
      push_cast
      exact Finset.sum_congr rfl fun w hw => by rw [hyc w (mem_cells.mp (Finset.mem_filter.mp hw).1)]) hv
  rw [hyc v hv] at key
  obtain ⟨hB0, hB1, hB2⟩ := acc_part (fn := f) hK hit hRN hl2
  exact (part_of_nr hB0 hB1 key (hx.nonneg v hv)).trans (mul_le_mul_of_nonneg_right hB2 (hx.nonneg v hv))

/-- **C136** in double precision, under the conditions of C135 and with no entry of a marginal below one: every cell of the table that
`ipf` returns is the cell of the closest table (in exact arithmetic) up to the part `(8 K + 4) (2.2e-8 + 1.3e-14 K (f + 2))`. -/
theorem C136_double (hfp : fp.Good) (hspread : ((Q.length - 1 : Nat) : ℚ) * (hi - lo) ≤ 9 / 10 * lo)
    (hsmall : pop * (4 * Q.length ^ 2 * (f + 2) + f + 1) ≤ 89000000) (hone : ∀ q ∈ Q, ∀ j, InRange (projSizes q.1 s) j → 1 ≤ q.2 j)
    {x : List Int → ℝ} (hx : IsClosest s Q b x) {r : IPF Fl}
    (hr : IPF.run false fp (numFl fp) (indicesOf (finProb Q)) (marginalsOf s (finProb Q)) (finArr s b) = .ok r) :
    ∃ c : List Int → ℚ, r.micro.array = finArr s c ∧ ∀ v, InRange s v →
      |(c v : ℝ) - x v| ≤ (8 * Q.length + 4) * (22 / 10 ^ 9 + 13 / 10 ^ 15 * (Q.length * (f + 2))) * x v := by
  have hlo := hmo.lo_pos
  have hb0 : ∀ v, InRange s v → 0 < b v := fun v hv => hlo.trans_le (hmo.seed v hv).1
  have hR1 : 1 ≤ hi / lo := (one_le_div hlo).mpr hmo.seedOrder
  refine C136_odds h hd hmo hfp hR1 ?_ ?_ hsmall hone hx hr
  · intro k hk v v' w w' hv hv' hw hw' _ _ _ _
    have g1 := (hmo.seed v hv).2
    have g2 := (hmo.seed v' hv').2
    have g3 := mul_le_mul g1 g2 (hb0 v' hv').le (hlo.le.trans hmo.seedOrder)
    have g4 := mul_le_mul (hmo.seed w hw).1 (hmo.seed w' hw').1 hlo.le (hb0 w hw).le
    have g5 := mul_le_mul_of_nonneg_left g4 (sq_nonneg (hi / lo))
    refine g3.trans (le_trans (le_of_eq ?_) g5)
    field_simp
  · have e : ((Q.length - 1 : Nat) : ℚ) * (hi / lo - 1) = ((Q.length - 1 : Nat) : ℚ) * (hi - lo) / lo := by field_simp
    rw [e, div_le_iff₀ hlo]
    exact hspread

end double

/-! ### The hypotheses are met -/

theorem gentle_pos : ∀ v, InRange [2, 2] v → 0 < gentleSeed v := fun v hv => one_pos.trans_le (gentle_modest.seed v hv).1

theorem mid_one : ∀ q ∈ ratProb midProb, ∀ j, InRange (projSizes q.1 [2, 2]) j → 1 ≤ q.2 j := by
  have key : ∀ q ∈ ratProb midProb, ∀ j ∈ allIdx (projSizes q.1 [2, 2]), 1 ≤ q.2 j := by decide +kernel
  exact fun q hq j hj => key q hq j (mem_allIdx.mpr hj)

/-- A million people in two by two categories, exact arithmetic: `ipf` runs, the closest table exists, and all the cells are near it. -/
example : ∃ r x c, ipfExact [2, 2] (ratProb midProb) gentleSeed = .ok r ∧ IsClosest [2, 2] (ratProb midProb) gentleSeed x ∧
    r.micro.array = finArr [2, 2] c ∧ ∀ v, InRange [2, 2] v → |(c v : ℝ) - x v| ≤ 3 / 10 ^ 7 * x v := by
  have hok := ratOK_ratProb midProb_ok
  have hp : ProperProb [2, 2] (ratProb midProb) := by unfold ProperProb; decide
  obtain ⟨r, hr⟩ := ipf_run_ok _ _ (minOK_fl _) (ratOK_accepted hok (by norm_num)) (properProb_fin hp) (fun v => .fin (gentleSeed v))
  obtain ⟨x, hx, -⟩ := C136_exists hok (by decide) (by norm_num) gentle_pos
  have hodds : ∀ M : ℚ, 25 / 16 ≤ M → OddsAtMost M [2, 2] [0] [1] gentleSeed := by
    intro M hM v v' w w' hv hv' hw hw' _ _ _ _
    have g1 := gentle_modest.seed v hv
    have g2 := gentle_modest.seed v' hv'
    have g3 := gentle_modest.seed w hw
    have g4 := gentle_modest.seed w' hw'
    have h1 : gentleSeed v * gentleSeed v' ≤ 5 / 4 * (5 / 4) := mul_le_mul g1.2 g2.2 (by linarith) (by norm_num)
    have h2 : 1 * 1 ≤ gentleSeed w * gentleSeed w' := mul_le_mul g3.1 g4.1 (by norm_num) (by linarith)
    have h3 := mul_le_mul_of_nonneg_left h2 (show 0 ≤ M by linarith)
    linarith
  obtain ⟨c, h1, h2⟩ := C136_two (p := (ratProb midProb)[0]) (q := (ratProb midProb)[1]) hok (by decide) mid_one gentle_pos
    (hodds 4 (by norm_num)) hx hr
    (C134_two hok.toProbShape (by decide) (T := 1000000) (by norm_num) (fun q hq => (hok.total q hq).trans (by norm_num)) (by norm_num)
      gentle_pos (hodds 6400 (by norm_num)) hr)
  exact ⟨r, x, c, hr, hx, h1, h2⟩

/-- The same in binary64. -/
example (sqrt : Fl → Fl) : ∃ r x c, IPF.run false (FP.ieee sqrt) (numFl (FP.ieee sqrt)) (indicesOf (finProb (ratProb midProb)))
      (marginalsOf [2, 2] (finProb (ratProb midProb))) (finArr [2, 2] gentleSeed) = .ok r ∧
      IsClosest [2, 2] (ratProb midProb) gentleSeed x ∧ r.micro.array = finArr [2, 2] c ∧
      ∀ v, InRange [2, 2] v → |(c v : ℝ) - x v| ≤ 5 / 10 ^ 7 * x v := by
  have hok := ratOK_ratProb midProb_ok
  obtain ⟨r0, h0, -, -⟩ := mid_run sqrt
  have hp : ProperProb [2, 2] (ratProb midProb) := by unfold ProperProb; decide
  obtain ⟨pop, n, hok', -⟩ := ipf_run (FP.ieee sqrt) (numFl (FP.ieee sqrt)) (minOK_fl _)
    (probShape_congr (fst_finProb (ratProb midProb)).symm hok.toProbShape) (properProb_fin hp) _
    (by rw [fin_ratProb]; exact h0)
  obtain ⟨r, hr⟩ := ipf_run_ok (FP.ieee sqrt) (numFl (FP.ieee sqrt)) (minOK_fl _) hok' (properProb_fin hp) (fun v => .fin (gentleSeed v))
  obtain ⟨x, hx, -⟩ := C136_exists hok (by decide) (by norm_num) gentle_pos
  obtain ⟨c, h1, h2⟩ := C136_double hok (by decide) gentle_modest (FP.ieee_good sqrt)
    (by show ((1 : Nat) : ℚ) * (5 / 4 - 1) ≤ 9 / 10 * 1; norm_num)
    (by show (1000000 : Int) * (4 * ((2 : Nat) : Int) ^ 2 * (((2 : Nat) : Int) + 2) + ((2 : Nat) : Int) + 1) ≤ 89000000; norm_num)
    mid_one hx hr
  refine ⟨r, x, c, hr, hx, h1, fun v hv => (h2 v hv).trans (mul_le_mul_of_nonneg_right ?_ (hx.nonneg v hv))⟩
  show ((8 : ℝ) * ((2 : Nat) : ℝ) + 4) * (22 / 10 ^ 9 + 13 / 10 ^ 15 * (((2 : Nat) : ℝ) * (((2 : Nat) : ℝ) + 2))) ≤ 5 / 10 ^ 7
  norm_num

/-- A seed whose cells differ by a factor of 250 (`tallSeed`), in binary64. -/
example (sqrt : Fl → Fl) : ∃ r x c, IPF.run false (FP.ieee sqrt) (numFl (FP.ieee sqrt)) (indicesOf (finProb (ratProb midProb)))
      (marginalsOf [2, 2] (finProb (ratProb midProb))) (finArr [2, 2] tallSeed) = .ok r ∧
      IsClosest [2, 2] (ratProb midProb) tallSeed x ∧ r.micro.array = finArr [2, 2] c ∧
      ∀ v, InRange [2, 2] v → |(c v : ℝ) - x v| ≤ 5 / 10 ^ 7 * x v := by
  have hok := ratOK_ratProb midProb_ok
  obtain ⟨r0, h0, -, -⟩ := mid_run sqrt
  have hp : ProperProb [2, 2] (ratProb midProb) := by unfold ProperProb; decide
  obtain ⟨pop, n, hok', -⟩ := ipf_run (FP.ieee sqrt) (numFl (FP.ieee sqrt)) (minOK_fl _)
    (probShape_congr (fst_finProb (ratProb midProb)).symm hok.toProbShape) (properProb_fin hp) _
    (by rw [fin_ratProb]; exact h0)
  obtain ⟨r, hr⟩ := ipf_run_ok (FP.ieee sqrt) (numFl (FP.ieee sqrt)) (minOK_fl _) hok' (properProb_fin hp) (fun v => .fin (tallSeed v))
  obtain ⟨x, hx, -⟩ := C136_exists hok (by decide) (by norm_num) (fun v hv => one_pos.trans_le (tall_modest.seed v hv).1)
  obtain ⟨c, h1, h2⟩ := C136_odds hok (by decide) tall_modest (FP.ieee_good sqrt) (R := 6 / 5) (by norm_num) tall_odds
    (by show ((1 : Nat) : ℚ) * (6 / 5 - 1) ≤ 9 / 10; norm_num)
    (by show (1000000 : Int) * (4 * ((2 : Nat) : Int) ^ 2 * (((2 : Nat) : Int) + 2) + ((2 : Nat) : Int) + 1) ≤ 89000000; norm_num)
    mid_one hx hr
  refine ⟨r, x, c, hr, hx, h1, fun v hv => (h2 v hv).trans (mul_le_mul_of_nonneg_right ?_ (hx.nonneg v hv))⟩
  show ((8 : ℝ) * ((2 : Nat) : ℝ) + 4) * (22 / 10 ^ 9 + 13 / 10 ^ 15 * (((2 : Nat) : ℝ) * (((2 : Nat) : ℝ) + 2))) ≤ 5 / 10 ^ 7
  norm_num

end HL

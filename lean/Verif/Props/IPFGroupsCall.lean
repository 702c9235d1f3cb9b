import Verif.Props.IPFGroups
import Verif.Props.IPFRedundant

/-
C142, continued: single calls.
-/

namespace HL
open Ent Rate Micro

variable {s s' : List Nat} {Q R : Prob ℚ} {pop : Int}

/-- the sums of a multiple of a product over the cells of a marginal of the first group -/
theorem margin_crossed_first {ds : List Nat} (hd : ∀ d ∈ ds, d < s.length) (f g : List Int → ℚ) (k : ℚ) (j : List Int) :
    marginalSum (s ++ s') ds (fun v => crossed s.length f g v * k) j = marginalSum s ds f j * ((∑ w ∈ cells s', g w) * k) := by
  rw [margin_first hd]
  unfold marginalSum
  rw [Finset.sum_mul]
  refine Finset.sum_congr rfl fun u hu => ?_
  have hu := mem_cells.mp (Finset.mem_filter.mp hu).1
  unfold overLast
  simp only [crossed_joined f g hu]
  rw [← Finset.sum_mul, ← Finset.mul_sum, mul_assoc]

theorem margin_crossed_last (ds : List Nat) (f g : List Int → ℚ) (k : ℚ) (j : List Int) :
    marginalSum (s ++ s') (ds.map (s.length + ·)) (fun v => crossed s.length f g v * k) j =
      marginalSum s' ds g j * ((∑ u ∈ cells s, f u) * k) := by
  rw [margin_last]
  unfold marginalSum
  rw [Finset.sum_mul]
  refine Finset.sum_congr rfl fun w _ => ?_
  unfold overFirst
  rw [Finset.sum_congr rfl (fun u hu => show crossed s.length f g (u ++ w) * k = f u * (g w * k) by
    rw [crossed_joined f g (mem_cells.mp hu), mul_assoc]), ← Finset.sum_mul]
  ring

theorem proj_parts {v : List Int} (hv : InRange (s ++ s') v) :
    (∀ {ds : List Nat}, (∀ d ∈ ds, d < s.length) → proj ds v = proj ds (v.take s.length)) ∧
      ∀ ds : List Nat, proj (ds.map (s.length + ·)) v = proj ds (v.drop s.length) := by
  have hl := inRange_length (inRange_parts hv).1
  refine ⟨fun {ds} hd => ?_, fun ds => ?_⟩
  · conv_lhs => rw [← List.take_append_drop s.length v]
    exact proj_append (fun d h => by rw [hl]; exact hd d h)
  · conv_lhs => rw [← List.take_append_drop s.length v]
    exact proj_shift hl ds

theorem scaled_first {ds : List Nat} (hd : ∀ d ∈ ds, d < s.length) (m f g : List Int → ℚ) {k : ℚ} (hk : k ≠ 0)
    (hg : ∑ w ∈ cells s', g w ≠ 0) : ∀ v, InRange (s ++ s') v →
    qscaled (s ++ s') ds m (fun v => crossed s.length f g v * k) v =
      crossed s.length (qscaled s ds m f) g v * (∑ w ∈ cells s', g w)⁻¹ := by
  intro v hv
  unfold qscaled
  rw [margin_crossed_first hd, (proj_parts hv).1 hd]
  unfold crossed
  dsimp only
  by_cases h0 : marginalSum s ds f (proj ds (v.take s.length)) = 0
  · rw [if_pos (by rw [h0, zero_mul]), if_pos h0]; ring
  · rw [if_neg (mul_ne_zero h0 (mul_ne_zero hg hk)), if_neg h0]
    field_simp

theorem scaled_last (ds : List Nat) (m f g : List Int → ℚ) {k : ℚ} (hk : k ≠ 0)
    (hf : ∑ u ∈ cells s, f u ≠ 0) : ∀ v, InRange (s ++ s') v →
    qscaled (s ++ s') (ds.map (s.length + ·)) m (fun v => crossed s.length f g v * k) v =
      crossed s.length f (qscaled s' ds m g) v * (∑ u ∈ cells s, f u)⁻¹ := by
  intro v hv
  unfold qscaled
  rw [margin_crossed_last, (proj_parts hv).2]
  unfold crossed
  dsimp only
  by_cases h0 : marginalSum s' ds g (proj ds (v.drop s.length)) = 0
  · rw [if_pos (by rw [h0, zero_mul]), if_pos h0]; ring
  · rw [if_neg (mul_ne_zero h0 (mul_ne_zero hf hk)), if_neg h0]
    field_simp

theorem sweep_first (g : List Int → ℚ) (hg : ∑ w ∈ cells s', g w ≠ 0) : ∀ (Q : Prob ℚ), (∀ q ∈ Q, ∀ d ∈ q.1, d < s.length) →
    ∀ (f : List Int → ℚ) {k : ℚ}, k ≠ 0 → ∃ k', k' ≠ 0 ∧ ∀ v, InRange (s ++ s') v →
      qsweep (s ++ s') Q (fun v => crossed s.length f g v * k) v = crossed s.length (qsweep s Q f) g v * k'
  | [], _, _, k, hk => ⟨k, hk, fun _ _ => rfl⟩
  | q :: Q, hd, f, k, hk => by
    obtain ⟨k', h1, h2⟩ := sweep_first g hg Q (fun p hp => hd p (List.mem_cons_of_mem _ hp)) (qscaled s q.1 q.2 f) (inv_ne_zero hg)
    refine ⟨k', h1, fun v hv => ?_⟩
    rw [qsweep_cons, qsweep_cons, ← h2 v hv]
    exact qsweep_congr Q (scaled_first (hd q (by simp)) q.2 f g hk hg) v hv

theorem sweep_last (f : List Int → ℚ) (hf : ∑ u ∈ cells s, f u ≠ 0) : ∀ (R : Prob ℚ), R ≠ [] →
    ∀ (g : List Int → ℚ) {k : ℚ}, k ≠ 0 → ∀ v, InRange (s ++ s') v →
      qsweep (s ++ s') (R.map (fun q => (q.1.map (s.length + ·), q.2))) (fun v => crossed s.length f g v * k) v =
        crossed s.length f (qsweep s' R g) v * (∑ u ∈ cells s, f u)⁻¹
  | [], h, _, _, _ => absurd rfl h
  | [q], _, g, k, hk => fun v hv => scaled_last q.1 q.2 f g hk hf v hv
  | q :: q' :: R, _, g, k, hk => fun v hv => by
    have ih := sweep_last f hf (q' :: R) (by simp) (qscaled s' q.1 q.2 g) (inv_ne_zero hf) v hv
    rw [qsweep_cons, ← ih, List.map_cons, qsweep_cons]
    exact qsweep_congr _ (scaled_last q.1 q.2 f g hk hf) v hv

/-- one sweep over the marginals of both groups -/
theorem sweep_beside (hd : ∀ q ∈ Q, ∀ d ∈ q.1, d < s.length) (hR : R ≠ []) {f g : List Int → ℚ} {k : ℚ} (hk : k ≠ 0)
    (hg : ∑ w ∈ cells s', g w ≠ 0) (hf : ∑ u ∈ cells s, qsweep s Q f u ≠ 0) : ∀ v, InRange (s ++ s') v →
    qsweep (s ++ s') (beside s.length Q R) (fun v => crossed s.length f g v * k) v =
      crossed s.length (qsweep s Q f) (qsweep s' R g) v * (∑ u ∈ cells s, qsweep s Q f u)⁻¹ := by
  intro v hv
  obtain ⟨k', h1, h2⟩ := sweep_first g hg Q hd f hk
  unfold beside
  rw [qsweep_append, qsweep_congr _ h2 v hv]
  exact sweep_last _ hf R hR g h1 v hv

/-- the sums of a table that is the product of two with total `pop` over the cells of a marginal -/
theorem qmax_beside (hpop : 0 < pop) (hd : ∀ q ∈ Q, ∀ d ∈ q.1, d < s.length) {f g : List Int → ℚ} (hf : ∑ u ∈ cells s, f u = pop)
    (hg : ∑ w ∈ cells s', g w = pop) :
    qmax (s ++ s') (beside s.length Q R) (fun v => crossed s.length f g v * (pop : ℚ)⁻¹) = max (qmax s Q f) (qmax s' R g) := by
  have hP : (pop : ℚ) ≠ 0 := by exact_mod_cast hpop.ne'
  obtain ⟨a1, a2⟩ := (foldl_max_le (qdevs s Q f) (-dblMax)).mp le_rfl
  obtain ⟨b1, b2⟩ := (foldl_max_le (qdevs s' R g) (-dblMax)).mp le_rfl
  obtain ⟨c1, c2⟩ := (foldl_max_le (qdevs (s ++ s') (beside s.length Q R) (fun v => crossed s.length f g v * (pop : ℚ)⁻¹)) (-dblMax)).mp le_rfl
  have e1 : ∀ q ∈ Q, ∀ j, marginalSum (s ++ s') q.1 (fun v => crossed s.length f g v * (pop : ℚ)⁻¹) j = marginalSum s q.1 f j := by
    intro q hq j
    rw [margin_crossed_first (hd q hq), hg, mul_inv_cancel₀ hP, mul_one]
  have e2 : ∀ q : List Nat × (List Int → ℚ), ∀ j, marginalSum (s ++ s') (q.1.map (s.length + ·)) (fun v => crossed s.length f g v * (pop : ℚ)⁻¹) j =
      marginalSum s' q.1 g j := by
    intro q j
    rw [margin_crossed_last, hf, mul_inv_cancel₀ hP, mul_one]
  apply le_antisymm
  · refine (foldl_max_le _ _).mpr ⟨a1.trans (le_max_left _ _), fun x hx => ?_⟩
    obtain ⟨q, hq, j, hj, rfl⟩ := mem_qdevs.mp hx
    rcases List.mem_append.mp hq with hq | hq
    · rw [e1 q hq]
      rw [projSizes_append (hd q hq)] at hj
      exact (a2 _ (mem_qdevs.mpr ⟨q, hq, j, hj, rfl⟩)).trans (le_max_left _ _)
    · obtain ⟨q, hq', rfl⟩ := List.mem_map.mp hq
      rw [e2 q]
      rw [projSizes_shift] at hj
      exact (b2 _ (mem_qdevs.mpr ⟨q, hq', j, hj, rfl⟩)).trans (le_max_right _ _)
  · refine max_le ((foldl_max_le _ _).mpr ⟨c1, fun x hx => ?_⟩) ((foldl_max_le _ _).mpr ⟨c1, fun x hx => ?_⟩)
    · obtain ⟨q, hq, j, hj, rfl⟩ := mem_qdevs.mp hx
      rw [← e1 q hq]
      exact c2 _ (mem_qdevs.mpr ⟨q, List.mem_append_left _ hq, j, by rw [projSizes_append (hd q hq)]; exact hj, rfl⟩)
    · obtain ⟨q, hq, j, hj, rfl⟩ := mem_qdevs.mp hx
      rw [← e2 q]
      exact c2 _ (mem_qdevs.mpr ⟨_, List.mem_append_right _ (List.mem_map.mpr ⟨q, hq, rfl⟩), j, by rw [projSizes_shift]; exact hj, rfl⟩)

/-- the total of the table after some sweeps -/
theorem sweeps_total (h : GroupOK s Q pop) {b : List Int → ℚ} (hb : ∀ v, InRange s v → 0 ≤ b v) {y : List Int → ℝ} (hy : NonnegTable s y)
    (hym : MeetsMarginals s Q y) (hyv : VanishesWith s y (realTable b)) {n : Nat} (hn : 0 < n) :
    ∑ v ∈ cells s, (qsweep s Q)^[n] b v = pop := by
  have hne : realProb Q ≠ [] := fun e => h.some (List.map_eq_nil_iff.mp e)
  have hd : DimsOK s (realProb Q) := by
    intro q hq
    obtain ⟨p, hp, rfl⟩ := List.mem_map.mp hq
    exact (h.dims p hp).2
  have := iterate_total (b := realTable b) hne hd (fun v hv => Rat.cast_nonneg.mpr (hb v hv)) hy (meets_real.mp hym) hyv hn
  rw [iterate_cast] at this
  obtain ⟨q, hq⟩ := List.exists_mem_of_ne_nil _ h.some
  have e : Ent.total s y = pop := total_meets hq (h.dims q hq).2 (by exact_mod_cast h.total q hq) hym
  rw [e] at this
  unfold Ent.total realTable at this
  exact_mod_cast this

/-- a seed some table of `pop` people vanishes with is not zero everywhere -/
theorem seed_total (h : GroupOK s Q pop) (hpop : 0 < pop) {b : List Int → ℚ} (hb : ∀ v, InRange s v → 0 ≤ b v) {y : List Int → ℝ}
    (hym : MeetsMarginals s Q y) (hyv : VanishesWith s y (realTable b)) : ∑ v ∈ cells s, b v ≠ 0 := by
  intro h0
  have hz := (Finset.sum_eq_zero_iff_of_nonneg (fun v hv => hb v (mem_cells.mp hv))).mp h0
  obtain ⟨q, hq⟩ := List.exists_mem_of_ne_nil _ h.some
  have e : ∑ v ∈ cells s, y v = pop := total_meets hq (h.dims q hq).2 (by exact_mod_cast h.total q hq) hym
  rw [Finset.sum_eq_zero (fun v hv => hyv v (mem_cells.mp hv) (Rat.cast_eq_zero.mpr (hz v hv)))] at e
  exact hpop.ne (by exact_mod_cast e)

/-- the tables after the same number of sweeps -/
theorem sweeps_beside (h : GroupOK s Q pop) (h' : GroupOK s' R pop) (hpop : 0 < pop) {b b' : List Int → ℚ}
    (hb : ∀ v, InRange s v → 0 ≤ b v) (hb' : ∀ v, InRange s' v → 0 ≤ b' v)
    {y y' : List Int → ℝ} (hy : NonnegTable s y) (hym : MeetsMarginals s Q y) (hyv : VanishesWith s y (realTable b))
    (hy' : NonnegTable s' y') (hym' : MeetsMarginals s' R y') (hyv' : VanishesWith s' y' (realTable b')) (n : Nat) (hn : 0 < n) :
    ∀ v, InRange (s ++ s') v → (qsweep (s ++ s') (beside s.length Q R))^[n] (crossed s.length b b') v =
      crossed s.length ((qsweep s Q)^[n] b) ((qsweep s' R)^[n] b') v * (pop : ℚ)⁻¹ := by
  have hP : (pop : ℚ) ≠ 0 := by exact_mod_cast hpop.ne'
  induction n with
  | zero => omega
  | succ n ih =>
    intro v hv
    have T := sweeps_total h hb hy hym hyv (n := n + 1) (by omega)
    rw [Function.iterate_succ_apply'] at T
    rw [Function.iterate_succ_apply', Function.iterate_succ_apply', Function.iterate_succ_apply']
    rcases Nat.eq_zero_or_pos n with rfl | hn0
    · have e : crossed s.length b b' = fun v => crossed s.length b b' v * 1 := by funext v; rw [mul_one]
      simp only [Function.iterate_zero, id_eq] at T ⊢
      rw [e, sweep_beside (fun q hq => (h.dims q hq).2) h'.some one_ne_zero (seed_total h' hpop hb' hym' hyv') (by rw [T]; exact hP) v hv, T]
    · have T' := sweeps_total h' hb' hy' hym' hyv' hn0
      rw [qsweep_congr _ (ih hn0) v hv, sweep_beside (fun q hq => (h.dims q hq).2) h'.some (inv_ne_zero hP) (by rw [T']; exact hP)
        (by rw [T]; exact hP) v hv, T]

/-- **C142**: a single call of ipf in exact arithmetic for two groups of attributes together, with a seed that is a product of a
seed for each and no marginal that connects them, takes at least as many iterations as the calls for each group; if it converges
then so do they; and if all three take the same number of iterations, its table is the product of theirs over the population. -/
theorem C142_call (h1 : RatOK s Q pop) (h2 : RatOK s' R pop) (hlt : pop < 2 ^ 62) (hp1 : ProperProb s Q) (hp2 : ProperProb s' R)
    (hpop : 0 < pop) {b b' : List Int → ℚ} (hb : ∀ v, InRange s v → 0 ≤ b v) (hb' : ∀ v, InRange s' v → 0 ≤ b' v)
    {y y' : List Int → ℝ} (hy : NonnegTable s y) (hym : MeetsMarginals s Q y) (hyv : VanishesWith s y (realTable b))
    (hy' : NonnegTable s' y') (hym' : MeetsMarginals s' R y') (hyv' : VanishesWith s' y' (realTable b')) :
    ∃ r r1 r2 c d d', ipfExact (s ++ s') (beside s.length Q R) (crossed s.length b b') = .ok r ∧ ipfExact s Q b = .ok r1 ∧
      ipfExact s' R b' = .ok r2 ∧ r.micro.array = finArr (s ++ s') c ∧ r1.micro.array = finArr s d ∧ r2.micro.array = finArr s' d' ∧
      r1.iters ≤ r.iters ∧ r2.iters ≤ r.iters ∧ (r.conv = true → r1.conv = true ∧ r2.conv = true) ∧
      (r1.iters = r.iters → r2.iters = r.iters → ∀ u w, InRange s u → InRange s' w → c (u ++ w) = d u * d' w / pop) := by
  have hJ := ratOK_beside (groupOK h1) (groupOK h2)
  have hpJ := proper_beside (groupOK h1) (groupOK h2) (fun p hp => ⟨(hp1 p hp).1, (hp1 p hp).2.2⟩) (fun p hp => ⟨(hp2 p hp).1, (hp2 p hp).2.2⟩)
  obtain ⟨r, hr⟩ := ipf_run_ok _ _ (minOK_fl _) (ratOK_accepted hJ hlt) (properProb_fin hpJ) (fun v => .fin (crossed s.length b b' v))
  obtain ⟨r1, hr1⟩ := ipf_run_ok _ _ (minOK_fl _) (ratOK_accepted h1 hlt) (properProb_fin hp1) (fun v => .fin (b v))
  obtain ⟨r2, hr2⟩ := ipf_run_ok _ _ (minOK_fl _) (ratOK_accepted h2 hlt) (properProb_fin hp2) (fun v => .fin (b' v))
  obtain ⟨P0, n, -, a1, a2, a3, a4, a5, a6, a7, a8⟩ := ipf_exact_fin hJ.toProbShape hpJ hr
  obtain ⟨P1, n1, -, b1, b2, b3, b4, b5, b6, b7, b8⟩ := ipf_exact_fin h1.toProbShape hp1 hr1
  obtain ⟨P2, n2, -, c1, c2, c3, c4, c5, c6, c7, c8⟩ := ipf_exact_fin h2.toProbShape hp2 hr2
  have it := sweeps_beside (groupOK h1) (groupOK h2) hpop hb hb' hy hym hyv hy' hym' hyv'
  have mx : ∀ n, 0 < n → qmax (s ++ s') (beside s.length Q R) ((qsweep (s ++ s') (beside s.length Q R))^[n] (crossed s.length b b')) =
      max (qmax s Q ((qsweep s Q)^[n] b)) (qmax s' R ((qsweep s' R)^[n] b')) := by
    intro n hn
    rw [qmax_congr _ (it n hn)]
    exact qmax_beside hpop (fun q hq => (h1.dims q hq).2) (sweeps_total (groupOK h1) hb hy hym hyv hn)
      (sweeps_total (groupOK h2) hb' hy' hym' hyv' hn)
  rw [mx n a1] at a3 a7
  have l1 : n1 ≤ n := by
    by_contra hlt'
    rcases a3 with h9 | h9
    · exact absurd (b4 n a1 (by omega)) (not_le.mpr (lt_of_le_of_lt (le_max_left _ _) h9))
    · omega
  have l2 : n2 ≤ n := by
    by_contra hlt'
    rcases a3 with h9 | h9
    · exact absurd (c4 n a1 (by omega)) (not_le.mpr (lt_of_le_of_lt (le_max_right _ _) h9))
    · omega
  refine ⟨r, r1, r2, _, _, _, hr, hr1, hr2, by rw [a5], by rw [b5], by rw [c5], by omega, by omega, fun hc => ?_, fun e1 e2 u w hu hw => ?_⟩
  · rw [a7, decide_eq_true_eq] at hc
    rw [b7, c7, decide_eq_true_eq, decide_eq_true_eq]
    refine ⟨b3.elim id (fun h9 => ?_), c3.elim id (fun h9 => ?_)⟩
    · obtain rfl : n = n1 := by omega
      exact lt_of_le_of_lt (le_max_left _ _) hc
    · obtain rfl : n = n2 := by omega
      exact lt_of_le_of_lt (le_max_right _ _) hc
  · obtain rfl : n1 = n := by omega
    obtain rfl : n2 = n1 := by omega
    rw [it _ a1 _ (inRange_joined hu hw), crossed_joined _ _ hu, div_eq_mul_inv]

/-- 3 people by two attributes and by two others, with seeds that are no products -/
example : ∃ r r1 r2, ipfExact ([2, 3] ++ [2, 3]) (beside 2 exQ exQ) (crossed 2 (fun v => if v.getD 0 0 = 0 ∧ v.getD 1 0 = 0 then 5 else 1)
      (fun v => if v.getD 0 0 = 1 ∧ v.getD 1 0 = 0 then 2 else 3)) = .ok r ∧
    ipfExact [2, 3] exQ (fun v => if v.getD 0 0 = 0 ∧ v.getD 1 0 = 0 then 5 else 1) = .ok r1 ∧
    ipfExact [2, 3] exQ (fun v => if v.getD 0 0 = 1 ∧ v.getD 1 0 = 0 then 2 else 3) = .ok r2 ∧ (r.conv = true → r1.conv = true ∧ r2.conv = true) := by
  obtain ⟨x, hx, -⟩ := C136_exists (b := fun v => if v.getD 0 0 = 0 ∧ v.getD 1 0 = 0 then 5 else 1) exQ_ok (by decide) (by norm_num)
    (fun v _ => by split_ifs <;> norm_num)
  obtain ⟨x', hx', -⟩ := C136_exists (b := fun v => if v.getD 0 0 = 1 ∧ v.getD 1 0 = 0 then 2 else 3) exQ_ok (by decide) (by norm_num)
    (fun v _ => by split_ifs <;> norm_num)
  obtain ⟨r, r1, r2, -, -, -, h, h1, h2, -, -, -, -, -, hc, -⟩ := C142_call exQ_ok exQ_ok (by norm_num) exQ_proper exQ_proper (by norm_num)
    (fun v _ => by split_ifs <;> norm_num) (fun v _ => by split_ifs <;> norm_num) hx.nonneg hx.meets hx.vanishes hx'.nonneg hx'.meets hx'.vanishes
  exact ⟨r, r1, r2, h, h1, h2, hc⟩

/-- after one sweep or more, the table of one attribute is its marginal -/
theorem sweeps_one {n : Nat} {m b' : List Int → ℚ} (hmb : ∀ j, InRange [n] j → b' j = 0 → m j = 0) (k : Nat) (hk : 0 < k) :
    ∀ j, InRange [n] j → (qsweep [n] [([0], m)])^[k] b' j = m j := by
  have one : ∀ {f : List Int → ℚ}, (∀ j, InRange [n] j → f j = 0 → m j = 0) → ∀ j, InRange [n] j → qsweep [n] [([0], m)] f j = m j := by
    intro f hf j hj
    have e : proj [0] j = j := by
      cases hj with
      | cons _ h => cases h; rfl
    have e' : marginalSum [n] [0] f j = f j := by
      have h1 := margin_one (realTable f) hj
      rw [margin_cast] at h1
      exact Rat.cast_injective h1
    show qscaled [n] [0] m f j = m j
    unfold qscaled
    rw [e, e']
    split
    · exact (hf j hj (by assumption)).symm
    · field_simp
  induction k with
  | zero => omega
  | succ k ih =>
    intro j hj
    rw [Function.iterate_succ_apply']
    rcases Nat.eq_zero_or_pos k with rfl | hk0
    · exact one hmb j hj
    · exact one (fun j hj h0 => by rwa [ih hk0 j hj] at h0) j hj

/-- **C142**: a single call of ipf in exact arithmetic for a problem with one more attribute, with a marginal of its own and a seed
that is the product of the seed of the problem and a weight for each category: the number of iterations, the convergence flag and
the error are those without the attribute, and every cell is divided in proportion to the marginal. -/
theorem C142_added_call (h : RatOK s Q pop) (hlt : pop < 2 ^ 62) (hpop : 0 < pop) {n : Nat} {m : List Int → ℚ} (hn : 0 < n)
    (hm : ∀ j, InRange [n] j → 0 ≤ m j) (ht : ∑ j ∈ cells [n], m j = pop) (hp1 : ProperProb s Q)
    {b b' : List Int → ℚ} (hb : ∀ v, InRange s v → 0 ≤ b v) (hb' : ∀ j, InRange [n] j → 0 ≤ b' j)
    (hmb : ∀ j, InRange [n] j → b' j = 0 → m j = 0) {y : List Int → ℝ} (hy : NonnegTable s y) (hym : MeetsMarginals s Q y)
    (hyv : VanishesWith s y (realTable b)) :
    ∃ r r1 c d, ipfExact (s ++ [n]) (beside s.length Q [([0], m)]) (crossed s.length b b') = .ok r ∧ ipfExact s Q b = .ok r1 ∧
      r.micro.array = finArr (s ++ [n]) c ∧ r1.micro.array = finArr s d ∧
      r.iters = r1.iters ∧ r.conv = r1.conv ∧ r.maxError = r1.maxError ∧
      ∀ u i, InRange s u → InRange [n] [i] → c (u ++ [i]) = d u * m [i] / pop := by
  have hR := groupOK_one hn hm ht
  have hJ := ratOK_beside (groupOK h) hR
  have hpJ := proper_beside (groupOK h) hR (fun p hp => ⟨(hp1 p hp).1, (hp1 p hp).2.2⟩) (by
      intro p hp
      rw [List.mem_singleton] at hp
      subst hp
      exact ⟨le_refl _, List.pairwise_singleton _ _⟩)
  have hy' : NonnegTable [n] (realTable m) := fun j hj => Rat.cast_nonneg.mpr (hm j hj)
  have hym' : MeetsMarginals [n] [([0], m)] (realTable m) := by
    intro q hq j hj
    rw [List.mem_singleton] at hq
    subst hq
    exact margin_one _ hj
  have hyv' : VanishesWith [n] (realTable m) (realTable b') := fun j hj h0 =>
    Rat.cast_eq_zero.mpr (hmb j hj (Rat.cast_eq_zero.mp h0))
  obtain ⟨r, hr⟩ := ipf_run_ok _ _ (minOK_fl _) (ratOK_accepted hJ hlt) (properProb_fin hpJ) (fun v => .fin (crossed s.length b b' v))
  obtain ⟨r1, hr1⟩ := ipf_run_ok _ _ (minOK_fl _) (ratOK_accepted h hlt) (properProb_fin hp1) (fun v => .fin (b v))
  obtain ⟨P0, k, -, a1, a2, a3, a4, a5, a6, a7, a8⟩ := ipf_exact_fin hJ.toProbShape hpJ hr
  obtain ⟨P1, n1, -, b1, b2, b3, b4, b5, b6, b7, b8⟩ := ipf_exact_fin h.toProbShape hp1 hr1
  have it := sweeps_beside (groupOK h) hR hpop hb hb' hy hym hyv hy' hym' hyv'
  have mx : ∀ k, 0 < k → qmax (s ++ [n]) (beside s.length Q [([0], m)])
      ((qsweep (s ++ [n]) (beside s.length Q [([0], m)]))^[k] (crossed s.length b b')) = qmax s Q ((qsweep s Q)^[k] b) := by
    intro k hk
    rw [qmax_congr _ (it k hk), qmax_beside hpop (fun q hq => (h.dims q hq).2) (sweeps_total (groupOK h) hb hy hym hyv hk)
      (sweeps_total hR hb' hy' hym' hyv' hk)]
    apply max_eq_left
    rw [qmax_congr _ (sweeps_one hmb k hk)]
    refine (foldl_max_le _ _).mpr ⟨((foldl_max_le (qdevs s Q _) (-dblMax)).mp le_rfl).1, fun x hx => ?_⟩
    obtain ⟨q, hq, j, hj, rfl⟩ := mem_qdevs.mp hx
    rw [List.mem_singleton] at hq
    subst hq
    have e' : marginalSum [n] [0] m j = m j := by
      have h1 := margin_one (realTable m) hj
      rw [margin_cast] at h1
      exact Rat.cast_injective h1
    rw [e', sub_self, abs_zero]
    obtain ⟨q, hq⟩ := List.exists_mem_of_ne_nil _ (groupOK h).some
    have hj0 : InRange (projSizes q.1 s) (proj q.1 (zerosI s.length)) := inRange_proj (h.dims q hq).2 (inRange_zerosI h.pos)
    exact (abs_nonneg _).trans (((foldl_max_le (qdevs s Q _) (-dblMax)).mp le_rfl).2 _ (mem_qdevs.mpr ⟨q, hq, _, hj0, rfl⟩))
  rw [mx k a1] at a3 a7 a8
  have e : k = n1 := by
    rcases Nat.lt_trichotomy k n1 with hlt' | heq | hgt
    · rcases a3 with h9 | h9
      · exact absurd (b4 k a1 hlt') (not_le.mpr h9)
      · omega
    · exact heq
    · rcases b3 with h9 | h9
      · have := a4 n1 b1 hgt
        rw [mx n1 b1] at this
        exact absurd this (not_le.mpr h9)
      · omega
  subst e
  refine ⟨r, r1, _, _, hr, hr1, by rw [a5], by rw [b5], by rw [a6, b6], by rw [a7, b7], by rw [a8, b8], fun u i hu hi => ?_⟩
  rw [it _ a1 _ (inRange_joined hu hi), crossed_joined _ _ hu, sweeps_one hmb k a1 _ hi, div_eq_mul_inv]

/-- 3 people by two attributes, with a seed that is no product, and a third attribute of two categories, with one and two people -/
example : ∃ r r1 c d, ipfExact ([2, 3] ++ [2]) (beside 2 exQ [([0], fun j => j.getD 0 0 + 1)])
      (crossed 2 (fun v => if v.getD 0 0 = 0 ∧ v.getD 1 0 = 0 then 5 else 1) (fun j => j.getD 0 0 + 7)) = .ok r ∧
      ipfExact [2, 3] exQ (fun v => if v.getD 0 0 = 0 ∧ v.getD 1 0 = 0 then 5 else 1) = .ok r1 ∧
      r.micro.array = finArr ([2, 3] ++ [2]) c ∧ r1.micro.array = finArr [2, 3] d ∧ r.iters = r1.iters ∧ r.conv = r1.conv ∧
      r.maxError = r1.maxError ∧ ∀ u i, InRange [2, 3] u → InRange [2] [i] → c (u ++ [i]) = d u * (i + 1) / 3 := by
  have pos : ∀ j, InRange [2] j → (0 : ℚ) ≤ (j.getD 0 0 : ℚ) := by
    intro j hj
    cases hj with
    | cons h _ => exact_mod_cast h.1
  obtain ⟨x, hx, -⟩ := C136_exists (b := fun v => if v.getD 0 0 = 0 ∧ v.getD 1 0 = 0 then 5 else 1) exQ_ok (by decide) (by norm_num)
    (fun v _ => by split_ifs <;> norm_num)
  exact C142_added_call (n := 2) (m := fun j => j.getD 0 0 + 1) (b' := fun j => j.getD 0 0 + 7) exQ_ok (by norm_num) (by norm_num)
    (by norm_num) (fun j hj => by have := pos j hj; linarith) (by decide +kernel) exQ_proper (fun v _ => by split_ifs <;> norm_num)
    (fun j hj => by have := pos j hj; linarith) (fun j hj h0 => by have := pos j hj; linarith) hx.nonneg hx.meets hx.vanishes

end HL

import Verif.ModestSpec
import Verif.Proof.IPFBoxRun
import Verif.Props.IPFPartwayDouble
import Verif.Props.IPFRounded

/-
C133: `ipf` with a positive seed and marginals without common dimensions.
-/

set_option exponentiation.threshold 1100

namespace HL
open Micro Integerise Ent
variable {fp : FP}

theorem prod_const_mul {α : Type} (W : List α) (L : ℚ) (g : α → ℚ) : (W.map (fun w => L * g w)).prod = L ^ W.length * (W.map g).prod := by
  induction W with
  | nil => simp
  | cons w W ih => rw [List.map_cons, List.prod_cons, ih, List.map_cons, List.prod_cons, List.length_cons]; ring

theorem prod_tot {s : List Nat} {pop : ℚ} : ∀ {Q : Prob ℚ}, (∀ q ∈ Q, tot s q = pop) → (Q.map (tot s)).prod = pop ^ Q.length
  | [], _ => by simp
  | q :: Q, h => by
    rw [List.map_cons, List.prod_cons, h q (by simp), prod_tot (fun q hq => h q (by simp [hq])), List.length_cons, pow_succ']

/-- the two bounds, from the shape of the table -/
theorem box_bounds {s : List Nat} {Q : Prob ℚ} {pop lo hi L : ℚ} (hs : Splits s Q) (hd : DimsLt s Q) (hne : Q ≠ [])
    (hq : ∀ q ∈ Q, ∀ j, InRange (projSizes q.1 s) j → 0 < q.2 j) (ht : ∀ q ∈ Q, tot s q = pop) (hp : 0 < pop) (hL : 0 < L) (hlo : 0 < lo)
    {x : List Int → ℚ} (hx : Box s Q lo hi L x) {v : List Int} (hv : InRange s v) :
    lo * ((∑ u ∈ cells s, x u) / pop * (prodAt Q v / pop ^ (Q.length - 1))) ≤ hi * L ^ Q.length * x v ∧
      lo * x v ≤ hi * L ^ Q.length * ((∑ u ∈ cells s, x u) / pop * (prodAt Q v / pop ^ (Q.length - 1))) := by
  obtain ⟨h1, h2⟩ := box_cell hs hd hq hL.le hlo hx hv
  rw [prod_const_mul, prod_tot ht] at h1
  rw [prod_const_mul, prod_tot ht] at h2
  have e : pop ^ Q.length = pop * pop ^ (Q.length - 1) := by
    rw [← pow_succ', Nat.sub_add_cancel (List.length_pos_iff.mpr hne)]
  have e3 : (Q.map (fun w => w.2 (proj w.1 v))).prod = prodAt Q v := rfl
  rw [e3] at h2
  rw [e] at h1 h2
  have hpp : 0 < pop * pop ^ (Q.length - 1) := by positivity
  constructor
  · refine le_of_mul_le_mul_right ?_ hpp
    refine le_trans (le_of_eq ?_) (h1.trans (le_of_eq ?_))
    · field_simp
    · ring
  · refine le_of_mul_le_mul_right ?_ hpp
    refine h2.trans (le_of_eq ?_)
    field_simp

theorem pop_pos {s : List Nat} {Q : Prob ℚ} {pop : Int} (h : RatOK s Q pop)
    (hm : ∀ q ∈ Q, ∀ j, InRange (projSizes q.1 s) j → 0 < q.2 j) : (0 : ℚ) < pop := by
  obtain ⟨q, hq⟩ : ∃ q, q ∈ Q := List.exists_mem_of_ne_nil Q (by rintro rfl; have := h.lists; simp at this)
  obtain ⟨j, hj⟩ := exists_inRange (h.toProbShape.goodP hq).2
  rw [← h.total q hq]
  exact Finset.sum_pos (fun j hj => hm q hq j (mem_cells.mp hj)) ⟨j, mem_cells.mpr hj⟩

/-- **C133.**  Exact arithmetic: marginals without common dimensions, all their entries positive, a seed with all cells between
`lo > 0` and `hi`.  However many iterations `ipf` makes, and whether it converges or not, every cell of the table returned is that of
the independence table (the product of its marginal values divided by `pop ^ (K - 1)`, the answer for a constant seed: C34) up to the
factor `(hi / lo) ^ (K + 1)`, `K` being the number of marginals. -/
theorem C133_independence {s : List Nat} {Q : Prob ℚ} {pop : Int} (h : RatOK s Q pop) (hd : (Q.map Prod.fst).flatten.Nodup)
    (hm : ∀ q ∈ Q, ∀ j, InRange (projSizes q.1 s) j → 0 < q.2 j) {b : List Int → ℚ} {lo hi : ℚ} (hlo : 0 < lo)
    (hb : ∀ v, InRange s v → lo ≤ b v ∧ b v ≤ hi) {r : IPF Fl} (hr : ipfExact s Q b = .ok r) :
    ∃ c : List Int → ℚ, r.micro.array = finArr s c ∧ ∀ v, InRange s v → ∀ ind : ℚ,
      ind = (Q.map (fun q => q.2 (proj q.1 v))).prod / (pop : ℚ) ^ (Q.length - 1) →
      ind ≤ (hi / lo) ^ (Q.length + 1) * c v ∧ c v ≤ (hi / lo) ^ (Q.length + 1) * ind := by
  have hs : Splits s Q := splits_of_disjoint rfl h.toProbShape hd
  have hdl : DimsLt s Q := fun q hq => (h.dims q hq).2
  have hg : ∀ w ∈ Q, ∃ j, InRange (projSizes w.1 s) j := fun w hw => exists_inRange (h.toProbShape.goodP hw).2
  have hpop := pop_pos h hm
  have hne : Q ≠ [] := by rintro rfl; have := h.lists; simp at this
  obtain ⟨v0, hv0⟩ := exists_inRange h.pos
  have hlh : lo ≤ hi := (hb v0 hv0).1.trans (hb v0 hv0).2
  have hhi : 0 < hi := hlo.trans_le hlh
  have hL : hi ≤ hi / lo * lo := le_of_eq (by field_simp)
  obtain ⟨pop', n, -, h1, -, -, -, hmic, -⟩ := ipf_exact_fin h.toProbShape (properProb_of_disjoint h.toProbShape hd) hr
  obtain ⟨n, rfl⟩ : ∃ k, n = k + 1 := ⟨n - 1, by omega⟩
  have key : ∀ k, ∃ W : Prob ℚ, W.map Prod.fst = Q.map Prod.fst ∧ Box s W lo hi (hi / lo) ((qsweep s Q)^[k] b) := by
    intro k
    induction k with
    | zero => exact ⟨_, by simp, box_start (Q := Q) hb ((one_le_div hlo).mpr hlh)⟩
    | succ k ih =>
      obtain ⟨W, hW, hx⟩ := ih
      rw [Function.iterate_succ_apply']
      exact ⟨Q, rfl, (box_sweep h.pos hlo hL Q [] W _ hW hs hdl hg hm hx).1⟩
  obtain ⟨W, hW, hx⟩ := key n
  obtain ⟨hx', hsum⟩ := box_sweep h.pos hlo hL Q [] W _ hW hs hdl hg hm hx
  rw [← Function.iterate_succ_apply' (qsweep s Q)] at hx' hsum
  have hlast := hsum (Q.getLast hne) (List.getLast?_eq_some_getLast hne)
  have ht : ∀ q ∈ Q, tot s q = pop := h.total
  rw [ht _ (List.getLast_mem hne)] at hlast
  refine ⟨(qsweep s Q)^[n + 1] b, by rw [hmic], ?_⟩
  rintro v hv ind rfl
  obtain ⟨b1, b2⟩ := box_bounds hs hdl hne hm ht hpop (div_pos hhi hlo) hlo hx' hv
  rw [hlast, div_self hpop.ne', one_mul] at b1 b2
  have e3 : (Q.map (fun w => w.2 (proj w.1 v))).prod = prodAt Q v := rfl
  rw [e3]
  constructor
  · refine le_of_mul_le_mul_left (b1.trans (le_of_eq ?_)) hlo
    rw [pow_succ]
    field_simp
  · refine le_of_mul_le_mul_left (b2.trans (le_of_eq ?_)) hlo
    rw [pow_succ]
    field_simp

/-! ### Double precision -/

section double
variable {s : List Nat} {Q : Prob ℚ} {pop : Int} (h : RatOK s Q pop) (hd : (Q.map Prod.fst).flatten.Nodup) {b : List Int → ℚ}
  {lo hi ρ : ℚ} {f : Nat} (hmo : Modest s Q pop b lo hi ρ f)
include h hd hmo

omit h hd in
theorem Modest.pos : ∀ q ∈ Q, ∀ j, InRange (projSizes q.1 s) j → 0 < q.2 j := fun q hq j hj =>
  lt_of_lt_of_le (by positivity) (hmo.mid q hq j hj).1

omit h hd in
theorem Modest.lo_pos : 0 < lo := lt_of_lt_of_le (by positivity) hmo.seedLow

omit h hd in
theorem Modest.size' : 1 / 2 ^ 200 ≤ (pop : ℚ) / (4 * (hi / lo)) * (ρ / (2 * (hi / lo))) ^ Q.length := by
  have h1 := hmo.size
  have hlo := hmo.lo_pos
  have hhi : 0 < hi := hlo.trans_le hmo.seedOrder
  have hK : 0 < hi / lo := div_pos hhi hlo
  have hρ := hmo.partPos
  rw [div_pow] at h1 ⊢
  generalize hi / lo = K at *
  have h2 : 0 < (2 * K) ^ Q.length := by positivity
  have h3 : 0 < ρ ^ Q.length := by positivity
  rw [← mul_div_assoc, div_le_iff₀ h3] at h1
  rw [div_mul_div_comm, div_le_div_iff₀ (by positivity) (by positivity)]
  linarith

omit hd in
theorem Modest.weights : Weights s Q ρ Q := ⟨rfl, hmo.pos, fun q hq j hj => by
  have := h.total q hq
  unfold tot
  rw [this]
  exact hmo.part q hq j hj⟩

omit hd in
theorem Modest.weights_one : Weights s Q ρ (Q.map (fun q => (q.1, fun _ => 1))) := by
  refine ⟨by simp, ?_, ?_⟩
  · intro w hw
    obtain ⟨q, -, rfl⟩ := List.mem_map.mp hw
    intro _ _
    exact one_pos
  · intro w hw
    obtain ⟨q, hq, rfl⟩ := List.mem_map.mp hw
    intro _ _
    have hpop := pop_pos h hmo.pos
    have h1 : ((cells (projSizes q.1 s)).card : ℕ) • (ρ * (pop : ℚ)) ≤ ∑ j ∈ cells (projSizes q.1 s), q.2 j :=
      Finset.card_nsmul_le_sum _ _ _ (fun j hj => hmo.part q hq j (mem_cells.mp hj))
    rw [h.total q hq, nsmul_eq_mul] at h1
    unfold tot
    simp only [Finset.sum_const, nsmul_eq_mul, mul_one]
    refine le_of_mul_le_mul_right ?_ hpop
    linarith

omit h hd in
theorem Modest.start : DInv s lo hi 0 (Q.map (fun q => (q.1, fun _ => 1))) (fun v => .fin (b v)) b where
  agree := fun _ _ => rfl
  box := by
    have hlo := hmo.lo_pos
    have : 1 ≤ hi / lo := (one_le_div hlo).mpr hmo.seedOrder
    have h1 : (1 : ℚ) ≤ 2 * (hi / lo) := by linarith
    simpa using box_start (Q := Q) hmo.seed h1
  size := fun v hv => ⟨hmo.seedLow.trans (hmo.seed v hv).1, ((hmo.seed v hv).2.trans hmo.seedHigh).trans
    (pow_le_pow_right₀ (by norm_num) (by norm_num))⟩

/-- the table after `n` iterations -/
theorem modest_run (hfp : fp.Good) {n : Nat} (hn : n ≤ 1000) :
    ∃ y W', Weights s Q ρ W' ∧ (1 ≤ n → W' = Q) ∧
      DInv s lo hi (n * Q.length) W' ((sweep fp (numFl fp) s (finProb Q))^[n] (fun v => .fin (b v))) y := by
  have := hmo.few
  have h1 : n * Q.length ≤ 1000 * Q.length := Nat.mul_le_mul_right _ hn
  exact dinv_run h.pos (splits_of_disjoint rfl h.toProbShape hd) (fun q hq => (h.dims q hq).2)
    (fun w hw => exists_inRange (h.toProbShape.goodP hw).2) hmo.mid h.total hmo.cellsPer hmo.lo_pos hmo.seedOrder hmo.partPos.le
    hmo.size' hfp (by omega) (hmo.weights_one h) (hmo.weights h) hmo.start n (by omega)

/-- during an iteration -/
theorem modest_take (hfp : fp.Good) {n : Nat} (hn : n < 1000) {i : Nat} (hi' : i ≤ Q.length) :
    ∃ y W', Weights s Q ρ W' ∧ DInv s lo hi (n * Q.length + i) W'
      (sweep fp (numFl fp) s ((finProb Q).take i) ((sweep fp (numFl fp) s (finProb Q))^[n] (fun v => .fin (b v)))) y := by
  have := hmo.few
  have h1 : (n + 1) * Q.length ≤ 1000 * Q.length := Nat.mul_le_mul_right _ hn
  have e : (n + 1) * Q.length = n * Q.length + Q.length := by ring
  obtain ⟨y, W', hW, -, hy⟩ := modest_run h hd hmo hfp hn.le
  obtain ⟨z, hz⟩ := dinv_take h.pos (splits_of_disjoint rfl h.toProbShape hd) (fun q hq => (h.dims q hq).2)
    (fun w hw => exists_inRange (h.toProbShape.goodP hw).2) hmo.mid h.total hmo.cellsPer hmo.lo_pos hmo.seedOrder hmo.partPos.le
    hmo.size' hfp (by omega) (by omega) hW (hmo.weights h) hy i hi'
  exact ⟨z, _, weights_mix hW (hmo.weights h) i, hz⟩

/-- **C133**, double precision: for marginals without common dimensions and a positive seed, of modest size, every cell of every
table of a run (after any number of iterations up to the limit of 1000, and between the scalings of an iteration) is a number between
`2^-200` and `2^201`: no NaN, infinity, zero or subnormal number ever arises.  So the conditions of C94 and C131 on the run hold. -/
theorem C133_no_underflow (hfp : fp.Good) :
    (∀ n < 1000, ∀ i ≤ Q.length, ∀ v, InRange s v → ∃ x : ℚ, 1 / 2 ^ 200 ≤ x ∧ x ≤ 2 ^ 201 ∧
      sweep fp (numFl fp) s ((finProb Q).take i) ((sweep fp (numFl fp) s (finProb Q))^[n] (fun v => .fin (b v))) v = .fin x) ∧
    RegularRun fp s Q b 1000 ∧ NoTiny fp s Q b 1000 := by
  have key : ∀ n < 1000, ∀ i ≤ Q.length, ∀ v, InRange s v → ∃ x : ℚ, 1 / 2 ^ 200 ≤ x ∧ x ≤ 2 ^ 201 ∧
      sweep fp (numFl fp) s ((finProb Q).take i) ((sweep fp (numFl fp) s (finProb Q))^[n] (fun v => .fin (b v))) v = .fin x := by
    intro n hn i hi' v hv
    obtain ⟨y, W', -, hy⟩ := modest_take h hd hmo hfp hn hi'
    exact ⟨y v, (hy.size v hv).1, (hy.size v hv).2, hy.agree v hv⟩
  refine ⟨key, ?_, ?_⟩
  · intro n hn i hi' v hv
    obtain ⟨x, h1, h2, h3⟩ := key n hn i hi' v hv
    refine ⟨x, h3, .inl ⟨le_trans ?_ h1, h2.trans (pow_le_pow_right₀ (by norm_num) (by norm_num))⟩⟩
    rw [show (1 : ℚ) / 2 ^ 200 = 2 ^ (-200 : ℤ) by norm_num [zpow_neg]]
    exact zpow_le_zpow_right₀ (by norm_num) (by norm_num)
  · intro n hn i hi' v hv x hx
    obtain ⟨x', h1, -, h3⟩ := key n hn i hi' v hv
    rw [h3] at hx
    obtain rfl := Fl.fin.inj hx
    exact .inr h1

/-- **C133**, double precision: what is returned, converged or not.  With `K` marginals, the sums for the marginal that comes last in
the list are the requested numbers up to a relative error of `(f + 2) / 2^53`, and every cell is that of the independence table up to
the factor `2 (2 hi / lo) ^ (K + 1)`; in particular it is a positive number. -/
theorem C133_double (hfp : fp.Good) {r : IPF Fl}
    (hr : IPF.run false fp (numFl fp) (indicesOf (finProb Q)) (marginalsOf s (finProb Q)) (finArr s b) = .ok r) :
    ∃ c : List Int → ℚ, r.micro.array = finArr s c ∧
      (∀ v, InRange s v → ∀ ind : ℚ, ind = (Q.map (fun q => q.2 (proj q.1 v))).prod / (pop : ℚ) ^ (Q.length - 1) →
        0 < c v ∧ ind ≤ 2 * (2 * (hi / lo)) ^ (Q.length + 1) * c v ∧ c v ≤ 2 * (2 * (hi / lo)) ^ (Q.length + 1) * ind) ∧
      ∀ p, Q.getLast? = some p → ∀ j, InRange (projSizes p.1 s) j →
        (1 - (f + 2 : Nat) / 2 ^ 53) * p.2 j ≤ marginalSum s p.1 c j ∧ (1 - (f + 2 : Nat) / 2 ^ 53) * marginalSum s p.1 c j ≤ p.2 j := by
  have hs : Splits s Q := splits_of_disjoint rfl h.toProbShape hd
  have hdl : DimsLt s Q := fun q hq => (h.dims q hq).2
  have hg : ∀ w ∈ Q, ∃ j, InRange (projSizes w.1 s) j := fun w hw => exists_inRange (h.toProbShape.goodP hw).2
  have hm := hmo.pos
  have hpop := pop_pos h hm
  have hne : Q ≠ [] := by rintro rfl; have := h.lists; simp at this
  have hlen : 0 < Q.length := List.length_pos_iff.mpr hne
  have hlo := hmo.lo_pos
  have hhi : 0 < hi := hlo.trans_le hmo.seedOrder
  have hfew := hmo.few
  obtain ⟨pop', n, -, h1, h2, -, -, rfl⟩ := ipf_run fp (numFl fp) (minOK_fl _)
    (probShape_congr (fst_finProb Q).symm h.toProbShape) (properProb_fin (properProb_of_disjoint h.toProbShape hd)) _ hr
  obtain ⟨n, rfl⟩ : ∃ k, n = k + 1 := ⟨n - 1, by omega⟩
  have hnl : (n + 1) * Q.length ≤ 1000 * Q.length := Nat.mul_le_mul_right _ h2
  have en : (n + 1) * Q.length = n * Q.length + Q.length := by ring
  obtain ⟨y, W', hW, -, hy⟩ := modest_run h hd hmo hfp (n := n) (by omega)
  have hlenW : W'.length = Q.length := by simpa using congrArg List.length hW.fst
  obtain ⟨z, hz⟩ := dinv_take h.pos hs hdl hg hmo.mid h.total hmo.cellsPer hlo hmo.seedOrder hmo.partPos.le
    hmo.size' hfp (by omega) (by omega) hW (hmo.weights h) hy (Q.length - 1) (by omega)
  obtain ⟨c, hc, hrel⟩ := dinv_succ h.pos hs hdl hg hmo.mid h.total hmo.cellsPer hlo hmo.seedOrder hmo.partPos.le
    hmo.size' hfp (by omega) hW (hmo.weights h) (i := Q.length - 1) (by omega) (by omega) hz
  have hzp : ∀ v, InRange s v → 0 < z v := fun v hv => lt_of_lt_of_le (by positivity) (hz.size v hv).1
  have hcp : ∀ v, InRange s v → 0 < c v := fun v hv => lt_of_lt_of_le (by positivity) (hc.size v hv).1
  have el : Q[Q.length - 1] = Q.getLast hne := (List.getLast_eq_getElem hne).symm
  rw [el] at hrel
  rw [Nat.sub_add_cancel hlen, List.take_length, List.drop_eq_nil_of_le hlenW.le, List.append_nil, ← en,
    List.take_of_length_le (by simp [finProb]), ← Function.iterate_succ_apply' (sweep fp (numFl fp) s (finProb Q))] at hc
  set p := Q.getLast hne with hp
  have hpQ : p ∈ Q := List.getLast_mem hne
  have hpn : p.1.Nodup := by
    obtain ⟨A, B, e⟩ := List.append_of_mem hpQ
    exact splits_mid (e ▸ hs)
  have key : ∀ j, InRange (projSizes p.1 s) j → Rel (f + 2) (marginalSum s p.1 c j) (p.2 j) := by
    intro j hj
    have h3 : Rel (f + 2) (marginalSum s p.1 c j) (marginalSum s p.1 (qscaled s p.1 p.2 z) j) :=
      Rel.sum (fun v hv => hrel v (mem_cells.mp (Finset.mem_filter.mp hv).1))
    rwa [qscaled_meets fun h0 => absurd h0 (marginalSum_pos h.pos (loose_of_nodup hpn) (hdl p hpQ) hzp hj).ne'] at h3
  have htotal : Rel (f + 2) (∑ v ∈ cells s, c v) (pop : ℚ) := by
    rw [show ∑ v ∈ cells s, c v = ∑ j ∈ cells (projSizes p.1 s), marginalSum s p.1 c j from
      (Finset.sum_fiberwise_of_maps_to (fun v hv => mem_cells.mpr (inRange_proj (hdl p hpQ) (mem_cells.mp hv))) c).symm,
      ← h.total p hpQ]
    exact Rel.sum (fun j hj => key j (mem_cells.mp hj))
  refine ⟨c, arr_congr hc.agree, ?_, ?_⟩
  · rintro v hv ind rfl
    have e3 : (Q.map (fun w => w.2 (proj w.1 v))).prod = prodAt Q v := rfl
    rw [e3]
    refine ⟨hcp v hv, ?_⟩
    have hut := uu_pow_pos ((n + 1) * Q.length)
    have hK : 0 < hi / lo := div_pos hhi hlo
    obtain ⟨b1, b2⟩ := box_bounds hs hdl hne hm h.total hpop (by positivity) (mul_pos hut hlo) hc.box hv
    have hX1 := htotal.lower (by omega) hpop.le
    have hX2 := htotal.upper (by omega) (Finset.sum_nonneg (fun v hv => (hcp v (mem_cells.mp hv)).le))
    have u1 := uu_half (k := (n + 1) * Q.length + (n + 1) * Q.length) (by omega)
    rw [pow_add] at u1
    have hind : 0 < prodAt Q v / (pop : ℚ) ^ (Q.length - 1) := by
      refine div_pos ?_ (by positivity)
      unfold prodAt
      refine List.prod_pos ?_
      intro a ha
      obtain ⟨q, hq, rfl⟩ := List.mem_map.mp ha
      exact hm q hq _ (inRange_proj (hdl q hq) hv)
    set X := ∑ u ∈ cells s, c u
    set I := prodAt Q v / (pop : ℚ) ^ (Q.length - 1)
    set U := uu ^ ((n + 1) * Q.length)
    have hcv := hcp v hv
    have hXp1 : 1 / 2 ≤ X / pop := by rw [le_div_iff₀ hpop]; linarith
    have hXp2 : X / pop ≤ 2 := by rw [div_le_iff₀ hpop]; linarith
    have hhl : hi = hi / lo * lo := by field_simp
    set K := hi / lo with hKdef
    have e4 : (2 * K) ^ (Q.length + 1) = 2 * K * (2 * K) ^ Q.length := pow_succ' _ _
    rw [e4]
    set T := (2 * K) ^ Q.length
    have hT : 0 < T := by positivity
    have cancel : ∀ {A B : ℚ}, 0 ≤ A → U * lo * A ≤ hi / U * T * B → A ≤ 2 * K * T * B := by
      intro A B hA hAB
      have h5 := mul_le_mul_of_nonneg_left hAB hut.le
      have e5 : U * (hi / U * T * B) = K * lo * T * B := by rw [← hhl]; field_simp
      rw [e5] at h5
      have h6 : 1 / 2 * (lo * A) ≤ U * U * (lo * A) := mul_le_mul_of_nonneg_right u1 (mul_nonneg hlo.le hA)
      refine le_of_mul_le_mul_left ?_ hlo
      linarith [show U * (U * lo * A) = U * U * (lo * A) by ring, show lo * (2 * K * T * B) = 2 * (K * lo * T * B) by ring]
    constructor
    · have h7 := cancel (mul_nonneg (le_trans (by norm_num) hXp1) hind.le) b1
      have h8 := mul_le_mul_of_nonneg_right hXp1 hind.le
      linarith
    · have h7 := cancel hcv.le b2
      refine h7.trans ?_
      have h8 := mul_le_mul_of_nonneg_left (mul_le_mul_of_nonneg_right hXp2 hind.le) (show 0 ≤ 2 * K * T by positivity)
      linarith
  · intro p' hp' j hj
    rw [List.getLast?_eq_some_getLast hne, Option.some.injEq] at hp'
    subst hp'
    have hu := uu_pow_ge (f + 2)
    exact ⟨(mul_le_mul_of_nonneg_right hu (hm _ hpQ j hj).le).trans (key j hj).1,
      (mul_le_mul_of_nonneg_right hu (marginalSum_nonneg (fun v hv => (hcp v hv).le) j)).trans (key j hj).2⟩

/-- **C133** with C94: the table returned is the exact answer for a slightly different seed, with no condition on the run. -/
theorem C133_closest (hfp : fp.Good) {r : IPF Fl}
    (hr : IPF.run false fp (numFl fp) (indicesOf (finProb Q)) (marginalsOf s (finProb Q)) (finArr s b) = .ok r) :
    ∃ c b' : List Int → ℚ, r.micro.array = finArr s c ∧ NonnegTable s (realTable c) ∧
      (∀ v, InRange s v → (1 - (r.iters * Q.length : Nat) / 2 ^ 53) * b v ≤ b' v ∧
        (1 - (r.iters * Q.length : Nat) / 2 ^ 53) * b' v ≤ b v) ∧
      VanishesWith s (realTable c) (realTable b') ∧
      ∀ t, NonnegTable s t →
        (∀ q ∈ Q, ∀ j, InRange (projSizes q.1 s) j → marginalSum s q.1 t j = marginalSum s q.1 (realTable c) j) →
        VanishesWith s t (realTable b') →
        relEntropy s (realTable c) (realTable b') ≤ relEntropy s t (realTable b') ∧
        (relEntropy s t (realTable b') = relEntropy s (realTable c) (realTable b') → ∀ v, InRange s v → t v = c v) := by
  have hp := properProb_of_disjoint h.toProbShape hd
  refine C94_closest hfp h.toProbShape hp (fun v hv => (hmo.lo_pos.trans_le (hmo.seed v hv).1).le) hr ?_
  obtain ⟨pop', n, -, h1, h2, -, -, rfl⟩ := ipf_run fp (numFl fp) (minOK_fl _)
    (probShape_congr (fst_finProb Q).symm h.toProbShape) (properProb_fin hp) _ hr
  intro m hm
  have hm' : m < n := hm
  exact (C133_no_underflow h hd hmo hfp).2.1 m (by omega)

/-- **C133** with C29: when `conv` is true the marginal sums are the requested numbers within the tolerance and the rounding of one
sum; that no cell is NaN need not be checked. -/
theorem C133_conv (sqrt : Fl → Fl) {r : IPF Fl}
    (hr : IPF.run false (FP.ieee sqrt) (numFl (FP.ieee sqrt)) (indicesOf (finProb Q)) (marginalsOf s (finProb Q)) (finArr s b) = .ok r)
    (hc : r.conv = true) :
    ∃ c : List Int → ℚ, r.micro.array = finArr s c ∧ (∀ v, InRange s v → 0 < c v) ∧
      ∀ q ∈ Q, ∀ j, InRange (projSizes q.1 s) j →
        |marginalSum s q.1 c j - q.2 j| ≤ 1 / 10 ^ 8 * (1 + 1 / 2 ^ 50) +
          ((cells s).filter (fun v => proj q.1 v = j)).card * (q.2 j + 1) / 2 ^ 53 := by
  obtain ⟨c, h1, h2, -⟩ := C133_double h hd hmo (FP.ieee_good sqrt) hr
  obtain ⟨c', h3, h4⟩ := C29_conv_ieee sqrt h.toProbShape (properProb_of_disjoint h.toProbShape hd)
    (a := fun v => .fin (b v)) (fun v hv => by
      have := (hmo.lo_pos.trans_le (hmo.seed v hv).1).le
      simpa [FP.le] using this) hr hc
  obtain ⟨c2, h5, -, h6⟩ := h4 (by
    intro v hv
    rw [h1] at h3
    rw [← arr_inj h3 v hv]
    simp)
  refine ⟨c, h1, fun v hv => (h2 v hv _ rfl).1, ?_⟩
  intro q hq j hj
  have h7 : ∀ v, InRange s v → c v = c2 v := by
    intro v hv
    rw [h1] at h5
    exact Fl.fin.inj (arr_inj h5 v hv)
  have h8 : marginalSum s q.1 c j = marginalSum s q.1 c2 j :=
    Finset.sum_congr rfl (fun v hv => h7 v (mem_cells.mp (Finset.mem_filter.mp hv).1))
  rw [h8]
  exact h6 q hq j hj

end double

/-! ### The hypotheses are met, in binary64 -/

/-- a seed with one cell twice the others -/
def unevenSeed : List Int → ℚ := fun v => if v = [0, 1] then 2 else 1

theorem uneven_modest : Modest [2, 2] (ratProb midProb) 1000000 unevenSeed 1 2 (1 / 10) 2 where
  seed := by
    have key : ∀ v ∈ allIdx [2, 2], 1 ≤ unevenSeed v ∧ unevenSeed v ≤ 2 := by decide +kernel
    exact fun v hv => key v (mem_allIdx.mpr hv)
  seedLow := by norm_num
  seedOrder := by norm_num
  seedHigh := by norm_num
  partPos := by norm_num
  part := by
    have key : ∀ q ∈ ratProb midProb, ∀ j ∈ allIdx (projSizes q.1 [2, 2]), (1 / 10 : ℚ) * ((1000000 : Int) : ℚ) ≤ q.2 j := by
      decide +kernel
    exact fun q hq j hj => key q hq j (mem_allIdx.mpr hj)
  mid := by
    have key : ∀ q ∈ ratProb midProb, ∀ j ∈ allIdx (projSizes q.1 [2, 2]), 1 / 2 ^ 200 ≤ q.2 j ∧ q.2 j ≤ 2 ^ 200 := by
      decide +kernel
    exact fun q hq j hj => key q hq j (mem_allIdx.mpr hj)
  cellsPer := by
    intro q hq j
    simp only [ratProb, midProb, List.map_cons, List.map_nil, List.mem_cons, List.not_mem_nil, or_false] at hq
    have key : ∀ q ∈ [[0], [1]], ∀ v ∈ allIdx [2, 2], ((cells [2, 2]).filter (fun u => proj q u = proj q v)).card ≤ 2 := by
      decide +kernel
    by_cases hj : ∃ v ∈ cells [2, 2], proj q.1 v = j
    · obtain ⟨v, hv, rfl⟩ := hj
      rcases hq with rfl | rfl
      · exact key [0] (by simp) v (mem_allIdx.mpr (mem_cells.mp hv))
      · exact key [1] (by simp) v (mem_allIdx.mpr (mem_cells.mp hv))
    · rw [Finset.filter_eq_empty_iff.mpr (fun v hv he => hj ⟨v, hv, he⟩)]
      simp
  few := by simp [ratProb, midProb]
  size := by norm_num [ratProb, midProb]

example (sqrt : Fl → Fl) : ∃ r, IPF.run false (FP.ieee sqrt) (numFl (FP.ieee sqrt)) (indicesOf (finProb (ratProb midProb)))
      (marginalsOf [2, 2] (finProb (ratProb midProb))) (finArr [2, 2] unevenSeed) = .ok r ∧
    RatOK [2, 2] (ratProb midProb) 1000000 ∧ ((ratProb midProb).map Prod.fst).flatten.Nodup := by
  obtain ⟨r0, h0, -, -⟩ := mid_run sqrt
  have hp : ProperProb [2, 2] (ratProb midProb) := by unfold ProperProb; decide
  obtain ⟨pop, n, hok, -⟩ := ipf_run (FP.ieee sqrt) (numFl (FP.ieee sqrt)) (minOK_fl _)
    (probShape_congr (fst_finProb (ratProb midProb)).symm (ratOK_ratProb midProb_ok).toProbShape) (properProb_fin hp) _
    (by rw [fin_ratProb]; exact h0)
  obtain ⟨r, hr⟩ := ipf_run_ok (FP.ieee sqrt) (numFl (FP.ieee sqrt)) (minOK_fl _) hok (properProb_fin hp) (fun v => .fin (unevenSeed v))
  exact ⟨r, hr, ratOK_ratProb midProb_ok, by decide⟩

example : ∃ r, ipfExact [2, 2] (ratProb midProb) unevenSeed = .ok r ∧
    (∀ q ∈ ratProb midProb, ∀ j, InRange (projSizes q.1 [2, 2]) j → 0 < q.2 j) := by
  have h := ratOK_ratProb midProb_ok
  obtain ⟨r, hr⟩ := ipf_run_ok FP.exact (numFl FP.exact) (minOK_fl _) (ratOK_accepted h (by norm_num)) (properProb_fin (by unfold ProperProb; decide))
    (fun v => .fin (unevenSeed v))
  exact ⟨r, hr, uneven_modest.pos⟩

end HL

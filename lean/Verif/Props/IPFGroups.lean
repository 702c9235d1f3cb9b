import Verif.Props.IPFMoved
import Verif.Proof.QISAdded

/-
C142: attributes that no marginal connects are fitted separately.
-/

namespace HL
open Ent Rate Micro Filter Topology

/-- the problem for the attributes of two problems together: the attributes of the second problem come after the
`n` attributes of the first, and no marginal connects them -/
def beside {α : Type} (n : Nat) (Q R : Prob α) : Prob α := Q ++ R.map (fun q => (q.1.map (n + ·), q.2))

/-- the product of two tables: the first on the first `n` attributes of a cell, the second on the rest -/
def crossed {α : Type} [Mul α] (n : Nat) (f g : List Int → α) (v : List Int) : α := f (v.take n) * g (v.drop n)

/-- `t` summed over the attributes after those of sizes `s'` -/
def overLast {β : Type} [AddCommMonoid β] (s' : List Nat) (t : List Int → β) (u : List Int) : β := ∑ w ∈ cells s', t (u ++ w)

/-- `t` summed over the first attributes, of sizes `s` -/
def overFirst {β : Type} [AddCommMonoid β] (s : List Nat) (t : List Int → β) (w : List Int) : β := ∑ u ∈ cells s, t (u ++ w)

variable {s s' : List Nat}

theorem inRange_joined {u w : List Int} (hu : InRange s u) (hw : InRange s' w) : InRange (s ++ s') (u ++ w) := by
  induction hu with
  | nil => exact hw
  | cons h _ ih => exact .cons h ih

theorem inRange_parts {v : List Int} (hv : InRange (s ++ s') v) : InRange s (v.take s.length) ∧ InRange s' (v.drop s.length) := by
  induction s generalizing v with
  | nil => exact ⟨.nil, hv⟩
  | cons n s ih =>
    cases hv with
    | cons h hr => exact ⟨.cons h (ih hr).1, (ih hr).2⟩

theorem sum_joined {β : Type} [AddCommMonoid β] (g : List Int → β) : ∑ v ∈ cells (s ++ s'), g v = ∑ u ∈ cells s, ∑ w ∈ cells s', g (u ++ w) := by
  rw [← Finset.sum_product']
  refine Finset.sum_nbij' (fun v => (v.take s.length, v.drop s.length)) (fun p => p.1 ++ p.2) ?_ ?_ ?_ ?_ ?_
  · intro v hv
    have := inRange_parts (mem_cells.mp hv)
    exact Finset.mem_product.mpr ⟨mem_cells.mpr this.1, mem_cells.mpr this.2⟩
  · intro p hp
    have := Finset.mem_product.mp hp
    exact mem_cells.mpr (inRange_joined (mem_cells.mp this.1) (mem_cells.mp this.2))
  · intro v _
    exact List.take_append_drop _ _
  · intro p hp
    have hl := inRange_length (mem_cells.mp (Finset.mem_product.mp hp).1)
    exact Prod.ext (List.take_left' hl) (List.drop_left' hl)
  · intro v _
    simp only [List.take_append_drop]

theorem projSizes_shift (ds : List Nat) : projSizes (ds.map (s.length + ·)) (s ++ s') = projSizes ds s' := by
  unfold projSizes
  rw [List.map_map]
  refine List.map_congr_left (fun d _ => ?_)
  show (s ++ s').getD (s.length + d) 0 = s'.getD d 0
  rw [List.getD_append_right _ _ _ _ (Nat.le_add_right _ _), Nat.add_sub_cancel_left]

theorem proj_shift {u w : List Int} (hu : u.length = s.length) (ds : List Nat) : proj (ds.map (s.length + ·)) (u ++ w) = proj ds w := by
  unfold proj
  rw [List.map_map]
  refine List.map_congr_left (fun d _ => ?_)
  show (u ++ w).getD (s.length + d) 0 = w.getD d 0
  rw [← hu, List.getD_append_right _ _ _ _ (Nat.le_add_right _ _), Nat.add_sub_cancel_left]

theorem margin_first {β : Type} [AddCommMonoid β] {ds : List Nat} (hd : ∀ d ∈ ds, d < s.length) (t : List Int → β) (j : List Int) :
    marginalSum (s ++ s') ds t j = marginalSum s ds (overLast s' t) j := by
  unfold marginalSum overLast
  rw [Finset.sum_filter, Finset.sum_filter, sum_joined]
  refine Finset.sum_congr rfl fun u hu => ?_
  have hl := inRange_length (mem_cells.mp hu)
  have hp : ∀ w, proj ds (u ++ w) = proj ds u := fun w => proj_append (fun d h => by rw [hl]; exact hd d h)
  simp only [hp]
  split
  · rfl
  · exact Finset.sum_const_zero

theorem margin_last {β : Type} [AddCommMonoid β] (ds : List Nat) (t : List Int → β) (j : List Int) :
    marginalSum (s ++ s') (ds.map (s.length + ·)) t j = marginalSum s' ds (overFirst s t) j := by
  unfold marginalSum overFirst
  rw [Finset.sum_filter, Finset.sum_filter, sum_joined, Finset.sum_comm]
  refine Finset.sum_congr rfl fun w hw => ?_
  have hp : ∀ u ∈ cells s, (if proj (ds.map (s.length + ·)) (u ++ w) = j then t (u ++ w) else 0) = if proj ds w = j then t (u ++ w) else 0 := by
    intro u hu
    rw [proj_shift (inRange_length (mem_cells.mp hu))]
  rw [Finset.sum_congr rfl hp]
  split
  · rfl
  · exact Finset.sum_const_zero

/-- a table meets the marginals of both problems iff its sums over the attributes of each meet the marginals of the other -/
theorem meets_beside {Q R : Prob ℚ} (hd : ∀ q ∈ Q, ∀ d ∈ q.1, d < s.length) (t : List Int → ℝ) :
    MeetsMarginals (s ++ s') (beside s.length Q R) t ↔ MeetsMarginals s Q (overLast s' t) ∧ MeetsMarginals s' R (overFirst s t) := by
  unfold MeetsMarginals beside
  constructor
  · intro h
    refine ⟨fun q hq j hj => ?_, fun q hq j hj => ?_⟩
    · rw [← margin_first (hd q hq)]
      exact h q (List.mem_append_left _ hq) j (by rw [projSizes_append (hd q hq)]; exact hj)
    · rw [← margin_last]
      exact h (q.1.map (s.length + ·), q.2) (List.mem_append_right _ (List.mem_map.mpr ⟨q, hq, rfl⟩)) j (by rw [projSizes_shift]; exact hj)
  · rintro ⟨h1, h2⟩ q hq j hj
    rcases List.mem_append.mp hq with hq | hq
    · rw [margin_first (hd q hq)]
      exact h1 q hq j (by rw [projSizes_append (hd q hq)] at hj; exact hj)
    · obtain ⟨q, hq', rfl⟩ := List.mem_map.mp hq
      rw [margin_last]
      exact h2 q hq' j (by rw [projSizes_shift] at hj; exact hj)

theorem crossed_joined {α : Type} [Mul α] (f g : List Int → α) {u w : List Int} (hu : InRange s u) :
    crossed s.length f g (u ++ w) = f u * g w := by
  unfold crossed
  rw [List.take_left' (inRange_length hu), List.drop_left' (inRange_length hu)]

/-- the relative entropy of a table to a product of two seeds, through its sums over the attributes of each -/
theorem entropy_crossed {t : List Int → ℝ} {b b' : List Int → ℚ} {T : ℝ} (hT : 0 < T) (ht : NonnegTable (s ++ s') t)
    (htot : ∑ v ∈ cells (s ++ s'), t v = T) (hb : ∀ v, InRange s v → 0 ≤ b v) (hb' : ∀ v, InRange s' v → 0 ≤ b' v)
    (hv : VanishesWith (s ++ s') t (realTable (crossed s.length b b'))) :
    relEntropy (s ++ s') t (realTable (crossed s.length b b')) =
      relEntropy (s ++ s') t (fun v => crossed s.length (overLast s' t) (overFirst s t) v / T) +
      relEntropy s (overLast s' t) (realTable b) + relEntropy s' (overFirst s t) (realTable b') - T * Real.log T := by
  have e1 : relEntropy s (overLast s' t) (realTable b) =
      ∑ u ∈ cells s, ∑ w ∈ cells s', t (u ++ w) * Real.log (overLast s' t u / realTable b u) := by
    unfold relEntropy
    refine Finset.sum_congr rfl fun u _ => ?_
    rw [← Finset.sum_mul]
    rfl
  have e2 : relEntropy s' (overFirst s t) (realTable b') =
      ∑ u ∈ cells s, ∑ w ∈ cells s', t (u ++ w) * Real.log (overFirst s t w / realTable b' w) := by
    unfold relEntropy
    rw [Finset.sum_comm]
    refine Finset.sum_congr rfl fun u _ => ?_
    rw [← Finset.sum_mul]
    rfl
  have e3 : T * Real.log T = ∑ u ∈ cells s, ∑ w ∈ cells s', t (u ++ w) * Real.log T := by
    rw [← sum_joined (fun v => t v * Real.log T), ← Finset.sum_mul, htot]
  rw [e1, e2, e3]
  unfold relEntropy
  rw [sum_joined, sum_joined]
  simp only [← Finset.sum_add_distrib, ← Finset.sum_sub_distrib]
  refine Finset.sum_congr rfl fun u hu => Finset.sum_congr rfl fun w hw => ?_
  have hu := mem_cells.mp hu
  have hw := mem_cells.mp hw
  have hr := inRange_joined hu hw
  rcases (ht _ hr).eq_or_lt with h0 | h0
  · rw [← h0]; ring
  · have hl : 0 < overLast s' t u := h0.trans_le (Finset.single_le_sum (f := fun w => t (u ++ w))
      (fun w' hw' => ht _ (inRange_joined hu (mem_cells.mp hw'))) (mem_cells.mpr hw))
    have hf : 0 < overFirst s t w := h0.trans_le (Finset.single_le_sum (f := fun u => t (u ++ w))
      (fun u' hu' => ht _ (inRange_joined (mem_cells.mp hu') hw)) (mem_cells.mpr hu))
    have hne : b u * b' w ≠ 0 := by
      intro h
      have := hv _ hr (by unfold realTable; rw [crossed_joined _ _ hu, h, Rat.cast_zero])
      exact h0.ne' this
    have p1 : (0 : ℝ) < b u := Rat.cast_pos.mpr ((hb u hu).lt_of_ne' (left_ne_zero_of_mul hne))
    have p2 : (0 : ℝ) < b' w := Rat.cast_pos.mpr ((hb' w hw).lt_of_ne' (right_ne_zero_of_mul hne))
    unfold realTable
    rw [crossed_joined _ _ hu, crossed_joined _ _ hu, Rat.cast_mul, Real.log_div h0.ne' (mul_pos p1 p2).ne',
      Real.log_div h0.ne' (div_pos (mul_pos hl hf) hT).ne', Real.log_div (mul_pos hl hf).ne' hT.ne',
      Real.log_mul p1.ne' p2.ne', Real.log_mul hl.ne' hf.ne', Real.log_div hl.ne' p1.ne', Real.log_div hf.ne' p2.ne']
    ring

theorem total_meets {s : List Nat} {Q : Prob ℚ} {T : ℝ} {x : List Int → ℝ} {q : List Nat × (List Int → ℚ)} (hq : q ∈ Q)
    (hd : ∀ d ∈ q.1, d < s.length) (ht : (∑ j ∈ cells (projSizes q.1 s), (q.2 j : ℝ)) = T) (hx : MeetsMarginals s Q x) :
    ∑ v ∈ cells s, x v = T := by
  rw [sum_proj hd, ← ht]
  exact Finset.sum_congr rfl fun j hj => hx q hq j (mem_cells.mp hj)

section
variable {Q R : Prob ℚ} {pop : Int}

theorem beside_total (h : RatOK (s ++ s') (beside s.length Q R) pop) (hd : ∀ q ∈ Q, ∀ d ∈ q.1, d < s.length) (hQ : Q ≠ []) (hR : R ≠ [])
    {x x' : List Int → ℝ} (hx : MeetsMarginals s Q x) (hx' : MeetsMarginals s' R x') :
    ∑ v ∈ cells s, x v = pop ∧ ∑ v ∈ cells s', x' v = pop := by
  obtain ⟨q, hq⟩ := List.exists_mem_of_ne_nil _ hQ
  obtain ⟨r, hr⟩ := List.exists_mem_of_ne_nil _ hR
  have hq' : q ∈ beside s.length Q R := List.mem_append_left _ hq
  have hr' : (r.1.map (s.length + ·), r.2) ∈ beside s.length Q R := List.mem_append_right _ (List.mem_map.mpr ⟨r, hr, rfl⟩)
  have t1 := h.total q hq'
  have t2 := h.total _ hr'
  rw [projSizes_append (hd q hq)] at t1
  rw [projSizes_shift] at t2
  refine ⟨total_meets hq (hd q hq) (by exact_mod_cast t1) hx, total_meets hr ?_ (by exact_mod_cast t2) hx'⟩
  intro d hdr
  have := (h.dims _ hr').2 (s.length + d) (List.mem_map.mpr ⟨d, hdr, rfl⟩)
  rw [List.length_append] at this
  omega

/-- **C142**: if no marginal connects two groups of attributes and the seed is a product of a seed for each group, the table
closest to it among those that meet the marginals is the product of the closest tables of the groups over the population. -/
theorem C142_closest (h : RatOK (s ++ s') (beside s.length Q R) pop) (hpop : 0 < pop) (hd : ∀ q ∈ Q, ∀ d ∈ q.1, d < s.length)
    (hQ : Q ≠ []) (hR : R ≠ []) {b b' : List Int → ℚ} (hb : ∀ v, InRange s v → 0 ≤ b v) (hb' : ∀ v, InRange s' v → 0 ≤ b' v)
    {x x' : List Int → ℝ} (hx : IsClosest s Q b x) (hx' : IsClosest s' R b' x') :
    IsClosest (s ++ s') (beside s.length Q R) (crossed s.length b b') (fun v => crossed s.length x x' v / pop) := by
  have hP : (0 : ℝ) < pop := by exact_mod_cast hpop
  obtain ⟨t1, t2⟩ := beside_total h hd hQ hR hx.meets hx'.meets
  have l1 : ∀ u, InRange s u → overLast s' (fun v => crossed s.length x x' v / pop) u = x u := by
    intro u hu
    unfold overLast
    simp only [crossed_joined x x' hu]
    rw [← Finset.sum_div, ← Finset.mul_sum, t2, mul_div_assoc, div_self hP.ne', mul_one]
  have l2 : ∀ w, InRange s' w → overFirst s (fun v => crossed s.length x x' v / pop) w = x' w := by
    intro w hw
    unfold overFirst
    rw [Finset.sum_congr rfl (fun u hu => show crossed s.length x x' (u ++ w) / (pop : ℝ) = x u * x' w / pop by
      rw [crossed_joined x x' (mem_cells.mp hu)]), ← Finset.sum_div, ← Finset.sum_mul, t1,
      mul_comm, mul_div_assoc, div_self hP.ne', mul_one]
  have congrM : ∀ {s : List Nat} {Q : Prob ℚ} {f g : List Int → ℝ}, (∀ v, InRange s v → f v = g v) → MeetsMarginals s Q g → MeetsMarginals s Q f := by
    intro s Q f g he hg q hq j hj
    rw [← hg q hq j hj]
    exact Finset.sum_congr rfl fun v hv => he v (mem_cells.mp (Finset.mem_filter.mp hv).1)
  have n0 : NonnegTable (s ++ s') (fun v => crossed s.length x x' v / pop) := fun v hv =>
    div_nonneg (mul_nonneg (hx.nonneg _ (inRange_parts hv).1) (hx'.nonneg _ (inRange_parts hv).2)) hP.le
  have m0 : MeetsMarginals (s ++ s') (beside s.length Q R) (fun v => crossed s.length x x' v / pop) :=
    (meets_beside hd _).mpr ⟨congrM l1 hx.meets, congrM l2 hx'.meets⟩
  have v0 : VanishesWith (s ++ s') (fun v => crossed s.length x x' v / pop) (realTable (crossed s.length b b')) := by
    intro v hv h0
    have hr := inRange_parts hv
    have h0 : b (v.take s.length) * b' (v.drop s.length) = 0 := Rat.cast_eq_zero.mp h0
    show x (v.take s.length) * x' (v.drop s.length) / pop = 0
    rcases mul_eq_zero.mp h0 with h1 | h1
    · rw [hx.vanishes _ hr.1 (Rat.cast_eq_zero.mpr h1), zero_mul, zero_div]
    · rw [hx'.vanishes _ hr.2 (Rat.cast_eq_zero.mpr h1), mul_zero, zero_div]
  have tot : ∀ t : List Int → ℝ, MeetsMarginals (s ++ s') (beside s.length Q R) t → ∑ v ∈ cells (s ++ s'), t v = pop := by
    intro t ht
    rw [sum_joined]
    exact (beside_total h hd hQ hR ((meets_beside hd _).mp ht).1 ((meets_beside hd _).mp ht).2).1
  refine ⟨n0, m0, v0, fun t ht hm hv => ?_⟩
  rw [entropy_crossed hP n0 (tot _ m0) hb hb' v0, entropy_crossed hP ht (tot t hm) hb hb' hv]
  have z : relEntropy (s ++ s') (fun v => crossed s.length x x' v / pop) (fun v =>
      crossed s.length (overLast s' (fun v => crossed s.length x x' v / pop)) (overFirst s (fun v => crossed s.length x x' v / pop)) v / pop) = 0 := by
    unfold relEntropy
    refine Finset.sum_eq_zero fun v hv => ?_
    have hr := inRange_parts (mem_cells.mp hv)
    have : crossed s.length (overLast s' (fun v => crossed s.length x x' v / pop)) (overFirst s (fun v => crossed s.length x x' v / pop)) v =
        crossed s.length x x' v := by
      unfold crossed at l1 l2 ⊢
      rw [l1 _ hr.1, l2 _ hr.2]
    dsimp only
    rw [this]
    rcases eq_or_ne (crossed s.length x x' v / (pop : ℝ)) 0 with h0 | h0
    · rw [h0, zero_mul]
    · rw [div_self h0, Real.log_one, mul_zero]
  have lastn : NonnegTable s (overLast s' t) := fun u hu => Finset.sum_nonneg fun w hw => ht _ (inRange_joined hu (mem_cells.mp hw))
  have firstn : NonnegTable s' (overFirst s t) := fun w hw => Finset.sum_nonneg fun u hu => ht _ (inRange_joined (mem_cells.mp hu) hw)
  have g : 0 ≤ relEntropy (s ++ s') t (fun v => crossed s.length (overLast s' t) (overFirst s t) v / pop) := by
    refine entropy_nonneg ht (fun v hv => div_nonneg (mul_nonneg (lastn _ (inRange_parts hv).1) (firstn _ (inRange_parts hv).2)) hP.le) ?_ ?_
    · intro v hv h0
      have hr := inRange_parts hv
      have h0 : overLast s' t (v.take s.length) * overFirst s t (v.drop s.length) = 0 := (div_eq_zero_iff.mp h0).resolve_right hP.ne'
      rcases mul_eq_zero.mp h0 with h1 | h1
      · have := (Finset.sum_eq_zero_iff_of_nonneg (fun w hw => ht _ (inRange_joined hr.1 (mem_cells.mp hw)))).mp h1 _ (mem_cells.mpr hr.2)
        rwa [List.take_append_drop] at this
      · have := (Finset.sum_eq_zero_iff_of_nonneg (fun u hu => ht _ (inRange_joined (mem_cells.mp hu) hr.2))).mp h1 _ (mem_cells.mpr hr.1)
        rwa [List.take_append_drop] at this
    · unfold Ent.total
      rw [tot t hm]
      obtain ⟨a1, a2⟩ := beside_total h hd hQ hR ((meets_beside hd _).mp hm).1 ((meets_beside hd _).mp hm).2
      rw [sum_joined, Finset.sum_congr rfl (fun u hu => Finset.sum_congr rfl (fun w _ => by rw [crossed_joined _ _ (mem_cells.mp hu)]))]
      simp only [← Finset.sum_div, ← Finset.mul_sum, ← Finset.sum_mul]
      rw [a1, a2, mul_div_assoc, div_self hP.ne', mul_one]
  have k1 := hx.least _ lastn ((meets_beside hd _).mp hm).1 (fun u hu h0 => Finset.sum_eq_zero fun w hw =>
    hv _ (inRange_joined hu (mem_cells.mp hw)) (by
      unfold realTable at h0 ⊢
      rw [crossed_joined _ _ hu, Rat.cast_mul, h0, zero_mul]))
  have k2 := hx'.least _ firstn ((meets_beside hd _).mp hm).2 (fun w hw h0 => Finset.sum_eq_zero fun u hu =>
    hv _ (inRange_joined (mem_cells.mp hu) hw) (by
      unfold realTable at h0 ⊢
      rw [crossed_joined _ _ (mem_cells.mp hu), Rat.cast_mul, h0, mul_zero]))
  rw [z, relEntropy_congr l1 (fun _ _ => rfl), relEntropy_congr l2 (fun _ _ => rfl)]
  linarith

/-- **C142**: repeated calls of ipf for both groups of attributes together approach the product of the closest tables of
the groups over the population. -/
theorem C142_limit (h : RatOK (s ++ s') (beside s.length Q R) pop) (hlt : pop < 2 ^ 62) (hp : ProperProb (s ++ s') (beside s.length Q R))
    (hpop : 0 < pop) (hd : ∀ q ∈ Q, ∀ d ∈ q.1, d < s.length) (hQ : Q ≠ []) (hR : R ≠ []) {b b' : List Int → ℚ}
    (hb : ∀ v, InRange s v → 0 ≤ b v) (hb' : ∀ v, InRange s' v → 0 ≤ b' v) {x x' : List Int → ℝ} (hx : IsClosest s Q b x)
    (hx' : IsClosest s' R b' x') :
    ∃ c : Nat → List Int → ℚ,
      (∀ k, ∃ r, ipfCalls (s ++ s') (beside s.length Q R) (crossed s.length b b') k = .ok r ∧ r.micro.array = finArr (s ++ s') (c k)) ∧
      ∀ u w, InRange s u → InRange s' w → Tendsto (fun k => (c k (u ++ w) : ℝ)) atTop (𝓝 (x u * x' w / pop)) := by
  have hc := C142_closest h hpop hd hQ hR hb hb' hx hx'
  obtain ⟨c, y, h1, h2, h3, h4, h5, h6⟩ := C70_limit h hlt hp
    (fun v hv => mul_nonneg (hb _ (inRange_parts hv).1) (hb' _ (inRange_parts hv).2)) hc.nonneg hc.meets hc.vanishes
  refine ⟨c, h1, fun u w hu hw => ?_⟩
  have hr := inRange_joined hu hw
  have e := (h6 _ hc.nonneg hc.meets hc.vanishes).2 (le_antisymm (hc.least y h3 h4 h5) (h6 _ hc.nonneg hc.meets hc.vanishes).1) _ hr
  have := h2 _ hr
  rw [← e, crossed_joined x x' hu] at this
  exact this

/-- a consistent problem, as in `RatOK`, that may have a single attribute or a single marginal -/
structure GroupOK (s : List Nat) (Q : Prob ℚ) (pop : Int) : Prop where
  some : Q ≠ []
  attrs : s ≠ []
  pos : ∀ n ∈ s, 0 < n
  dims : ∀ p ∈ Q, p.1 ≠ [] ∧ ∀ d ∈ p.1, d < s.length
  cover : ∀ d < s.length, ∃ p ∈ Q, d ∈ p.1
  nonneg : ∀ p ∈ Q, ∀ j, InRange (projSizes p.1 s) j → 0 ≤ p.2 j
  total : ∀ p ∈ Q, ∑ j ∈ cells (projSizes p.1 s), p.2 j = pop
  partials : ∀ p ∈ Q, ∀ q ∈ Q, ∀ (a b d : Nat), p.1[a]? = Option.some d → q.1[b]? = Option.some d →
    ∀ x : Nat, x < s.getD d 0 →
      marginalSum (projSizes p.1 s) [a] p.2 [(x : Int)] = marginalSum (projSizes q.1 s) [b] q.2 [(x : Int)]

theorem groupOK (h : RatOK s Q pop) : GroupOK s Q pop where
  some := fun e => by have := h.lists; rw [e] at this; simp at this
  attrs := fun e => by have := h.two; rw [e] at this; simp at this
  pos := h.pos
  dims := h.dims
  cover := h.cover
  nonneg := h.nonneg
  total := h.total
  partials := h.partials

/-- two consistent problems for the same population give a consistent problem for all attributes -/
theorem ratOK_beside (h : GroupOK s Q pop) (h' : GroupOK s' R pop) : RatOK (s ++ s') (beside s.length Q R) pop where
  lists := by
    have a := List.length_pos_of_ne_nil h.some
    have b := List.length_pos_of_ne_nil h'.some
    simp only [beside, List.length_append, List.length_map]
    omega
  two := by
    have a := List.length_pos_of_ne_nil h.attrs
    have b := List.length_pos_of_ne_nil h'.attrs
    simp only [List.length_append]
    omega
  pos := fun n hn => (List.mem_append.mp hn).elim (h.pos n) (h'.pos n)
  dims := by
    intro p hp
    rcases List.mem_append.mp hp with hp | hp
    · exact ⟨(h.dims p hp).1, fun d hd => by rw [List.length_append]; exact Nat.lt_add_right _ ((h.dims p hp).2 d hd)⟩
    · obtain ⟨q, hq, rfl⟩ := List.mem_map.mp hp
      refine ⟨fun e => (h'.dims q hq).1 (List.map_eq_nil_iff.mp e), fun d hd => ?_⟩
      obtain ⟨e, he, rfl⟩ := List.mem_map.mp hd
      rw [List.length_append]
      exact Nat.add_lt_add_left ((h'.dims q hq).2 e he) _
  cover := by
    intro d hd
    rw [List.length_append] at hd
    by_cases hlt : d < s.length
    · obtain ⟨p, hp, hm⟩ := h.cover d hlt
      exact ⟨p, List.mem_append_left _ hp, hm⟩
    · obtain ⟨p, hp, hm⟩ := h'.cover (d - s.length) (by omega)
      exact ⟨(p.1.map (s.length + ·), p.2), List.mem_append_right _ (List.mem_map.mpr ⟨p, hp, rfl⟩),
        List.mem_map.mpr ⟨d - s.length, hm, by omega⟩⟩
  nonneg := by
    intro p hp j hj
    rcases List.mem_append.mp hp with hp | hp
    · exact h.nonneg p hp j (by rwa [projSizes_append (h.dims p hp).2] at hj)
    · obtain ⟨q, hq, rfl⟩ := List.mem_map.mp hp
      exact h'.nonneg q hq j (by rwa [projSizes_shift] at hj)
  total := by
    intro p hp
    rcases List.mem_append.mp hp with hp | hp
    · rw [projSizes_append (h.dims p hp).2]
      exact h.total p hp
    · obtain ⟨q, hq, rfl⟩ := List.mem_map.mp hp
      rw [projSizes_shift]
      exact h'.total q hq
  partials := by
    have shift : ∀ {ds : List Nat} {a d : Nat}, (ds.map (s.length + ·))[a]? = Option.some d → ∃ e, ds[a]? = Option.some e ∧ d = s.length + e := by
      intro ds a d hd
      rw [List.getElem?_map] at hd
      obtain ⟨e, he, rfl⟩ := Option.map_eq_some_iff.mp hd
      exact ⟨e, he, rfl⟩
    intro p hp q hq a c d ha hc x hx
    rcases List.mem_append.mp hp with hp | hp <;> rcases List.mem_append.mp hq with hq | hq
    · have hd := (h.dims p hp).2 d (List.mem_of_getElem? ha)
      rw [projSizes_append (h.dims p hp).2, projSizes_append (h.dims q hq).2]
      exact h.partials p hp q hq a c d ha hc x (by rwa [List.getD_append _ _ _ _ hd] at hx)
    · have hd := (h.dims p hp).2 d (List.mem_of_getElem? ha)
      obtain ⟨r, -, rfl⟩ := List.mem_map.mp hq
      obtain ⟨e, -, he⟩ := shift hc
      omega
    · have hd := (h.dims q hq).2 d (List.mem_of_getElem? hc)
      obtain ⟨r, -, rfl⟩ := List.mem_map.mp hp
      obtain ⟨e, -, he⟩ := shift ha
      omega
    · obtain ⟨p, hp', rfl⟩ := List.mem_map.mp hp
      obtain ⟨q, hq', rfl⟩ := List.mem_map.mp hq
      obtain ⟨e, he, hde⟩ := shift ha
      obtain ⟨f, hf, hdf⟩ := shift hc
      obtain rfl : e = f := by omega
      rw [projSizes_shift, projSizes_shift]
      refine h'.partials p hp' q hq' a c e he hf x ?_
      rwa [hde, List.getD_append_right _ _ _ _ (Nat.le_add_right _ _), Nat.add_sub_cancel_left] at hx

/-- index lists that name no dimension twice, except dimensions of size one, and not more than there are -/
def LooseProb (s : List Nat) (Q : Prob ℚ) : Prop := ∀ p ∈ Q, p.1.length ≤ s.length ∧ Loose s p.1

/-- ipf can work with such lists for two groups together: each leaves out the attributes of the other group -/
theorem proper_beside (h : GroupOK s Q pop) (h' : GroupOK s' R pop) (hl : LooseProb s Q) (hl' : LooseProb s' R) :
    ProperProb (s ++ s') (beside s.length Q R) := by
  have a := List.length_pos_of_ne_nil h.attrs
  have b := List.length_pos_of_ne_nil h'.attrs
  intro p hp
  rcases List.mem_append.mp hp with hp | hp
  · refine ⟨?_, ⟨s.length, ?_, fun hm => lt_irrefl _ ((h.dims p hp).2 _ hm)⟩, ?_⟩
    · rw [List.length_append]
      exact (hl p hp).1.trans (Nat.le_add_right _ _)
    · rw [List.length_append]
      omega
    · refine List.Pairwise.imp_of_mem (fun {x y} hx _ hr => ?_) (hl p hp).2
      rwa [List.getD_append _ _ _ _ ((h.dims p hp).2 x hx)]
  · obtain ⟨q, hq, rfl⟩ := List.mem_map.mp hp
    refine ⟨?_, ⟨0, ?_, fun hm => ?_⟩, ?_⟩
    · rw [List.length_append, List.length_map]
      exact (hl' q hq).1.trans (Nat.le_add_left _ _)
    · rw [List.length_append]
      omega
    · obtain ⟨e, -, he⟩ := List.mem_map.mp hm
      omega
    · refine List.pairwise_map.mpr (List.Pairwise.imp (fun {x y} hr => ?_) (hl' q hq).2)
      rw [List.getD_append_right _ _ _ _ (Nat.le_add_right _ _), Nat.add_sub_cancel_left]
      exact fun he => hr (Nat.add_left_cancel he)

/-- **C142**: the table ipf fits for two groups of attributes together, with a seed that is a product of a seed for each
and no marginal that connects them, approaches the product of the tables it fits for the groups, over the population. -/
theorem C142_calls (h1 : RatOK s Q pop) (h2 : RatOK s' R pop) (hlt : pop < 2 ^ 62) (hp1 : ProperProb s Q) (hp2 : ProperProb s' R)
    (hpop : 0 < pop) {b b' : List Int → ℚ} (hb : ∀ v, InRange s v → 0 ≤ b v) (hb' : ∀ v, InRange s' v → 0 ≤ b' v)
    {y y' : List Int → ℝ} (hy : NonnegTable s y) (hym : MeetsMarginals s Q y) (hyv : VanishesWith s y (realTable b))
    (hy' : NonnegTable s' y') (hym' : MeetsMarginals s' R y') (hyv' : VanishesWith s' y' (realTable b')) :
    ∃ c d d' : Nat → List Int → ℚ,
      (∀ k, ∃ r, ipfCalls (s ++ s') (beside s.length Q R) (crossed s.length b b') k = .ok r ∧ r.micro.array = finArr (s ++ s') (c k)) ∧
      (∀ k, ∃ r, ipfCalls s Q b k = .ok r ∧ r.micro.array = finArr s (d k)) ∧
      (∀ k, ∃ r, ipfCalls s' R b' k = .ok r ∧ r.micro.array = finArr s' (d' k)) ∧
      ∀ u w, InRange s u → InRange s' w → Tendsto (fun k => (c k (u ++ w) : ℝ) - d k u * d' k w / pop) atTop (𝓝 0) := by
  obtain ⟨d, x, d1, d2, d3, d4, d5, d6⟩ := C70_limit h1 hlt hp1 hb hy hym hyv
  obtain ⟨d', x', e1, e2, e3, e4, e5, e6⟩ := C70_limit h2 hlt hp2 hb' hy' hym' hyv'
  obtain ⟨c, c1, c2⟩ := C142_limit (ratOK_beside (groupOK h1) (groupOK h2)) hlt
    (proper_beside (groupOK h1) (groupOK h2) (fun p hp => ⟨(hp1 p hp).1, (hp1 p hp).2.2⟩) (fun p hp => ⟨(hp2 p hp).1, (hp2 p hp).2.2⟩)) hpop (fun q hq => (h1.dims q hq).2)
    (groupOK h1).some (groupOK h2).some hb hb'
    ⟨d3, d4, d5, fun q g1 g2 g3 => (d6 q g1 g2 g3).1⟩ ⟨e3, e4, e5, fun q g1 g2 g3 => (e6 q g1 g2 g3).1⟩
  refine ⟨c, d, d', c1, d1, e1, fun u w hu hw => ?_⟩
  have := (c2 u w hu hw).sub (((d2 u hu).mul (e2 w hw)).div_const (pop : ℝ))
  rwa [sub_self] at this

/-- one attribute of `n` categories with a marginal of its own -/
theorem groupOK_one {n : Nat} {m : List Int → ℚ} (hn : 0 < n) (hm : ∀ j, InRange [n] j → 0 ≤ m j)
    (ht : ∑ j ∈ cells [n], m j = pop) : GroupOK [n] [([0], m)] pop where
  some := by simp
  attrs := by simp
  pos := by simpa using hn
  dims := by simp
  cover := by intro d hd; exact ⟨_, List.mem_singleton.mpr rfl, by simpa using hd⟩
  nonneg := by
    intro p hp j hj
    rw [List.mem_singleton] at hp
    subst hp
    exact hm j hj
  total := by
    intro p hp
    rw [List.mem_singleton] at hp
    subst hp
    exact ht
  partials := by
    intro p hp q hq a c d ha hc x _
    rw [List.mem_singleton] at hp hq
    subst hp hq
    have e : ∀ {k d : Nat}, ([0] : List Nat)[k]? = Option.some d → k = 0 := by
      intro k d hk
      rcases k with _ | k
      · rfl
      · simp at hk
    rw [e ha, e hc]

theorem margin_one {n : Nat} (t : List Int → ℝ) {j : List Int} (hj : InRange [n] j) : marginalSum [n] [0] t j = t j := by
  have e : ∀ v, InRange [n] v → proj [0] v = v := by
    intro v hv
    cases hv with
    | cons _ h => cases h; rfl
  unfold marginalSum
  rw [Finset.sum_filter, Finset.sum_eq_single j]
  · rw [if_pos (e j hj)]
  · intro v hv hne
    rw [if_neg]
    rwa [e v (mem_cells.mp hv)]
  · intro hn
    exact absurd (mem_cells.mpr hj) hn

/-- **C142**: an attribute with a marginal of its own, added to a problem with a seed that is the product of the seed of the
problem and a weight for each category, divides every cell of the fitted table in proportion to its marginal: its weights
have no effect, as long as no category with people has weight zero. -/
theorem C142_added (h : RatOK s Q pop) (hlt : pop < 2 ^ 62) (hpop : 0 < pop) {n : Nat} {m : List Int → ℚ} (hn : 0 < n)
    (hm : ∀ j, InRange [n] j → 0 ≤ m j) (ht : ∑ j ∈ cells [n], m j = pop)
    (hp1 : ProperProb s Q) {b b' : List Int → ℚ} (hb : ∀ v, InRange s v → 0 ≤ b v) (hb' : ∀ j, InRange [n] j → 0 ≤ b' j)
    (hmb : ∀ j, InRange [n] j → b' j = 0 → m j = 0) {y : List Int → ℝ} (hy : NonnegTable s y) (hym : MeetsMarginals s Q y)
    (hyv : VanishesWith s y (realTable b)) :
    ∃ c d : Nat → List Int → ℚ,
      (∀ k, ∃ r, ipfCalls (s ++ [n]) (beside s.length Q [([0], m)]) (crossed s.length b b') k = .ok r ∧
        r.micro.array = finArr (s ++ [n]) (c k)) ∧
      (∀ k, ∃ r, ipfCalls s Q b k = .ok r ∧ r.micro.array = finArr s (d k)) ∧
      ∀ u i, InRange s u → InRange [n] [i] → Tendsto (fun k => (c k (u ++ [i]) : ℝ) - d k u * m [i] / pop) atTop (𝓝 0) := by
  obtain ⟨d, x, d1, d2, d3, d4, d5, d6⟩ := C70_limit h hlt hp1 hb hy hym hyv
  have hone : IsClosest [n] [([0], m)] b' (realTable m) := by
    refine ⟨fun j hj => Rat.cast_nonneg.mpr (hm j hj), ?_, ?_, ?_⟩
    · intro q hq j hj
      rw [List.mem_singleton] at hq
      subst hq
      exact margin_one _ hj
    · intro j hj h0
      exact Rat.cast_eq_zero.mpr (hmb j hj (Rat.cast_eq_zero.mp h0))
    · intro t _ hmt _
      refine le_of_eq (relEntropy_congr (fun j hj => ?_) (fun _ _ => rfl))
      have := hmt ([0], m) (List.mem_singleton.mpr rfl) j hj
      rw [margin_one _ hj] at this
      exact this.symm
  obtain ⟨c, c1, c2⟩ := C142_limit (ratOK_beside (groupOK h) (groupOK_one hn hm ht)) hlt
    (proper_beside (groupOK h) (groupOK_one hn hm ht) (fun p hp => ⟨(hp1 p hp).1, (hp1 p hp).2.2⟩) (by
      intro p hp
      rw [List.mem_singleton] at hp
      subst hp
      exact ⟨le_refl _, List.pairwise_singleton _ _⟩)) hpop (fun q hq => (h.dims q hq).2)
    (groupOK h).some (by simp) hb hb' ⟨d3, d4, d5, fun q g1 g2 g3 => (d6 q g1 g2 g3).1⟩ hone
  refine ⟨c, d, c1, d1, fun u i hu hi => ?_⟩
  have := (c2 u [i] hu hi).sub (((d2 u hu).mul_const (m [i] : ℝ)).div_const (pop : ℝ))
  unfold realTable at this
  rwa [sub_self] at this

end

/-- 3 people, by two attributes and by two others, with seeds that are no products within the groups; and a fifth attribute of two
categories -/
example : RatOK [2, 3] exQ 3 ∧ ProperProb [2, 3] exQ ∧
    (∑ j ∈ cells [2], (fun j : List Int => (j.getD 0 0 : ℚ) + 1) j = (3 : Int)) ∧
    ∃ y : List Int → ℝ, NonnegTable [2, 3] y ∧ MeetsMarginals [2, 3] exQ y ∧
      VanishesWith [2, 3] y (realTable (fun v => if v.getD 0 0 = 0 ∧ v.getD 1 0 = 0 then 5 else 1)) := by
  obtain ⟨x, hx, -⟩ := C136_exists (b := fun v => if v.getD 0 0 = 0 ∧ v.getD 1 0 = 0 then 5 else 1) exQ_ok (by decide) (by norm_num)
    (fun v _ => by split_ifs <;> norm_num)
  exact ⟨exQ_ok, by unfold ProperProb; decide, by decide +kernel, x, hx.nonneg, hx.meets, hx.vanishes⟩

end HL

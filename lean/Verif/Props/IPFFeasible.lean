import Verif.Proof.IPFFeasible
import Verif.Props.IPFRounded

/-
C99: when ipf with two marginals can succeed, and what it reports when it cannot.
-/

namespace HL
open Filter Topology

section
variable {s : List Nat} {p q : List Nat × (List Int → ℚ)} {pop : Int}

/-- **C99**, when there is a solution: for two marginals of whole numbers (with or without dimensions in common) the following are
equivalent: some non-negative table meets both and vanishes where `b` does; some table of whole numbers does; and no set of
categories of the first marginal has more people than the categories of the second that `b` leaves for them. -/
theorem C99_solvable (h : RatOK s [p, q] pop) {b : List Int → ℚ}
    (hw : ∀ r ∈ [p, q], ∀ j, InRange (projSizes r.1 s) j → ∃ n : ℕ, r.2 j = n) :
    List.TFAE [
      ∃ t, NonnegTable s t ∧ MeetsMarginals s [p, q] t ∧ VanishesWith s t (realTable b),
      ∀ A ⊆ cells (projSizes p.1 s), ∑ i ∈ A, p.2 i ≤ ∑ j ∈ reach s p.1 q.1 b A, q.2 j,
      ∃ n : List Int → ℕ, MeetsMarginals s [p, q] (fun v => n v) ∧ VanishesWith s (fun v => n v) (realTable b)] := by
  tfae_have 1 → 2 := by
    rintro ⟨t, ht, hm, hv⟩ A hA
    have key := reach_le (p := p.1) (q := q.1) (h.dims q (by simp)).2 (b := b) ht
      (fun v hr hb => hv v hr (Rat.cast_eq_zero.mpr hb)) A
    rw [Finset.sum_congr rfl (fun i hi => hm p (by simp) i (mem_cells.mp (hA hi))),
      Finset.sum_congr (s₁ := reach s p.1 q.1 b A) rfl
        (fun j hj => hm q (by simp) j (mem_cells.mp (Finset.mem_filter.mp hj).1))] at key
    exact_mod_cast key
  tfae_have 2 → 3 := by
    intro hall
    obtain ⟨n, h1, h2⟩ := whole_table h hw hall
    refine ⟨n, ?_, ?_⟩
    · intro r hr j hj
      rw [natCast_marginalSum, ← h2 r hr j hj]
      norm_cast
    · intro v hv hb
      have := h1 v hv (Rat.cast_eq_zero.mp hb)
      show ((n v : ℕ) : ℝ) = 0
      rw [this, Nat.cast_zero]
  tfae_have 3 → 1 := by
    rintro ⟨n, h1, h2⟩
    exact ⟨fun v => n v, fun v _ => Nat.cast_nonneg _, h1, h2⟩
  tfae_finish

/-- **C99**, when there is a solution: `ipf`, called again and again with its own result as the seed, reports convergence. -/
theorem C99_converges (h : RatOK s [p, q] pop) (hlt : pop < 2 ^ 62) (hp : ProperProb s [p, q]) {b : List Int → ℚ}
    (hb : ∀ v, InRange s v → 0 ≤ b v) (hw : ∀ r ∈ [p, q], ∀ j, InRange (projSizes r.1 s) j → ∃ n : ℕ, r.2 j = n)
    (hall : ∀ A ⊆ cells (projSizes p.1 s), ∑ i ∈ A, p.2 i ≤ ∑ j ∈ reach s p.1 q.1 b A, q.2 j) :
    ∃ k r, ipfCalls s [p, q] b k = .ok r ∧ r.conv = true := by
  obtain ⟨t, ht, hm, hv⟩ := ((C99_solvable h hw).out 0 1).mpr hall
  exact C70_converges h hlt hp hb ht hm hv

end

section
variable {s : List Nat} {Q : Prob ℚ} {pop : Int}

/-- **C99**, when there is none: in any problem, if for two of the marginals some categories of the first have more people than the
seed leaves room for in the second (by at least a hundred-millionth of the number of categories involved, for instance by one
person for up to a hundred million categories), then `ipf` never reports convergence, however often it is called. -/
theorem C99_blocked (h : RatOK s Q pop) (hlt : pop < 2 ^ 62) (hp : ProperProb s Q) {b : List Int → ℚ}
    (hb : ∀ v, InRange s v → 0 ≤ b v) {p q : List Nat × (List Int → ℚ)} (hpQ : p ∈ Q) (hqQ : q ∈ Q) {A : Finset (List Int)}
    (hA : A ⊆ cells (projSizes p.1 s))
    (hgap : ∑ j ∈ reach s p.1 q.1 b A, q.2 j + (A.card + (reach s p.1 q.1 b A).card) / 10 ^ 8 ≤ ∑ i ∈ A, p.2 i)
    (hA0 : A.Nonempty) (k : Nat) : ∃ r, ipfCalls s Q b k = .ok r ∧ r.conv = false := by
  obtain ⟨r, n, m, h1, -, -, -, -, -, h2, -⟩ := ipfCalls_eq h hlt hp b k
  refine ⟨r, h1, ?_⟩
  rw [h2, decide_eq_false_iff_not]
  intro hlt'
  have hdims : ∀ q ∈ Q, ∀ d ∈ q.1, d < s.length := fun q hq => (h.dims q hq).2
  set c := (qsweep s Q)^[n] b with hc
  have hc0 : ∀ v, InRange s v → 0 ≤ c v := iterate_nonneg_real hdims h.nonneg hb n
  have hcz : ∀ v, InRange s v → b v = 0 → c v = 0 := by
    intro v _ hbv
    rw [hc]
    clear hc hlt' h2 hc0 c
    induction n with
    | zero => exact hbv
    | succ n ih => rw [Function.iterate_succ_apply']; exact qsweep_zero Q ih
  have key := reach_le (p := p.1) (q := q.1) (hdims q hqQ) hc0 hcz A
  have dev := (qmax_spec h.toProbShape c).1
  have u1 : ∑ i ∈ A, (p.2 i - 1 / 10 ^ 8) < ∑ i ∈ A, marginalSum s p.1 c i := by
    apply Finset.sum_lt_sum_of_nonempty hA0
    intro i hi
    have := (abs_le.mp (dev p hpQ i (mem_cells.mp (hA hi)))).1
    linarith
  have u2 : ∑ j ∈ reach s p.1 q.1 b A, marginalSum s q.1 c j ≤ ∑ j ∈ reach s p.1 q.1 b A, (q.2 j + 1 / 10 ^ 8) := by
    apply Finset.sum_le_sum
    intro j hj
    have := (abs_le.mp (dev q hqQ j (mem_cells.mp (Finset.mem_filter.mp hj).1))).2
    linarith
  rw [Finset.sum_sub_distrib, Finset.sum_const, nsmul_eq_mul] at u1
  rw [Finset.sum_add_distrib, Finset.sum_const, nsmul_eq_mul] at u2
  have e : ((A.card : ℚ) + (reach s p.1 q.1 b A).card) / 10 ^ 8 = A.card * (1 / 10 ^ 8) + (reach s p.1 q.1 b A).card * (1 / 10 ^ 8) := by
    ring
  linarith

/-- **C99**, together: for two marginals of whole numbers with up to a hundred million categories, calling `ipf` again and again
ends in convergence exactly when there is a solution. -/
theorem C99_decides {p q : List Nat × (List Int → ℚ)} (h : RatOK s [p, q] pop) (hlt : pop < 2 ^ 62) (hp : ProperProb s [p, q])
    {b : List Int → ℚ} (hb : ∀ v, InRange s v → 0 ≤ b v)
    (hw : ∀ r ∈ [p, q], ∀ j, InRange (projSizes r.1 s) j → ∃ n : ℕ, r.2 j = n)
    (hcard : (cells (projSizes p.1 s)).card + (cells (projSizes q.1 s)).card ≤ 10 ^ 8) :
    (∃ k r, ipfCalls s [p, q] b k = .ok r ∧ r.conv = true) ↔
      ∃ t, NonnegTable s t ∧ MeetsMarginals s [p, q] t ∧ VanishesWith s t (realTable b) := by
  constructor
  swap
  · rintro ⟨t, ht, hm, hv⟩
    exact C70_converges h hlt hp hb ht hm hv
  rintro ⟨k, r, hr, hc⟩
  by_contra hno
  have hno' : ¬ ∀ A ⊆ cells (projSizes p.1 s), ∑ i ∈ A, p.2 i ≤ ∑ j ∈ reach s p.1 q.1 b A, q.2 j :=
    fun hall => hno (((C99_solvable h hw).out 0 1).mpr hall)
  push Not at hno'
  obtain ⟨A, hA, hgt⟩ := hno'
  have hsub : reach s p.1 q.1 b A ⊆ cells (projSizes q.1 s) := Finset.filter_subset _ _
  have hq0 : 0 ≤ ∑ j ∈ reach s p.1 q.1 b A, q.2 j :=
    Finset.sum_nonneg (fun j hj => h.nonneg q (by simp) j (mem_cells.mp (hsub hj)))
  have hA0 : A.Nonempty := by
    rw [Finset.nonempty_iff_ne_empty]
    rintro rfl
    rw [Finset.sum_empty] at hgt
    linarith
  have whole : ∀ r ∈ [p, q], ∀ B ⊆ cells (projSizes r.1 s), ∃ n : ℕ, ∑ j ∈ B, r.2 j = n := by
    intro r hr B hB
    refine ⟨∑ j ∈ B, (r.2 j).num.toNat, ?_⟩
    rw [Nat.cast_sum]
    apply Finset.sum_congr rfl
    intro j hj
    obtain ⟨n, hn⟩ := hw r hr j (mem_cells.mp (hB hj))
    rw [hn]
    simp
  obtain ⟨m, hm⟩ := whole p (by simp) A hA
  obtain ⟨n, hn⟩ := whole q (by simp) _ hsub
  have hgap : ∑ j ∈ reach s p.1 q.1 b A, q.2 j + 1 ≤ ∑ i ∈ A, p.2 i := by
    rw [hm, hn] at hgt ⊢
    have : n < m := by exact_mod_cast hgt
    exact_mod_cast this
  have hcl : ((A.card : ℚ) + (reach s p.1 q.1 b A).card) / 10 ^ 8 ≤ 1 := by
    rw [div_le_one (by norm_num)]
    have h1 := Finset.card_le_card hA
    have h2 := Finset.card_le_card hsub
    have : A.card + (reach s p.1 q.1 b A).card ≤ 10 ^ 8 := by omega
    exact_mod_cast this
  obtain ⟨r', hr', hc'⟩ := C99_blocked h hlt hp hb (p := p) (q := q) (by simp) (by simp) hA (by linarith) hA0 k
  rw [hr] at hr'
  injection hr' with hr'
  rw [← hr', hc] at hc'
  cases hc'

/-- **C99**, when there is none, in double precision: the same for one call, unless a cell has become NaN, with room for the rounding of
the sums of up to `f` cells. -/
theorem C99_blocked_ieee (sqrt : Fl → Fl) (h : RatOK s Q pop) (hp : ProperProb s Q) {b : List Int → ℚ}
    (hb : ∀ v, InRange s v → 0 ≤ b v) {p q : List Nat × (List Int → ℚ)} (hpQ : p ∈ Q) (hqQ : q ∈ Q) {f : Nat}
    (hf : ∀ r ∈ Q, ∀ j, InRange (projSizes r.1 s) j → ((cells s).filter (fun v => proj r.1 v = j)).card ≤ f)
    {A : Finset (List Int)} (hA : A ⊆ cells (projSizes p.1 s))
    (hgap : ∑ j ∈ reach s p.1 q.1 b A, q.2 j + (A.card + (reach s p.1 q.1 b A).card) * (1 / 10 ^ 8 * (1 + 1 / 2 ^ 50)) +
      f * (2 * pop + A.card + (reach s p.1 q.1 b A).card) / 2 ^ 53 < ∑ i ∈ A, p.2 i) {r : IPF Fl}
    (hr : IPF.run false (FP.ieee sqrt) (numFl (FP.ieee sqrt)) (indicesOf (finProb Q)) (marginalsOf s (finProb Q)) (finArr s b) = .ok r) :
    r.conv = false ∨ ∃ c : List Int → Fl, r.micro.array = arr s c ∧ ∃ v, InRange s v ∧ c v = .nan := by
  by_cases hc : r.conv = true
  swap
  · exact Or.inl (by simpa using hc)
  right
  obtain ⟨c, h1, h2⟩ := C29_conv_ieee sqrt h.toProbShape hp (a := fun v => .fin (b v))
    (fun v hv => by simpa [FP.le] using hb v hv) hr hc
  refine ⟨c, h1, ?_⟩
  by_contra hno
  push Not at hno
  obtain ⟨x, hx, hx0, hdev⟩ := h2 hno
  have hdims : ∀ q ∈ Q, ∀ d ∈ q.1, d < s.length := fun q hq => (h.dims q hq).2
  obtain ⟨c', h1', hz, -⟩ := C31_zeros_and_signs_partial (ieee_zero sqrt) (ieee_nonneg sqrt)
    (probShape_congr (fst_finProb Q).symm h.toProbShape) (properProb_fin hp) (fun v => .fin (b v)) hr
  have eq1 : ∀ v, InRange s v → c v = c' v := arr_inj (h1.symm.trans h1')
  have eq2 : ∀ v, InRange s v → c v = .fin (x v) := arr_inj (h1.symm.trans hx)
  have hxz : ∀ v, InRange s v → b v = 0 → x v = 0 := by
    intro v hv hbv
    rcases hz v hv (by rw [hbv]) with h | h
    · have := eq2 v hv
      rw [eq1 v hv, h] at this
      injection this with this
      exact this.symm
    · exact absurd (by rw [eq1 v hv, h]) (hno v hv)
  have key := reach_le (p := p.1) (q := q.1) (hdims q hqQ) hx0 hxz A
  -- the deviations
  have bd : ∀ r ∈ Q, ∀ B ⊆ cells (projSizes r.1 s), ∑ j ∈ B, |marginalSum s r.1 x j - r.2 j| ≤
      B.card * (1 / 10 ^ 8 * (1 + 1 / 2 ^ 50)) + f * (pop + B.card) / 2 ^ 53 := by
    intro r hr B hB
    have hle : ∑ j ∈ B, r.2 j ≤ pop := by
      rw [← h.total r hr]
      exact Finset.sum_le_sum_of_subset_of_nonneg hB (fun j hj _ => h.nonneg r hr j (mem_cells.mp hj))
    calc ∑ j ∈ B, |marginalSum s r.1 x j - r.2 j|
        ≤ ∑ j ∈ B, (1 / 10 ^ 8 * (1 + 1 / 2 ^ 50) + f / 2 ^ 53 * (r.2 j + 1)) := by
          apply Finset.sum_le_sum
          intro j hj
          have hjr := mem_cells.mp (hB hj)
          refine (hdev r hr j hjr).trans ?_
          have hn : (((cells s).filter (fun v => proj r.1 v = j)).card : ℚ) ≤ f := by exact_mod_cast hf r hr j hjr
          have h0 : 0 ≤ r.2 j + 1 := by linarith [h.nonneg r hr j hjr]
          have := mul_le_mul_of_nonneg_right hn h0
          have e : (f : ℚ) / 2 ^ 53 * (r.2 j + 1) = f * (r.2 j + 1) / 2 ^ 53 := by ring
          rw [e]
          gcongr
      _ = B.card * (1 / 10 ^ 8 * (1 + 1 / 2 ^ 50)) + f / 2 ^ 53 * (∑ j ∈ B, r.2 j + B.card) := by
          rw [Finset.sum_add_distrib, Finset.sum_const, nsmul_eq_mul, ← Finset.mul_sum, Finset.sum_add_distrib, Finset.sum_const,
            nsmul_eq_mul, mul_one]
      _ ≤ B.card * (1 / 10 ^ 8 * (1 + 1 / 2 ^ 50)) + f / 2 ^ 53 * (pop + B.card) := by gcongr
      _ = _ := by ring
  have b1 := bd p hpQ A hA
  have b2 := bd q hqQ (reach s p.1 q.1 b A) (Finset.filter_subset _ _)
  have s1 : ∑ i ∈ A, p.2 i - ∑ i ∈ A, marginalSum s p.1 x i ≤ ∑ j ∈ A, |marginalSum s p.1 x j - p.2 j| := by
    rw [← Finset.sum_sub_distrib]
    apply Finset.sum_le_sum
    intro i _
    rw [abs_sub_comm]
    exact le_abs_self _
  have s2 : ∑ j ∈ reach s p.1 q.1 b A, marginalSum s q.1 x j - ∑ j ∈ reach s p.1 q.1 b A, q.2 j ≤
      ∑ j ∈ reach s p.1 q.1 b A, |marginalSum s q.1 x j - q.2 j| := by
    rw [← Finset.sum_sub_distrib]
    apply Finset.sum_le_sum
    intro i _
    exact le_abs_self _
  have e : (f : ℚ) * (2 * pop + A.card + (reach s p.1 q.1 b A).card) / 2 ^ 53 =
      f * (pop + A.card) / 2 ^ 53 + f * (pop + (reach s p.1 q.1 b A).card) / 2 ^ 53 := by ring
  linarith

end

/-- the seed for the example problem `[1, 2]`, `[1, 1, 1]` whose second row has one cell only -/
def exBlocked : List Int → ℚ := fun v => if v.getD 0 0 = 1 ∧ v.getD 1 0 ≠ 0 then 0 else 1

/-- The hypotheses of C99 are met: two people in the second row, room for one. -/
example : RatOK [2, 3] exQ 3 ∧ ProperProb [2, 3] exQ ∧ (∀ v, InRange [2, 3] v → 0 ≤ exBlocked v) ∧
    (∀ r ∈ exQ, ∀ j, InRange (projSizes r.1 [2, 3]) j → ∃ n : ℕ, r.2 j = n) ∧
    reach [2, 3] [0] [1] exBlocked {[1]} = {[0]} ∧
    (∑ j ∈ reach [2, 3] [0] [1] exBlocked {[1]}, (1 : ℚ)) + 2 / 10 ^ 8 ≤ ∑ i ∈ ({[1]} : Finset (List Int)), ((i.getD 0 0 : ℚ) + 1) ∧
    (∑ j ∈ reach [2, 3] [0] [1] exBlocked {[1]}, (1 : ℚ)) + (1 + 1) * (1 / 10 ^ 8 * (1 + 1 / 2 ^ 50)) + 3 * (2 * 3 + 1 + 1) / 2 ^ 53 <
      ∑ i ∈ ({[1]} : Finset (List Int)), ((i.getD 0 0 : ℚ) + 1) := by
  have e : reach [2, 3] [0] [1] exBlocked {[1]} = {[0]} := by decide +kernel
  refine ⟨exQ_ok, exQ_proper, ?_, ?_, e, ?_, ?_⟩
  · intro v _
    unfold exBlocked
    split_ifs <;> norm_num
  · have : ∀ r ∈ exQ, ∀ j ∈ cells (projSizes r.1 [2, 3]), r.2 j = ((r.2 j).num.toNat : ℕ) := by decide +kernel
    exact fun r hr j hj => ⟨_, this r hr j (mem_cells.mpr hj)⟩
  · rw [e]; norm_num
  · rw [e]; norm_num

end HL

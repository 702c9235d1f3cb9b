import Verif.Props.IPF

/-
C89: the unit in which the population is counted.
-/

namespace HL

/-- The problem with every marginal entry multiplied by `k`. -/
def scaledProb (k : ℚ) (Q : Prob ℚ) : Prob ℚ := Q.map (fun q => (q.1, fun j => k * q.2 j))

theorem qscaled_units {s ds : List Nat} {m : List Int → ℚ} (k : ℚ) (b : List Int → ℚ) :
    qscaled s ds (fun j => k * m j) b = fun v => k * qscaled s ds m b v := by
  funext v
  unfold qscaled
  split <;> ring

theorem qsweep_units {s : List Nat} {k : ℚ} (hk : k ≠ 0) : ∀ {Q : Prob ℚ}, Q ≠ [] → ∀ (b : List Int → ℚ),
    qsweep s (scaledProb k Q) b = fun v => k * qsweep s Q b v
  | [], h, _ => absurd rfl h
  | [q], _, b => qscaled_units k b
  | q :: q' :: Q, _, b => by
    show qsweep s (scaledProb k (q' :: Q)) (qscaled s q.1 (fun j => k * q.2 j) b) =
      fun v => k * qsweep s (q' :: Q) (qscaled s q.1 q.2 b) v
    rw [qscaled_units, qsweep_smul (by simp [scaledProb]) hk, qsweep_units hk (by simp)]

theorem qiter_units {s : List Nat} {k : ℚ} (hk : k ≠ 0) {Q : Prob ℚ} (hQ : Q ≠ []) (b : List Int → ℚ) :
    ∀ n, 1 ≤ n → (qsweep s (scaledProb k Q))^[n] b = fun v => k * (qsweep s Q)^[n] b v
  | 0, h => absurd h (by omega)
  | 1, _ => qsweep_units hk hQ b
  | n + 2, _ => by
    rw [Function.iterate_succ_apply' (qsweep s (scaledProb k Q)) (n + 1), Function.iterate_succ_apply' (qsweep s Q) (n + 1),
      qiter_units hk hQ b (n + 1) (by omega), qsweep_smul (by simpa [scaledProb] using hQ) hk, qsweep_units hk hQ]

theorem scaledProb_shape {s : List Nat} {k : ℚ} {Q : Prob ℚ} (h : ProbShape s Q) : ProbShape s (scaledProb k Q) :=
  probShape_congr (by simp [scaledProb]) h

theorem qmax_units {s : List Nat} {k : ℚ} (hk : 0 ≤ k) {Q : Prob ℚ} (h : ProbShape s Q) (b : List Int → ℚ) :
    qmax s (scaledProb k Q) (fun v => k * b v) = k * qmax s Q b := by
  have e : ∀ (q : List Nat × (List Int → ℚ)) (j : List Int),
      |marginalSum s q.1 (fun v => k * b v) j - k * q.2 j| = k * |marginalSum s q.1 b j - q.2 j| := by
    intro q j
    rw [marginalSum_smul, ← mul_sub, abs_mul, abs_of_nonneg hk]
  apply le_antisymm
  · obtain ⟨p, hp, j, hj, he⟩ := (qmax_spec (scaledProb_shape (k := k) h) (fun v => k * b v)).2
    obtain ⟨q, hq, rfl⟩ := List.mem_map.mp hp
    rw [he]
    simp only [e]
    exact mul_le_mul_of_nonneg_left ((qmax_spec h b).1 q hq j hj) hk
  · obtain ⟨q, hq, j, hj, he⟩ := (qmax_spec h b).2
    rw [he, ← e]
    exact (qmax_spec (scaledProb_shape (k := k) h) (fun v => k * b v)).1 _ (List.mem_map.mpr ⟨q, hq, rfl⟩) j hj

/-- **C89**: count the population in a smaller unit, so that every marginal entry is multiplied by `k ≥ 1`, and keep the seed.
Iteration by iteration the table and its largest error are multiplied by `k`, and `ipf` makes at least as many iterations;
if it makes the same number, the returned table is exactly `k` times the other.
Partial: the number of iterations need not be the same (`C89_negation_iterations`), because the error is compared with
the same `1e-8`. -/
theorem C89_units_partial {s : List Nat} {Q : Prob ℚ} (h : ProbShape s Q) (hp : ProperProb s Q) {k : ℚ} (hk : 1 ≤ k)
    {b : List Int → ℚ} {r r' : IPF Fl} (hr : ipfExact s Q b = .ok r) (hr' : ipfExact s (scaledProb k Q) b = .ok r') :
    ∃ (c : Nat → List Int → ℚ) (e : Nat → ℚ), r.micro.array = finArr s (c r.iters) ∧ r.maxError = .fin (e r.iters) ∧
      r'.micro.array = finArr s (fun v => k * c r'.iters v) ∧ r'.maxError = .fin (k * e r'.iters) ∧
      r.iters ≤ r'.iters ∧ (r'.conv = true → r.conv = true) := by
  have hk0 : k ≠ 0 := by linarith
  have hne : Q ≠ [] := by
    rintro rfl
    have := h.lists
    simp at this
  have hp' : ProperProb s (scaledProb k Q) := by
    intro p hpp
    obtain ⟨q, hq, rfl⟩ := List.mem_map.mp hpp
    exact hp q hq
  obtain ⟨p0, n, -, n1, n2, n3, n4, n5, n6, n7, n8⟩ := ipf_exact_fin h hp hr
  obtain ⟨p0', n', -, n1', n2', n3', n4', n5', n6', n7', n8'⟩ := ipf_exact_fin (scaledProb_shape h) hp' hr'
  have hmx : ∀ m, 1 ≤ m → qmax s (scaledProb k Q) ((qsweep s (scaledProb k Q))^[m] b) =
      k * qmax s Q ((qsweep s Q)^[m] b) := by
    intro m hm
    rw [qiter_units hk0 hne b m hm, qmax_units (by linarith) h]
  have hpos : ∀ m, 0 ≤ qmax s Q ((qsweep s Q)^[m] b) := by
    intro m
    obtain ⟨q, hq, j, hj, he⟩ := (qmax_spec h ((qsweep s Q)^[m] b)).2
    rw [he]; exact abs_nonneg _
  have hge : ∀ m, qmax s Q ((qsweep s Q)^[m] b) ≤ k * qmax s Q ((qsweep s Q)^[m] b) :=
    fun m => le_mul_of_one_le_left (hpos m) hk
  have hnn : n ≤ n' := by
    by_contra hc
    rcases n3' with n3' | n3'
    · rw [hmx n' n1'] at n3'
      have h1 := n4 n' n1' (by omega)
      have h2 := hge n'
      linarith
    · omega
  refine ⟨fun m => (qsweep s Q)^[m] b, fun m => qmax s Q ((qsweep s Q)^[m] b), ?_, ?_, ?_, ?_, ?_, ?_⟩
  · rw [n5, n6]
  · rw [n8, n6]
  · rw [n5', n6', qiter_units hk0 hne b n' n1']
  · rw [n8', n6', hmx n' n1']
  · rw [n6, n6']; exact hnn
  · rw [n7, n7']
    simp only [decide_eq_true_eq]
    intro hc
    rcases n3 with n3 | n3
    · exact n3
    · have : n' = n := by omega
      subst this
      rw [hmx n' n1'] at hc
      exact lt_of_le_of_lt (hge n') hc

/-- Two people in two categories each way. -/
def exUnits : Prob ℚ := [([0], fun _ => 1), ([1], fun _ => 1)]

/-- A seed that is nearly constant. -/
def exUnitsSeed : List Int → ℚ := fun v => if v = [0, 0] then 1 + 1 / 5000 else 1

theorem exUnits_ok : ∀ {k : ℚ} {n : Int}, 0 ≤ k → 2 * k = n → RatOK [2, 2] (scaledProb k exUnits) n := by
  intro k n hk hn
  refine ⟨⟨by simp [scaledProb, exUnits], by decide, by decide, by simp [scaledProb, exUnits], ?_⟩, ?_, ?_, ?_⟩
  · intro d hd
    simp only [List.length_cons, List.length_nil] at hd
    interval_cases d <;> simp [scaledProb, exUnits]
  · intro p hp j hj
    simp only [scaledProb, exUnits, List.map_cons, List.map_nil, List.mem_cons, List.not_mem_nil, or_false] at hp
    rcases hp with rfl | rfl <;> simpa using hk
  · intro p hp
    simp only [scaledProb, exUnits, List.map_cons, List.map_nil, List.mem_cons, List.not_mem_nil, or_false] at hp
    rcases hp with rfl | rfl <;> rw [← sum_allIdx] <;> simp [projSizes, allIdx, List.range_succ] <;> linarith
  · intro p hp q hq a b d ha hb x _
    simp only [scaledProb, exUnits, List.map_cons, List.map_nil, List.mem_cons, List.not_mem_nil, or_false] at hp hq
    rcases hp with rfl | rfl <;> rcases hq with rfl | rfl
    all_goals
      rw [List.getElem?_singleton] at ha hb
      split at ha <;> split at hb <;> simp_all
    all_goals omega

theorem scaledProb_one (Q : Prob ℚ) : scaledProb 1 Q = Q := by
  simp [scaledProb]

theorem exUnits_proper (k : ℚ) : ProperProb [2, 2] (scaledProb k exUnits) := by
  intro p hp
  simp only [scaledProb, exUnits, List.map_cons, List.map_nil, List.mem_cons, List.not_mem_nil, or_false] at hp
  rcases hp with rfl | rfl
  · show ProperDims [2, 2] [0]; decide
  · show ProperDims [2, 2] [1]; decide

theorem exUnits_first : 1 / 10 ^ 10 ≤ qmax [2, 2] exUnits (qsweep [2, 2] exUnits exUnitsSeed) ∧
    qmax [2, 2] exUnits (qsweep [2, 2] exUnits exUnitsSeed) < 1 / 10 ^ 8 ∧
    qmax [2, 2] exUnits ((qsweep [2, 2] exUnits)^[2] exUnitsSeed) < 1 / 10 ^ 11 ∧
    qsweep [2, 2] exUnits exUnitsSeed [0, 0] ≠ (qsweep [2, 2] exUnits)^[2] exUnitsSeed [0, 0] := by
  decide +kernel

/-- The number of iterations does depend on the unit: two people spread over a 2 by 2 table with a nearly constant seed take one
iteration; two hundred people with the same shares take two, and the table returned is not a hundred times the other. -/
theorem C89_negation_iterations :
    RatOK [2, 2] exUnits 2 ∧ RatOK [2, 2] (scaledProb 100 exUnits) 200 ∧ ProperProb [2, 2] exUnits ∧
    ∃ (r r' : IPF Fl) (c c' : List Int → ℚ), ipfExact [2, 2] exUnits exUnitsSeed = .ok r ∧
      ipfExact [2, 2] (scaledProb 100 exUnits) exUnitsSeed = .ok r' ∧ r.conv = true ∧ r'.conv = true ∧
      r.iters = 1 ∧ r'.iters = 2 ∧ r.micro.array = finArr [2, 2] c ∧ r'.micro.array = finArr [2, 2] c' ∧
      c' [0, 0] ≠ 100 * c [0, 0] := by
  have hok1 : RatOK [2, 2] exUnits 2 := by
    have := exUnits_ok (k := 1) (n := 2) (by norm_num) (by norm_num)
    rwa [scaledProb_one] at this
  have hok2 : RatOK [2, 2] (scaledProb 100 exUnits) 200 := exUnits_ok (by norm_num) (by norm_num)
  have hp1 : ProperProb [2, 2] exUnits := by
    have := exUnits_proper 1
    rwa [scaledProb_one] at this
  obtain ⟨r, hr⟩ := ipf_run_ok _ _ (minOK_fl _) (ratOK_accepted hok1 (by norm_num)) (properProb_fin hp1)
    (fun v => .fin (exUnitsSeed v))
  obtain ⟨r', hr'⟩ := ipf_run_ok _ _ (minOK_fl _) (ratOK_accepted hok2 (by norm_num)) (properProb_fin (exUnits_proper 100))
    (fun v => .fin (exUnitsSeed v))
  obtain ⟨p0, n, -, n1, n2, n3, n4, n5, n6, n7, n8⟩ := ipf_exact_fin hok1.toProbShape hp1 hr
  obtain ⟨p0', n', -, n1', n2', n3', n4', n5', n6', n7', n8'⟩ := ipf_exact_fin hok2.toProbShape (exUnits_proper 100) hr'
  obtain ⟨e1, e2, e3, e4⟩ := exUnits_first
  have hmx : ∀ m, 1 ≤ m → qmax [2, 2] (scaledProb 100 exUnits) ((qsweep [2, 2] (scaledProb 100 exUnits))^[m] exUnitsSeed) =
      100 * qmax [2, 2] exUnits ((qsweep [2, 2] exUnits)^[m] exUnitsSeed) := by
    intro m hm
    rw [qiter_units (by norm_num) (by simp [exUnits]) _ m hm, qmax_units (by norm_num) hok1.toProbShape]
  have hn : n = 1 := by
    by_contra hc
    have := n4 1 le_rfl (by omega)
    exact absurd e2 (not_lt.mpr this)
  have hn' : n' = 2 := by
    by_contra hc
    rcases Nat.lt_or_gt_of_ne hc with hl | hl
    · have : n' = 1 := by omega
      subst this
      rcases n3' with n3' | n3'
      · rw [hmx 1 le_rfl] at n3'
        have : (1 : ℚ) / 10 ^ 8 ≤ 100 * qmax [2, 2] exUnits (qsweep [2, 2] exUnits exUnitsSeed) := by
          have := mul_le_mul_of_nonneg_left e1 (by norm_num : (0 : ℚ) ≤ 100)
          refine le_trans ?_ this
          norm_num
        exact absurd n3' (not_lt.mpr this)
      · omega
    · have := n4' 2 (by omega) hl
      rw [hmx 2 (by omega)] at this
      have h2 : 100 * qmax [2, 2] exUnits ((qsweep [2, 2] exUnits)^[2] exUnitsSeed) < 100 * (1 / 10 ^ 11) :=
        mul_lt_mul_of_pos_left e3 (by norm_num)
      have h3 : (100 : ℚ) * (1 / 10 ^ 11) < 1 / 10 ^ 8 := by norm_num
      linarith
  subst hn hn'
  refine ⟨hok1, hok2, hp1, r, r', _, _, hr, hr', ?_, ?_, n6, n6', by rw [n5], by rw [n5'], ?_⟩
  · rw [n7]; exact decide_eq_true e2
  · rw [n7', hmx 2 (by omega)]
    apply decide_eq_true
    have h2 : 100 * qmax [2, 2] exUnits ((qsweep [2, 2] exUnits)^[2] exUnitsSeed) < 100 * (1 / 10 ^ 11) :=
      mul_lt_mul_of_pos_left e3 (by norm_num)
    have h3 : (100 : ℚ) * (1 / 10 ^ 11) < 1 / 10 ^ 8 := by norm_num
    linarith
  · rw [qiter_units (by norm_num) (by simp [exUnits]) _ 2 (by omega)]
    intro hc
    exact e4 (mul_left_cancel₀ (by norm_num : (100 : ℚ) ≠ 0) hc).symm

/-- The hypotheses of `C89_units_partial` are met by this pair. -/
example : ∃ r r', ProbShape [2, 2] exUnits ∧ ProperProb [2, 2] exUnits ∧ ipfExact [2, 2] exUnits exUnitsSeed = .ok r ∧
    ipfExact [2, 2] (scaledProb 100 exUnits) exUnitsSeed = .ok r' :=
  let ⟨h1, _, h3, r, r', _, _, h4, h5, _⟩ := C89_negation_iterations
  ⟨r, r', h1.toProbShape, h3, h4, h5⟩

end HL

import Verif.Proof.IntegeriseVector

/-
C45-C51: integerisation.

`Integerise.oneD fp frac pop` is `integerise(frac, pop)` of the Python module, `Integerise.prob2IntFreq` the function of
the R package, `Integerise.run` the one-argument `integerise` of an array.  `FP.exactWith sqrt` is exact arithmetic with an
arbitrary square root function; `FP.Good` arithmetics include IEEE binary64.  `pop` is a C++ `int`.
-/

namespace HL
open Integerise

/-! ### C45 -/

/-- **C45**, exact arithmetic, `integerise(frac, pop)`: returns non-negative integers, one for each entry, summing to
`pop`. -/
theorem C45_sum_exact (sqrt : Fl → Fl) {xs : List ℚ} {pop : Int} (hpop0 : 0 ≤ pop) (hpop : pop < 2 ^ 31)
    (hx : ∀ x ∈ xs, 0 ≤ x) (hs : 0 < xs.sum) :
    ∃ f e, oneD (FP.exactWith sqrt) (xs.map Fl.fin) pop = .ok (f, e) ∧ f.length = xs.length ∧ (∀ k ∈ f, 0 ≤ k) ∧
      f.sum = pop := by
  obtain ⟨f, h1, h2, h3, h4, -⟩ := oneD_spec sqrt hpop0 hpop hx hs
  exact ⟨f, _, h1, h2, h3, h4⟩

/-- **C45**, exact arithmetic, `prob2IntFreq`: the same whenever the probabilities sum to one within the function's own
tolerance. -/
theorem C45_prob2IntFreq_exact (sqrt : Fl → Fl) {p : List ℚ} {pop : Int} (hpop0 : 0 ≤ pop) (hpop : pop < 2 ^ 31)
    (hp : ∀ x ∈ p, 0 ≤ x) (hs : |p.sum - 1| ≤ 1000 / 2 ^ 52) :
    ∃ f e, prob2IntFreq (FP.exactWith sqrt) (p.map Fl.fin) pop = .ok (f, e) ∧ f.length = p.length ∧ (∀ k ∈ f, 0 ≤ k) ∧
      f.sum = pop := by
  obtain ⟨f, h1, h2, h3, h4, -⟩ := prob2IntFreq_spec sqrt hpop0 hpop hp hs
  exact ⟨f, _, h1, h2, h3, h4⟩

/-- **C45**, rounded arithmetic, `integerise(frac, pop)`, for up to four million entries (or more for a smaller
population).  Missing: longer vectors (where it is false, `C45_negation`), and vectors with subnormal entries or sums
beyond 2^1022. -/
theorem C45_sum_partial {fp : FP} (h : fp.Good) {xs : List ℚ} {pop : Int} (h0 : 0 ≤ pop) (h1 : pop < 2 ^ 31)
    (hn : (pop + 2) * (xs.length + 3) ≤ 2 ^ 53) (hr : ∀ x ∈ xs, fp.rnd x = .fin x)
    (hx : ∀ x ∈ xs, x = 0 ∨ (2 : ℚ) ^ (-1022 : ℤ) ≤ x) (hs0 : 0 < xs.sum) (hs1 : xs.sum ≤ 2 ^ 1022) :
    ∃ f e, oneD fp (xs.map Fl.fin) pop = .ok (f, e) ∧ f.length = xs.length ∧ (∀ k ∈ f, 0 ≤ k) ∧ f.sum = pop :=
  oneD_rounded h h0 h1 hn hr (by rw [tinyQ_eq]; exact hx) hs0 (by unfold hugeQ; exact hs1)

/-- every population, four million entries -/
example (pop : Int) (h : pop < 2 ^ 31) (n : Nat) (hn : n ≤ 4000000) : (pop + 2) * (n + 3) ≤ 2 ^ 53 := by
  have : (pop + 2) * (n + 3) ≤ (2 ^ 31 + 1) * (4000000 + 3) := by
    by_cases hp : 0 ≤ pop + 2
    · exact mul_le_mul (by omega) (by omega) (by omega) (by norm_num)
    · nlinarith
  linarith

/-- **C45**, rounded arithmetic, `prob2IntFreq`: it raises or returns non-negative integers summing to `pop`; it raises
only if the sum of the probabilities differs from one. -/
theorem C45_prob2IntFreq_partial {fp : FP} (h : fp.Good) {p : List ℚ} {pop : Int} (h0 : 0 ≤ pop) (h1 : pop < 2 ^ 31)
    (hn : (pop + 4) * (2 * p.length + 2003) ≤ 2 ^ 53) (hp : ∀ x ∈ p, 0 ≤ x) (hs : p.sum ≤ 2) :
    (prob2IntFreq fp (p.map Fl.fin) pop = .thrown .notUnity ∧ 1000 / 2 ^ 52 < |p.sum - 1| + 2 * p.length / 2 ^ 53) ∨
    (|p.sum - 1| ≤ 1000 / 2 ^ 52 + 2 * p.length / 2 ^ 53 ∧
      ∃ f e, prob2IntFreq fp (p.map Fl.fin) pop = .ok (f, e) ∧ f.length = p.length ∧ (∀ k ∈ f, 0 ≤ k) ∧ f.sum = pop) := by
  have e : ∀ x : ℚ, x * eps = x / 2 ^ 53 := by intro x; unfold eps; ring
  have := prob2IntFreq_rounded h h0 h1 hn hp hs
  rw [e] at this
  exact this

/-- **C45 is false in IEEE arithmetic** for long vectors: with one entry 1 and 2^24 entries 2^-24 + 2^-53 the
frequencies returned for a population of 2113929214 sum to 2113929215. -/
theorem C45_negation (sqrt : Fl → Fl) :
    ∃ (xs : List ℚ) (pop : Int) (f : List Int) (e : Fl), xs.length = 2 ^ 24 + 1 ∧
      (∀ x ∈ xs, 0 < x ∧ (FP.ieee sqrt).rnd x = .fin x) ∧ 0 ≤ pop ∧ pop < 2 ^ 31 ∧
      oneD (FP.ieee sqrt) (xs.map Fl.fin) pop = .ok (f, e) ∧ f.sum = pop + 1 := by
  obtain ⟨N, hN⟩ : ∃ N : Nat, N = 2 ^ 24 := ⟨_, rfl⟩
  obtain ⟨e, he⟩ := w_run sqrt N hN
  refine ⟨1 :: List.replicate N wEntry, 2113929214, _, e,
    by rw [List.length_cons, List.length_replicate, hN], ?_, by norm_num, by norm_num, he, ?_⟩
  · intro x hx
    rw [List.mem_cons, List.mem_replicate] at hx
    rcases hx with rfl | ⟨-, rfl⟩
    · exact ⟨by norm_num, by exact_mod_cast ieee_small 1 (by norm_num)⟩
    · refine ⟨by unfold wEntry; norm_num, ?_⟩
      have := (FP.ieee_good sqrt).dyadic (2 ^ 29 + 1) 53 (by norm_num) (by norm_num)
      have e : wEntry = (((2 ^ 29 + 1 : ℤ)) : ℚ) / 2 ^ 53 := by unfold wEntry; norm_num
      rw [e]; exact this
  · rw [List.sum_cons, List.sum_replicate, hN]; norm_num

example : ∀ x ∈ [(1 / 2 : ℚ), 1 / 4, 1 / 4], 0 ≤ x := by norm_num

/-! ### C46 -/

/-- **C46**: every frequency differs from the exact value by less than one; if all exact values are integers they are
returned unchanged. -/
theorem C46_rounds (sqrt : Fl → Fl) {xs : List ℚ} {pop : Int} (hpop0 : 0 ≤ pop) (hpop : pop < 2 ^ 31)
    (hx : ∀ x ∈ xs, 0 ≤ x) (hs : 0 < xs.sum) {f : List Int} {e : Fl}
    (h : oneD (FP.exactWith sqrt) (xs.map Fl.fin) pop = .ok (f, e)) :
    (∀ i, |(f.getD i 0 : ℚ) - (probs xs).getD i 0 * pop| < 1) ∧
    ((∀ x ∈ probs xs, ∃ z : ℤ, x * pop = z) → ∀ i, (f.getD i 0 : ℚ) = (probs xs).getD i 0 * pop) := by
  obtain ⟨f', h1, -, -, -, h5, -, -, h8⟩ := oneD_spec sqrt hpop0 hpop hx hs
  rw [h1] at h
  injection h with h
  injection h with h h'
  subst h
  exact ⟨h5, h8⟩

/-- **C46** for `prob2IntFreq`. -/
theorem C46_prob2IntFreq (sqrt : Fl → Fl) {p : List ℚ} {pop : Int} (hpop0 : 0 ≤ pop) (hpop : pop < 2 ^ 31)
    (hp : ∀ x ∈ p, 0 ≤ x) (hs : |p.sum - 1| ≤ 1000 / 2 ^ 52) {f : List Int} {e : Fl}
    (h : prob2IntFreq (FP.exactWith sqrt) (p.map Fl.fin) pop = .ok (f, e)) :
    ∀ i, |(f.getD i 0 : ℚ) - p.getD i 0 * pop| < 1 := by
  obtain ⟨f', h1, -, -, -, h5, -⟩ := prob2IntFreq_spec sqrt hpop0 hpop hp hs
  rw [h1] at h
  injection h with h
  injection h with h h'
  subst h
  exact h5

/-! ### C47 -/

/-- **C47**: no integer vector with the same sum is closer to the exact values, and the returned `rmse` is the root of
the mean square deviation of the returned vector. -/
theorem C47_optimal (sqrt : Fl → Fl) {xs : List ℚ} {pop : Int} (hpop0 : 0 ≤ pop) (hpop : pop < 2 ^ 31)
    (hx : ∀ x ∈ xs, 0 ≤ x) (hs : 0 < xs.sum) {f : List Int} {e : Fl}
    (h : oneD (FP.exactWith sqrt) (xs.map Fl.fin) pop = .ok (f, e)) :
    (∀ g : List Int, g.length = xs.length → g.sum = pop → sqDev pop (probs xs) f ≤ sqDev pop (probs xs) g) ∧
    e = sqrt (.fin (sqDev pop (probs xs) f / xs.length)) := by
  obtain ⟨f', h1, -, -, -, -, h6, -⟩ := oneD_spec sqrt hpop0 hpop hx hs
  rw [h1] at h
  injection h with h
  injection h with h h'
  subst h
  exact ⟨h6, h'.symm⟩

/-- **C47** for `prob2IntFreq`. -/
theorem C47_prob2IntFreq (sqrt : Fl → Fl) {p : List ℚ} {pop : Int} (hpop0 : 0 ≤ pop) (hpop : pop < 2 ^ 31)
    (hp : ∀ x ∈ p, 0 ≤ x) (hs : |p.sum - 1| ≤ 1000 / 2 ^ 52) {f : List Int} {e : Fl}
    (h : prob2IntFreq (FP.exactWith sqrt) (p.map Fl.fin) pop = .ok (f, e)) :
    (∀ g : List Int, g.length = p.length → g.sum = pop → sqDev pop p f ≤ sqDev pop p g) ∧
    e = sqrt (.fin (sqDev pop p f / p.length)) := by
  obtain ⟨f', h1, -, -, -, -, h6, -⟩ := prob2IntFreq_spec sqrt hpop0 hpop hp hs
  rw [h1] at h
  injection h with h
  injection h with h h'
  subst h
  exact ⟨h6, h'.symm⟩

/-- The competing vectors are a real choice: here `[1, 1, 1]` is closer to `[1.5, 0.75, 0.75]` than `[2, 1, 0]`. -/
example : sqDev 3 [1 / 2, 1 / 4, 1 / 4] [1, 1, 1] < sqDev 3 [1 / 2, 1 / 4, 1 / 4] [2, 1, 0] := by
  norm_num [sqDev]

/-! ### C48 -/

/-- **C48**: the larger of two numbers never gets the smaller frequency. -/
theorem C48_order (sqrt : Fl → Fl) {xs : List ℚ} {pop : Int} (hpop0 : 0 ≤ pop) (hpop : pop < 2 ^ 31)
    (hx : ∀ x ∈ xs, 0 ≤ x) (hs : 0 < xs.sum) {f : List Int} {e : Fl}
    (h : oneD (FP.exactWith sqrt) (xs.map Fl.fin) pop = .ok (f, e)) :
    ∀ i j, xs.getD i 0 < xs.getD j 0 → f.getD i 0 ≤ f.getD j 0 := by
  obtain ⟨f', h1, -, -, -, -, -, h7, -⟩ := oneD_spec sqrt hpop0 hpop hx hs
  rw [h1] at h
  injection h with h
  injection h with h h'
  subst h
  intro i j hij
  apply h7
  have : ∀ k, (probs xs).getD k 0 = xs.getD k 0 / xs.sum := by
    intro k
    have := List.getD_map (n := k) xs (0 : ℚ) (fun x : ℚ => x / xs.sum)
    rw [zero_div] at this
    exact this
  rw [this, this]
  gcongr

/-- **C48** for `prob2IntFreq`. -/
theorem C48_prob2IntFreq (sqrt : Fl → Fl) {p : List ℚ} {pop : Int} (hpop0 : 0 ≤ pop) (hpop : pop < 2 ^ 31)
    (hp : ∀ x ∈ p, 0 ≤ x) (hs : |p.sum - 1| ≤ 1000 / 2 ^ 52) {f : List Int} {e : Fl}
    (h : prob2IntFreq (FP.exactWith sqrt) (p.map Fl.fin) pop = .ok (f, e)) :
    ∀ i j, p.getD i 0 < p.getD j 0 → f.getD i 0 ≤ f.getD j 0 := by
  obtain ⟨f', h1, -, -, -, -, -, h7⟩ := prob2IntFreq_spec sqrt hpop0 hpop hp hs
  rw [h1] at h
  injection h with h
  injection h with h h'
  subst h
  exact h7

/-- The hypotheses of C46-C48 are met. -/
example (sqrt : Fl → Fl) : ∃ f e, oneD (FP.exactWith sqrt) ([(2 : ℚ), 1, 1].map Fl.fin) 3 = .ok (f, e) := by
  obtain ⟨f, e, h, -⟩ := C45_sum_exact sqrt (xs := [2, 1, 1]) (pop := 3) (by norm_num) (by norm_num) (by norm_num) (by norm_num)
  exact ⟨f, e, h⟩

/-! ### C49 -/

/-- **C49 is false**: with an empty vector and a positive population the function writes outside its arrays. -/
theorem C49_negation_empty (fp : FP) {pop : Int} (h : 0 < pop) : oneD fp [] pop = .ub .oob := by
  unfold oneD marginal
  rw [if_neg (by omega)]
  simp only [List.map_nil, List.mapM_nil, Out.pure_eq, Out.ok_bind]
  rw [total_ok (by simp) (by norm_num), Out.ok_bind, loop_unfold]
  simp only [List.sum_nil, h, decide_true, if_true]
  rfl

/-- **C49 is false**: with a vector summing to zero it converts NaN to an integer. -/
theorem C49_negation_zero {fp : FP} (h : fp.Good) {n : Nat} (hn : 0 < n) {pop : Int} (hp : 0 ≤ pop) :
    oneD fp (List.replicate n (.fin 0)) pop = .ub .badCast := by
  unfold oneD marginal
  have hs : ∀ n : Nat, (List.replicate n (Fl.fin 0)).foldl fp.add (.fin 0) = .fin 0 := by
    intro n
    induction n with
    | zero => rfl
    | succ n ih =>
      rw [List.replicate_succ, List.foldl_cons]
      have : fp.add (.fin 0) (.fin 0) = .fin 0 := by
        show fp.rnd (0 + 0) = _
        rw [zero_add, rnd_zero h]
      rw [this, ih]
  have hs' : sumVec (numFl fp) (List.replicate n (Fl.fin 0)) = .fin 0 := hs n
  rw [if_neg (by omega), hs']
  obtain ⟨m, rfl⟩ : ∃ m, n = m + 1 := ⟨n - 1, by omega⟩
  rw [List.replicate_succ, List.map_cons, List.mapM_cons]
  have hd : fp.div (.fin 0) (.fin 0) = .nan := by
    show (if (0 : ℚ) = 0 then FP.infOfSign 0 else fp.rnd (0 / 0)) = _
    rw [if_pos rfl]; unfold FP.infOfSign; rw [if_pos rfl]
  have : start fp pop .nan = .ub .badCast := by
    unfold start; rfl
  rw [hd, this]
  rfl

/-- **C49**, what does hold, in exact arithmetic: for a vector without negative entries the function raises for a
negative population, returns if the entries have a positive sum, and otherwise only returns for an empty vector and
population 0.  Missing: vectors with negative entries. -/
theorem C49_outcomes_partial (sqrt : Fl → Fl) {xs : List ℚ} (hx : ∀ x ∈ xs, 0 ≤ x) {pop : Int} (hpop : pop < 2 ^ 31) :
    (pop < 0 → oneD (FP.exactWith sqrt) (xs.map Fl.fin) pop = .thrown .negativePop) ∧
    (0 ≤ pop → ((∃ r, oneD (FP.exactWith sqrt) (xs.map Fl.fin) pop = .ok r) ↔ 0 < xs.sum ∨ (xs = [] ∧ pop = 0))) := by
  constructor
  · intro h
    unfold oneD
    rw [if_pos h]
  · intro h0
    rcases (List.sum_nonneg hx).lt_or_eq with hs | hs
    · obtain ⟨f, e, h, -⟩ := C45_sum_exact sqrt h0 hpop hx hs
      exact ⟨fun _ => Or.inl hs, fun _ => ⟨_, h⟩⟩
    · have hz : ∀ x ∈ xs, x = 0 := by
        intro x hxm
        have := List.single_le_sum hx x hxm
        linarith [hx x hxm]
      constructor
      · rintro ⟨r, hr⟩
        right
        by_cases hne : xs = []
        · subst hne
          refine ⟨rfl, ?_⟩
          by_contra hpo
          have := C49_negation_empty (FP.exactWith sqrt) (pop := pop) (by omega)
          rw [List.map_nil, this] at hr
          cases hr
        · exfalso
          have e : xs.map Fl.fin = List.replicate xs.length (.fin 0) := by
            apply List.eq_replicate_iff.mpr
            refine ⟨by simp, ?_⟩
            intro b hb
            obtain ⟨x, hxm, rfl⟩ := List.mem_map.mp hb
            rw [hz x hxm]
          have hgood : (FP.exactWith sqrt).Good := by
            have := FP.exact_good
            exact ⟨this.dyadic, this.mono, this.idem, this.near, this.finite⟩
          have := C49_negation_zero hgood (n := xs.length) (List.length_pos_iff.mpr hne) h0
          rw [e, this] at hr
          cases hr
      · rintro (h | ⟨rfl, rfl⟩)
        · exact absurd h (by linarith)
        · refine ⟨([], rmse (FP.exactWith sqrt) []), ?_⟩
          unfold oneD marginal
          rw [if_neg (by omega)]
          simp only [List.map_nil, List.mapM_nil, Out.pure_eq, Out.ok_bind]
          rw [total_ok (by simp) (by norm_num), Out.ok_bind, loop_exit (by simp), Out.ok_bind]

/-! ### C50 -/

/-- **C50**, exact arithmetic, for totals not below the integer: the result sums to it, without negative entries, each
differing from the original by less than one.  Missing: totals below the integer and the integer 0, where it is false
(`C50_negation`, `C50_negation_zero`), and totals of 2^31 or more. -/
theorem C50_total_partial (dbg : Bool) (sqrt : Fl → Fl) (lm : Libm) {xs : List ℚ} (hx : ∀ x ∈ xs, 0 ≤ x) {N : Int} (hN0 : 1 ≤ N)
    (hN : N < 2 ^ 31) (hs1 : (N : ℚ) ≤ xs.sum) (hs2 : xs.sum ≤ N + 1 / 10 ^ 4) :
    ∃ f e, run dbg (FP.exactWith sqrt) lm (vec xs) = .ok ⟨intVec f, true, e⟩ ∧ f.length = xs.length ∧ (∀ k ∈ f, 0 ≤ k) ∧
      f.sum = N ∧ (∀ i, |(f.getD i 0 : ℚ) - xs.getD i 0| < 1) :=
  run_vec_exact dbg sqrt lm hx hN0 hN hs1 hs2

example : ∀ x ∈ [(3 / 2 : ℚ), 3 / 4, 3 / 4], 0 ≤ x := by norm_num
example : ((3 : Int) : ℚ) ≤ [(3 / 2 : ℚ), 3 / 4, 3 / 4].sum ∧ [(3 / 2 : ℚ), 3 / 4, 3 / 4].sum ≤ (3 : Int) + 1 / 10 ^ 4 := by norm_num

/-- **C50**, rounded arithmetic, when the computed total is an integer. -/
theorem C50_rounded_partial (dbg : Bool) {fp : FP} (h : fp.Good) (lm : Libm) {xs : List ℚ} {N : Int} (hN0 : 1 ≤ N) (hN : N < 2 ^ 31)
    (hn : (N + 2) * (xs.length + 3) ≤ 2 ^ 53) (hr : ∀ x ∈ xs, fp.rnd x = .fin x)
    (hx : ∀ x ∈ xs, x = 0 ∨ (2 : ℚ) ^ (-1022 : ℤ) ≤ x) (hs1 : xs.sum ≤ 2 ^ 1022)
    (hs : sumVec (numFl fp) (xs.map Fl.fin) = .fin N) :
    ∃ f e, run dbg fp lm (vec xs) = .ok ⟨intVec f, true, e⟩ ∧ f.length = xs.length ∧ (∀ k ∈ f, 0 ≤ k) ∧ f.sum = N :=
  let ⟨_, f, e, h1, h2, h3, h4, _⟩ := run_vec_rounded dbg h lm hN0 hN hn hr (by rw [tinyQ_eq]; exact hx) (by unfold hugeQ; exact hs1) hs
  ⟨f, e, h1, h2, h3, h4⟩

/-- **C50 is false**: `integerise([2 - 2^-14])`, whose total is within 1e-4 of 2, returns `[1]`. -/
theorem C50_negation (dbg : Bool) {fp : FP} (h : fp.Good) (lm : Libm) :
    |(2 - 1 / 2 ^ 14 : ℚ) - 2| ≤ 1 / 10 ^ 4 ∧ ∃ e, run dbg fp lm (vec [2 - 1 / 2 ^ 14]) = .ok ⟨intVec [1], true, e⟩ :=
  ⟨by norm_num [abs_of_neg], run_vec_truncated dbg h lm⟩

/-- **C50 is false**: an array of zeros has the total 0; integerising it is undefined behaviour. -/
theorem C50_negation_zero (dbg : Bool) {fp : FP} (h : fp.Good) (lm : Libm) :
    run dbg fp lm (vec [0]) = .ub .badCast := by
  have hs : sumVec (numFl fp) ([(0 : ℚ)].map Fl.fin) = .fin 0 := by
    show fp.rnd (0 + 0) = _
    rw [zero_add, rnd_zero h]
  apply run_vec_zero dbg h lm (by simp) (by simpa using rnd_zero h) hs le_rfl (by norm_num) (n := 0)
  refine ⟨by rw [round_fin, roundHalfAway_eq (n := 0) (by norm_num)], ?_⟩
  have : fp.sub (.fin 0) (.fin ((0 : Int) : ℚ)) = .fin 0 := by
    show fp.rnd (0 + -((0 : Int) : ℚ)) = _
    norm_num
    exact rnd_zero h
  rw [this]
  obtain ⟨t, ht, -⟩ := h.near (1 / 10 ^ 4) (by
      have : (2 : ℚ) ^ (-1022 : ℤ) ≤ 2 ^ (-20 : ℤ) := zpow_le_zpow_right₀ (by norm_num) (by norm_num)
      refine this.trans ?_
      rw [abs_of_pos (by norm_num)]
      norm_num) (by
      rw [abs_of_pos (by norm_num)]
      have : (1 : ℚ) ≤ 2 ^ 1023 := one_le_pow₀ (by norm_num)
      refine le_trans ?_ this
      norm_num)
  have ht0 := h.mono 0 (1 / 10 ^ 4) 0 t (by norm_num) (rnd_zero h) ht
  rw [ht]
  simp [FP.abs, FP.lt, ht0]

/-- **C50 is false** for an everyday input: `integerise([0.7, 0.2, 0.1])` in IEEE arithmetic.  The entries are the doubles
nearest to 0.7, 0.2 and 0.1; their computed sum is 1 - 2^-53, which is truncated to 0. -/
theorem C50_negation_ieee (dbg : Bool) (sqrt : Fl → Fl) (lm : Libm) :
    (FP.ieee sqrt).rnd (7 / 10) = .fin (6305039478318694 / 2 ^ 53) ∧
    (FP.ieee sqrt).rnd (2 / 10) = .fin (3602879701896397 / 2 ^ 54) ∧
    (FP.ieee sqrt).rnd (1 / 10) = .fin (3602879701896397 / 2 ^ 55) ∧
    run dbg (FP.ieee sqrt) lm (vec [6305039478318694 / 2 ^ 53, 3602879701896397 / 2 ^ 54, 3602879701896397 / 2 ^ 55]) =
      .ub .badCast :=
  ⟨rnd_07, rnd_02, rnd_01, run_07 dbg sqrt lm⟩

/-! ### C51 -/

/-- **C51**, when `integerise` of an array with two or more dimensions returns: the total and all 1-d sums are close to
integers (`NearInt`; in exact arithmetic within 1e-4, `C51_near`), the result has the shape of the array and no negative
entry, its total is that of the rounded sums in each dimension, and `conv` says whether its 1-d sums are the rounded
ones.  The bound on the sums is that of `qisi` (C41). -/
theorem C51_returns {fp : FP} (hfp : fp.Good) {lm : Libm} {s : List Nat} (hg : GoodShape s) (h2 : 2 ≤ s.length)
    {a : List Int → Fl} {r : Result} (h : run false fp lm (arr s a) = .ok r)
    (hb : ∀ d < s.length, ∀ N : Nat → Int, (∀ i < s.getD d 0, NearInt fp (fsum fp s [d] a [(i : Int)]) (N i)) →
      |∑ i ∈ Finset.range (s.getD d 0), N i| < 2 ^ 52) :
    ∃ (T : Int) (N : Nat → Nat → Int) (f : List Int → Int), NearInt fp (seqSum (numFl fp) s a) T ∧
      (∀ d < s.length, ∀ i < s.getD d 0, NearInt fp (fsum fp s [d] a [(i : Int)]) (N d i)) ∧
      r.result = arr s f ∧ (∀ v, InRange s v → 0 ≤ f v) ∧
      (∀ d < s.length, ∑ v ∈ cells s, f v = ∑ i ∈ Finset.range (s.getD d 0), N d i) ∧
      (r.conv = true ↔ ∀ d < s.length, ∀ i < s.getD d 0, marginalSum s [d] f [(i : Int)] = N d i) := by
  rw [run_array h2] at h
  obtain ⟨T, hT, h⟩ := Out.bind_eq_ok.mp h
  obtain ⟨N, hN⟩ := array_inv hg h
  rw [array_eq hg lm hN] at h
  obtain ⟨x, hx, h⟩ := Out.bind_eq_ok.mp h
  have hnear : ∀ d < s.length, ∀ i < s.getD d 0, NearInt fp (fsum fp s [d] a [(i : Int)]) (N d i) :=
    fun d hd i hi => checkedRound_inv (hN d hd i hi)
  have hP : ∃ pop, ProbOK s (roundProb s N) pop ∧ pop < 2 ^ 52 := by
    rcases roundProb_new hfp hg h2 (N := N) (fun d hd => hb d hd (N d) (hnear d hd)) with h' | ⟨e, he⟩
    · exact h'
    · exfalso
      unfold qisi QISI.run QISI.new at hx
      rw [he] at hx
      cases hx
  obtain ⟨pop, hok, hpop⟩ := hP
  obtain ⟨f, hf1, hf2, hf3, hf4, hf5⟩ := C41_population_conv hfp hok hpop
    (properProb_of_disjoint hok.toProbShape (roundProb_flatten s N)) hx
  rw [hf1, copy_empty hg, Out.ok_bind] at h
  obtain ⟨e, -, h⟩ := Out.bind_eq_ok.mp h
  injection h with h
  subst h
  refine ⟨T, N, f, checkedRound_inv hT, hnear, rfl, hf2, ?_, ?_⟩
  · intro d hd
    rw [hf3, hf4, ← roundProb_sum]
    exact (hok.total _ (List.mem_map.mpr ⟨d, List.mem_range.mpr hd, rfl⟩)).symm
  · show x.conv = true ↔ _
    rw [hf5]
    constructor
    · intro h d hd i hi
      have := h _ (List.mem_map.mpr ⟨d, List.mem_range.mpr hd, rfl⟩) [(i : Int)]
        (by show InRange [s.getD d 0] _; simp [InRange]; simpa using hi)
      simpa using this
    · intro h p hp j hj
      obtain ⟨d, hd, rfl⟩ := List.mem_map.mp hp
      have hd := List.mem_range.mp hd
      have hj' : InRange [s.getD d 0] j := hj
      cases hj' with
      | cons hi hnil =>
        cases hnil
        rename_i i
        have := h d hd i.toNat (by omega)
        rw [Int.toNat_of_nonneg hi.1] at this
        simpa using this

/-- What `NearInt` says in exact arithmetic. -/
theorem C51_near (q : ℚ) (n : Int) : NearInt FP.exact (.fin q) n ↔ |q - n| ≤ 1 / 10 ^ 4 := nearInt_exact

/-- **C51**: if all sums are finite (and below 2^62) and the total or one of the 1-d sums is not close to an integer,
`integerise` raises. -/
theorem C51_rejects {fp : FP} {lm : Libm} {s : List Nat} (hg : GoodShape s) (h2 : 2 ≤ s.length) {a : List Int → Fl} {T : ℚ}
    {S : Nat → Nat → ℚ} (hT : seqSum (numFl fp) s a = .fin T) (hTb : |T| ≤ 2 ^ 62)
    (hS : ∀ d < s.length, ∀ i < s.getD d 0, fsum fp s [d] a [(i : Int)] = .fin (S d i) ∧ |S d i| ≤ 2 ^ 62)
    (hno : (∀ n, ¬ NearInt fp (.fin T) n) ∨ ∃ d < s.length, ∃ i < s.getD d 0, ∀ n, ¬ NearInt fp (.fin (S d i)) n) :
    run false fp lm (arr s a) = .thrown .notInteger := by
  rw [run_array h2, hT]
  rcases checkedRound_cases (fp := fp) hTb with ⟨n, hn⟩ | ⟨ht, -⟩
  · rw [hn, Out.ok_bind]
    rcases hno with hno | ⟨d, hd, i, hi, hno⟩
    · exact absurd (checkedRound_inv hn) (hno n)
    · unfold array
      rw [show (arr s a).dim = s.length from rfl, mapM_thrown (e := .notInteger)]
      · rfl
      · intro d' hd'
        have hd' := List.mem_range.mp hd'
        by_cases hall : ∀ i < s.getD d' 0, ∃ n, checkedRound fp (fsum fp s [d'] a [(i : Int)]) = .ok n
        · left
          refine ⟨_, marginalOf_ok hg a hd' (N := fun i => if h : i < s.getD d' 0 then Classical.choose (hall i h) else 0) ?_⟩
          intro i hi
          beta_reduce
          rw [dif_pos hi]
          exact Classical.choose_spec (hall i hi)
        · right
          rw [marginalOf_eq hg a hd', mapM_thrown (e := .notInteger)]
          · rfl
          · intro i hi
            have hi := List.mem_range.mp hi
            rw [(hS d' hd' i hi).1]
            rcases checkedRound_cases (fp := fp) (hS d' hd' i hi).2 with h | ⟨h, -⟩
            · exact Or.inl h
            · exact Or.inr h
          · push Not at hall
            obtain ⟨i, hi, h⟩ := hall
            exact ⟨i, List.mem_range.mpr hi, by rintro ⟨n, hn⟩; exact h n hn⟩
      · refine ⟨d, List.mem_range.mpr hd, ?_⟩
        rintro ⟨m, hm⟩
        rw [marginalOf_eq hg a hd] at hm
        obtain ⟨v, hv, -⟩ := Out.bind_eq_ok.mp hm
        obtain ⟨n, hn⟩ := mapM_inv hv i (List.mem_range.mpr hi)
        rw [(hS d hd i hi).1] at hn
        exact hno n (checkedRound_inv hn)
  · rw [ht]; rfl

/-- **C51**, outcomes: with finite sums (bounded as in C41) the call returns or raises. -/
theorem C51_outcomes {fp : FP} (hfp : fp.Good) (lm : Libm) {s : List Nat} (hg : GoodShape s) (h2 : 2 ≤ s.length)
    {a : List Int → Fl} {T : ℚ} {S : Nat → Nat → ℚ} (hT : seqSum (numFl fp) s a = .fin T) (hTb : |T| ≤ 2 ^ 62)
    (hS : ∀ d < s.length, ∀ i < s.getD d 0, fsum fp s [d] a [(i : Int)] = .fin (S d i) ∧ |S d i| ≤ 2 ^ 62)
    (hb : ∀ d < s.length, ∀ N : Nat → Int, (∀ i < s.getD d 0, NearInt fp (fsum fp s [d] a [(i : Int)]) (N i)) →
      |∑ i ∈ Finset.range (s.getD d 0), N i| < 2 ^ 52) :
    (∃ r, run false fp lm (arr s a) = .ok r) ∨ ∃ e, run false fp lm (arr s a) = .thrown e := by
  by_cases hno : (∀ n, ¬ NearInt fp (.fin T) n) ∨ ∃ d < s.length, ∃ i < s.getD d 0, ∀ n, ¬ NearInt fp (.fin (S d i)) n
  · exact Or.inr ⟨_, C51_rejects hg h2 hT hTb hS hno⟩
  · push Not at hno
    obtain ⟨⟨t, ht⟩, hno⟩ := hno
    have hN : ∀ d i : Nat, d < s.length → i < s.getD d 0 → ∃ n, NearInt fp (.fin (S d i)) n := fun d i hd hi => hno d hd i hi
    set N : Nat → Nat → Int := fun d i => if h : d < s.length ∧ i < s.getD d 0 then Classical.choose (hN d i h.1 h.2) else 0 with hNd
    have hNear : ∀ d < s.length, ∀ i < s.getD d 0, NearInt fp (.fin (S d i)) (N d i) := by
      intro d hd i hi
      rw [hNd]
      beta_reduce
      rw [dif_pos ⟨hd, hi⟩]
      exact Classical.choose_spec (hN d i hd hi)
    have hck : ∀ d < s.length, ∀ i < s.getD d 0, checkedRound fp (fsum fp s [d] a [(i : Int)]) = .ok (N d i) := by
      intro d hd i hi
      rw [(hS d hd i hi).1]
      exact checkedRound_of (hNear d hd i hi) (hS d hd i hi).2
    rw [run_array h2, hT, checkedRound_of ht hTb, Out.ok_bind, array_eq hg lm hck]
    rcases roundProb_new hfp hg h2 (N := N) (fun d hd => hb d hd (N d) (fun i hi => by
      rw [(hS d hd i hi).1]; exact hNear d hd i hi)) with ⟨pop, hok, hpop⟩ | ⟨e, he⟩
    · have hpr := properProb_of_disjoint hok.toProbShape (roundProb_flatten s N)
      rcases C41_outcomes hfp lm hok hpop hpr a 0 with ⟨x, hx⟩ | ⟨e, he⟩ | ⟨h3, -⟩
      · left
        rw [hx, Out.ok_bind]
        obtain ⟨f, hf1, -⟩ := C41_population_conv hfp hok hpop hpr hx
        rw [hf1, copy_empty hg, Out.ok_bind]
        obtain ⟨e, he⟩ := sqErr_ok (fp := fp) hg f a
        rw [he, Out.ok_bind]
        exact ⟨_, rfl⟩
      · right
        rw [he]; exact ⟨e, rfl⟩
      · norm_num at h3
    · right
      unfold qisi QISI.run QISI.new
      rw [he]; exact ⟨e, rfl⟩

/-- **C51**, the total: in exact arithmetic the result sums to the rounded total if some dimension has at most 9998
entries.  Missing: larger arrays, where it is false (`C51_negation_total`). -/
theorem C51_total_partial {lm : Libm} {s : List Nat} (hg : GoodShape s) (h2 : 2 ≤ s.length) {a : List Int → ℚ} {r : Result}
    (h : run false FP.exact lm (arr s (fun v => .fin (a v))) = .ok r)
    (hb : ∀ d < s.length, ∀ N : Nat → Int, (∀ i < s.getD d 0, |marginalSum s [d] a [(i : Int)] - N i| ≤ 1 / 10 ^ 4) →
      |∑ i ∈ Finset.range (s.getD d 0), N i| < 2 ^ 52)
    {d : Nat} (hd : d < s.length) (hd9 : s.getD d 0 ≤ 9998) {T : Int} (hT : |∑ v ∈ cells s, a v - T| ≤ 1 / 10 ^ 4) :
    ∃ f, r.result = arr s f ∧ ∑ v ∈ cells s, f v = T := by
  have hag : Agree s (fun v => .fin (a v)) a := fun _ _ => rfl
  obtain ⟨T', N, f, h1, h3, h4, -, h6, -⟩ := C51_returns FP.exact_good hg h2 h (by
    intro d hd N hN
    apply hb d hd N
    intro i hi
    have := hN i hi
    rw [fsum_exact hag] at this
    exact nearInt_exact.mp this)
  refine ⟨f, h4, ?_⟩
  rw [h6 d hd]
  have hsum : ∑ v ∈ cells s, a v = ∑ i ∈ Finset.range (s.getD d 0), marginalSum s [d] a [(i : Int)] := by
    unfold marginalSum
    rw [← Finset.sum_biUnion]
    · apply Finset.sum_congr _ (fun _ _ => rfl)
      ext v
      simp only [Finset.mem_biUnion, Finset.mem_range, Finset.mem_filter]
      constructor
      · intro hv
        have hr := inRange_getD (mem_cells.mp hv) hd
        refine ⟨(v.getD d 0).toNat, by omega, hv, ?_⟩
        simp only [proj, List.map_cons, List.map_nil]
        rw [Int.toNat_of_nonneg hr.1]
      · rintro ⟨i, -, hv, -⟩
        exact hv
    · intro i _ j _ hij
      apply Finset.disjoint_left.mpr
      intro v h1 h2
      have := (Finset.mem_filter.mp h1).2.symm.trans (Finset.mem_filter.mp h2).2
      simp at this
      exact hij this
  have hdev : |∑ v ∈ cells s, a v - ((∑ i ∈ Finset.range (s.getD d 0), N d i : Int) : ℚ)| ≤ 9998 / 10 ^ 4 := by
    rw [hsum]
    push_cast
    rw [← Finset.sum_sub_distrib]
    refine (Finset.abs_sum_le_sum_abs _ _).trans ?_
    refine (Finset.sum_le_card_nsmul _ _ (1 / 10 ^ 4) ?_).trans ?_
    · intro i hi
      have := h3 d hd i (Finset.mem_range.mp hi)
      rw [fsum_exact hag] at this
      exact nearInt_exact.mp this
    · rw [Finset.card_range, nsmul_eq_mul]
      have : ((s.getD d 0 : Nat) : ℚ) ≤ 9998 := by exact_mod_cast hd9
      linarith
  generalize (∑ i ∈ Finset.range (s.getD d 0), N d i : Int) = M at hdev ⊢
  obtain ⟨u1, u2⟩ := abs_le.mp hdev
  obtain ⟨v1, v2⟩ := abs_le.mp hT
  have w1 : (M : ℚ) < T + 1 := by linarith
  have w2 : (T : ℚ) < M + 1 := by linarith
  have w1' : M < T + 1 := by exact_mod_cast w1
  have w2' : T < M + 1 := by exact_mod_cast w2
  omega

/-- **C51 is false** for the total of large arrays, even in exact arithmetic: a constant array with 10000 rows and
columns, each of which sums to 1 + 1e-4, has the total 10001, and the result of integerising it sums to 10000. -/
theorem C51_negation_total (lm : Libm) :
    ∃ (k : ℚ) (r : Result) (f : List Int → Int), 0 < k ∧ ∑ _v ∈ cells [10000, 10000], k = 10001 ∧
      run false FP.exact lm (arr [10000, 10000] (fun _ => .fin k)) = .ok r ∧ r.conv = true ∧
      r.result = arr [10000, 10000] f ∧ ∑ v ∈ cells [10000, 10000], f v = 10000 := by
  obtain ⟨n, hn⟩ : ∃ n : Nat, n = 10000 := ⟨_, rfl⟩
  obtain ⟨r, f, h⟩ := large_run lm n hn
  rw [hn] at h
  exact ⟨_, r, f, h⟩

/-- **C51 is false** for arrays with infinities or NaN: the conversion of their sum to an integer is undefined. -/
theorem C51_negation_nonfinite {fp : FP} {lm : Libm} {s : List Nat} (hg : GoodShape s) (h2 : 2 ≤ s.length) {a : List Int → Fl}
    (h : ∃ v, InRange s v ∧ a v = .nan) : run false fp lm (arr s a) = .ub .badCast := by
  obtain ⟨v, hv, hn⟩ := h
  have hs : seqSum (numFl fp) s a = .nan :=
    foldl_add_nan fp a (allIdx s) _ (Or.inr ⟨v, mem_allIdx.mpr hv, hn⟩)
  rw [run_array h2, hs]
  unfold checkedRound
  have : FP.lt (tol4 fp) (FP.abs (fp.sub .nan (FP.round .nan))) = false := by
    show FP.lt (tol4 fp) .nan = false
    cases tol4 fp <;> rfl
  rw [this]
  rfl

end HL

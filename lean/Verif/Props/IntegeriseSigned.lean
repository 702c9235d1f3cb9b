import Verif.Props.Integerise

/-
C49, `integerise(frac, pop)` with any vector of doubles (negative entries, infinities, NaN) in any arithmetic.
-/

namespace HL
open Integerise
variable {fp : FP}

namespace Integerise

theorem int32_cases (z : Int) : int32 z = .ok z ∨ ∃ u, int32 z = .ub u := by
  unfold int32
  split
  · exact .inl rfl
  · exact .inr ⟨_, rfl⟩

theorem total_cases_from : ∀ (f : List Int) (a : Int),
    f.foldlM (fun a x => int32 (a + x)) a = .ok (a + f.sum) ∨ ∃ u, f.foldlM (fun a x => int32 (a + x)) a = .ub u
  | [], a => .inl (by simp)
  | x :: f, a => by
    rw [List.foldlM_cons]
    rcases int32_cases (a + x) with h | ⟨u, h⟩ <;> rw [h]
    · simp only [Out.ok_bind]
      rcases total_cases_from f (a + x) with h' | h'
      · left; rw [h', List.sum_cons, add_assoc]
      · exact .inr h'
    · exact .inr ⟨u, rfl⟩

theorem total_cases (f : List Int) : total f = .ok f.sum ∨ ∃ u, total f = .ub u := by
  have := total_cases_from f 0
  rwa [zero_add] at this

theorem start_cases (fp : FP) (pop : Int) (x : Fl) : (∃ y, start fp pop x = .ok y) ∨ ∃ u, start fp pop x = .ub u := by
  unfold start FP.toInt32
  split
  · split
    · exact .inl ⟨_, rfl⟩
    · exact .inr ⟨_, rfl⟩
  · exact .inr ⟨_, rfl⟩

theorem mapM_start_cases (fp : FP) (pop : Int) : ∀ p : List Fl,
    (∃ y : List (Int × Fl), p.mapM (start fp pop) = .ok y ∧ y.length = p.length) ∨ ∃ u, p.mapM (start fp pop) = .ub u
  | [] => .inl ⟨[], rfl, rfl⟩
  | x :: p => by
    rw [List.mapM_cons]
    rcases start_cases fp pop x with ⟨y, h⟩ | ⟨u, h⟩ <;> rw [h]
    · simp only [Out.ok_bind]
      rcases mapM_start_cases fp pop p with ⟨ys, h', hl⟩ | ⟨u, h'⟩ <;> rw [h']
      · exact .inl ⟨_, rfl, by simp [hl]⟩
      · exact .inr ⟨u, rfl⟩
    · exact .inr ⟨u, rfl⟩

theorem bump_cases (fp : FP) (t : St) (hs : t.sum = t.f.sum) :
    (∃ t', bump fp t = .ok t' ∧ t'.sum = t'.f.sum ∧ t'.sum = t.sum + 1 ∧ t'.f.length = t.f.length) ∨ ∃ u, bump fp t = .ub u := by
  unfold bump
  split
  · rename_i k x hk hx
    rcases int32_cases (k + 1) with h | ⟨u, h⟩ <;> rw [h]
    · simp only [Out.ok_bind]
      rcases total_cases (t.f.set (maxElement t.r) (k + 1)) with h' | ⟨u, h'⟩ <;> rw [h']
      · refine .inl ⟨_, rfl, rfl, ?_, by simp⟩
        obtain ⟨hm, he⟩ := List.getElem?_eq_some_iff.mp hk
        simp only
        rw [List.sum_set', dif_pos hm, he, hs]
        ring
      · exact .inr ⟨u, rfl⟩
    · exact .inr ⟨u, rfl⟩
  · exact .inr ⟨_, rfl⟩

theorem loop_cases (fp : FP) (pop : Int) : ∀ (n : Nat) (t : St), (pop - t.sum).toNat = n → t.sum = t.f.sum →
    (∃ t', loop (fun t : St => decide (t.sum < pop)) (bump fp) t = .ok t' ∧ t'.f.sum = max pop t.f.sum ∧
      t'.f.length = t.f.length) ∨ ∃ u, loop (fun t : St => decide (t.sum < pop)) (bump fp) t = .ub u
  | 0, t, hn, hs => by
    left
    rw [loop_exit (by simp; omega)]
    exact ⟨t, rfl, by omega, rfl⟩
  | n + 1, t, hn, hs => by
    rw [loop_unfold, if_pos (by simp; omega)]
    rcases bump_cases fp t hs with ⟨t', h1, h2, h3, h4⟩ | ⟨u, h⟩
    · rw [h1]
      simp only [Out.ok_bind]
      rcases loop_cases fp pop n t' (by omega) h2 with ⟨t'', g1, g2, g3⟩ | g
      · exact .inl ⟨t'', g1, by omega, by omega⟩
      · exact .inr g
    · rw [h]
      exact .inr ⟨u, rfl⟩

theorem marginal_cases (fp : FP) (p : List Fl) (pop : Int) :
    (∃ f e, marginal fp p pop = .ok (f, e) ∧ f.length = p.length ∧ pop ≤ f.sum) ∨ ∃ u, marginal fp p pop = .ub u := by
  unfold marginal
  rcases mapM_start_cases fp pop p with ⟨st, h, hl⟩ | ⟨u, h⟩ <;> rw [h]
  · simp only [Out.ok_bind]
    rcases total_cases (st.map Prod.fst) with h' | ⟨u, h'⟩ <;> rw [h']
    · simp only [Out.ok_bind]
      rcases loop_cases fp pop _ ⟨st.map Prod.fst, st.map Prod.snd, (st.map Prod.fst).sum⟩ rfl rfl with ⟨t, g1, g2, g3⟩ | ⟨u, g⟩
      · rw [g1]
        refine .inl ⟨t.f, _, rfl, ?_, by rw [g2]; exact le_max_left _ _⟩
        rw [g3]; simp [hl]
      · rw [g]; exact .inr ⟨u, rfl⟩
    · exact .inr ⟨u, rfl⟩
  · exact .inr ⟨u, rfl⟩

/-- Truncation towards zero. -/
theorem trunc_le {q : ℚ} : |(FP.truncQ q : ℚ)| ≤ |q| := by
  unfold FP.truncQ
  split
  · rename_i h
    rw [abs_of_nonneg (by exact_mod_cast Int.floor_nonneg.mpr h), abs_of_nonneg h]
    exact Int.floor_le q
  · rename_i h
    push Not at h
    have h1 : ⌈q⌉ ≤ 0 := by rw [Int.ceil_le]; exact_mod_cast h.le
    rw [abs_of_nonpos (by exact_mod_cast h1), abs_of_neg h]
    have := Int.le_ceil q
    linarith

theorem trunc_near {q : ℚ} : |q - (FP.truncQ q : ℚ)| < 1 := by
  unfold FP.truncQ
  rw [abs_lt]
  split
  · constructor <;> linarith [Int.floor_le q, Int.lt_floor_add_one q]
  · constructor <;> linarith [Int.le_ceil q, Int.ceil_lt_add_one q]

theorem abs_sum_le : ∀ l : List Int, |l.sum| ≤ (l.map abs).sum
  | [] => by simp
  | x :: l => by
    rw [List.sum_cons, List.map_cons, List.sum_cons]
    exact (abs_add_le _ _).trans (add_le_add le_rfl (abs_sum_le l))

theorem total_abs_from : ∀ (f : List Int) (a : Int), |a| + (f.map abs).sum < 2 ^ 31 →
    f.foldlM (fun a x => int32 (a + x)) a = .ok (a + f.sum)
  | [], a, _ => by simp
  | x :: f, a, h => by
    rw [List.map_cons, List.sum_cons] at h
    have h0 : 0 ≤ (f.map abs).sum := List.sum_nonneg (by simp)
    have h1 := abs_add_le a x
    have h2 := abs_le.mp (show |a + x| ≤ |a + x| from le_rfl)
    rw [List.foldlM_cons, int32_ok (by omega) (by omega)]
    simp only [Out.ok_bind]
    rw [total_abs_from f (a + x) (by omega), List.sum_cons, add_assoc]

theorem total_abs {f : List Int} (h : (f.map abs).sum < 2 ^ 31) : total f = .ok f.sum := by
  unfold total
  rw [total_abs_from f 0 (by simpa using h), zero_add]

theorem mem_abs_le {f : List Int} {k : Int} (h : k ∈ f) : |k| ≤ (f.map abs).sum :=
  List.single_le_sum (by simp) _ (List.mem_map_of_mem h)

/-- The exact run with entries of any sign. -/
theorem marginal_signed (sqrt : Fl → Fl) {p : List ℚ} {pop : Int} (hpop0 : 0 ≤ pop) (hp1 : p.sum = 1)
    (hb : (p.map abs).sum * pop + p.length < 2 ^ 31) :
    ∃ f e, marginal (FP.exactWith sqrt) (p.map Fl.fin) pop = .ok (f, e) ∧ f.length = p.length ∧
      (∀ i, |(f.getD i 0 : ℚ) - p.getD i 0 * pop| < 1) ∧
      f.sum = max pop (p.map (fun x => FP.truncQ (x * pop))).sum := by
  have hpq : (0 : ℚ) ≤ pop := by exact_mod_cast hpop0
  have hpne : p ≠ [] := by rintro rfl; simp at hp1
  let F := p.map (fun x => FP.truncQ (x * pop))
  have hFlen : F.length = p.length := by simp [F]
  have habs : ((F.map abs).sum : ℚ) ≤ (p.map abs).sum * pop := by
    have : ∀ l : List ℚ, (((l.map (fun x => FP.truncQ (x * pop))).map abs).sum : ℚ) ≤ (l.map abs).sum * pop := by
      intro l
      induction l with
      | nil => simp
      | cons x l ih =>
        simp only [List.map_cons, List.sum_cons]
        rw [Int.cast_add, Int.cast_abs, add_mul]
        have h1 := trunc_le (q := x * pop)
        rw [abs_mul, abs_of_nonneg hpq] at h1
        linarith
    exact this p
  have hFget : ∀ i, F.getD i 0 = FP.truncQ (p.getD i 0 * pop) := by
    intro i
    rcases Nat.lt_or_ge i p.length with h | h
    · rw [List.getD_eq_getElem _ _ (by omega), List.getD_eq_getElem _ _ h]; simp [F]
    · rw [List.getD_eq_default _ _ (by omega), List.getD_eq_default _ _ h]
      simp [FP.truncQ]
  let R0 := p.map (fun x : ℚ => x * pop - (FP.truncQ (x * pop) : ℚ))
  have hRget : ∀ i, R0.getD i 0 = p.getD i 0 * pop - F.getD i 0 := by
    intro i
    rw [hFget]
    rcases Nat.lt_or_ge i p.length with h | h
    · rw [List.getD_eq_getElem _ _ (by simp [R0, h]), List.getD_eq_getElem _ _ h]; simp [R0]
    · rw [List.getD_eq_default _ _ (by simp [R0, h]), List.getD_eq_default _ _ h]
      simp [FP.truncQ]
  have hsum : ∀ (f : List Int) (R : List ℚ), f.length = p.length → R.length = p.length →
      (∀ i, R.getD i 0 = p.getD i 0 * pop - f.getD i 0) → R.sum = pop - f.sum := by
    intro f R lf lr j1
    have : R.sum = p.sum * pop - f.sum := by
      rw [sum_getD R, sum_getD p, sum_getD f, lr, lf, Finset.sum_mul]
      push_cast
      rw [← Finset.sum_sub_distrib]
      exact Finset.sum_congr rfl (fun i _ => j1 i)
    rw [this, hp1, one_mul]
  have hdef : (pop : ℚ) - F.sum ≤ p.length := by
    rw [← hsum F R0 hFlen (by simp [R0]) hRget, sum_getD R0]
    have : ∀ i ∈ Finset.range R0.length, R0.getD i 0 ≤ (1 : ℚ) := by
      intro i _
      rw [hRget, hFget]
      exact (le_abs_self _).trans trunc_near.le
    refine (Finset.sum_le_sum this).trans ?_
    simp [R0]
  have hdefZ : pop - F.sum ≤ p.length := by exact_mod_cast hdef
  have hbZ : (F.map abs).sum + p.length < 2 ^ 31 := by
    have : (((F.map abs).sum + p.length : Int) : ℚ) < ((2 ^ 31 : Int) : ℚ) := by
      rw [Int.cast_add, Int.cast_natCast]
      have e : ((2 ^ 31 : Int) : ℚ) = 2 ^ 31 := by norm_num
      rw [e]; linarith
    exact_mod_cast this
  have e1 : (p.map Fl.fin).mapM (start (FP.exactWith sqrt) pop) =
      .ok ((p.map Fl.fin).map (fun x => match x with
        | .fin q => (FP.truncQ (q * pop), Fl.fin (q * pop - (FP.truncQ (q * pop) : ℚ)))
        | _ => (0, .nan))) := by
    apply mapM_ok
    intro x hx
    obtain ⟨q, hq, rfl⟩ := List.mem_map.mp hx
    unfold start
    have hm := mem_abs_le (f := F) (k := FP.truncQ (q * pop)) (List.mem_map.mpr ⟨q, hq, rfl⟩)
    have h2 := abs_le.mp hm
    have : FP.toInt32 ((FP.exactWith sqrt).mul (.fin q) ((FP.exactWith sqrt).ofInt pop)) = .ok (FP.truncQ (q * pop)) := by
      show FP.toInt32 (.fin (q * pop)) = _
      unfold FP.toInt32
      simp only
      rw [if_pos ⟨by omega, by omega⟩]
    rw [this]
    simp only [Out.ok_bind]
    show Out.ok (_, Fl.fin (q * pop + -(FP.truncQ (q * pop) : ℚ))) = _
    rw [sub_eq_add_neg]
  obtain ⟨t, ht, ⟨i1, i2, i3, i4, i5, i6⟩, i7⟩ := loop_terminates (cond := fun t : St => decide (t.sum < pop))
    (body := bump (FP.exactWith sqrt))
    (fun t => t.f.length = p.length ∧ t.f.sum = t.sum ∧ (t.f.map abs).sum ≤ (F.map abs).sum + (t.sum - F.sum) ∧ F.sum ≤ t.sum ∧
      (t.sum ≤ pop ∨ t.sum = F.sum) ∧ ∃ R : List ℚ, t.r = R.map Fl.fin ∧ R.length = p.length ∧
      (∀ i, R.getD i 0 = p.getD i 0 * pop - t.f.getD i 0) ∧ (∀ i, |R.getD i 0| < 1))
    (fun t => (pop - t.sum).toNat)
    (by
      rintro ⟨f, r, sm⟩ ⟨lf, hs, ha, hF, -, R, rfl, lr, j1, j2⟩ hc
      simp only at lf hs ha hF j1 j2
      have hc : sm < pop := by simpa using hc
      have hRne : R ≠ [] := by
        rintro rfl
        exact hpne (List.length_eq_zero_iff.mp lr.symm)
      have hmr := maxElement_lt (r := R.map Fl.fin) (by simpa using hRne)
      rw [List.length_map] at hmr
      obtain ⟨hmax, -⟩ := maxElement_max R hRne
      set m := maxElement (R.map Fl.fin) with hm
      have hmf : m < f.length := by omega
      have hpos : 0 < R.getD m 0 := by
        by_contra hcc
        have h1 : R.sum ≤ 0 := by
          rw [sum_getD R]
          apply Finset.sum_nonpos
          intro i hi
          exact (hmax i (Finset.mem_range.mp hi)).trans (not_lt.mp hcc)
        rw [hsum f R lf lr j1, hs] at h1
        have h2 : (sm : ℚ) < pop := by exact_mod_cast hc
        linarith
      have g1 : f[m]? = some (f.getD m 0) := by rw [List.getElem?_eq_getElem hmf, List.getD_eq_getElem _ _ hmf]
      have g2 : (R.map Fl.fin)[m]? = some (.fin (R.getD m 0)) := by
        rw [List.getElem?_map, List.getElem?_eq_getElem hmr, List.getD_eq_getElem _ _ hmr]; rfl
      have hk := mem_abs_le (f := f) (k := f.getD m 0) (by rw [List.getD_eq_getElem _ _ hmf]; exact List.getElem_mem _)
      have hk' := abs_le.mp hk
      have hsumf : (f.set m (f.getD m 0 + 1)).sum = sm + 1 := by
        rw [← hs, List.getD_eq_getElem _ _ hmf, List.sum_set', dif_pos hmf]
        ring
      have habsf : ((f.set m (f.getD m 0 + 1)).map abs).sum ≤ (f.map abs).sum + 1 := by
        rw [List.map_set, List.sum_set', dif_pos (by simpa using hmf), List.getElem_map, List.getD_eq_getElem _ _ hmf]
        have := abs_add_le f[m] 1
        simp only [abs_one] at this
        omega
      refine ⟨⟨f.set m (f.getD m 0 + 1), (R.set m (R.getD m 0 - 1)).map Fl.fin, sm + 1⟩, ?_,
        ⟨by simpa using lf, hsumf, by simp only; omega, by simp only; omega, .inl (by simp only; omega),
          R.set m (R.getD m 0 - 1), rfl, by simpa using lr, ?_, ?_⟩, by simp only; omega⟩
      · unfold bump
        simp only
        rw [← hm, g1, g2]
        simp only
        rw [int32_ok (by omega) (by omega), Out.ok_bind, total_abs (by omega), hsumf, Out.ok_bind, List.map_set]
        show Out.ok (St.mk _ (List.set _ _ (Fl.fin (R.getD m 0 + -1))) _) = _
        rw [sub_eq_add_neg]
      · intro i
        by_cases h : m = i
        · subst h
          rw [getD_set_self hmr, getD_set_self hmf, j1]; push_cast; ring
        · rw [getD_set_ne h, getD_set_ne h, j1]
      · intro i
        by_cases h : m = i
        · subst h
          rw [getD_set_self hmr]
          have := (abs_lt.mp (j2 m)).2
          rw [abs_lt]
          constructor <;> linarith
        · rw [getD_set_ne h]; exact j2 i)
    ⟨F, R0.map Fl.fin, F.sum⟩
    ⟨hFlen, rfl, by simp, le_rfl, .inr rfl, R0, rfl, by simp [R0], hRget, fun i => by rw [hRget, hFget]; exact trunc_near⟩
  obtain ⟨R, h1, h2, h3, h4⟩ := i6
  refine ⟨t.f, rmse (FP.exactWith sqrt) t.r, ?_, i1, ?_, ?_⟩
  · unfold marginal
    rw [e1]
    simp only [Out.ok_bind]
    have a1 : ((p.map Fl.fin).map (fun x => match x with
        | .fin q => (FP.truncQ (q * pop), Fl.fin (q * pop - (FP.truncQ (q * pop) : ℚ)))
        | _ => (0, .nan))).map Prod.fst = F := by rw [List.map_map, List.map_map]; rfl
    have a2 : ((p.map Fl.fin).map (fun x => match x with
        | .fin q => (FP.truncQ (q * pop), Fl.fin (q * pop - (FP.truncQ (q * pop) : ℚ)))
        | _ => (0, .nan))).map Prod.snd = R0.map Fl.fin := by
      rw [List.map_map, List.map_map, List.map_map]; rfl
    rw [a1, a2, total_abs (by omega)]
    simp only [Out.ok_bind]
    rw [ht]
    rfl
  · intro i
    rw [abs_sub_comm, ← h3]
    exact h4 i
  · have : ¬ (t.sum < pop) := by simpa using i7
    show t.f.sum = max pop F.sum
    rcases i5 with h | h
    · rw [i2, max_eq_left (by omega)]; omega
    · rw [i2, h, max_eq_right (by omega)]

end Integerise

/-- **C49** for every vector of doubles and every arithmetic: `integerise(frac, pop)` always terminates.  It raises exactly
for a negative population; otherwise it returns as many frequencies as there are entries, summing to the population or
more, or it runs into undefined behaviour. -/
theorem C49_terminates (fp : FP) (frac : List Fl) (pop : Int) :
    (pop < 0 ∧ oneD fp frac pop = .thrown .negativePop) ∨
    (0 ≤ pop ∧ ((∃ f e, oneD fp frac pop = .ok (f, e) ∧ f.length = frac.length ∧ pop ≤ f.sum) ∨
      ∃ u, oneD fp frac pop = .ub u)) := by
  unfold oneD
  by_cases h : pop < 0
  · rw [if_pos h]; exact .inl ⟨h, rfl⟩
  · rw [if_neg h]
    refine .inr ⟨by omega, ?_⟩
    simpa using marginal_cases fp (frac.map (fun x => fp.div x (sumVec (numFl fp) frac))) pop

/-- **C49**, exact arithmetic, entries of any sign with a sum other than zero, as long as the numbers involved stay within an
`int`: the function returns; every frequency differs from the exact value by less than one, but the frequencies sum to the
larger of the population and the sum of the truncated values. -/
theorem C49_signed (sqrt : Fl → Fl) {xs : List ℚ} {pop : Int} (h0 : 0 ≤ pop) (hs : xs.sum ≠ 0)
    (hb : ((probs xs).map abs).sum * pop + xs.length < 2 ^ 31) :
    ∃ f e, oneD (FP.exactWith sqrt) (xs.map Fl.fin) pop = .ok (f, e) ∧ f.length = xs.length ∧
      (∀ i, |(f.getD i 0 : ℚ) - (probs xs).getD i 0 * pop| < 1) ∧
      f.sum = max pop ((probs xs).map (fun x => FP.truncQ (x * pop))).sum := by
  have hl : (probs xs).length = xs.length := by unfold probs; simp
  rw [oneD_exact sqrt hs h0, ← hl]
  exact marginal_signed sqrt h0 (probs_sum hs) (by rw [hl]; exact hb)

/-- Negative entries are not rejected, and the frequencies need not sum to the population: `integerise([-1, -1, 4], 1)` gives
frequencies summing to 2, with the negative entries rounded up. -/
theorem C49_negation_signed (sqrt : Fl → Fl) :
    ∃ f e, oneD (FP.exactWith sqrt) ([-1, -1, 4].map Fl.fin) 1 = .ok (f, e) ∧ f.sum = 2 := by
  have hp : probs [-1, -1, 4] = [-1 / 2, -1 / 2, 2] := by unfold probs; norm_num
  obtain ⟨f, e, h1, -, -, h2⟩ := C49_signed sqrt (xs := [-1, -1, 4]) (pop := 1) (by norm_num) (by norm_num)
    (by rw [hp]; norm_num [abs_of_pos, abs_of_neg])
  refine ⟨f, e, h1, ?_⟩
  rw [h2, hp]
  have t1 : FP.truncQ ((-1 / 2 : ℚ) * ((1 : Int) : ℚ)) = 0 := by
    unfold FP.truncQ
    rw [if_neg (by norm_num)]
    rw [Int.ceil_eq_iff]; norm_num
  have t2 : FP.truncQ ((2 : ℚ) * ((1 : Int) : ℚ)) = 2 := by
    unfold FP.truncQ
    rw [if_pos (by norm_num)]
    rw [Int.floor_eq_iff]; norm_num
  simp only [List.map_cons, List.map_nil, t1, t2]
  rfl

end HL

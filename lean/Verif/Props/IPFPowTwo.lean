import Verif.Props.IPF

/-
C35 in binary64: multiplying the seed by a power of two changes no bit of the result.
-/

namespace HL

/-! ### Rounding and powers of two -/

theorem ilog2_scale {q : ℚ} (hq : 0 < q) (k : ℤ) : FP.ilog2 ((2 : ℚ) ^ k * q) = FP.ilog2 q + k := by
  obtain ⟨h1, h2⟩ := FP.ilog2_spec hq
  have hp : (0 : ℚ) < 2 ^ k := by positivity
  apply FP.ilog2_unique
  · rw [zpow_add₀ (by norm_num), mul_comm]
    exact mul_le_mul_of_nonneg_left h1 hp.le
  · rw [show FP.ilog2 q + k + 1 = (FP.ilog2 q + 1) + k by ring, zpow_add₀ (by norm_num), mul_comm (_ ^ (_ + 1))]
    exact mul_lt_mul_of_pos_left h2 hp

theorem le_ilog2 {q : ℚ} (h : (2 : ℚ) ^ (-1022 : ℤ) ≤ q) : -1022 ≤ FP.ilog2 q := by
  have hq : 0 < q := lt_of_lt_of_le (by positivity) h
  have := (zpow_lt_zpow_iff_right₀ (a := (2 : ℚ)) (by norm_num)).mp (lt_of_le_of_lt h (FP.ilog2_spec hq).2)
  omega

theorem ulp_scale {q : ℚ} {k : ℤ} (h1 : (2 : ℚ) ^ (-1022 : ℤ) ≤ q) (h2 : (2 : ℚ) ^ (-1022 : ℤ) ≤ 2 ^ k * q) :
    FP.ulp ((2 : ℚ) ^ k * q) = 2 ^ k * FP.ulp q := by
  have hq : 0 < q := lt_of_lt_of_le (by positivity) h1
  have e1 := le_ilog2 h1
  have e2 := le_ilog2 h2
  unfold FP.ulp
  rw [ilog2_scale hq] at e2 ⊢
  rw [max_eq_left e1, max_eq_left e2, ← zpow_add₀ (by norm_num)]
  congr 1
  ring

/-- in the normal range, rounding commutes with multiplication by a power of two -/
theorem rnd_scale {q a : ℚ} {k : ℤ} (h1 : (2 : ℚ) ^ (-1022 : ℤ) ≤ q) (h2 : (2 : ℚ) ^ (-1022 : ℤ) ≤ 2 ^ k * q)
    (ha : FP.rndIeee q = .fin a) (hb : 2 ^ k * a < 2 ^ 1024) : FP.rndIeee (2 ^ k * q) = .fin (2 ^ k * a) := by
  have hq : 0 < q := lt_of_lt_of_le (by positivity) h1
  have hp : (0 : ℚ) < 2 ^ k := by positivity
  obtain ⟨e, -⟩ := FP.fin_pos_bounds hq ha
  rw [FP.rndIeee_pos (mul_pos hp hq), ulp_scale h1 h2, mul_div_mul_left _ _ hp.ne', mul_left_comm, ← e,
    if_neg (not_le.mpr hb)]

theorem rnd_upper {q a : ℚ} {n : Nat} {t : ℤ} (hn : n ≤ 2 ^ 53) (ht : -1074 ≤ t) (ht' : t ≤ 900) (h : q ≤ (n : ℚ) * 2 ^ t)
    (ha : FP.rndIeee q = .fin a) : a ≤ (n : ℚ) * 2 ^ t := by
  refine FP.rndIeee_mono h ha ?_
  have hn' : (n : ℚ) ≤ 2 ^ 53 := by exact_mod_cast hn
  have h0 : (0 : ℚ) < 2 ^ t := by positivity
  have := FP.rndIeee_exact (n := (n : ℤ)) (t := t) (by rw [abs_of_nonneg (by positivity)]; exact_mod_cast hn) ht ?_
  · simpa using this
  · rw [abs_of_nonneg (by positivity)]
    push_cast
    have h1 : (n : ℚ) * 2 ^ t ≤ 2 ^ 53 * 2 ^ (900 : ℤ) :=
      mul_le_mul hn' (zpow_le_zpow_right₀ (by norm_num) ht') h0.le (by positivity)
    refine lt_of_le_of_lt h1 ?_
    rw [show ((2 : ℚ) ^ (900 : ℤ)) = 2 ^ 900 from zpow_ofNat _ _, ← pow_add]
    exact pow_lt_pow_right₀ (by norm_num) (by norm_num)

theorem rnd_lower {q a : ℚ} {t : ℤ} (ht : -1074 ≤ t) (ht' : t ≤ 900) (h : (2 : ℚ) ^ t ≤ q)
    (ha : FP.rndIeee q = .fin a) : (2 : ℚ) ^ t ≤ a := by
  refine FP.rndIeee_mono h ?_ ha
  have h0 : (0 : ℚ) < 2 ^ t := by positivity
  have := FP.rndIeee_exact (n := 1) (t := t) (by norm_num) ht ?_
  · simpa using this
  · rw [abs_of_nonneg (by positivity)]
    push_cast
    rw [one_mul]
    refine lt_of_le_of_lt (zpow_le_zpow_right₀ (by norm_num) ht') ?_
    rw [show ((2 : ℚ) ^ (900 : ℤ)) = 2 ^ 900 from zpow_ofNat _ _]
    exact pow_lt_pow_right₀ (by norm_num) (by norm_num)

/-- zero or well inside the range of binary64 -/
def Moderate (lo hi : ℤ) (q : ℚ) : Prop := q = 0 ∨ ((2 : ℚ) ^ lo ≤ q ∧ q ≤ 2 ^ hi)

theorem rnd_scale_moderate {q : ℚ} {k lo hi : ℤ} (h : Moderate lo hi q) (hlo : -1022 ≤ lo) (hlo' : -1022 ≤ lo + k)
    (hhi : hi ≤ 900) (hhi' : hi + k ≤ 900) : ∃ a, FP.rndIeee q = .fin a ∧ FP.rndIeee (2 ^ k * q) = .fin (2 ^ k * a) ∧
      Moderate lo hi a := by
  rcases h with rfl | ⟨h1, h2⟩
  · exact ⟨0, FP.rndIeee_zero, by rw [mul_zero]; exact FP.rndIeee_zero, Or.inl rfl⟩
  · have hq : 0 < q := lt_of_lt_of_le (by positivity) h1
    have hp : (0 : ℚ) < 2 ^ k := by positivity
    have b900 : (2 : ℚ) ^ (900 : ℤ) ≤ 2 ^ 1023 := by
      rw [show ((2 : ℚ) ^ (900 : ℤ)) = 2 ^ 900 from zpow_ofNat _ _]
      exact pow_le_pow_right₀ (by norm_num) (by norm_num)
    obtain ⟨a, ha⟩ := FP.rndIeee_finite_pos hq (h2.trans ((zpow_le_zpow_right₀ (by norm_num) hhi).trans b900))
    have hlohi : lo ≤ hi := (zpow_le_zpow_iff_right₀ (by norm_num : (1 : ℚ) < 2)).mp (h1.trans h2)
    have ha1 := rnd_lower (by omega) (by omega) h1 ha
    have ha2 : a ≤ 2 ^ hi := by
      have := rnd_upper (n := 1) (t := hi) (by norm_num) (by omega) hhi (by simpa using h2) ha
      simpa using this
    refine ⟨a, ha, rnd_scale ((zpow_le_zpow_right₀ (by norm_num) hlo).trans h1) ?_ ha ?_, Or.inr ⟨ha1, ha2⟩⟩
    · have : (2 : ℚ) ^ (lo + k) ≤ 2 ^ k * q := by
        rw [zpow_add₀ (by norm_num), mul_comm]
        exact mul_le_mul_of_nonneg_left h1 hp.le
      exact (zpow_le_zpow_right₀ (by norm_num) hlo').trans this
    · have : 2 ^ k * a ≤ (2 : ℚ) ^ (hi + k) := by
        rw [zpow_add₀ (by norm_num), mul_comm ((2 : ℚ) ^ hi)]
        exact mul_le_mul_of_nonneg_left ha2 hp.le
      refine lt_of_le_of_lt (this.trans (zpow_le_zpow_right₀ (by norm_num) hhi')) (lt_of_le_of_lt b900 ?_)
      exact pow_lt_pow_right₀ (by norm_num) (by norm_num)

theorem fin_mul (fp : FP) (p q : ℚ) : fp.mul (.fin p) (.fin q) = fp.rnd (p * q) := rfl

theorem fin_div (fp : FP) {p q : ℚ} (h : q ≠ 0) : fp.div (.fin p) (.fin q) = fp.rnd (p / q) := by
  show (if q = 0 then _ else _) = _
  rw [if_neg h]

/-- sums of up to `2^53` moderate numbers -/
theorem fold_scale (sqrt : Fl → Fl) {k : ℤ} (hk : |k| ≤ 400) (b : List Int → ℚ) : ∀ (vs : List (List Int)) (n : Nat) (x : ℚ),
    (∀ v ∈ vs, Moderate (-400) 400 (b v)) → n + vs.length ≤ 2 ^ 53 → (x = 0 ∨ (2 : ℚ) ^ (-400 : ℤ) ≤ x) → x ≤ (n : ℚ) * 2 ^ (400 : ℤ) →
    ∃ y, vs.foldl (fun acc v => (FP.ieee sqrt).add acc (.fin (b v))) (.fin x) = .fin y ∧
      vs.foldl (fun acc v => (FP.ieee sqrt).add acc (.fin (2 ^ k * b v))) (.fin (2 ^ k * x)) = .fin (2 ^ k * y) ∧
      (y = 0 ∨ (2 : ℚ) ^ (-400 : ℤ) ≤ y) ∧ y ≤ 2 ^ (453 : ℤ)
  | [], n, x, _, hn, hx, hxn => by
    refine ⟨x, rfl, rfl, hx, hxn.trans ?_⟩
    have h1 : (n : ℚ) ≤ 2 ^ 53 := by
      have : n ≤ 2 ^ 53 := by simpa using hn
      exact_mod_cast this
    rw [show (453 : ℤ) = 53 + 400 by norm_num, zpow_add₀ (by norm_num)]
    exact mul_le_mul_of_nonneg_right h1 (by positivity)
  | v :: vs, n, x, hv, hn, hx, hxn => by
    rw [abs_le] at hk
    have hn1 : n + 1 ≤ 2 ^ 53 := by simp only [List.length_cons] at hn; omega
    have h400 : (0 : ℚ) < 2 ^ (-400 : ℤ) := by positivity
    have hx0 : 0 ≤ x := by rcases hx with rfl | hx; exacts [le_rfl, h400.le.trans hx]
    have hbv := hv v (by simp)
    have hb0 : 0 ≤ b v := by rcases hbv with h | ⟨h, -⟩; exacts [h.ge, h400.le.trans h]
    have hb4 : b v ≤ 2 ^ (400 : ℤ) := by rcases hbv with h | ⟨-, h⟩; exacts [h.trans_le (by positivity), h]
    have hup : x + b v ≤ ((n + 1 : ℕ) : ℚ) * 2 ^ (400 : ℤ) := by push_cast; linarith
    have hmod : Moderate (-400) 453 (x + b v) := by
      by_cases h0 : x + b v = 0
      · exact Or.inl h0
      · refine Or.inr ⟨?_, hup.trans ?_⟩
        · rcases hx with rfl | hx
          · rcases hbv with h | ⟨h, -⟩
            · rw [h] at h0; simp at h0
            · linarith
          · linarith
        · rw [show (453 : ℤ) = 53 + 400 by norm_num, zpow_add₀ (by norm_num)]
          refine mul_le_mul_of_nonneg_right ?_ (by positivity)
          exact_mod_cast hn1
    obtain ⟨a, ha, ha', hm⟩ := rnd_scale_moderate (k := k) hmod (by norm_num) (by omega) (by norm_num) (by omega)
    have h1 : (FP.ieee sqrt).add (.fin x) (.fin (b v)) = .fin a := ha
    have h2 : (FP.ieee sqrt).add (.fin (2 ^ k * x)) (.fin (2 ^ k * b v)) = .fin (2 ^ k * a) := by
      show FP.rndIeee (2 ^ k * x + 2 ^ k * b v) = _
      rw [← mul_add]; exact ha'
    rw [List.foldl_cons, List.foldl_cons, h1, h2]
    refine fold_scale sqrt (abs_le.mpr hk) b vs (n + 1) a (fun w hw => hv w (by simp [hw])) ?_ ?_ ?_
    · simp only [List.length_cons] at hn; omega
    · rcases hm with h | ⟨h, -⟩; exacts [Or.inl h, Or.inr h]
    · exact rnd_upper hn1 (by norm_num) (by norm_num) hup ha

variable {α : Type}

theorem scaled_pow_two (sqrt : Fl → Fl) (N : Num α) {s ds : List Nat} (hd : ∀ d ∈ ds, d < s.length) {m : List Int → α}
    (hm : ∀ j, InRange (projSizes ds s) j → ∃ q, N.toFl (m j) = .fin q ∧ Moderate (-100) 100 q) {b : List Int → ℚ}
    (hb : ∀ v, InRange s v → Moderate (-400) 400 (b v)) (hs : (allIdx s).length ≤ 2 ^ 53) {k : ℤ} (hk : |k| ≤ 400) :
    ∀ v, InRange s v → scaled (FP.ieee sqrt) N s ds m (fun v => .fin (2 ^ k * b v)) v =
      scaled (FP.ieee sqrt) N s ds m (fun v => .fin (b v)) v := by
  intro v hv
  have hp : (0 : ℚ) < 2 ^ k := by positivity
  obtain ⟨y, h1, h2, h3, h4⟩ := fold_scale sqrt hk b ((allIdx s).filter (fun w => proj ds w = proj ds v)) 0 0
    (fun w hw => hb w (mem_allIdx.mp (List.mem_of_mem_filter hw)))
    (by rw [zero_add]; exact (List.length_filter_le _ _).trans hs) (Or.inl rfl) (by simp)
  rw [mul_zero] at h2
  have e1 : fsum (FP.ieee sqrt) s ds (fun v => .fin (b v)) (proj ds v) = .fin y := h1
  have e2 : fsum (FP.ieee sqrt) s ds (fun v => .fin (2 ^ k * b v)) (proj ds v) = .fin (2 ^ k * y) := h2
  unfold scaled
  rw [e1, e2]
  obtain ⟨q, hq, hqm⟩ := hm _ (inRange_proj hd hv)
  rw [hq]
  by_cases hy : y = 0
  · subst hy; simp [FP.feq]
  · have hy' : 2 ^ k * y ≠ 0 := mul_ne_zero hp.ne' hy
    have f1 : ¬ FP.feq (.fin y) (.fin 0) = true := by simpa [FP.feq] using hy
    have f2 : ¬ FP.feq (.fin (2 ^ k * y)) (.fin 0) = true := by simpa [FP.feq] using hy'
    rw [if_neg f1, if_neg f2, fin_div _ hy, fin_div _ hy']
    have hylo : (2 : ℚ) ^ (-400 : ℤ) ≤ y := h3.resolve_left hy
    have hy0 : 0 < y := lt_of_lt_of_le (by positivity) hylo
    have hmd : Moderate (-553) 500 (q / y) := by
      rcases hqm with rfl | ⟨h5, h6⟩
      · left; simp
      · right
        constructor
        · rw [le_div_iff₀ hy0]
          calc (2 : ℚ) ^ (-553 : ℤ) * y ≤ 2 ^ (-553 : ℤ) * 2 ^ (453 : ℤ) := mul_le_mul_of_nonneg_left h4 (by positivity)
            _ = 2 ^ (-100 : ℤ) := by rw [← zpow_add₀ (by norm_num)]; norm_num
            _ ≤ q := h5
        · rw [div_le_iff₀ hy0]
          calc q ≤ 2 ^ (100 : ℤ) := h6
            _ = 2 ^ (500 : ℤ) * 2 ^ (-400 : ℤ) := by rw [← zpow_add₀ (by norm_num)]; norm_num
            _ ≤ 2 ^ (500 : ℤ) * y := mul_le_mul_of_nonneg_left hylo (by positivity)
    rw [abs_le] at hk
    obtain ⟨ρ, hρ, hρ', -⟩ := rnd_scale_moderate (k := -k) hmd (by norm_num) (by omega) (by norm_num) (by omega)
    have e3 : q / (2 ^ k * y) = 2 ^ (-k) * (q / y) := by
      rw [zpow_neg]
      field_simp
    rw [e3]
    show (FP.ieee sqrt).mul _ (FP.rndIeee _) = (FP.ieee sqrt).mul _ (FP.rndIeee _)
    rw [hρ, hρ', fin_mul, fin_mul]
    congr 1
    rw [zpow_neg]
    field_simp

/-- **C35** in binary64: on any problem (accepted or not) with seed cells that are zero or between `2^-400` and `2^400` and
entries of the first marginal that are zero or between `2^-100` and `2^100`, multiplying the seed by `2^k`, `|k| ≤ 400`,
changes nothing in the outcome, not a single bit of the table, `conv`, `iterations` or `maxError`. -/
theorem C35_power_of_two (sqrt : Fl → Fl) (N : Num α) (hN : MinOK N) {s : List Nat} {P : Prob α} (h : ProbShape s P)
    (hp : ProperProb s P) (hcells : (allIdx s).length ≤ 2 ^ 53)
    (hm : ∀ p, P.head? = some p → ∀ j, InRange (projSizes p.1 s) j → ∃ q, N.toFl (p.2 j) = .fin q ∧ Moderate (-100) 100 q)
    {b : List Int → ℚ} (hb : ∀ v, InRange s v → Moderate (-400) 400 (b v)) {k : ℤ} (hk : |k| ≤ 400) :
    IPF.run false (FP.ieee sqrt) N (indicesOf P) (marginalsOf s P) (finArr s (fun v => 2 ^ k * b v)) =
      IPF.run false (FP.ieee sqrt) N (indicesOf P) (marginalsOf s P) (finArr s b) := by
  unfold IPF.run
  cases hx : IPF.new (FP.ieee sqrt) N (indicesOf P) (marginalsOf s P) with
  | ok x =>
    simp only [Out.ok_bind]
    have hx' := hx
    unfold IPF.new at hx'
    obtain ⟨m, hm', hx'⟩ := Out.bind_eq_ok.mp hx'
    obtain ⟨pop, -, rfl⟩ := (new_ok_iff _ _ hN h).mp hm'
    obtain ⟨x', hx1, hx2⟩ := ipf_new_obj hm'
    rw [hx] at hx1
    injection hx1 with hx1
    subst hx1
    apply ipf_solve_congr _ _ h hp hx2 hx2
    cases P with
    | nil => have := h.lists; simp at this
    | cons p P =>
      show ∀ v, InRange s v → sweep _ N s P (scaled _ N s p.1 p.2 _) v = sweep _ N s P (scaled _ N s p.1 p.2 _) v
      apply sweep_congr
      exact scaled_pow_two sqrt N (h.dims p (by simp)).2 (hm p rfl) hb hcells hk
  | thrown e => rfl
  | ub u => rfl
  | diverges => rfl

/-- The hypotheses are met by the example problem with a seed of ones multiplied by 1024. -/
example : ∃ s P, ProbShape s P ∧ ProperProb s P ∧ (allIdx s).length ≤ 2 ^ 53 ∧
    (∀ p, P.head? = some p → ∀ j, InRange (projSizes p.1 s) j →
      ∃ q, (numFl (FP.ieee id)).toFl (p.2 j) = .fin q ∧ Moderate (-100) 100 q) ∧
    (∀ v, InRange s v → Moderate (-400) 400 1) ∧ |(10 : ℤ)| ≤ 400 := by
  have h2 : ∀ t : ℤ, 0 ≤ t → (1 : ℚ) ≤ 2 ^ t := fun t ht => one_le_zpow₀ (by norm_num) ht
  have h3 : ∀ t : ℤ, t ≤ 0 → (2 : ℚ) ^ t ≤ 1 := fun t ht => zpow_le_one_of_nonpos₀ (by norm_num) ht
  refine ⟨[2, 3], finProb exQ, probShape_congr (fst_finProb exQ).symm exQ_ok.toProbShape, properProb_fin exQ_proper,
    by decide, ?_, fun _ _ => Or.inr ⟨h3 _ (by norm_num), h2 _ (by norm_num)⟩, by norm_num⟩
  intro p hp j hj
  have hp : p = ([0], fun j => .fin (j.getD 0 0 + 1)) := by simpa [finProb, exQ] using hp.symm
  subst hp
  refine ⟨_, rfl, Or.inr ?_⟩
  obtain ⟨x, rfl, hx1, hx2⟩ : ∃ x : Int, j = [x] ∧ 0 ≤ x ∧ x < 2 := by
    cases hj with
    | cons h1 h2 => cases h2; exact ⟨_, rfl, h1.1, h1.2⟩
  have e1 : (0 : ℚ) ≤ x := by exact_mod_cast hx1
  have e2 : (x : ℚ) ≤ 1 := by exact_mod_cast (by omega : x ≤ 1)
  have e3 : (2 : ℚ) ≤ 2 ^ (100 : ℤ) := by
    have := zpow_le_zpow_right₀ (a := (2 : ℚ)) (by norm_num) (by norm_num : (1 : ℤ) ≤ 100)
    simpa using this
  have e4 := h3 (-100) (by norm_num)
  constructor
  · show (2 : ℚ) ^ (-100 : ℤ) ≤ ((([x] : List Int).getD 0 0 : Int) : ℚ) + 1
    simp only [List.getD_cons_zero]
    linarith
  · show ((([x] : List Int).getD 0 0 : Int) : ℚ) + 1 ≤ 2 ^ (100 : ℤ)
    simp only [List.getD_cons_zero]
    linarith

end HL

import Verif.Proof.IPFWitness
import Verif.Proof.IntegeriseRound

/-! Rounding errors of sums of non-negative doubles in binary64. -/

namespace HL
open Integerise

theorem tinyQ_le' : tinyQ ≤ 1 / 2 ^ 200 := by
  rw [tinyQ_eq]
  have : (2 : ℚ) ^ (-1022 : ℤ) ≤ 2 ^ (-200 : ℤ) := zpow_le_zpow_right₀ (by norm_num) (by norm_num)
  refine this.trans (le_of_eq ?_)
  norm_num

/-- the error of one rounding, relative to the result -/
theorem ieee_err_pos {q a : ℚ} (hq : 0 < q) (h : FP.rndIeee q = .fin a) : |a - q| ≤ a / 2 ^ 53 + tinyQ := by
  obtain ⟨ha, h0⟩ := FP.fin_pos_bounds hq h
  have hu := FP.ulp_pos q
  have h3 := FP.rne_abs_sub (q / FP.ulp q)
  have h4 : a - q = ((FP.rne (q / FP.ulp q) : ℚ) - q / FP.ulp q) * FP.ulp q := by
    rw [ha]; field_simp
  have h5 : |a - q| ≤ 1 / 2 * FP.ulp q := by
    rw [h4, abs_mul, abs_of_pos hu]
    gcongr
  refine h5.trans ?_
  by_cases hlog : -1022 ≤ FP.ilog2 q
  · have hul : FP.ulp q = (2 : ℚ) ^ (FP.ilog2 q) / 2 ^ 52 := by
      unfold FP.ulp
      rw [max_eq_left hlog, zpow_sub₀ (by norm_num)]
      norm_num
    have h6 : (2 : ℚ) ^ (FP.ilog2 q) ≤ a := by
      rw [ha]
      have hge : ((2 ^ 52 : ℤ) : ℚ) ≤ q / FP.ulp q := by
        rw [le_div_iff₀ hu, hul]
        have := (FP.ilog2_spec hq).1
        push_cast
        calc (2 : ℚ) ^ 52 * (2 ^ FP.ilog2 q / 2 ^ 52) = 2 ^ FP.ilog2 q := by field_simp
          _ ≤ q := this
      have h4 := FP.rne_mono hge
      rw [FP.rne_int] at h4
      have h5 : ((2 ^ 52 : ℤ) : ℚ) ≤ FP.rne (q / FP.ulp q) := by exact_mod_cast h4
      calc (2 : ℚ) ^ FP.ilog2 q = ((2 ^ 52 : ℤ) : ℚ) * FP.ulp q := by rw [hul]; push_cast; field_simp; norm_num
        _ ≤ _ := by gcongr
    have := tinyQ_pos
    have h7 : 1 / 2 * FP.ulp q = (2 : ℚ) ^ (FP.ilog2 q) / 2 ^ 53 := by rw [hul]; ring
    have h8 : (2 : ℚ) ^ (FP.ilog2 q) / 2 ^ 53 ≤ a / 2 ^ 53 := by gcongr
    linarith
  · have hul : FP.ulp q = tinyQ / 2 ^ 52 := by
      unfold FP.ulp
      rw [max_eq_right (by omega), tinyQ_eq, zpow_sub₀ (by norm_num)]
      norm_num
    have := tinyQ_pos
    have h9 : 0 ≤ a / 2 ^ 53 := by positivity
    rw [hul]
    have : 1 / 2 * (tinyQ / 2 ^ 52) ≤ tinyQ := by
      rw [show 1 / 2 * (tinyQ / 2 ^ 52) = tinyQ * (1 / 2 ^ 53) by ring]
      exact mul_le_of_le_one_right this.le (by norm_num)
    linarith

theorem ieee_err {q a : ℚ} (h : FP.rndIeee q = .fin a) : |a - q| ≤ |a| / 2 ^ 53 + tinyQ := by
  have ht := tinyQ_pos
  rcases lt_trichotomy q 0 with hq | hq | hq
  · have h' : FP.rndIeee (-q) = .fin (-a) := by rw [FP.rndIeee_neg, h]; rfl
    have h1 := ieee_err_pos (by linarith) h'
    have h2 := (FP.fin_pos_bounds (by linarith) h').2
    rw [abs_of_nonpos (by linarith : a ≤ 0), ← abs_neg, show -(a - q) = -a - -q by ring]
    exact h1
  · subst hq
    rw [FP.rndIeee_zero] at h
    injection h with h
    subst h
    simpa using ht.le
  · rw [abs_of_nonneg (FP.fin_pos_bounds hq h).2]
    exact ieee_err_pos hq h

/-- a sum of non-negative doubles whose computed value is finite -/
theorem sum_err (sqrt : Fl → Fl) (f : List Int → Fl) : ∀ (vs : List (List Int)) (x y : ℚ), 0 ≤ x →
    FP.rndIeee x = .fin x → (∀ v ∈ vs, f v ≠ .nan ∧ FP.le (.fin 0) (f v) = true) →
    vs.foldl (fun acc v => (FP.ieee sqrt).add acc (f v)) (.fin x) = .fin y →
    x ≤ y ∧ ∀ g : List Int → ℚ, (∀ v ∈ vs, ∀ q, f v = .fin q → g v = q) →
      (∀ v ∈ vs, f v = .fin (g v)) ∧ |y - (x + (vs.map g).sum)| ≤ vs.length * (y / 2 ^ 53 + tinyQ)
  | [], x, y, hx, _, _, h => by
    injection h with h
    subst h
    exact ⟨le_rfl, fun g _ => ⟨by simp, by simp⟩⟩
  | v :: vs, x, y, hx, hrx, hf, h => by
    rw [List.foldl_cons] at h
    obtain ⟨hn, hl⟩ := hf v (by simp)
    have hinf : ∀ vs : List (List Int), (∀ v ∈ vs, f v ≠ .nan ∧ FP.le (.fin 0) (f v) = true) →
        vs.foldl (fun acc v => (FP.ieee sqrt).add acc (f v)) .pinf = .pinf := by
      intro vs
      induction vs with
      | nil => intro _; rfl
      | cons w ws ih =>
        intro hw
        obtain ⟨h1, h2⟩ := hw w (by simp)
        rw [List.foldl_cons]
        have : (FP.ieee sqrt).add .pinf (f w) = .pinf := by
          cases hfw : f w with
          | fin q => rfl
          | pinf => rfl
          | ninf => rw [hfw] at h2; simp [FP.le] at h2
          | nan => exact absurd hfw h1
        rw [this]
        exact ih (fun u hu => hw u (List.mem_cons_of_mem _ hu))
    have hrest : ∀ u ∈ vs, f u ≠ .nan ∧ FP.le (.fin 0) (f u) = true := fun u hu => hf u (List.mem_cons_of_mem _ hu)
    cases hv : f v with
    | nan => exact absurd hv hn
    | ninf => rw [hv] at hl; simp [FP.le] at hl
    | pinf =>
      rw [hv, show (FP.ieee sqrt).add (.fin x) .pinf = .pinf from rfl, hinf vs hrest] at h
      cases h
    | fin q =>
      have hq0 : 0 ≤ q := by rw [hv] at hl; simpa [FP.le] using hl
      have hadd : (FP.ieee sqrt).add (.fin x) (.fin q) = FP.rndIeee (x + q) := rfl
      rw [hv, hadd] at h
      cases hz : FP.rndIeee (x + q) with
      | nan => have := ieee_nonneg sqrt (x + q) (by linarith)
               rw [hz] at h
               have hnan : ∀ vs : List (List Int),
                   vs.foldl (fun acc v => (FP.ieee sqrt).add acc (f v)) .nan = .nan := by
                 intro vs
                 induction vs with
                 | nil => rfl
                 | cons w ws ih => rw [List.foldl_cons]; exact ih
               rw [hnan] at h
               cases h
      | ninf => have := ieee_nonneg sqrt (x + q) (by linarith)
                rcases this with h' | h'
                · exact absurd (hz.symm.trans h') (by simp)
                · rw [show (FP.ieee sqrt).rnd (x + q) = .ninf from hz] at h'
                  simp [FP.le] at h'
      | pinf => rw [hz, hinf vs hrest] at h; cases h
      | fin z =>
        rw [hz] at h
        have hz0 : x ≤ z := FP.rndIeee_mono (by linarith : x ≤ x + q) hrx hz
        obtain ⟨h1, h2⟩ := sum_err sqrt f vs z y (hx.trans hz0) ((FP.ieee_good sqrt).idem _ _ hz) hrest h
        refine ⟨hz0.trans h1, fun g hg => ?_⟩
        obtain ⟨h3, h4⟩ := h2 g (fun u hu => hg u (List.mem_cons_of_mem _ hu))
        have hgq : g v = q := hg v (by simp) q hv
        constructor
        · intro u hu
          rcases List.mem_cons.mp hu with rfl | hu
          · rw [hv, hgq]
          · exact h3 u hu
        · have h5 := ieee_err hz
          rw [abs_of_nonneg (hx.trans hz0)] at h5
          have h6 : z / 2 ^ 53 ≤ y / 2 ^ 53 := by gcongr
          rw [List.map_cons, List.sum_cons, hgq, List.length_cons]
          have h7 : y - (x + (q + (vs.map g).sum)) = (y - (z + (vs.map g).sum)) + (z - (x + q)) := by ring
          rw [h7]
          refine (abs_add_le _ _).trans ?_
          push_cast
          rw [add_mul, one_mul]
          linarith

theorem ieee_not_nan (q : ℚ) : FP.rndIeee q ≠ .nan := by
  unfold FP.rndIeee
  dsimp only
  split_ifs <;> simp

theorem sum_not_nan (sqrt : Fl → Fl) (f : List Int → Fl) : ∀ (vs : List (List Int)) (x : Fl), x ≠ .nan → x ≠ .ninf →
    (∀ v ∈ vs, f v ≠ .nan ∧ f v ≠ .ninf) → (∀ v ∈ vs, ∀ q, f v = .fin q → 0 ≤ q) → (∀ q, x = .fin q → 0 ≤ q) →
    vs.foldl (fun acc v => (FP.ieee sqrt).add acc (f v)) x ≠ .nan
  | [], x, hx, _, _, _, _ => hx
  | v :: vs, x, hx, hx', hf, hq, h0 => by
    rw [List.foldl_cons]
    obtain ⟨h1, h2⟩ := hf v (by simp)
    have key : (FP.ieee sqrt).add x (f v) ≠ .nan ∧ (FP.ieee sqrt).add x (f v) ≠ .ninf ∧
        ∀ q, (FP.ieee sqrt).add x (f v) = .fin q → 0 ≤ q := by
      cases x with
      | nan => exact absurd rfl hx
      | ninf => exact absurd rfl hx'
      | pinf =>
        cases hv : f v with
        | nan => exact absurd hv h1
        | ninf => exact absurd hv h2
        | pinf => simp [FP.add]
        | fin q => simp [FP.add]
      | fin a =>
        cases hv : f v with
        | nan => exact absurd hv h1
        | ninf => exact absurd hv h2
        | pinf => simp [FP.add]
        | fin q =>
          have ha := h0 a rfl
          have hq := hq v (by simp) q hv
          have hn := ieee_nonneg sqrt (a + q) (by linarith)
          have hnn := ieee_not_nan (a + q)
          show FP.rndIeee (a + q) ≠ .nan ∧ FP.rndIeee (a + q) ≠ .ninf ∧ ∀ q', FP.rndIeee (a + q) = .fin q' → 0 ≤ q'
          have hn : FP.rndIeee (a + q) = .nan ∨ FP.le (.fin 0) (FP.rndIeee (a + q)) = true := hn
          revert hn hnn
          cases FP.rndIeee (a + q) <;> simp [FP.le]
    exact sum_not_nan sqrt f vs _ key.1 key.2.1 (fun u hu => hf u (List.mem_cons_of_mem _ hu))
      (fun u hu => hq u (List.mem_cons_of_mem _ hu)) key.2.2

/-- what a computed deviation below the double nearest 1e-8 says about the exact sum -/
theorem conv_err (sqrt : Fl → Fl) {s ds : List Nat} {c : List Int → Fl} {j : List Int} {m : ℚ} (hm : 0 ≤ m)
    (hc : ∀ v, InRange s v → c v ≠ .nan ∧ FP.le (.fin 0) (c v) = true)
    (hd : (FP.ieee sqrt).sub (fsum (FP.ieee sqrt) s ds c j) (.fin m) = .nan ∨
      FP.lt (FP.abs ((FP.ieee sqrt).sub (fsum (FP.ieee sqrt) s ds c j) (.fin m))) ((FP.ieee sqrt).rnd (1 / 10 ^ 8)) = true)
    (g : List Int → ℚ) (hg : ∀ v q, c v = .fin q → g v = q) :
    (∀ v, InRange s v → proj ds v = j → c v = .fin (g v)) ∧
      |marginalSum s ds g j - m| ≤ 1 / 10 ^ 8 * (1 + 1 / 2 ^ 50) +
        ((cells s).filter (fun v => proj ds v = j)).card * (m + 1) / 2 ^ 53 := by
  have hmem : ∀ v ∈ (allIdx s).filter (fun v => proj ds v = j), InRange s v := fun v hv =>
    mem_allIdx.mp (List.mem_of_mem_filter hv)
  obtain ⟨t, ht, htn⟩ := near' (FP.ieee_good sqrt) (1 / 10 ^ 8)
    (by rw [abs_of_pos (by norm_num)]; exact tinyQ_le.trans (by norm_num))
    (by rw [abs_of_pos (by norm_num)]; have := hugeQ_ge; norm_num; linarith)
  rw [ht] at hd
  rw [abs_of_pos (by norm_num : (0 : ℚ) < 1 / 10 ^ 8)] at htn
  cases hy : fsum (FP.ieee sqrt) s ds c j with
  | pinf => rw [hy] at hd; simp [FP.sub, FP.neg, FP.add, FP.abs, FP.lt] at hd
  | ninf => rw [hy] at hd; simp [FP.sub, FP.neg, FP.add, FP.abs, FP.lt] at hd
  | nan =>
    refine absurd hy (sum_not_nan sqrt c _ _ (by simp) (by simp) ?_ ?_ ?_)
    · intro v hv
      obtain ⟨h1, h2⟩ := hc v (hmem v hv)
      refine ⟨h1, fun h => ?_⟩
      rw [h] at h2
      simp [FP.le] at h2
    · intro v hv q hq
      obtain ⟨h1, h2⟩ := hc v (hmem v hv)
      rw [hq] at h2
      simpa [FP.le] using h2
    · intro q hq
      injection hq with hq
      exact hq.le
  | fin y =>
    obtain ⟨hy0, h2⟩ := sum_err sqrt c _ 0 y le_rfl FP.rndIeee_zero (fun v hv => hc v (hmem v hv)) hy
    obtain ⟨h3, h4⟩ := h2 g (fun v _ q hq => hg v q hq)
    refine ⟨fun v hv hvj => h3 v (List.mem_filter.mpr ⟨mem_allIdx.mpr hv, by simpa using hvj⟩), ?_⟩
    rw [hy] at hd
    have hsub : (FP.ieee sqrt).sub (.fin y) (.fin m) = FP.rndIeee (y - m) := by
      show FP.rndIeee (y + -m) = _
      rw [← sub_eq_add_neg]
    rw [hsub] at hd
    have hlen : ((allIdx s).filter (fun v => proj ds v = j)).length =
        ((cells s).filter (fun v => proj ds v = j)).card := by
      rw [← List.toFinset_card_of_nodup ((nodup_allIdx s).filter _)]
      congr 1
      ext v; simp [cells]
    have hsum : (((allIdx s).filter (fun v => proj ds v = j)).map g).sum = marginalSum s ds g j := by
      rw [sum_filter_allIdx s (fun v => proj ds v = j) g]
      rfl
    rw [hlen, hsum, zero_add] at h4
    generalize ((cells s).filter (fun v => proj ds v = j)).card = n at h4 ⊢
    generalize marginalSum s ds g j = S at h4 ⊢
    rcases hd with hd | hd
    · exact absurd hd (ieee_not_nan _)
    · cases he : FP.rndIeee (y - m) with
      | nan => exact absurd he (ieee_not_nan _)
      | pinf => rw [he] at hd; simp [FP.abs, FP.lt] at hd
      | ninf => rw [he] at hd; simp [FP.abs, FP.lt] at hd
      | fin d =>
        rw [he] at hd
        simp only [FP.abs, FP.lt, decide_eq_true_eq] at hd
        have h5 := ieee_err he
        have h6 := tinyQ_le'
        have h7 := tinyQ_pos
        have h8 : |y - m| ≤ |d| + |d - (y - m)| := by
          have := abs_sub_abs_le_abs_sub (y - m) d
          rw [abs_sub_comm (y - m) d] at this
          linarith
        have h9 := (abs_le.mp htn).2
        have h10 : |y - m| ≤ 1 / 10 ^ 8 * (1 + 1 / 2 ^ 50) := by
          norm_num at *
          linarith
        have h11 : y ≤ m + 1 / 2 := by
          have := (abs_le.mp h10).2
          norm_num at *
          linarith
        have h12 : y / 2 ^ 53 + tinyQ ≤ (m + 1) / 2 ^ 53 := by
          have : y / 2 ^ 53 ≤ (m + 1 / 2) / 2 ^ 53 := by gcongr
          norm_num at *
          linarith
        have h13 : (n : ℚ) * (y / 2 ^ 53 + tinyQ) ≤ n * ((m + 1) / 2 ^ 53) := by gcongr
        have h14 : S - m = (y - m) - (y - S) := by ring
        rw [h14]
        refine (abs_sub _ _).trans ?_
        rw [mul_div_assoc]
        linarith

end HL

import Verif.Model.QIS
import Verif.Proof.MicroInt

namespace HL

theorem pickLoop_cases {α : Type} (N : Num α) (r : Fl) : ∀ (l : List α) (run : α) (k : Nat),
    pickLoop N r run k l = .thrown .pickFailed ∨ ∃ i, pickLoop N r run k l = .ok i ∧ k ≤ i ∧ i < k + l.length
  | [], _, _ => Or.inl rfl
  | x :: l, run, k => by
    unfold pickLoop
    split
    · exact Or.inr ⟨k, rfl, le_rfl, by simp⟩
    · rcases pickLoop_cases N r l (N.add run x) (k + 1) with h | ⟨i, h, h1, h2⟩
      · exact Or.inl h
      · exact Or.inr ⟨i, h, by omega, by simp; omega⟩

/-- `pick` returns a position inside the vector or throws. -/
theorem pick_cases {α : Type} (fp : FP) (N : Num α) (dist : List α) (r : Fl) :
    pick fp N dist r = .thrown .pickFailed ∨ ∃ i, pick fp N dist r = .ok i ∧ i < dist.length := by
  rcases pickLoop_cases N (fp.mul r (dist.foldl (fun acc x => fp.add acc (N.toFl x)) (.fin 0))) dist N.zero 0 with
    h | ⟨i, h, -, h2⟩
  · exact Or.inl h
  · exact Or.inr ⟨i, h, by omega⟩

variable {fp : FP}

theorem rnd_int (hfp : fp.Good) {t : Int} (h : |t| ≤ 2 ^ 53) : fp.rnd t = .fin t := ofInt_exact hfp h

theorem pickScale_eq (hfp : fp.Good) : pickScale fp = .fin (1 / 2 ^ 32) := by
  unfold pickScale
  rw [ofInt_exact hfp (by norm_num)]
  have := hfp.dyadic 1 32 (by norm_num) (by omega)
  unfold FP.div
  simp only []
  rw [if_neg (by norm_num), show (1 / 2 : ℚ) / ((2 ^ 31 : Int) : ℚ) = ((1 : Int) : ℚ) / 2 ^ 32 by norm_num, this]
  norm_num

theorem variate_eq (hfp : fp.Good) (u : U32) : variate fp u = .fin ((u.toNat : ℚ) / 2 ^ 32) := by
  unfold variate
  have hu := u.isLt
  rw [pickScale_eq hfp, ofInt_exact hfp (by rw [abs_of_nonneg (by positivity)]; omega)]
  show fp.rnd _ = _
  have := hfp.dyadic (u.toNat : Int) 32 (by rw [abs_of_nonneg (by positivity)]; omega) (by omega)
  rw [show (((u.toNat : Int) : ℚ) * (1 / 2 ^ 32)) = ((u.toNat : Int) : ℚ) / 2 ^ 32 by ring, this]
  norm_num

/-- A variate times a total stays below the total, in any arithmetic that rounds well. -/
theorem scaled_lt (hfp : fp.Good) (u : U32) {t : ℚ} (h1 : (2 : ℚ) ^ (-990 : ℤ) ≤ t) (h2 : t ≤ 2 ^ 1023) :
    ∃ a, fp.mul (variate fp u) (.fin t) = .fin a ∧ 0 ≤ a ∧ a < t := by
  rw [variate_eq hfp]
  have ht : 0 < t := lt_of_lt_of_le (by positivity) h1
  show ∃ a, fp.rnd _ = _ ∧ _
  rcases Nat.eq_zero_or_pos u.toNat with hu | hu
  · rw [hu]
    refine ⟨0, ?_, le_rfl, ht⟩
    have := hfp.dyadic 0 0 (by norm_num) (by omega)
    simpa using this
  · have hu2 := u.isLt
    have c1 : (1 : ℚ) ≤ (u.toNat : ℚ) := by exact_mod_cast hu
    have c2 : (u.toNat : ℚ) ≤ 2 ^ 32 - 1 := by
      have : u.toNat ≤ 2 ^ 32 - 1 := by omega
      have : (u.toNat : ℚ) ≤ ((2 ^ 32 - 1 : ℕ) : ℚ) := by exact_mod_cast this
      rw [Nat.cast_sub (by norm_num)] at this
      push_cast at this
      exact this
    set q : ℚ := (u.toNat : ℚ) / 2 ^ 32 * t with hq
    have q1 : (1 : ℚ) / 2 ^ 32 * t ≤ q := by rw [hq]; gcongr
    have q2 : q ≤ (2 ^ 32 - 1) / 2 ^ 32 * t := by rw [hq]; gcongr
    have q0 : 0 < q := lt_of_lt_of_le (by positivity) q1
    have hlow : (2 : ℚ) ^ (-1022 : ℤ) ≤ q := by
      refine le_trans ?_ q1
      have e : (2 : ℚ) ^ (-1022 : ℤ) = 1 / 2 ^ 32 * (2 : ℚ) ^ (-990 : ℤ) := by
        rw [show (-1022 : ℤ) = -32 + -990 by norm_num, zpow_add₀ (by norm_num)]
        norm_num
      rw [e]
      exact mul_le_mul_of_nonneg_left h1 (by positivity)
    have hqt : q < t := by
      have : ((2 : ℚ) ^ 32 - 1) / 2 ^ 32 < 1 := by norm_num
      nlinarith
    obtain ⟨a, ha, hd⟩ := hfp.near q (by rw [abs_of_pos q0]; exact hlow) (by rw [abs_of_pos q0]; exact hqt.le.trans h2)
    refine ⟨a, ha, ?_, ?_⟩
    · rw [abs_of_pos q0] at hd
      have := (abs_le.mp hd).1
      have : q / 2 ^ 53 ≤ q := div_le_self q0.le (by norm_num)
      linarith
    · rw [abs_of_pos q0] at hd
      have h3 := (abs_le.mp hd).2
      have h4 : a ≤ q * (1 + 1 / 2 ^ 53) := by linarith
      have h5 : q * (1 + 1 / 2 ^ 53) ≤ ((2 ^ 32 - 1) / 2 ^ 32 * t) * (1 + 1 / 2 ^ 53) := by gcongr
      have h6 : ((2 : ℚ) ^ 32 - 1) / 2 ^ 32 * (1 + 1 / 2 ^ 53) < 1 := by norm_num
      nlinarith

/-! ### integer weights -/

theorem total_int (hfp : fp.Good) : ∀ (l : List Int) (a : Int), (∀ x ∈ l, 0 ≤ x) → 0 ≤ a → a + l.sum ≤ 2 ^ 53 →
    l.foldl (fun acc x => fp.add acc ((numInt fp).toFl x)) (.fin a) = .fin ((a + l.sum : Int) : ℚ)
  | [], a, _, _, _ => by simp
  | x :: l, a, hn, ha, hb => by
    have hx := hn x (by simp)
    have hl : 0 ≤ l.sum := List.sum_nonneg (fun y hy => hn y (by simp [hy]))
    simp only [List.sum_cons] at hb
    rw [List.foldl_cons]
    have e : fp.add (.fin a) ((numInt fp).toFl x) = .fin ((a + x : Int) : ℚ) := by
      show fp.add _ (fp.ofInt x) = _
      rw [ofInt_exact hfp (by rw [abs_of_nonneg hx]; omega)]
      show fp.rnd _ = _
      rw [← Int.cast_add, rnd_int hfp (by rw [abs_of_nonneg (by omega)]; omega)]
    rw [e, total_int hfp l (a + x) (fun y hy => hn y (by simp [hy])) (by omega) (by omega)]
    simp [add_assoc]

theorem pickLoop_int (hfp : fp.Good) {q : ℚ} : ∀ (l : List Int) (run : Int) (k : Nat), (∀ x ∈ l, 0 ≤ x) →
    0 ≤ run → run + l.sum ≤ 2 ^ 53 → (run : ℚ) ≤ q → q < (run + l.sum : Int) →
    ∃ i, pickLoop (numInt fp) (.fin q) run k l = .ok (k + i) ∧ i < l.length ∧ 0 < l.getD i 0
  | [], run, k, _, _, _, h1, h2 => by simp at h2; exact absurd h2 (not_lt.mpr h1)
  | x :: l, run, k, hn, h0, hb, h1, h2 => by
    have hx := hn x (by simp)
    have hl : 0 ≤ l.sum := List.sum_nonneg (fun y hy => hn y (by simp [hy]))
    simp only [List.sum_cons] at hb h2
    unfold pickLoop
    have e : (numInt fp).toFl ((numInt fp).add run x) = .fin ((run + x : Int) : ℚ) := by
      show fp.ofInt (run + x) = _
      exact ofInt_exact hfp (by rw [abs_of_nonneg (by omega)]; omega)
    rw [e]
    by_cases hc : q < ((run + x : Int) : ℚ)
    · rw [if_pos (by simpa [FP.lt] using hc)]
      refine ⟨0, rfl, by simp, ?_⟩
      have : (run : ℚ) < ((run + x : Int) : ℚ) := lt_of_le_of_lt h1 hc
      have : run < run + x := by exact_mod_cast this
      simp; omega
    · rw [if_neg (by simpa [FP.lt] using hc)]
      obtain ⟨i, hi, h3, h4⟩ := pickLoop_int hfp l (run + x) (k + 1) (fun y hy => hn y (by simp [hy])) (by omega)
        (by omega) (not_lt.mp hc) (by rw [add_assoc]; exact h2)
      refine ⟨i + 1, ?_, by simp; omega, by simpa using h4⟩
      rw [show k + (i + 1) = k + 1 + i by omega]
      exact hi

theorem pick_int_pos (hfp : fp.Good) {dist : List Int} (hn : ∀ x ∈ dist, 0 ≤ x) (hs : 0 < dist.sum)
    (hb : dist.sum ≤ 2 ^ 53) (u : U32) :
    ∃ i, pick fp (numInt fp) dist (variate fp u) = .ok i ∧ i < dist.length ∧ 0 < dist.getD i 0 := by
  unfold pick
  have ht := total_int hfp dist 0 hn le_rfl (by omega)
  simp only [Int.cast_zero, zero_add] at ht
  rw [ht]
  have hs' : (1 : ℚ) ≤ ((dist.sum : Int) : ℚ) := by exact_mod_cast hs
  have hb' : ((dist.sum : Int) : ℚ) ≤ 2 ^ 53 := by exact_mod_cast hb
  obtain ⟨a, ha, h0, h1⟩ := scaled_lt hfp u (t := ((dist.sum : Int) : ℚ))
    (le_trans (by
      rw [← zpow_zero (2 : ℚ)]
      exact zpow_le_zpow_right₀ (by norm_num) (by norm_num)) hs')
    (le_trans hb' (pow_le_pow_right₀ (by norm_num) (by norm_num)))
  rw [ha]
  obtain ⟨i, hi, h3, h4⟩ := pickLoop_int hfp (q := a) dist 0 0 hn le_rfl (by omega) (by simpa using h0)
    (by simpa using h1)
  exact ⟨i, by rw [Nat.zero_add] at hi; exact hi, h3, h4⟩

theorem pickLoop_zero (hfp : fp.Good) : ∀ (l : List Int) (k : Nat), (∀ x ∈ l, x = 0) →
    pickLoop (numInt fp) (.fin 0) 0 k l = .thrown .pickFailed
  | [], _, _ => rfl
  | x :: l, k, h => by
    have hx := h x (by simp)
    subst hx
    unfold pickLoop
    have e : (numInt fp).toFl ((numInt fp).add 0 0) = .fin 0 := by
      have := ofInt_exact hfp (t := 0) (by norm_num)
      rw [Int.cast_zero] at this
      exact this
    rw [e, if_neg (by simp [FP.lt])]
    exact pickLoop_zero hfp l (k + 1) (fun y hy => h y (by simp [hy]))

theorem pick_int_zero (hfp : fp.Good) {dist : List Int} (hz : ∀ x ∈ dist, x = 0) (u : U32) :
    pick fp (numInt fp) dist (variate fp u) = .thrown .pickFailed := by
  unfold pick
  have hs : dist.sum = 0 := by
    rw [List.sum_eq_zero]; exact hz
  have ht := total_int hfp dist 0 (fun x hx => (hz x hx).ge) le_rfl (by rw [hs]; norm_num)
  simp only [Int.cast_zero, zero_add, hs] at ht
  rw [ht, variate_eq hfp]
  have : fp.mul (.fin ((u.toNat : ℚ) / 2 ^ 32)) (.fin 0) = .fin 0 := by
    show fp.rnd _ = _
    rw [mul_zero]
    have := hfp.dyadic 0 0 (by norm_num) (by omega)
    simpa using this
  rw [this]
  exact pickLoop_zero hfp dist 0 hz

/-! ### floating weights -/

/-- Adding a non-negative number never decreases a value already representable. -/
theorem add_nonneg_mono (hfp : fp.Good) {r x y : ℚ} (hr : fp.rnd r = .fin r) (hx : 0 ≤ x)
    (h : fp.add (.fin r) (.fin x) = .fin y) : r ≤ y ∧ fp.rnd y = .fin y ∧ (x = 0 → y = r) := by
  change fp.rnd (r + x) = _ at h
  refine ⟨hfp.mono r (r + x) r y (by linarith) hr h, hfp.idem _ _ h, ?_⟩
  rintro rfl
  rw [add_zero, hr] at h
  injection h with h
  exact h.symm

theorem foldl_not_fin : ∀ (l : List Fl) (a : Fl), (∀ q, a ≠ .fin q) →
    ∀ q, l.foldl fp.add a ≠ .fin q
  | [], a, h, q => h q
  | x :: l, a, h, q => by
    rw [List.foldl_cons]
    apply foldl_not_fin l
    intro r
    cases a with
    | fin b => exact absurd rfl (h b)
    | nan => simp [FP.add]
    | pinf => cases x <;> simp [FP.add]
    | ninf => cases x <;> simp [FP.add]

theorem pickLoop_fl (hfp : fp.Good) {q t : ℚ} : ∀ (l : List ℚ) (run : ℚ) (k : Nat), (∀ x ∈ l, 0 ≤ x) →
    fp.rnd run = .fin run → (l.map Fl.fin).foldl fp.add (.fin run) = .fin t → run ≤ q → q < t →
    ∃ i, pickLoop (numFl fp) (.fin q) (.fin run) k (l.map Fl.fin) = .ok (k + i) ∧ i < l.length ∧ 0 < l.getD i 0
  | [], run, k, _, _, ht, h1, h2 => by
    simp only [List.map_nil, List.foldl_nil, Fl.fin.injEq] at ht
    subst ht; exact absurd h2 (not_lt.mpr h1)
  | x :: l, run, k, hn, hr, ht, h1, h2 => by
    have hx := hn x (by simp)
    rw [List.map_cons, List.foldl_cons] at ht
    have hy : ∃ y, fp.add (.fin run) (.fin x) = .fin y := by
      by_contra hne
      exact foldl_not_fin (fp := fp) (l.map Fl.fin) _ (fun q hq => hne ⟨q, hq⟩) t ht
    obtain ⟨y, hy⟩ := hy
    obtain ⟨m1, m2, m3⟩ := add_nonneg_mono hfp hr hx hy
    rw [hy] at ht
    rw [List.map_cons]
    unfold pickLoop
    have e : (numFl fp).toFl ((numFl fp).add (.fin run) (.fin x)) = .fin y := hy
    have e' : (numFl fp).add (.fin run) (.fin x) = .fin y := hy
    rw [e, e']
    by_cases hc : q < y
    · rw [if_pos (by simpa [FP.lt] using hc)]
      refine ⟨0, rfl, by simp, ?_⟩
      simp only [List.getD_cons_zero]
      rcases hx.lt_or_eq with h | h
      · exact h
      · exact absurd (m3 h.symm) (by intro e; rw [e] at hc; exact absurd hc (not_lt.mpr h1))
    · rw [if_neg (by simpa [FP.lt] using hc)]
      obtain ⟨i, hi, h3, h4⟩ := pickLoop_fl hfp l y (k + 1) (fun z hz => hn z (by simp [hz])) m2 ht
        (not_lt.mp hc) h2
      refine ⟨i + 1, ?_, by simp; omega, by simpa using h4⟩
      rw [show k + (i + 1) = k + 1 + i by omega]
      exact hi

theorem rnd0 (hfp : fp.Good) : fp.rnd 0 = .fin 0 := by
  have := hfp.dyadic 0 0 (by norm_num) (by omega)
  simpa using this

theorem pick_fl_pos (hfp : fp.Good) {w : List ℚ} {t : ℚ} (hn : ∀ x ∈ w, 0 ≤ x)
    (ht : (w.map Fl.fin).foldl fp.add (.fin 0) = .fin t) (h1 : (2 : ℚ) ^ (-990 : ℤ) ≤ t) (h2 : t ≤ 2 ^ 1023)
    (u : U32) :
    ∃ i, pick fp (numFl fp) (w.map Fl.fin) (variate fp u) = .ok i ∧ i < w.length ∧ 0 < w.getD i 0 := by
  unfold pick
  have e : (w.map Fl.fin).foldl (fun acc x => fp.add acc ((numFl fp).toFl x)) (.fin 0) = .fin t := ht
  rw [e]
  obtain ⟨a, ha, h3, h4⟩ := scaled_lt hfp u h1 h2
  rw [ha]
  obtain ⟨i, hi, h5, h6⟩ := pickLoop_fl hfp (q := a) w 0 0 hn (rnd0 hfp) ht h3 h4
  exact ⟨i, by rw [Nat.zero_add] at hi; exact hi, h5, h6⟩

theorem pickLoop_fl_pinf {r : Fl} (hr : ∀ x, FP.lt r x = false) : ∀ (l : List Fl) (run : Fl) (k : Nat),
    pickLoop (numFl fp) r run k l = .thrown .pickFailed
  | [], _, _ => rfl
  | x :: l, run, k => by
    unfold pickLoop
    rw [hr, if_neg (by simp)]
    exact pickLoop_fl_pinf hr l _ _

/-- Whatever the weights, a state that is picked raised the running sum above the scaled variate. -/
theorem pickLoop_spec {α : Type} (N : Num α) (r : Fl) : ∀ (l : List α) (run : α) (k i : Nat),
    pickLoop N r run k l = .ok (k + i) →
    ∃ x, l[i]? = some x ∧ FP.lt r (N.toFl (N.add ((l.take i).foldl N.add run) x)) = true ∧
      ∀ j < i, ∃ y, l[j]? = some y ∧ FP.lt r (N.toFl (N.add ((l.take j).foldl N.add run) y)) = false
  | [], run, k, i, h => by simp [pickLoop] at h
  | x :: l, run, k, i, h => by
    unfold pickLoop at h
    by_cases hc : FP.lt r (N.toFl (N.add run x)) = true
    · rw [if_pos hc] at h
      injection h with h
      have : i = 0 := by omega
      subst this
      exact ⟨x, rfl, hc, by simp⟩
    · rw [if_neg hc] at h
      rcases pickLoop_cases N r l (N.add run x) (k + 1) with h' | ⟨i', h', h1, -⟩
      · rw [h'] at h; cases h
      · rw [h'] at h
        injection h with h
        obtain ⟨m, rfl⟩ : ∃ m, i' = k + 1 + m := ⟨i' - (k + 1), by omega⟩
        have hi : i = m + 1 := by omega
        subst hi
        obtain ⟨y, hy, h2, h3⟩ := pickLoop_spec N r l (N.add run x) (k + 1) m h'
        refine ⟨y, by simpa using hy, by simpa using h2, ?_⟩
        intro j hj
        cases j with
        | zero => exact ⟨x, rfl, by simpa using hc⟩
        | succ j =>
          obtain ⟨z, hz, h4⟩ := h3 j (by omega)
          exact ⟨z, by simpa using hz, by simpa using h4⟩

end HL

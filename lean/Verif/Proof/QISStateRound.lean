import Verif.Proof.QISState
import Verif.Proof.QISRound
import Verif.Proof.QISIDraw
import Verif.Proof.QISTree

/-
C86 in rounded arithmetic: the states, and drawing from them.
-/

namespace HL
open Integerise
variable {fp : FP}

/-- a value that agrees up to `k` roundings with `y`, which is zero or between 1 and `B` -/
def About (k : Nat) (B : ℚ) (x : Fl) (y : ℚ) : Prop := (∃ z, x = .fin z ∧ Rel k z y) ∧ (y = 0 ∨ 1 ≤ y) ∧ y ≤ B

theorem About.nonneg {k : Nat} {B : ℚ} {x : Fl} {y : ℚ} (h : About k B x y) : 0 ≤ y := by
  rcases h.2.1 with h | h <;> linarith

theorem sum_zero_or_one {ι : Type} (I : Finset ι) {y : ι → ℚ} (h : ∀ i ∈ I, y i = 0 ∨ 1 ≤ y i) : ∑ i ∈ I, y i = 0 ∨ 1 ≤ ∑ i ∈ I, y i := by
  have hn : ∀ i ∈ I, 0 ≤ y i := fun i hi => by rcases h i hi with h | h <;> linarith
  by_cases hz : ∀ i ∈ I, y i = 0
  · exact Or.inl (Finset.sum_eq_zero hz)
  · right
    push Not at hz
    obtain ⟨i, hi, h0⟩ := hz
    exact ((h i hi).resolve_left h0).trans (Finset.single_le_sum hn hi)

/-- summing such values -/
theorem about_sum (hfp : fp.Good) {k : Nat} {B : ℚ} {f : List Int → Fl} {y : List Int → ℚ} {t : List Nat}
    (h : ∀ v, InRange t v → About k B (f v) (y v)) (hk : k + prodSizes t ≤ 2 ^ 52) (hb : prodSizes t * B ≤ bigQ) :
    About (k + prodSizes t) (prodSizes t * B) ((allIdx t).foldl (fun acc v => fp.add acc (f v)) (.fin 0)) (∑ v ∈ cells t, y v) := by
  obtain ⟨b, h1, h2⟩ := sum_fold hfp (K := k) (B := B) (f := f) (y := y) (allIdx t) k 0 0 (fun v hv => by
    obtain ⟨⟨x, h1, h2⟩, h3, h4⟩ := h v (mem_allIdx.mp hv)
    exact ⟨x, h1, h2, h3, h4⟩) le_rfl (by rw [length_allIdx]; exact hk) (by simp [Rel]) (Or.inl rfl)
    (by rw [length_allIdx, zero_add]; exact hb)
  rw [zero_add, sum_allIdx, length_allIdx] at h2
  refine ⟨⟨b, h1, h2⟩, sum_zero_or_one _ fun v hv => (h v (mem_cells.mp hv)).2.1, ?_⟩
  refine (Finset.sum_le_card_nsmul _ _ B fun v hv => (h v (mem_cells.mp hv)).2.2).trans ?_
  have hc : (cells t).card = prodSizes t := by
    rw [← length_allIdx]
    unfold cells
    exact List.toFinset_card_of_nodup (nodup_allIdx t)
  rw [nsmul_eq_mul, hc]

/-- picking from such values, not all zero -/
theorem about_pick (hfp : fp.Good) {k n : Nat} {B : ℚ} {f : Nat → Fl} {y : Nat → ℚ} (h : ∀ j < n, About k B (f j) (y j))
    (hk : k + n ≤ 2 ^ 52) (hb : n * B ≤ bigQ) (hpos : ∃ j < n, y j ≠ 0) (u : U32) :
    ∃ i, i < n ∧ pick fp (numFl fp) ((List.range n).map f) (variate fp u) = .ok i ∧ 0 < y i := by
  have hx : ∀ j, ∃ x : ℚ, j < n → f j = .fin x ∧ Rel k x (y j) := by
    intro j
    by_cases hj : j < n
    · obtain ⟨⟨x, h1, h2⟩, -⟩ := h j hj
      exact ⟨x, fun _ => ⟨h1, h2⟩⟩
    · exact ⟨0, fun hj' => absurd hj' hj⟩
  choose x hx using hx
  have e : (List.range n).map f = ((List.range n).map x).map Fl.fin := by
    rw [List.map_map]
    exact List.map_congr_left fun j hj => (hx j (List.mem_range.mp hj)).1
  obtain ⟨b, h1, h2⟩ := sum_fold hfp (K := k) (B := B) (f := fun v => f (v.getD 0 0).toNat) (y := fun v => y (v.getD 0 0).toNat)
    ((List.range n).map fun j : Nat => [(j : Int)]) k 0 0 (fun v hv => by
      obtain ⟨j, hj, rfl⟩ := List.mem_map.mp hv
      obtain ⟨⟨x, h1, h2⟩, h3, h4⟩ := h j (List.mem_range.mp hj)
      exact ⟨x, by simpa using h1, by simpa using h2, by simpa using h3, by simpa using h4⟩) le_rfl (by simpa using hk)
    (by simp [Rel]) (Or.inl rfl) (by simpa using hb)
  rw [zero_add, List.length_map, List.length_range] at h2
  rw [List.foldl_map] at h1
  have es : ((List.range n).map (fun j : Nat => [(j : Int)])).map (fun v => y (v.getD 0 0).toNat) = (List.range n).map y := by
    rw [List.map_map]
    exact List.map_congr_left fun j _ => by simp
  rw [es] at h2
  have hsum : ((List.range n).map y).sum = ∑ j ∈ Finset.range n, y j := by
    rw [← List.toFinset_range, List.sum_toFinset _ List.nodup_range]
  have hn : ∀ j ∈ Finset.range n, 0 ≤ y j := fun j hj => (h j (Finset.mem_range.mp hj)).nonneg
  obtain ⟨j, hj, hj0⟩ := hpos
  have hs1 : 1 ≤ ∑ j ∈ Finset.range n, y j :=
    ((h j hj).2.1.resolve_left hj0).trans (Finset.single_le_sum hn (Finset.mem_range.mpr hj))
  have hsB : ∑ j ∈ Finset.range n, y j ≤ bigQ := by
    refine (Finset.sum_le_card_nsmul _ _ B fun j hj => (h j (Finset.mem_range.mp hj)).2.2).trans ?_
    rw [nsmul_eq_mul, Finset.card_range]
    exact hb
  rw [hsum] at h2
  have hb0 := h2.nonneg (by linarith)
  have lo := h2.lower hk (by linarith)
  have up := h2.upper hk hb0
  have ht : (((List.range n).map x).map Fl.fin).foldl fp.add (.fin 0) = .fin b := by
    rw [← e, List.foldl_map, ← h1]
    congr 1
  obtain ⟨i, g1, g2, g3⟩ := pick_fl_pos hfp (w := (List.range n).map x) (t := b) (by
      intro z hz
      obtain ⟨j, hj, rfl⟩ := List.mem_map.mp hz
      have hj := List.mem_range.mp hj
      exact (hx j hj).2.nonneg (h j hj).nonneg) ht (by
      have h3 : (2 : ℚ) ^ (-990 : ℤ) ≤ 2 ^ (-1 : ℤ) := zpow_le_zpow_right₀ (by norm_num) (by norm_num)
      have h4 : (2 : ℚ) ^ (-1 : ℤ) = 1 / 2 := by norm_num
      refine h3.trans (h4.le.trans ?_)
      clear h3
      linarith) (by
      have h3 : 2 * bigQ ≤ 2 ^ 1023 := by
        rw [bigQ_eq, ← pow_succ']
        exact pow_le_pow_right₀ (by norm_num) (by norm_num)
      exact (up.trans (mul_le_mul_of_nonneg_left hsB (by norm_num))).trans h3) u
  have hi : i < n := by simpa using g2
  refine ⟨i, hi, by rw [e]; exact g1, ?_⟩
  rw [List.getD_eq_getElem?_getD, List.getElem?_map, List.getElem?_range hi] at g3
  simp only [Option.map_some, Option.getD_some] at g3
  refine lt_of_le_of_ne (h i hi).nonneg fun h0 => ?_
  have := ((hx i hi).2.zero_iff (h i hi).nonneg).mpr h0.symm
  linarith

/-- drawing a cell from a table of such values, not all zero -/
theorem about_drawn (hfp : fp.Good) {seq : List U32} : ∀ (d : Nat) (t : List Nat) (k : Nat) (B : ℚ) (y : List Int → ℚ) (a : List Int → Fl),
    t.length = d + 1 → (∀ v, InRange t v → About k B (a v) (y v)) → (∃ v, InRange t v ∧ y v ≠ 0) → k + 2 * prodSizes t ≤ 2 ^ 52 →
    prodSizes t * B ≤ bigQ → ∃ v, Drawn fp seq t a v ∧ 0 < y v := by
  intro d
  induction d with
  | zero =>
    intro t k B y a hl h hpos hk hb
    match t, hl with
    | [n], _ =>
      have hp : prodSizes [n] = n := by simp [prodSizes]
      rw [hp] at hk hb
      have hr : ∀ j < n, InRange [n] [(j : Int)] := fun j hj => .cons ⟨by positivity, by exact_mod_cast hj⟩ .nil
      obtain ⟨i, hi, h1, h2⟩ := about_pick hfp (f := fun j : Nat => a [(j : Int)]) (y := fun j : Nat => y [(j : Int)])
        (fun j hj => h _ (hr j hj)) (by omega) hb (by
          obtain ⟨v, hv, h0⟩ := hpos
          have hm := mem_allIdx.mpr hv
          rw [allIdx_one] at hm
          obtain ⟨j, hj, rfl⟩ := List.mem_map.mp hm
          exact ⟨j, List.mem_range.mp hj, h0⟩) (seq.getD 0 0)
      exact ⟨[(i : Int)], .one n a i hi h1, h2⟩
  | succ d ih =>
    intro T k B y a hl h hpos hk hb
    obtain ⟨t, n, rfl⟩ : ∃ t n, T = t ++ [n] := by
      rcases List.eq_nil_or_concat T with rfl | ⟨t', n, h⟩
      · simp at hl
      · exact ⟨t', n, by simpa using h⟩
    have hl' : t.length = d + 1 := by simpa using hl
    have ht : t ≠ [] := by rintro rfl; simp at hl'
    have hr : ∀ j < n, ∀ v, InRange t v → InRange (t ++ [n]) (v ++ [(j : Int)]) := fun j hj v hv =>
      inRange_snoc hv (by positivity) (by exact_mod_cast hj)
    have hp : prodSizes (t ++ [n]) = prodSizes t * n := by
      clear * -
      induction t with
      | nil => simp [prodSizes]
      | cons m t ih => rw [List.cons_append, prodSizes, ih, prodSizes, mul_assoc]
    obtain ⟨v0, hv0, h0⟩ := hpos
    have hB : 0 ≤ B := (h v0 hv0).nonneg.trans (h v0 hv0).2.2
    have hS : ∑ v ∈ cells (t ++ [n]), y v ≠ 0 := by
      have := Finset.single_le_sum (fun v hv => (h v (mem_cells.mp hv)).nonneg) (mem_cells.mpr hv0)
      have := (h v0 hv0).2.1.resolve_left h0
      intro hz
      linarith
    rw [sum_snoc] at hS
    obtain ⟨j0, hj0, hne⟩ := Finset.exists_ne_zero_of_sum_ne_zero hS
    have hj0 := Finset.mem_range.mp hj0
    have hn1 : 1 ≤ n := by omega
    have ht1 : 1 ≤ prodSizes t := by
      by_contra hc
      have : prodSizes t = 0 := by omega
      obtain ⟨v, hv, -⟩ := Finset.exists_ne_zero_of_sum_ne_zero hne
      have hm := mem_allIdx.mpr (mem_cells.mp hv)
      have hlen := length_allIdx t
      rw [this] at hlen
      rw [List.length_eq_zero_iff.mp hlen] at hm
      cases hm
    rw [hp] at hk hb
    have hle1 : prodSizes t ≤ prodSizes t * n := Nat.le_mul_of_pos_right _ hn1
    have hle2 : n ≤ prodSizes t * n := Nat.le_mul_of_pos_left _ ht1
    have hbt : prodSizes t * B ≤ bigQ := by
      refine le_trans (mul_le_mul_of_nonneg_right ?_ hB) hb
      exact_mod_cast hle1
    have hin : ∀ j < n, About (k + prodSizes t) (prodSizes t * B)
        ((allIdx t).foldl (fun acc v => fp.add acc (a (v ++ [(j : Int)]))) (.fin 0)) (∑ v ∈ cells t, y (v ++ [(j : Int)])) :=
      fun j hj => about_sum hfp (f := fun v => a (v ++ [(j : Int)])) (y := fun v => y (v ++ [(j : Int)]))
        (fun v hv => h _ (hr j hj v hv)) (by omega) hbt
    obtain ⟨i, hi, h1, h2⟩ := about_pick hfp hin (by omega) (by push_cast at hb; linarith) ⟨j0, hj0, hne⟩ (seq.getD t.length 0)
    obtain ⟨v, hv, hpv⟩ := ih t k B (fun v => y (v ++ [(i : Int)])) (fun v => a (v ++ [(i : Int)])) hl' (fun v hv => h _ (hr i hi v hv)) (by
      obtain ⟨v, hv, hne⟩ := Finset.exists_ne_zero_of_sum_ne_zero h2.ne'
      exact ⟨v, mem_cells.mp hv, hne⟩) (by omega) hbt
    exact ⟨v ++ [(i : Int)], .snoc t n _ i v ht hi h1 hv, hpv⟩

/-! ### The states -/

theorem productAt_zero_or_one (w : List Int) : ∀ (Q : Prob Int), (∀ p ∈ Q, 0 ≤ p.2 (proj p.1 w)) → productAt Q w = 0 ∨ 1 ≤ productAt Q w
  | [], _ => by simp [productAt]
  | p :: Q, h => by
    have hprod : productAt (p :: Q) w = (p.2 (proj p.1 w) : ℚ) * productAt Q w := by simp [productAt]
    rw [hprod]
    rcases eq_or_lt_of_le (h p (by simp)) with h0 | h0
    · left; rw [← h0]; simp
    · rcases productAt_zero_or_one w Q (fun q hq => h q (by simp [hq])) with h1 | h1
      · left; rw [h1, mul_zero]
      · right
        have : (1 : ℚ) ≤ p.2 (proj p.1 w) := by exact_mod_cast h0
        nlinarith

/-- what a marginal multiplies the states by, in rounded arithmetic -/
theorem shrink_rel (hfp : fp.Good) {p : List Nat × (List Int → Int)} {v : List Int} {m : Int} (hm : p.2 (proj p.1 v) = m - 1) (h1 : 1 ≤ m)
    (h2 : m < 2 ^ 52) : ∃ z, shrink fp p v = .fin z ∧ Rel 1 z (((m : ℚ) - 1) / m) := by
  unfold shrink
  rw [hm, show 1 + (m - 1) = m by ring, ofInt_exact hfp (t := m - 1) (by rw [abs_of_nonneg (by omega)]; omega),
    ofInt_exact hfp (t := m) (by rw [abs_of_nonneg (by omega)]; omega)]
  have hm1 : (1 : ℚ) ≤ m := by exact_mod_cast h1
  have e : fp.div (.fin ((m - 1 : Int) : ℚ)) (.fin (m : ℚ)) = fp.rnd (((m : ℚ) - 1) / m) := by
    show (if (m : ℚ) = 0 then _ else fp.rnd _) = _
    rw [if_neg (by linarith)]
    push_cast
    rfl
  rw [e]
  refine rel_rnd hfp ?_
  rcases eq_or_lt_of_le h1 with h | h
  · left; rw [← h]; norm_num
  · right
    have hm2 : (2 : ℚ) ≤ m := by exact_mod_cast h
    have l1 : 1 / 2 ≤ ((m : ℚ) - 1) / m := by rw [div_le_div_iff₀ (by norm_num) (by linarith)]; linarith
    have l2 : ((m : ℚ) - 1) / m ≤ 1 := by rw [div_le_one (by linarith)]; linarith
    have hb := big_one
    have : bigQ * 1 ≤ bigQ * 2 ^ 200 := mul_le_mul_of_nonneg_left (by norm_num) bigQ_pos.le
    exact norm_range (c := 2) (by linarith) (by norm_num) (by
      have : bigQ * 2 ≤ bigQ * 2 ^ 200 := mul_le_mul_of_nonneg_left (by norm_num) bigQ_pos.le
      linarith) (by linarith)

theorem shrunk_rel (hfp : fp.Good) {hs : List (List Int)} {v w : List Int} {pop : Int} (hpop : pop < 2 ^ 52) (h1p : 1 ≤ pop) : ∀ (P : Prob Int) (k : Nat) (c x : ℚ),
    (∀ p ∈ remaining hs P, 0 < p.2 (proj p.1 v) ∧ p.2 (proj p.1 v) ≤ pop ∧ 0 ≤ p.2 (proj p.1 w) ∧ p.2 (proj p.1 w) ≤ pop) →
    k + 2 * P.length ≤ 2 ^ 52 → (c = 0 ∨ 1 ≤ c) → c * (pop : ℚ) ^ P.length ≤ bigQ → Rel k x (c * productAt (remaining hs P) w) →
    ∃ z, (remaining (v :: hs) P).foldl (fun x p => if proj p.1 w = proj p.1 v then fp.mul x (shrink fp p v) else x) (.fin x) = .fin z ∧
      Rel (k + 2 * P.length) z (c * productAt (remaining (v :: hs) P) w)
  | [], k, c, x, _, _, _, _, hr => ⟨x, rfl, by simpa [remaining, productAt] using hr⟩
  | p :: P, k, c, x, hp, hk, hc, hb, hr => by
    obtain ⟨g1, g2, g3, g4⟩ := hp _ (List.mem_map.mpr ⟨p, by simp, rfl⟩)
    simp only [] at g1 g2 g3 g4
    set m : List Int → Int := fun j => p.2 j - (hs.countP (fun v => proj p.1 v = j) : Int) with hm
    change 0 < m (proj p.1 v) at g1
    change m (proj p.1 v) ≤ pop at g2
    change 0 ≤ m (proj p.1 w) at g3
    change m (proj p.1 w) ≤ pop at g4
    have e1 : remaining hs (p :: P) = (p.1, m) :: remaining hs P := rfl
    have e2 : remaining (v :: hs) (p :: P) = (p.1, fun j => p.2 j - ((v :: hs).countP (fun v => proj p.1 v = j) : Int)) :: remaining (v :: hs) P := rfl
    have hpP : ∀ q ∈ remaining hs P, 0 < q.2 (proj q.1 v) ∧ q.2 (proj q.1 v) ≤ pop ∧ 0 ≤ q.2 (proj q.1 w) ∧ q.2 (proj q.1 w) ≤ pop :=
      fun q hq => hp q (by rw [e1]; simp [hq])
    have p1 : ∀ (q : List Nat × (List Int → Int)) (Q : Prob Int), productAt (q :: Q) w = q.2 (proj q.1 w) * productAt Q w := by
      intro q Q; simp [productAt]
    rw [e1, p1] at hr
    rw [e2, List.foldl_cons, p1]
    have hnew : ∀ j, p.2 j - ((v :: hs).countP (fun v => proj p.1 v = j) : Int) = m j - if proj p.1 v = j then 1 else 0 := by
      intro j
      simp only [hm, List.countP_cons]
      by_cases hj : proj p.1 v = j
      · simp [hj]; omega
      · simp [hj]
    have hpq : (1 : ℚ) ≤ pop := by exact_mod_cast h1p
    have hpw : (1 : ℚ) ≤ (pop : ℚ) ^ P.length := one_le_pow₀ hpq
    have hc0 : 0 ≤ c := by rcases hc with h | h <;> linarith
    -- the factor of this marginal afterwards
    have next : ∀ g : Int, 0 ≤ g → g ≤ pop → (c * g = 0 ∨ 1 ≤ c * g) ∧ c * g * (pop : ℚ) ^ P.length ≤ bigQ := by
      intro g h0 h1
      have h0q : (0 : ℚ) ≤ g := by exact_mod_cast h0
      have h1q : (g : ℚ) ≤ pop := by exact_mod_cast h1
      constructor
      · rcases hc with h | h
        · left; rw [h, zero_mul]
        · rcases eq_or_lt_of_le h0 with h' | h'
          · left; rw [← h']; simp
          · right
            have : (1 : ℚ) ≤ g := by exact_mod_cast h'
            nlinarith
      · refine le_trans ?_ hb
        rw [List.length_cons, pow_succ', ← mul_assoc]
        exact mul_le_mul_of_nonneg_right (mul_le_mul_of_nonneg_left h1q hc0) (by positivity)
    rw [List.length_cons] at hk
    have hrest := productAt_zero_or_one w (remaining hs P) (fun q hq => (hpP q hq).2.2.1)
    have hrestle := productAt_le h1p w (remaining hs P) (fun q hq => (hpP q hq).2.2)
    have hlen : (remaining hs P).length = P.length := by simp [remaining]
    rw [hlen] at hrestle
    by_cases hw : proj p.1 w = proj p.1 v
    · rw [if_pos hw]
      rw [hw] at g3 g4
      obtain ⟨n1, n2⟩ := next (m (proj p.1 v) - 1) (by omega) (by omega)
      obtain ⟨z, hz, hzr⟩ := shrink_rel hfp (p := (p.1, fun j => p.2 j - ((v :: hs).countP (fun v => proj p.1 v = j) : Int))) (v := v)
        (m := m (proj p.1 v)) (by simp only [hnew, if_true]) (by omega) (by omega)
      rw [hz]
      have hmq : (1 : ℚ) ≤ m (proj p.1 v) := by exact_mod_cast g1
      push_cast at n1 n2
      generalize hM : (m (proj p.1 v) : ℚ) = M at *
      generalize hT : productAt (remaining hs P) w = T at *
      have hT0 : 0 ≤ T := by rcases hrest with h | h <;> linarith
      have hy0 : 0 ≤ c * ((m (proj p.1 w) : ℚ) * T) := by rw [hw, hM]; positivity
      have hx0 := hr.nonneg hy0
      have hs0 : 0 ≤ (M - 1) / M := div_nonneg (by linarith) (by linarith)
      have hz0 := hzr.nonneg hs0
      have hprod := hr.mul hzr hx0 hy0 hz0 hs0
      have e3 : c * ((m (proj p.1 w) : ℚ) * T) * ((M - 1) / M) = c * (M - 1) * T := by
        rw [hw, hM]
        have : M ≠ 0 := by linarith
        field_simp
      rw [e3] at hprod
      have hY0 : 0 ≤ c * (M - 1) := by rcases n1 with h | h <;> linarith
      have hYT : 0 ≤ c * (M - 1) * T := mul_nonneg hY0 hT0
      obtain ⟨b, hb1, hb2⟩ := rel_rnd hfp (q := x * z) (by
        by_cases hzero : c * (M - 1) * T = 0
        · left; exact (hprod.zero_iff hYT).mpr hzero
        · right
          have i1 : 1 ≤ c * (M - 1) := n1.resolve_left fun h => hzero (by rw [h, zero_mul])
          have i2 : 1 ≤ T := hrest.resolve_left fun h => hzero (by rw [h, mul_zero])
          have i3 : 1 ≤ c * (M - 1) * T := by nlinarith
          have i4 : c * (M - 1) * T ≤ bigQ := (mul_le_mul_of_nonneg_left hrestle.2 hY0).trans n2
          have lo := hprod.lower (by omega) hYT
          have up := hprod.upper (by omega) (mul_nonneg hx0 hz0)
          have hbo := big_one
          have : bigQ * 2 ≤ bigQ * 2 ^ 200 := mul_le_mul_of_nonneg_left (by norm_num) bigQ_pos.le
          exact norm_range (c := 2) (by linarith) (by norm_num) (by linarith) (by linarith))
      have hfin := hb2.trans hprod
      obtain ⟨d, hd1, hd2⟩ := shrunk_rel hfp hpop h1p P (k + 2) (c * (M - 1)) b hpP (by omega) n1 n2 (by
        rw [hT]
        rwa [show 1 + (k + 1) = k + 2 by omega] at hfin)
      refine ⟨d, ?_, ?_⟩
      · rw [← hd1]
        show List.foldl _ (fp.rnd (x * z)) _ = _
        rw [hb1]
      · have e4 : c * (((m (proj p.1 v) - 1 : Int) : ℚ) * productAt (remaining (v :: hs) P) w) = c * (M - 1) * productAt (remaining (v :: hs) P) w := by
          rw [← hM]; push_cast; ring
        simp only [hnew, hw, if_true]
        rw [e4, show k + 2 * (p :: P).length = k + 2 + 2 * P.length by rw [List.length_cons]; omega]
        exact hd2
    · rw [if_neg hw]
      obtain ⟨n1, n2⟩ := next (m (proj p.1 w)) g3 g4
      obtain ⟨d, hd1, hd2⟩ := shrunk_rel hfp hpop h1p P k (c * m (proj p.1 w)) x hpP (by omega) n1 n2 (by rwa [mul_assoc])
      refine ⟨d, hd1, ?_⟩
      simp only [hnew]
      rw [if_neg (Ne.symm hw), sub_zero, ← mul_assoc]
      have hT0 := (productAt_zero_or_one w (remaining (v :: hs) P) (by
        intro q hq
        obtain ⟨q', hq', rfl⟩ := List.mem_map.mp hq
        obtain ⟨f1, -, f3, -⟩ := hpP _ (List.mem_map.mpr ⟨q', hq', rfl⟩)
        simp only [List.countP_cons] at f1 f3 ⊢
        by_cases hh : proj q'.1 v = proj q'.1 w
        · rw [hh] at f1
          simp only [hh, decide_true, if_true]
          push_cast
          omega
        · simp only [hh, decide_false]
          push_cast
          simpa using f3))
      have hT0' : 0 ≤ productAt (remaining (v :: hs) P) w := by rcases hT0 with h | h <;> linarith
      have hc' : 0 ≤ c * m (proj p.1 w) := by rcases n1 with h | h <;> linarith
      have hy0 := mul_nonneg hc' hT0'
      exact hd2.mono (hd2.nonneg hy0) hy0 (by rw [List.length_cons]; omega)

end HL

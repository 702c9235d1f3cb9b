import Verif.Proof.IPFProduct
import Verif.Proof.QISRound
import Verif.Proof.SumRound
import Verif.Proof.IntDouble
import Verif.Proof.IPFWitness

/-
A constant table scaled to marginals on disjoint groups of dimensions, with rounding.
-/

namespace HL
open Micro Integerise
variable {fp : FP}

theorem Rel.sum {ι : Type} {k : Nat} {t : Finset ι} {x y : ι → ℚ} (h : ∀ i ∈ t, Rel k (x i) (y i)) :
    Rel k (∑ i ∈ t, x i) (∑ i ∈ t, y i) := by
  constructor
  · rw [Finset.mul_sum]; exact Finset.sum_le_sum fun i hi => (h i hi).1
  · rw [Finset.mul_sum]; exact Finset.sum_le_sum fun i hi => (h i hi).2

/-- a sum of numbers in the normal range -/
theorem sum_fold' (hfp : fp.Good) {K : Nat} {lo B : ℚ} (hlo : 2 * tinyQ ≤ lo) (hB : 2 * B ≤ hugeQ) {f : List Int → Fl}
    {y : List Int → ℚ} : ∀ (vs : List (List Int)) (k : Nat) (a z : ℚ),
    (∀ v ∈ vs, ∃ x, f v = .fin x ∧ Rel K x (y v) ∧ (y v = 0 ∨ lo ≤ y v)) → K ≤ k → k + vs.length ≤ 2 ^ 52 →
    Rel k a z → (z = 0 ∨ lo ≤ z) → z + (vs.map y).sum ≤ B →
    ∃ b, vs.foldl (fun acc v => fp.add acc (f v)) (.fin a) = .fin b ∧ Rel (k + vs.length) b (z + (vs.map y).sum)
  | [], k, a, z, _, _, _, h, _, _ => ⟨a, rfl, by simpa using h⟩
  | v :: vs, k, a, z, hv, hK, hk, h, hz, hb => by
    have htp := tinyQ_pos
    obtain ⟨x, hx, hr, hy⟩ := hv v (by simp)
    have hrest : 0 ≤ (vs.map y).sum := by
      apply List.sum_nonneg
      intro t ht
      obtain ⟨w, hw, rfl⟩ := List.mem_map.mp ht
      obtain ⟨-, -, -, hw⟩ := hv w (by simp [hw])
      rcases hw with hw | hw <;> linarith
    simp only [List.foldl_cons, List.length_cons, List.map_cons, List.sum_cons] at *
    have hz0 : 0 ≤ z := by rcases hz with rfl | hz <;> linarith
    have hy0 : 0 ≤ y v := by rcases hy with h | h <;> linarith
    have ha0 := h.nonneg hz0
    have hx0 := hr.nonneg hy0
    have hs : Rel k (a + x) (z + y v) := h.add (hr.mono hx0 hy0 hK)
    have hs0 : 0 ≤ z + y v := by linarith
    have hzy : z + y v = 0 ∨ lo ≤ z + y v := by
      rcases hz with h | h
      · rcases hy with h' | h'
        · left; linarith
        · right; linarith
      · right; linarith
    obtain ⟨b, hb1, hb2⟩ := rel_rnd hfp (q := a + x) (by
      rcases hzy with h0 | h0
      · left; exact (hs.zero_iff hs0).mpr h0
      · right
        have := hs.lower (by omega) hs0
        have := hs.upper (by omega) (by linarith)
        constructor <;> linarith)
    obtain ⟨c, hc1, hc2⟩ := sum_fold' hfp hlo hB vs (k + 1) b (z + y v) (fun w hw => hv w (by simp [hw])) (by omega) (by omega)
      (by have := hb2.trans hs; rwa [Nat.add_comm] at this) hzy (by linarith)
    refine ⟨c, ?_, ?_⟩
    · rw [← hc1, hx]
      show List.foldl _ (fp.rnd (a + x)) vs = _
      rw [hb1]
    · rw [← add_assoc z]
      rwa [show k + (vs.length + 1) = k + 1 + vs.length by omega]

theorem fsum_rel (hfp : fp.Good) {s ds : List Nat} {j : List Int} {K f : Nat} {a : List Int → Fl} {y : List Int → ℚ}
    {lo B : ℚ} (hlo : 2 * tinyQ ≤ lo) (hB : 2 * B ≤ hugeQ)
    (ha : ∀ v, InRange s v → ∃ x, a v = .fin x ∧ Rel K x (y v) ∧ (y v = 0 ∨ lo ≤ y v))
    (hf : ((cells s).filter (fun v => proj ds v = j)).card ≤ f) (hk : K + f ≤ 2 ^ 52) (hb : marginalSum s ds y j ≤ B) :
    ∃ S, fsum fp s ds a j = .fin S ∧ Rel (K + f) S (marginalSum s ds y j) := by
  have htp := tinyQ_pos
  have hlen : ((allIdx s).filter (fun v => proj ds v = j)).length =
      ((cells s).filter (fun v => proj ds v = j)).card := by
    rw [← List.toFinset_card_of_nodup ((nodup_allIdx s).filter _)]
    congr 1
    ext v; simp [cells]
  have hsum : (((allIdx s).filter (fun v => proj ds v = j)).map y).sum = marginalSum s ds y j := by
    rw [sum_filter_allIdx s (fun v => proj ds v = j) y]
    rfl
  have hy0 : 0 ≤ marginalSum s ds y j := marginalSum_nonneg (fun v hv => by
    obtain ⟨-, -, -, hw⟩ := ha v hv
    rcases hw with hw | hw <;> linarith) j
  obtain ⟨S, h1, h2⟩ := sum_fold' hfp hlo hB (f := a) (y := y) ((allIdx s).filter (fun v => proj ds v = j)) K 0 0
    (fun v hv => ha v (mem_allIdx.mp (List.mem_filter.mp hv).1)) le_rfl (by omega)
    (by simp [Rel]) (Or.inl rfl) (by rw [hsum]; linarith)
  rw [hsum, zero_add] at h2
  refine ⟨S, h1, h2.mono (h2.nonneg hy0) hy0 (by omega)⟩

/-- the product over some of the marginals is a product over all, with ones -/
theorem fiber_prod {s : List Nat} {Q L1 L2 L' : Prob ℚ} {q : List Nat × (List Int → ℚ)} (hs : Splits s Q)
    (hQ : Q = L1 ++ q :: L2) (hL : L'.map Prod.fst = L1.map Prod.fst) {j : List Int} (hj : InRange (projSizes q.1 s) j) :
    marginalSum s q.1 (prodAt L') j = (L'.map (fun q => ∑ j ∈ cells (projSizes q.1 s), q.2 j)).prod *
      (L2.map (fun q => ∑ j ∈ cells (projSizes q.1 s), (fun _ : List Int => (1 : ℚ)) j)).prod := by
  have hs' : Splits s (L' ++ (q.1, fun _ => (1 : ℚ)) :: L2.map (fun q => (q.1, fun _ => (1 : ℚ)))) :=
    hs.congr (by rw [hQ]; simp [Function.comp_def, hL])
  have := marginalSum_prodAt hs' (j := j) hj
  rw [mul_one, List.map_map] at this
  refine Eq.trans ?_ this
  apply marginalSum_congr
  intro w _
  rw [prodAt_append]
  simp [prodAt, Function.comp_def]

/-- every entry is zero or at least one -/
structure Whole (s : List Nat) (Q : Prob ℚ) (T : ℚ) : Prop where
  ent : ∀ q ∈ Q, ∀ j, InRange (projSizes q.1 s) j → q.2 j = 0 ∨ 1 ≤ q.2 j
  tot : ∀ q ∈ Q, ∑ j ∈ cells (projSizes q.1 s), q.2 j = T

theorem Whole.nonneg {s : List Nat} {Q : Prob ℚ} {T : ℚ} (h : Whole s Q T) {q} (hq : q ∈ Q) {j} (hj : InRange (projSizes q.1 s) j) :
    0 ≤ q.2 j := by rcases h.ent q hq j hj with h | h <;> linarith

theorem Whole.le {s : List Nat} {Q : Prob ℚ} {T : ℚ} (h : Whole s Q T) {q} (hq : q ∈ Q) {j} (hj : InRange (projSizes q.1 s) j) :
    q.2 j ≤ T := by
  rw [← h.tot q hq]
  exact Finset.single_le_sum (fun i hi => h.nonneg hq (mem_cells.mp hi)) (mem_cells.mpr hj)

theorem Whole.prodAt {s : List Nat} {T : ℚ} {v : List Int} (hv : InRange s v) : ∀ {Q : Prob ℚ}, Whole s Q T →
    (∀ q ∈ Q, ∀ d ∈ q.1, d < s.length) → (prodAt Q v = 0 ∨ 1 ≤ prodAt Q v) ∧ prodAt Q v ≤ T ^ Q.length
  | [], _, _ => by simp [HL.prodAt]
  | q :: Q, h, hd => by
    obtain ⟨h1, h2⟩ := Whole.prodAt hv (Q := Q) ⟨fun q' hq' => h.ent q' (by simp [hq']), fun q' hq' => h.tot q' (by simp [hq'])⟩
      (fun q' hq' => hd q' (by simp [hq']))
    have hj := inRange_proj (hd q (by simp)) hv
    have e : HL.prodAt (q :: Q) v = q.2 (proj q.1 v) * HL.prodAt Q v := by simp [HL.prodAt]
    rw [e, List.length_cons, pow_succ']
    have h3 := h.nonneg (q := q) (by simp) hj
    have h4 := h.le (q := q) (by simp) hj
    have h0 : 0 ≤ HL.prodAt Q v := by rcases h1 with h | h <;> linarith
    constructor
    · rcases h.ent q (by simp) _ hj with h' | h'
      · left; rw [h', zero_mul]
      · rcases h1 with h1 | h1
        · left; rw [h1, mul_zero]
        · right; nlinarith
    · exact mul_le_mul h4 h2 h0 (h3.trans h4)

theorem one_le_prod_list : ∀ {l : List ℚ}, (∀ x ∈ l, 1 ≤ x) → 1 ≤ l.prod
  | [], _ => by simp
  | x :: l, h => by
    have h1 := h x (by simp)
    have h2 := one_le_prod_list (l := l) (fun y hy => h y (by simp [hy]))
    rw [List.prod_cons]
    nlinarith

theorem card_cells (s : List Nat) : (cells s).card = prodSizes s := by
  unfold cells
  rw [List.toFinset_card_of_nodup (nodup_allIdx s), length_allIdx]

/-- after scaling to the marginals `L`: each cell is a product of one factor for each marginal, up to one rounding for each, and
the factors are proportional to the marginals up to a few roundings -/
structure UInv (s : List Nat) (c : ℚ) (f : Nat) (L : Prob ℚ) (C : ℚ) (a : List Int → Fl) : Prop where
  pos : 0 < C
  hi : C ≤ 2 ^ 101
  lo : 1 ≤ C * (bigQ * 2 ^ 101)
  fac : ∃ L' : Prob ℚ, L'.map Prod.fst = L.map Prod.fst ∧
    (∀ v, InRange s v → ∃ x, a v = .fin x ∧ Rel L.length x (c * prodAt L' v)) ∧
    ∀ v, InRange s v → Rel (L.length * (f + L.length)) (c * prodAt L' v) (C * prodAt L v)

theorem unit_step (hfp : fp.Good) {s : List Nat} {Q L1 L2 : Prob ℚ} {q : List Nat × (List Int → ℚ)} {T c C : ℚ} {f : Nat}
    (h : ProbShape s Q) (hs : Splits s Q) (hQ : Q = L1 ++ q :: L2) (hw : Whole s Q T) (hT : 1 ≤ T) (hT' : T ≤ 2 ^ 52)
    (hbig : T ^ Q.length * prodSizes s ≤ bigQ) (hsz : Q.length * (2 * f + 2 * Q.length + 1) + f ≤ 2 ^ 52)
    (hf : ∀ j, ((cells s).filter (fun v => proj q.1 v = j)).card ≤ f)
    {a : List Int → Fl} (hi : UInv s c f L1 C a) :
    ∃ C', UInv s c f (L1 ++ [q]) C' (scaled fp (numFl fp) s q.1 (fun j => .fin (q.2 j)) a) ∧
      ∀ M, M = T ^ L1.length * (L2.map (fun q => ∑ j ∈ cells (projSizes q.1 s), (fun _ : List Int => (1 : ℚ)) j)).prod →
        Rel (L1.length * (f + L1.length)) C' (1 / M) := by
  obtain ⟨hC, hC1, hC2, L', hL', hx, hG⟩ := hi
  have htp := tinyQ_pos
  have hbp := bigQ_pos
  have hb1 := big_one
  have hqQ : q ∈ Q := by rw [hQ]; simp
  have hd := (h.dims q hqQ).2
  set k := L1.length with hk
  have hlen : Q.length = k + 1 + L2.length := by rw [hQ]; simp; omega
  have hsz1 : k * (f + k) + (k + f + 1) ≤ 2 ^ 52 := by
    refine le_trans ?_ hsz
    have h1 : k + 1 ≤ Q.length := by omega
    have h2 : (k + 1) * (2 * f + 2 * (k + 1) + 1) ≤ Q.length * (2 * f + 2 * Q.length + 1) :=
      Nat.mul_le_mul h1 (by omega)
    nlinarith
  have hsz2 : k * (f + k) ≤ 2 ^ 52 := by omega
  have hsz3 : k + f ≤ 2 ^ 52 := by omega
  have hw1 : Whole s L1 T := ⟨fun q' hq' => hw.ent q' (by rw [hQ]; simp [hq']), fun q' hq' => hw.tot q' (by rw [hQ]; simp [hq'])⟩
  have hd1 : ∀ q' ∈ L1, ∀ d ∈ q'.1, d < s.length := fun q' hq' => (h.dims q' (by rw [hQ]; simp [hq'])).2
  have hp1 := fun {v} (hv : InRange s v) => hw1.prodAt hv hd1
  -- the sums before scaling
  set Kc : ℚ := (L2.map (fun q => ∑ j ∈ cells (projSizes q.1 s), (fun _ : List Int => (1 : ℚ)) j)).prod with hKc
  set M : ℚ := T ^ k * Kc with hM
  set D : ℚ := c * ((L'.map (fun q => ∑ j ∈ cells (projSizes q.1 s), q.2 j)).prod * Kc) with hD
  have hMs : ∀ j, InRange (projSizes q.1 s) j → marginalSum s q.1 (prodAt L1) j = M := by
    intro j hj
    rw [fiber_prod hs hQ rfl hj, prod_const_map hw1.tot]
  have hDs : ∀ j, InRange (projSizes q.1 s) j → marginalSum s q.1 (fun v => c * prodAt L' v) j = D := by
    intro j hj
    rw [marginalSum_smul, fiber_prod hs hQ hL' hj]
  have hDM : ∀ j, InRange (projSizes q.1 s) j → Rel (k * (f + k)) D (C * M) := by
    intro j hj
    rw [← hDs j hj, ← hMs j hj, ← marginalSum_smul]
    exact Rel.sum fun v hv => hG v (mem_cells.mp (Finset.mem_filter.mp hv).1)
  obtain ⟨j0, hj0⟩ := exists_inRange (h.goodP hqQ).2
  have hDM := hDM j0 hj0
  have hTk : 1 ≤ T ^ k := one_le_pow₀ hT
  have hKc1 : 1 ≤ Kc := by
    rw [hKc]
    apply one_le_prod_list
    intro x hx
    obtain ⟨q', hq', rfl⟩ := List.mem_map.mp hx
    have hq'Q : q' ∈ Q := by rw [hQ]; simp [hq']
    obtain ⟨j, hj⟩ := exists_inRange (h.goodP hq'Q).2
    exact Finset.single_le_sum (f := fun _ : List Int => (1 : ℚ)) (fun _ _ => by norm_num) (mem_cells.mpr hj)
  have hM1 : T ^ k ≤ M := by rw [hM]; nlinarith
  have hM0 : 0 < M := by linarith
  have hMb : M ≤ bigQ := by
    rw [← hMs j0 hj0]
    have h1 : marginalSum s q.1 (prodAt L1) j0 ≤ ∑ v ∈ cells s, T ^ k := by
      refine le_trans (Finset.sum_le_sum fun v hv => (hp1 (mem_cells.mp (Finset.mem_filter.mp hv).1)).2) ?_
      exact Finset.sum_le_sum_of_subset_of_nonneg (Finset.filter_subset _ _) (fun _ _ _ => by linarith)
    rw [Finset.sum_const, card_cells, nsmul_eq_mul, mul_comm] at h1
    refine h1.trans (le_trans ?_ hbig)
    apply mul_le_mul_of_nonneg_right _ (by positivity)
    exact pow_le_pow_right₀ hT (by omega)
  have hCM : 0 < C * M := mul_pos hC hM0
  have hD1 := hDM.lower hsz2 hCM.le
  have hD0 : 0 < D := by linarith
  have hD2 := hDM.upper hsz2 hD0.le
  -- each cell
  have hlo : ∀ v, InRange s v → c * prodAt L' v = 0 ∨ C / 2 ≤ c * prodAt L' v := by
    intro v hv
    have hr := hG v hv
    rcases (hp1 hv).1 with h0 | h0
    · left
      rw [h0, mul_zero] at hr
      exact (hr.zero_iff le_rfl).mpr rfl
    · right
      have := hr.lower hsz2 (by positivity)
      nlinarith
  have h200 : ∀ n, n ≤ 200 → bigQ * 2 ^ n ≤ bigQ * 2 ^ 200 := fun n hn =>
    mul_le_mul_of_nonneg_left (pow_le_pow_right₀ (by norm_num) hn) hbp.le
  have ht : 2 * tinyQ ≤ C / 2 := by
    have h1 : tinyQ * (bigQ * 2 ^ 103) ≤ 1 := (mul_le_mul_of_nonneg_left (h200 103 (by norm_num)) htp.le).trans big_tiny
    have h2 : (4 * tinyQ) * (bigQ * 2 ^ 101) ≤ C * (bigQ * 2 ^ 101) := by
      refine le_trans (le_of_eq ?_) (h1.trans hC2); ring
    have := le_of_mul_le_mul_right h2 (by positivity)
    linarith
  have hCMb : C * M ≤ 2 ^ 101 * bigQ := mul_le_mul hC1 hMb hM0.le (by positivity)
  have hhuge : 2 * D ≤ hugeQ := by
    refine le_trans ?_ big_huge
    have := h200 103 (by norm_num)
    linarith
  have hsum : ∀ j, InRange (projSizes q.1 s) j → ∃ S, fsum fp s q.1 a j = .fin S ∧ Rel (k + f) S D := by
    intro j hj
    have := fsum_rel hfp (K := k) (f := f) (a := a) (y := fun v => c * prodAt L' v) (j := j) ht hhuge (fun v hv => by
      obtain ⟨x, h1, h2⟩ := hx v hv
      exact ⟨x, h1, h2, hlo v hv⟩) (hf j) hsz3 (le_of_eq (hDs j hj))
    rw [hDs j hj] at this
    exact this
  -- the factors
  have hrat : ∀ j, ∃ F : ℚ, InRange (projSizes q.1 s) j → ∃ S, fsum fp s q.1 a j = .fin S ∧ 0 < S ∧ S ≤ 2 * D ∧
      fp.div (.fin (q.2 j)) (.fin S) = .fin F ∧ Rel (k + f + 1) F (q.2 j / D) := by
    intro j
    by_cases hj : InRange (projSizes q.1 s) j
    · obtain ⟨S, h1, h2⟩ := hsum j hj
      have hS1 := h2.lower hsz3 hD0.le
      have hS0 : 0 < S := by linarith
      have hS2 := h2.upper hsz3 hS0.le
      have hm0 := hw.nonneg hqQ hj
      have hmT := hw.le hqQ hj
      obtain ⟨F, hF1, hF2⟩ := rel_rnd hfp (q := q.2 j / S) (by
        rcases hw.ent q hqQ j hj with h0 | h0
        · left; rw [h0, zero_div]
        · right
          apply norm_range (c := bigQ * 2 ^ 103)
          · rw [div_mul_eq_mul_div, le_div_iff₀ hS0, one_mul]
            have : S ≤ bigQ * 2 ^ 103 := by linarith
            nlinarith
          · positivity
          · exact h200 103 (by norm_num)
          · rw [div_le_iff₀ hS0]
            have h3 : C / 4 ≤ S := by
              have : C * 1 ≤ C * M := mul_le_mul_of_nonneg_left (by linarith) hC.le
              linarith
            have h4 : 1 ≤ S * (bigQ * 2 ^ 103) := by
              have := mul_le_mul_of_nonneg_right h3 (show 0 ≤ bigQ * 2 ^ 103 by positivity)
              refine hC2.trans (le_trans (le_of_eq ?_) this); ring
            calc q.2 j ≤ 2 ^ 52 * 1 := by linarith
              _ ≤ 2 ^ 52 * (S * (bigQ * 2 ^ 103)) := mul_le_mul_of_nonneg_left h4 (by positivity)
              _ = bigQ * 2 ^ 155 * S := by ring
              _ ≤ bigQ * 2 ^ 200 * S := mul_le_mul_of_nonneg_right (h200 155 (by norm_num)) hS0.le)
      refine ⟨F, fun _ => ⟨S, h1, hS0, hS2, ?_, ?_⟩⟩
      · show (if S = 0 then _ else fp.rnd (q.2 j / S)) = _
        rw [if_neg hS0.ne', hF1]
      · have h3 : Rel (0 + (k + f)) (q.2 j / S) (q.2 j / D) := (Rel.refl (q.2 j)).div h2 hm0 hm0 hS0 hD0
        rw [zero_add] at h3
        have := hF2.trans h3
        rwa [Nat.add_comm 1] at this
    · exact ⟨0, fun h => absurd h hj⟩
  choose F hF using hrat
  have hCD : Rel (k * (f + k)) (C / D) (1 / M) := by
    have := (Rel.refl C).div hDM hC.le hC.le hD0 hCM
    rw [zero_add] at this
    have e : C / (C * M) = 1 / M := by field_simp
    rwa [e] at this
  have hM2 : 0 < 1 / M := by positivity
  have hCD1 := hCD.lower hsz2 hM2.le
  have hCD0 : 0 < C / D := div_pos hC hD0
  have hCD2 := hCD.upper hsz2 hCD0.le
  refine ⟨C / D, ⟨hCD0, ?_, ?_, L' ++ [(q.1, F)], by simp [hL'], ?_, ?_⟩, fun M' hM' => by rw [hM']; exact hCD⟩
  · have : 1 / M ≤ 1 := by rw [div_le_one hM0]; linarith
    refine hCD2.trans ?_
    linarith
  · have : 1 / bigQ ≤ 1 / M := one_div_le_one_div_of_le hM0 hMb
    have h1 : 1 / bigQ / 2 ≤ C / D := by linarith
    have h2 := mul_le_mul_of_nonneg_right h1 (show 0 ≤ bigQ * 2 ^ 101 by positivity)
    refine le_trans ?_ h2
    have e : 1 / bigQ / 2 * (bigQ * 2 ^ 101) = 2 ^ 100 := by field_simp
    rw [e]; norm_num
  · intro v hv
    have hj := inRange_proj hd hv
    obtain ⟨x, hx1, hx2⟩ := hx v hv
    obtain ⟨S, hS1, hS0, hSD, hF1, hF2⟩ := hF (proj q.1 v) hj
    have hm0 := hw.nonneg hqQ hj
    have hmT := hw.le hqQ hj
    have hr := hG v hv
    have hP := hp1 hv
    have hy0 : 0 ≤ c * prodAt L' v := by rcases hlo v hv with h0 | h0 <;> linarith
    have hx0 := hx2.nonneg hy0
    have hmD : 0 ≤ q.2 (proj q.1 v) / D := by positivity
    have hF0 := hF2.nonneg hmD
    have hkle : k ≤ 2 ^ 52 := by omega
    have hkf : k + f + 1 ≤ 2 ^ 52 := by omega
    obtain ⟨b, hb1', hb2⟩ := rel_rnd hfp (q := x * F (proj q.1 v)) (by
      rcases hw.ent q hqQ _ hj with h0 | h0
      · left
        rw [h0, zero_div] at hF2
        rw [(hF2.zero_iff le_rfl).mpr rfl, mul_zero]
      rcases hP.1 with h0' | h0'
      · left
        rw [h0', mul_zero] at hr
        rw [(hr.zero_iff le_rfl).mpr rfl] at hx2
        rw [(hx2.zero_iff le_rfl).mpr rfl, zero_mul]
      right
      have hx3 := hx2.lower hkle hy0
      have hx4 := hx2.upper hkle hx0
      have hF3 := hF2.lower hkf hmD
      have hF4 := hF2.upper hkf hF0
      have hCP : 0 ≤ C * prodAt L1 v := by positivity
      have hr1 := hr.lower hsz2 hCP
      have hr2 := hr.upper hsz2 hy0
      have hPM : C * prodAt L1 v ≤ C * M := mul_le_mul_of_nonneg_left (hP.2.trans hM1) hC.le
      have h5 : C * 1 ≤ C * prodAt L1 v := mul_le_mul_of_nonneg_left h0' hC.le
      apply norm_range (c := 32 * bigQ)
      · have h6 : C / 4 ≤ x := by linarith
        have h7 : 1 / D / 2 ≤ F (proj q.1 v) := by
          refine le_trans ?_ hF3
          have : 1 / D ≤ q.2 (proj q.1 v) / D := div_le_div_of_nonneg_right h0 hD0.le
          linarith
        have h8 : C / 4 * (1 / D / 2) ≤ x * F (proj q.1 v) := mul_le_mul h6 h7 (by positivity) hx0
        have h9 : C / 4 * (1 / D / 2) = C / D / 8 := by ring
        have h10 : 1 / bigQ ≤ 1 / M := one_div_le_one_div_of_le hM0 hMb
        have h11 : 1 / bigQ / 16 ≤ x * F (proj q.1 v) := by linarith
        have h12 := mul_le_mul_of_nonneg_right h11 (show 0 ≤ 32 * bigQ by positivity)
        refine le_trans ?_ h12
        have e : 1 / bigQ / 16 * (32 * bigQ) = 2 := by field_simp <;> norm_num
        rw [e]; norm_num
      · positivity
      · have := h200 5 (by norm_num); linarith
      · have h6 : x ≤ 4 * (C * M) := by linarith
        have h7 : F (proj q.1 v) ≤ 2 * (T / D) := by
          refine hF4.trans ?_
          have := div_le_div_of_nonneg_right hmT hD0.le
          linarith
        have h8 : x * F (proj q.1 v) ≤ 4 * (C * M) * (2 * (T / D)) := mul_le_mul h6 h7 hF0 (by positivity)
        have h9 : 4 * (C * M) * (2 * (T / D)) = 8 * T * (C * M / D) := by ring
        have h10 : C * M / D ≤ 2 := by rw [div_le_iff₀ hD0]; linarith
        have h11 : 8 * T * (C * M / D) ≤ 8 * T * 2 := mul_le_mul_of_nonneg_left h10 (by linarith)
        have h12 := h200 60 (by norm_num)
        have h13 : (2 : ℚ) ^ 60 ≤ bigQ * 2 ^ 60 := by linarith
        linarith)
    refine ⟨b, ?_, ?_⟩
    · unfold scaled
      rw [hS1, if_neg (by simp [FP.feq, hS0.ne']), hx1]
      show fp.mul (.fin x) (fp.div (.fin (q.2 (proj q.1 v))) (.fin S)) = _
      rw [hF1]
      show fp.rnd (x * F (proj q.1 v)) = _
      exact hb1'
    · have h3 : Rel (k + 0) (x * F (proj q.1 v)) (c * prodAt L' v * F (proj q.1 v)) := hx2.mul (Rel.refl _) hx0 hy0 hF0 hF0
      have h4 := hb2.trans h3
      rw [add_zero, Nat.add_comm] at h4
      simp only [List.length_append, List.length_cons, List.length_nil]
      rw [prodAt_append, ← mul_assoc]
      simpa [prodAt] using h4
  · intro v hv
    have hj := inRange_proj hd hv
    obtain ⟨S, -, -, -, -, hF2⟩ := hF (proj q.1 v) hj
    have hm0 := hw.nonneg hqQ hj
    have hmD : 0 ≤ q.2 (proj q.1 v) / D := by positivity
    have hF0 := hF2.nonneg hmD
    have hy0 : 0 ≤ c * prodAt L' v := by rcases hlo v hv with h0 | h0 <;> linarith
    have hP0 : 0 ≤ prodAt L1 v := by rcases (hp1 hv).1 with h0 | h0 <;> linarith
    have h3 := (hG v hv).mul hF2 hy0 (by positivity) hF0 hmD
    have e1 : c * prodAt (L' ++ [(q.1, F)]) v = c * prodAt L' v * F (proj q.1 v) := by
      rw [prodAt_append]; simp [prodAt]; ring
    have e2 : C / D * prodAt (L1 ++ [q]) v = C * prodAt L1 v * (q.2 (proj q.1 v) / D) := by
      rw [prodAt_append]; simp [prodAt]; ring
    rw [e1, e2]
    refine h3.mono (mul_nonneg hy0 hF0) (by positivity) ?_
    simp only [List.length_append, List.length_cons, List.length_nil, ← hk]
    nlinarith

theorem unit_sweep (hfp : fp.Good) {s : List Nat} {Q : Prob ℚ} {T c : ℚ} {f : Nat} (h : ProbShape s Q) (hs : Splits s Q)
    (hw : Whole s Q T) (hT : 1 ≤ T) (hT' : T ≤ 2 ^ 52) (hbig : T ^ Q.length * prodSizes s ≤ bigQ)
    (hsz : Q.length * (2 * f + 2 * Q.length + 1) + f ≤ 2 ^ 52)
    (hf : ∀ q ∈ Q, ∀ j, ((cells s).filter (fun v => proj q.1 v = j)).card ≤ f) :
    ∀ (L2 L1 : Prob ℚ), Q = L1 ++ L2 → L2 ≠ [] → ∀ (C : ℚ) (a : List Int → Fl), UInv s c f L1 C a →
      ∀ v, InRange s v → ∃ x, sweep fp (numFl fp) s (finProb L2) a v = .fin x ∧
        Rel (Q.length * (2 * f + 2 * Q.length + 1)) x (prodAt Q v / T ^ (Q.length - 1))
  | [], _, _, h, _, _, _ => absurd rfl h
  | q :: L2, L1, hQ, _, C, a, hi => by
    intro v hv
    obtain ⟨C', hi', hC'⟩ := unit_step hfp h hs hQ hw hT hT' hbig hsz (hf q (by rw [hQ]; simp)) hi
    show ∃ x, sweep fp (numFl fp) s (finProb L2) (scaled fp (numFl fp) s q.1 (fun j => .fin (q.2 j)) a) v = .fin x ∧ _
    by_cases hL2 : L2 = []
    · subst hL2
      have hC' := hC' _ rfl
      rw [List.map_nil, List.prod_nil, mul_one] at hC'
      rw [← hQ] at hi'
      obtain ⟨hp, -, -, L', -, h1, h2⟩ := hi'
      obtain ⟨x, hx1, hx2⟩ := h1 v hv
      have hlen : L1.length = Q.length - 1 := by rw [hQ]; simp
      have hle : 1 ≤ Q.length := by rw [hQ]; simp
      rw [hlen] at hC'
      have hP0 : 0 ≤ prodAt Q v := by
        rcases (hw.prodAt hv (fun q hq => (h.dims q hq).2)).1 with h0 | h0 <;> linarith
      have hT0 : 0 < T ^ (Q.length - 1) := pow_pos (by linarith) _
      have h3 := hC'.mul (Rel.refl (prodAt Q v)) hp.le (by positivity) hP0 hP0
      have h4 := (hx2.trans (h2 v hv)).trans h3
      have e : 1 / T ^ (Q.length - 1) * prodAt Q v = prodAt Q v / T ^ (Q.length - 1) := by ring
      rw [e] at h4
      have he0 : 0 ≤ prodAt Q v / T ^ (Q.length - 1) := by positivity
      refine ⟨x, hx1, h4.mono (h4.nonneg he0) he0 ?_⟩
      generalize Q.length = K at hle ⊢
      obtain ⟨m, rfl⟩ : ∃ m, K = m + 1 := ⟨K - 1, by omega⟩
      rw [Nat.add_sub_cancel]
      nlinarith
    · exact unit_sweep hfp h hs hw hT hT' hbig hsz hf L2 (L1 ++ [q]) (by rw [hQ]; simp) hL2 C' _ hi' v hv

/-- the constant table -/
theorem unit_start {s : List Nat} {c : ℚ} (f : Nat) (hc : 1 / 2 ^ 100 ≤ c) (hc' : c ≤ 2 ^ 100) :
    UInv s c f [] c (fun _ => .fin c) := by
  have h0 : 0 < c := lt_of_lt_of_le (by norm_num) hc
  have hb := big_one
  refine ⟨h0, hc'.trans (by norm_num), ?_, [], rfl, fun v _ => ⟨c, rfl, ?_⟩, fun v _ => ?_⟩
  · have h1 : 1 / 2 ^ 100 * (1 * 2 ^ 101) ≤ c * (bigQ * 2 ^ 101) :=
      mul_le_mul hc (mul_le_mul_of_nonneg_right hb (by positivity)) (by positivity) h0.le
    refine le_trans ?_ h1
    norm_num
  · simpa [prodAt] using Rel.refl c
  · simpa [prodAt] using Rel.refl c

theorem foldl_stdMax_lt' {γ : Type} {t : Fl} (g : γ → Fl) : ∀ (l : List γ) (mx : Fl), FP.lt mx t = true →
    (∀ j ∈ l, FP.lt (g j) t = true) → FP.lt (l.foldl (fun mx j => IPF.stdMax mx (g j)) mx) t = true
  | [], _, h, _ => h
  | j :: l, mx, h, hl => by
    rw [List.foldl_cons]
    apply foldl_stdMax_lt' g l _ _ (fun i hi => hl i (by simp [hi]))
    unfold IPF.stdMax
    split
    · exact hl j (by simp)
    · exact h

theorem maxDev_lt' {α : Type} (fp : FP) (N : Num α) {s : List Nat} {a : List Int → Fl} {t : Fl} : ∀ (P : Prob α) {mx : Fl},
    FP.lt mx t = true → (∀ p ∈ P, ∀ j, InRange (projSizes p.1 s) j → FP.lt (FP.abs (dev fp N s a p j)) t = true) →
    FP.lt (maxDev fp N s P a mx) t = true
  | [], _, h, _ => h
  | p :: P, mx, h, hp => by
    unfold maxDev
    rw [List.foldl_cons]
    exact maxDev_lt' fp N P (foldl_stdMax_lt' _ _ _ h (fun j hj => hp p (by simp) j (mem_allIdx.mp hj)))
      (fun q hq => hp q (by simp [hq]))

theorem tol8_ge (hfp : fp.Good) : ∃ t, tol8 fp = .fin t ∧ 999 / 10 ^ 11 ≤ t := by
  obtain ⟨t, h1, h2, -⟩ := relA_rnd hfp (q := 1 / 10 ^ 8) (by
    rw [abs_of_pos (by norm_num)]
    have := hugeQ_ge
    refine le_trans ?_ this
    norm_num)
  refine ⟨t, h1, ?_⟩
  obtain ⟨t', h3, h4⟩ := tol8_good hfp
  rw [tol8, h1] at h3
  injection h3 with h3
  subst h3
  rw [abs_of_pos h4, abs_of_pos (show (0 : ℚ) < 1 / 10 ^ 8 by norm_num)] at h2
  have h5 := h2.1
  have h6 := tinyQ_le'
  have h7 : (1 : ℚ) / 2 ^ 200 ≤ 1 / 10 ^ 50 := by norm_num
  unfold uu at h5
  norm_num at h5 h7 ⊢
  linarith

/-- a sum a few roundings away from the marginal -/
theorem dev_small (hfp : fp.Good) {k : Nat} {S m T : ℚ} (h : Rel k S m) (hm : 0 ≤ m) (hmT : m ≤ T) (hT : 1 ≤ T)
    (hk : T * k ≤ 89000000) : FP.lt (FP.abs (fp.sub (.fin S) (.fin m))) (tol8 fp) = true := by
  obtain ⟨t, ht, ht'⟩ := tol8_ge hfp
  have hk0 : (0 : ℚ) ≤ k := Nat.cast_nonneg k
  have hkT : (k : ℚ) ≤ 89000000 := by nlinarith
  have hS0 := h.nonneg hm
  have hu := uu_pow_ge k
  have h1 : (1 - (k : ℚ) / 2 ^ 53) * m ≤ S := (mul_le_mul_of_nonneg_right hu hm).trans h.1
  have h2 : (1 - (k : ℚ) / 2 ^ 53) * S ≤ m := (mul_le_mul_of_nonneg_right hu hS0).trans h.2
  have hkm : (k : ℚ) * m ≤ 89000000 := by nlinarith
  have hS2 : S ≤ m * (1 + 2 / 10 ^ 8) := by
    have : (k : ℚ) / 2 ^ 53 ≤ 1 / 10 ^ 8 := by
      rw [div_le_iff₀ (by norm_num)]; norm_num; linarith
    have h3 : (1 - 1 / 10 ^ 8) * S ≤ m := le_trans (mul_le_mul_of_nonneg_right (by linarith) hS0) h2
    norm_num at h3 ⊢
    linarith
  have hkS : (k : ℚ) * S ≤ 89000000 * (1 + 2 / 10 ^ 8) := by
    have h3 := mul_le_mul_of_nonneg_left hS2 hk0
    refine h3.trans ?_
    have h4 := mul_le_mul_of_nonneg_right hkm (show (0 : ℚ) ≤ 1 + 2 / 10 ^ 8 by norm_num)
    linarith
  have hab : |S - m| ≤ 989 / 10 ^ 11 := by
    rw [abs_le]
    constructor
    · have : (k : ℚ) / 2 ^ 53 * m = k * m / 2 ^ 53 := by ring
      norm_num at this h1 hkm ⊢
      linarith
    · have : (k : ℚ) / 2 ^ 53 * S = k * S / 2 ^ 53 := by ring
      norm_num at this h2 hkS ⊢
      linarith
  obtain ⟨d, hd1, hd2, -⟩ := relA_rnd hfp (q := S - m) (by
    have := hugeQ_ge
    refine hab.trans (le_trans ?_ this)
    norm_num)
  have e : fp.sub (.fin S) (.fin m) = .fin d := by
    show fp.rnd (S + -m) = _
    rw [← sub_eq_add_neg, hd1]
  rw [e, ht]
  simp only [FP.abs, FP.lt, decide_eq_true_eq]
  have h5 := hd2.2
  have h6 := tinyQ_le'
  have h7 : (1 : ℚ) / 2 ^ 200 ≤ 1 / 10 ^ 50 := by norm_num
  unfold uu at h5
  norm_num at h5 h7 hab ht' ⊢
  linarith

end HL

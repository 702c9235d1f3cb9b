import Verif.Proof.IPFProduct
import Verif.Proof.RelErr
import Mathlib.Algebra.Order.BigOperators.GroupWithZero.List

/-
Tables that are a seed between two bounds times one factor per category of each marginal, and what scaling makes of them (C133).
-/

namespace HL
open Micro

theorem forall₂_at {α β : Type} {R : α → β → Prop} {w : β} {B : List β} : ∀ {A : List β} {U : List α}, List.Forall₂ R U (A ++ w :: B) →
    ∃ A' u B', U = A' ++ u :: B' ∧ List.Forall₂ R A' A ∧ R u w ∧ List.Forall₂ R B' B
  | [], _, h => by
    cases h with
    | cons h1 h2 => exact ⟨[], _, _, rfl, .nil, h1, h2⟩
  | a :: A, _, h => by
    cases h with
    | cons h1 h2 =>
      obtain ⟨A', u, B', rfl, h3, h4, h5⟩ := forall₂_at h2
      exact ⟨_ :: A', u, B', rfl, .cons h1 h3, h4, h5⟩

theorem forall₂_put {α β : Type} {R : α → β → Prop} {u : α} {w : β} {B' : List α} {B : List β} (h1 : R u w) (h2 : List.Forall₂ R B' B) :
    ∀ {A' : List α} {A : List β}, List.Forall₂ R A' A → List.Forall₂ R (A' ++ u :: B') (A ++ w :: B)
  | _, _, .nil => .cons h1 h2
  | _, _, .cons h h' => .cons h (forall₂_put h1 h2 h')

/-- `u` is the weight `w` up to a constant and a factor between `1` and `L` -/
def Tilt (s : List Nat) (L : ℚ) (u w : List Nat × (List Int → ℚ)) : Prop :=
  u.1 = w.1 ∧ (∀ j, InRange (projSizes w.1 s) j → 0 < u.2 j) ∧
    ∀ j j', InRange (projSizes w.1 s) j → InRange (projSizes w.1 s) j' → u.2 j * w.2 j' ≤ L * (u.2 j' * w.2 j)

/-- the table is a seed between `lo` and `hi` times factors that are the weights up to a constant and `L` -/
def Box (s : List Nat) (W : Prob ℚ) (lo hi L : ℚ) (x : List Int → ℚ) : Prop :=
  ∃ (U : Prob ℚ) (b : List Int → ℚ), List.Forall₂ (Tilt s L) U W ∧
    ∀ v, InRange s v → lo ≤ b v ∧ b v ≤ hi ∧ x v = b v * prodAt U v

theorem tilt_fst {s : List Nat} {L : ℚ} : ∀ {U W : Prob ℚ}, List.Forall₂ (Tilt s L) U W → U.map Prod.fst = W.map Prod.fst
  | _, _, .nil => rfl
  | _, _, .cons h h' => by rw [List.map_cons, List.map_cons, h.1, tilt_fst h']

theorem prodAt_cons (u : List Nat × (List Int → ℚ)) (B : Prob ℚ) (v : List Int) :
    prodAt (u :: B) v = u.2 (proj u.1 v) * prodAt B v := by simp [prodAt]

/-- the dimensions of the lists are dimensions of the table -/
def DimsLt (s : List Nat) (W : Prob ℚ) : Prop := ∀ w ∈ W, ∀ d ∈ w.1, d < s.length

theorem prodAt_pos {s : List Nat} {L : ℚ} {v : List Int} (hv : InRange s v) : ∀ {U W : Prob ℚ}, DimsLt s W →
    List.Forall₂ (Tilt s L) U W → 0 < prodAt U v
  | _, _, _, .nil => by simp [prodAt]
  | _, _, hd, .cons h h' => by
    rw [prodAt_cons, h.1]
    exact mul_pos (h.2.1 _ (inRange_proj (hd _ (by simp)) hv)) (prodAt_pos hv (fun w hw => hd w (by simp [hw])) h')

theorem sums_pos {s : List Nat} {L : ℚ} : ∀ {U W : Prob ℚ}, (∀ w ∈ W, ∃ j, InRange (projSizes w.1 s) j) →
    List.Forall₂ (Tilt s L) U W → 0 < (U.map (fun q => ∑ j ∈ cells (projSizes q.1 s), q.2 j)).prod
  | _, _, _, .nil => by simp
  | u :: U, w :: W, hg, .cons h h' => by
    rw [List.map_cons, List.prod_cons]
    refine mul_pos ?_ (sums_pos (fun w hw => hg w (by simp [hw])) h')
    obtain ⟨j, hj⟩ := hg w (by simp)
    rw [h.1]
    exact Finset.sum_pos (fun i hi => h.2.1 i (mem_cells.mp hi)) ⟨j, mem_cells.mpr hj⟩

section
variable {s : List Nat} {A B : Prob ℚ} {w q : List Nat × (List Int → ℚ)} {lo hi L : ℚ} {x y F : List Int → ℚ} {g k : Nat}

/-- one scaling, with `g` roundings common to a category and `k` roundings of each cell -/
theorem box_step (hs : Splits s (A ++ w :: B)) (hd : DimsLt s (A ++ w :: B))
    (hg : ∀ w' ∈ A ++ w :: B, ∃ j, InRange (projSizes w'.1 s) j) (hqw : q.1 = w.1) (hlo : 0 < lo)
    (hx : Box s (A ++ w :: B) lo hi L x) (hq : ∀ j, InRange (projSizes q.1 s) j → 0 < q.2 j)
    (hF : ∀ j, InRange (projSizes q.1 s) j → Rel g (F j) (q.2 j / marginalSum s q.1 x j))
    (hy : ∀ v, InRange s v → Rel k (y v) (x v * F (proj q.1 v))) (hL : hi ≤ L * (uu ^ g * uu ^ g) * lo) :
    Box s (A ++ q :: B) (uu ^ k * lo) (hi / uu ^ k) L y := by
  obtain ⟨U, b, hU, hb⟩ := hx
  obtain ⟨A', u, B', rfl, hA, hu, hB⟩ := forall₂_at hU
  have hug := uu_pow_pos g
  have huk := uu_pow_pos k
  have hdw : ∀ d ∈ w.1, d < s.length := hd w (by simp)
  have hsU : Splits s (A' ++ u :: B') := hs.congr (tilt_fst hU)
  set c := (A'.map (fun q => ∑ j ∈ cells (projSizes q.1 s), q.2 j)).prod *
    (B'.map (fun q => ∑ j ∈ cells (projSizes q.1 s), q.2 j)).prod with hc
  have hc0 : 0 < c := mul_pos (sums_pos (fun w hw => hg w (by simp [hw])) hA) (sums_pos (fun w hw => hg w (by simp [hw])) hB)
  have hM : ∀ j, InRange (projSizes q.1 s) j → marginalSum s q.1 (prodAt (A' ++ u :: B')) j = c * u.2 j := by
    intro j hj
    rw [hqw, ← hu.1] at hj ⊢
    rw [marginalSum_prodAt hsU hj, hc]; ring
  have hP : ∀ v, InRange s v → 0 < prodAt (A' ++ u :: B') v := fun v hv => prodAt_pos hv hd hU
  have hE : ∀ j, InRange (projSizes q.1 s) j → lo * (c * u.2 j) ≤ marginalSum s q.1 x j ∧ marginalSum s q.1 x j ≤ hi * (c * u.2 j) := by
    intro j hj
    rw [← hM j hj]
    unfold marginalSum
    rw [Finset.mul_sum, Finset.mul_sum]
    constructor
    · apply Finset.sum_le_sum
      intro v hv
      have hv := mem_cells.mp (Finset.mem_filter.mp hv).1
      rw [(hb v hv).2.2]
      exact mul_le_mul_of_nonneg_right (hb v hv).1 (hP v hv).le
    · apply Finset.sum_le_sum
      intro v hv
      have hv := mem_cells.mp (Finset.mem_filter.mp hv).1
      rw [(hb v hv).2.2]
      exact mul_le_mul_of_nonneg_right (hb v hv).2.1 (hP v hv).le
  have hup : ∀ j, InRange (projSizes q.1 s) j → 0 < u.2 j := fun j hj => hu.2.1 j (by rwa [← hqw])
  have hEp : ∀ j, InRange (projSizes q.1 s) j → 0 < marginalSum s q.1 x j := fun j hj =>
    lt_of_lt_of_le (mul_pos hlo (mul_pos hc0 (hup j hj))) (hE j hj).1
  have hFp : ∀ j, InRange (projSizes q.1 s) j → 0 < F j := fun j hj =>
    lt_of_lt_of_le (mul_pos hug (div_pos (hq j hj) (hEp j hj))) (hF j hj).1
  have h1 : ∀ j, InRange (projSizes q.1 s) j → uu ^ g * lo * c * (u.2 j * F j) ≤ q.2 j := by
    intro j hj
    have h2 := (hF j hj).2
    rw [le_div_iff₀ (hEp j hj)] at h2
    have h3 := mul_le_mul_of_nonneg_left (hE j hj).1 (mul_pos hug (hFp j hj)).le
    nlinarith [h2, h3]
  have h2 : ∀ j, InRange (projSizes q.1 s) j → uu ^ g * q.2 j ≤ hi * c * (u.2 j * F j) := by
    intro j hj
    have h2 := (hF j hj).1
    rw [← mul_div_assoc, div_le_iff₀ (hEp j hj)] at h2
    have h3 := mul_le_mul_of_nonneg_left (hE j hj).2 (hFp j hj).le
    nlinarith [h2, h3]
  have hT : Tilt s L (q.1, fun j => u.2 j * F j) q := by
    refine ⟨rfl, fun j hj => mul_pos (hup j hj) (hFp j hj), ?_⟩
    intro j j' hj hj'
    show u.2 j * F j * q.2 j' ≤ L * (u.2 j' * F j' * q.2 j)
    have e1 := mul_le_mul_of_nonneg_right (h1 j hj) (mul_pos hug (hq j' hj')).le
    have e2 := mul_le_mul_of_nonneg_right (h2 j' hj') (hq j hj).le
    have e3 := mul_le_mul_of_nonneg_right hL (mul_pos hc0 (mul_pos (mul_pos (hup j' hj') (hFp j' hj')) (hq j hj))).le
    have hpos : 0 < uu ^ g * uu ^ g * lo * c := by positivity
    refine le_of_mul_le_mul_left ?_ hpos
    nlinarith [e1, e2, e3]
  refine ⟨A' ++ (q.1, fun j => u.2 j * F j) :: B', fun v => y v / prodAt (A' ++ (q.1, fun j => u.2 j * F j) :: B') v,
    forall₂_put hT hB hA, ?_⟩
  · intro v hv
    have hpv := inRange_proj (dims := q.1) (by rw [hqw]; exact hdw) hv
    have hP' : prodAt (A' ++ (q.1, fun j => u.2 j * F j) :: B') v = prodAt (A' ++ u :: B') v * F (proj q.1 v) := by
      rw [prodAt_append, prodAt_append, prodAt_cons, prodAt_cons, hu.1, ← hqw]
      ring
    have hPp : 0 < prodAt (A' ++ (q.1, fun j => u.2 j * F j) :: B') v := by
      rw [hP']; exact mul_pos (hP v hv) (hFp _ hpv)
    have hyv := hy v hv
    have e : x v * F (proj q.1 v) = b v * prodAt (A' ++ (q.1, fun j => u.2 j * F j) :: B') v := by
      rw [hP', (hb v hv).2.2]; ring
    rw [e] at hyv
    refine ⟨?_, ?_, (div_mul_cancel₀ _ hPp.ne').symm⟩
    · rw [le_div_iff₀ hPp]
      refine le_trans (le_trans (mul_assoc _ _ _).le ?_) hyv.1
      exact mul_le_mul_of_nonneg_left (mul_le_mul_of_nonneg_right (hb v hv).1 hPp.le) huk.le
    · rw [div_le_iff₀ hPp, div_mul_eq_mul_div, le_div_iff₀ huk]
      refine le_trans (mul_comm _ _).le (hyv.2.trans ?_)
      exact mul_le_mul_of_nonneg_right (hb v hv).2.1 hPp.le

end

/-- the total of the weights of one list -/
def tot (s : List Nat) (w : List Nat × (List Int → ℚ)) : ℚ := ∑ j ∈ cells (projSizes w.1 s), w.2 j

theorem tilt_cell {s : List Nat} {L : ℚ} {v : List Int} (hv : InRange s v) : ∀ {U W : Prob ℚ}, DimsLt s W →
    (∀ w ∈ W, ∀ j, InRange (projSizes w.1 s) j → 0 < w.2 j) → 0 ≤ L → List.Forall₂ (Tilt s L) U W →
    0 < (U.map (tot s)).prod ∧ 0 < (W.map (tot s)).prod ∧ 0 < prodAt W v ∧
    (U.map (tot s)).prod * prodAt W v ≤ prodAt U v * (W.map (fun w => L * tot s w)).prod ∧
    prodAt U v * (W.map (tot s)).prod ≤ (U.map (tot s)).prod * (W.map (fun w => L * w.2 (proj w.1 v))).prod
  | _, _, _, _, _, .nil => by simp [prodAt]
  | u :: U, w :: W, hd, hw, hL, .cons h h' => by
    have hd' : DimsLt s W := fun w hw => hd w (by simp [hw])
    obtain ⟨i1, i2, i3, i4, i5⟩ := tilt_cell hv hd' (fun w hw' => hw w (by simp [hw'])) hL h'
    have hj := inRange_proj (hd w (by simp)) hv
    have hU := prodAt_pos hv hd' h'
    have hu := h.2.1
    have hww := hw w (by simp)
    have t1 : 0 < tot s u := by
      unfold tot
      rw [h.1]
      exact Finset.sum_pos (fun i hi => hu i (mem_cells.mp hi)) ⟨_, mem_cells.mpr hj⟩
    have t2 : 0 < tot s w := Finset.sum_pos (fun i hi => hww i (mem_cells.mp hi)) ⟨_, mem_cells.mpr hj⟩
    have t3 : tot s u * w.2 (proj w.1 v) ≤ u.2 (proj w.1 v) * (L * tot s w) := by
      unfold tot
      rw [h.1, Finset.sum_mul, Finset.mul_sum, Finset.mul_sum]
      apply Finset.sum_le_sum
      intro i hi
      have := h.2.2 i _ (mem_cells.mp hi) hj
      linarith [this, mul_left_comm L (u.2 (proj w.1 v)) (w.2 i)]
    have t4 : u.2 (proj w.1 v) * tot s w ≤ tot s u * (L * w.2 (proj w.1 v)) := by
      unfold tot
      rw [h.1, Finset.sum_mul, Finset.mul_sum]
      apply Finset.sum_le_sum
      intro i hi
      have := h.2.2 _ i hj (mem_cells.mp hi)
      linarith [this, mul_left_comm L (u.2 i) (w.2 (proj w.1 v))]
    have hLW : 0 ≤ (W.map (fun w => L * tot s w)).prod := by
      apply List.prod_nonneg
      intro a ha
      obtain ⟨w', hw', rfl⟩ := List.mem_map.mp ha
      exact mul_nonneg hL (Finset.sum_nonneg (fun i hi => (hw w' (by simp [hw']) i (mem_cells.mp hi)).le))
    refine ⟨?_, ?_, ?_, ?_, ?_⟩
    · rw [List.map_cons, List.prod_cons]; exact mul_pos t1 i1
    · rw [List.map_cons, List.prod_cons]; exact mul_pos t2 i2
    · rw [prodAt_cons]; exact mul_pos (hww _ hj) i3
    · rw [List.map_cons, List.prod_cons, prodAt_cons, prodAt_cons, List.map_cons, List.prod_cons, h.1]
      have := mul_le_mul t3 i4 (mul_pos i1 i3).le (mul_nonneg (hu _ hj).le (mul_nonneg hL t2.le))
      linarith [this, mul_mul_mul_comm (tot s u) (w.2 (proj w.1 v)) (U.map (tot s)).prod (prodAt W v),
        mul_mul_mul_comm (u.2 (proj w.1 v)) (L * tot s w) (prodAt U v) (W.map (fun w => L * tot s w)).prod]
    · rw [List.map_cons, List.prod_cons, List.map_cons, List.prod_cons, prodAt_cons, List.map_cons, List.prod_cons, h.1]
      have := mul_le_mul t4 i5 (mul_pos hU i2).le (mul_nonneg t1.le (mul_nonneg hL (hww _ hj).le))
      linarith [this, mul_mul_mul_comm (u.2 (proj w.1 v)) (tot s w) (prodAt U v) (W.map (tot s)).prod,
        mul_mul_mul_comm (tot s u) (L * w.2 (proj w.1 v)) (U.map (tot s)).prod (W.map (fun w => L * w.2 (proj w.1 v))).prod]

/-- a cell of such a table against the independence table of the weights -/
theorem box_cell {s : List Nat} {W : Prob ℚ} {lo hi L : ℚ} {x : List Int → ℚ} (hs : Splits s W) (hd : DimsLt s W)
    (hw : ∀ w ∈ W, ∀ j, InRange (projSizes w.1 s) j → 0 < w.2 j) (hL : 0 ≤ L) (hlo : 0 < lo) (hx : Box s W lo hi L x)
    {v : List Int} (hv : InRange s v) :
    lo * (∑ u ∈ cells s, x u) * prodAt W v ≤ hi * x v * (W.map (fun w => L * tot s w)).prod ∧
    lo * x v * (W.map (tot s)).prod ≤ hi * (∑ u ∈ cells s, x u) * (W.map (fun w => L * w.2 (proj w.1 v))).prod := by
  obtain ⟨U, b, hU, hb⟩ := hx
  obtain ⟨i1, i2, i3, i4, i5⟩ := tilt_cell hv hd hw hL hU
  have hP : ∀ v, InRange s v → 0 < prodAt U v := fun v hv => prodAt_pos hv hd hU
  have hsum : ∑ u ∈ cells s, prodAt U u = (U.map (tot s)).prod := sum_prodAt (hs.congr (tilt_fst hU))
  have hhi : 0 < hi := lt_of_lt_of_le hlo ((hb v hv).1.trans (hb v hv).2.1)
  have s1 : ∑ u ∈ cells s, x u ≤ hi * (U.map (tot s)).prod := by
    rw [← hsum, Finset.mul_sum]
    apply Finset.sum_le_sum
    intro u hu
    have hu := mem_cells.mp hu
    rw [(hb u hu).2.2]
    exact mul_le_mul_of_nonneg_right (hb u hu).2.1 (hP u hu).le
  have s2 : lo * (U.map (tot s)).prod ≤ ∑ u ∈ cells s, x u := by
    rw [← hsum, Finset.mul_sum]
    apply Finset.sum_le_sum
    intro u hu
    have hu := mem_cells.mp hu
    rw [(hb u hu).2.2]
    exact mul_le_mul_of_nonneg_right (hb u hu).1 (hP u hu).le
  have hLT : 0 ≤ (W.map (fun w => L * tot s w)).prod := by
    apply List.prod_nonneg
    intro a ha
    obtain ⟨w', hw', rfl⟩ := List.mem_map.mp ha
    exact mul_nonneg hL (Finset.sum_nonneg (fun i hi => (hw w' hw' i (mem_cells.mp hi)).le))
  have hLw : 0 ≤ (W.map (fun w => L * w.2 (proj w.1 v))).prod := by
    apply List.prod_nonneg
    intro a ha
    obtain ⟨w', hw', rfl⟩ := List.mem_map.mp ha
    exact mul_nonneg hL (hw w' hw' _ (inRange_proj (hd w' hw') hv)).le
  rw [(hb v hv).2.2]
  constructor
  · calc lo * (∑ u ∈ cells s, x u) * prodAt W v ≤ lo * (hi * (U.map (tot s)).prod) * prodAt W v :=
          mul_le_mul_of_nonneg_right (mul_le_mul_of_nonneg_left s1 hlo.le) i3.le
      _ = lo * hi * ((U.map (tot s)).prod * prodAt W v) := by ring
      _ ≤ lo * hi * (prodAt U v * (W.map (fun w => L * tot s w)).prod) := mul_le_mul_of_nonneg_left i4 (mul_pos hlo hhi).le
      _ ≤ b v * hi * (prodAt U v * (W.map (fun w => L * tot s w)).prod) :=
          mul_le_mul_of_nonneg_right (mul_le_mul_of_nonneg_right (hb v hv).1 hhi.le) (mul_nonneg (hP v hv).le hLT)
      _ = _ := by ring
  · calc lo * (b v * prodAt U v) * (W.map (tot s)).prod = b v * (lo * (prodAt U v * (W.map (tot s)).prod)) := by ring
      _ ≤ hi * (lo * (prodAt U v * (W.map (tot s)).prod)) :=
          mul_le_mul_of_nonneg_right (hb v hv).2.1 (mul_nonneg hlo.le (mul_nonneg (hP v hv).le i2.le))
      _ ≤ hi * (lo * ((U.map (tot s)).prod * (W.map (fun w => L * w.2 (proj w.1 v))).prod)) :=
          mul_le_mul_of_nonneg_left (mul_le_mul_of_nonneg_left i5 hlo.le) hhi.le
      _ = hi * (lo * (U.map (tot s)).prod) * (W.map (fun w => L * w.2 (proj w.1 v))).prod := by ring
      _ ≤ _ := mul_le_mul_of_nonneg_right (mul_le_mul_of_nonneg_left s2 hhi.le) hLw

/-- the seed itself, with constant weights -/
theorem box_start {s : List Nat} {Q : Prob ℚ} {lo hi : ℚ} {b : List Int → ℚ} (hb : ∀ v, InRange s v → lo ≤ b v ∧ b v ≤ hi) {L : ℚ}
    (hL : 1 ≤ L) : Box s (Q.map (fun q => (q.1, fun _ => 1))) lo hi L b := by
  refine ⟨Q.map (fun q => (q.1, fun _ => 1)), b, List.forall₂_same.mpr ?_, ?_⟩
  · intro w hw
    obtain ⟨q, -, rfl⟩ := List.mem_map.mp hw
    exact ⟨rfl, fun _ _ => one_pos, fun _ _ _ _ => by simpa using hL⟩
  · intro v hv
    refine ⟨(hb v hv).1, (hb v hv).2, ?_⟩
    simp [prodAt, Function.comp_def]

end HL

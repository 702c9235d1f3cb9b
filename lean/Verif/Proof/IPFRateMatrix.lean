import Mathlib.Algebra.Order.BigOperators.Group.Finset
import Mathlib.Algebra.Order.BigOperators.Ring.Finset
import Mathlib.Algebra.Order.Field.Rat
import Mathlib.Data.Finset.Max
import Mathlib.Tactic.Linarith
import Mathlib.Tactic.Positivity
import Mathlib.Tactic.FieldSimp
import Mathlib.Tactic.Ring

/-
Scaling a matrix to given row and column sums contracts the spread of the factors (for C95).
-/

namespace HL.Rate
variable {ι : Type*} {κ : Type*}

/-- scaling the rows of `Y` to the sums `r` -/
def rowScale (J : Finset κ) (r : ι → ℚ) (Y : ι → κ → ℚ) (i : ι) (j : κ) : ℚ :=
  if ∑ l ∈ J, Y i l = 0 then 0 else Y i j * (r i / ∑ l ∈ J, Y i l)

/-- scaling the columns of `Y` to the sums `c` -/
def colScale (I : Finset ι) (c : κ → ℚ) (Y : ι → κ → ℚ) (i : ι) (j : κ) : ℚ :=
  if ∑ k ∈ I, Y k j = 0 then 0 else Y i j * (c j / ∑ k ∈ I, Y k j)

/-- cross-product ratios are at most `R` -/
def Odds (R : ℚ) (I : Finset ι) (J : Finset κ) (Y : ι → κ → ℚ) : Prop :=
  ∀ i ∈ I, ∀ k ∈ I, ∀ j ∈ J, ∀ l ∈ J, Y i j * Y k l ≤ R * (Y i l * Y k j)

theorem Odds.swap {R : ℚ} {I : Finset ι} {J : Finset κ} {Y : ι → κ → ℚ} (h : Odds R I J Y) : Odds R J I (fun j i => Y i j) := by
  intro j hj l hl i hi k hk
  have := h i hi k hk j hj l hl
  show Y i j * Y k l ≤ R * (Y k j * Y i l)
  linarith [mul_comm (Y k j) (Y i l)]

theorem Odds.scale {R : ℚ} {I : Finset ι} {J : Finset κ} {Y X : ι → κ → ℚ} (h : Odds R I J Y) (f : ι → ℚ) (hf : ∀ i ∈ I, 0 ≤ f i)
    (hX : ∀ i ∈ I, ∀ j ∈ J, X i j = Y i j * f i) : Odds R I J X := by
  intro i hi k hk j hj l hl
  rw [hX i hi j hj, hX k hk l hl, hX i hi l hl, hX k hk j hj]
  have := mul_le_mul_of_nonneg_right (h i hi k hk j hj l hl) (mul_nonneg (hf i hi) (hf k hk))
  linarith [this]

/-- a row is, in proportion, at least `1/R` of any other -/
theorem Odds.rows {R : ℚ} {I : Finset ι} {J : Finset κ} {Y : ι → κ → ℚ} (h : Odds R I J Y) {r : ι → ℚ}
    (hr : ∀ i ∈ I, ∑ j ∈ J, Y i j = r i) {i k : ι} (hi : i ∈ I) (hk : k ∈ I) {j : κ} (hj : j ∈ J) :
    r i * Y k j ≤ R * (r k * Y i j) := by
  rw [← hr i hi, ← hr k hk, Finset.sum_mul, Finset.sum_mul, Finset.mul_sum]
  apply Finset.sum_le_sum
  intro l hl
  have := h i hi k hk l hl j hj
  linarith [mul_comm (Y i j) (Y k l)]

/-- `Y` has the column sums `c`; the factors that its rows need to get the sums `r` are within a ratio of `ρ` -/
structure HInv (R ρ : ℚ) (I : Finset ι) (J : Finset κ) (r : ι → ℚ) (c : κ → ℚ) (Y : ι → κ → ℚ) : Prop where
  nonneg : ∀ i ∈ I, ∀ j ∈ J, 0 ≤ Y i j
  live : ∀ i ∈ I, ∀ j ∈ J, 0 < r i → 0 < c j → 0 < Y i j
  dead : ∀ i ∈ I, ∀ j ∈ J, r i = 0 ∨ c j = 0 → Y i j = 0
  odds : Odds R I J Y
  sums : ∀ j ∈ J, ∑ i ∈ I, Y i j = c j
  spread : ∀ i ∈ I, ∀ k ∈ I, (∑ j ∈ J, Y k j) * r i ≤ ρ * ((∑ j ∈ J, Y i j) * r k)

/-- the contraction -/
theorem contract {R : ℚ} {I : Finset ι} {J : Finset κ} {Y : ι → κ → ℚ} {c : κ → ℚ} (hR : 1 ≤ R)
    (ho : Odds R I J Y) (hs : ∀ j ∈ J, ∑ i ∈ I, Y i j = c j) (t : ι → ℚ) {m M : ℚ} (hm : ∀ i ∈ I, m ≤ t i) (hM : ∀ i ∈ I, t i ≤ M)
    {j l : κ} (hj : j ∈ J) (hl : l ∈ J) (hcj : 0 < c j) (hcl : 0 < c l) :
    (∑ i ∈ I, Y i j * t i) / c j - (∑ i ∈ I, Y i l * t i) / c l ≤ (R - 1) / (R + 1) * (M - m) := by
  have key : ∀ i ∈ I, c j * Y i l ≤ R * (c l * Y i j) := fun i hi => ho.swap.rows (r := c) hs hj hl hi
  have key' : ∀ i ∈ I, c l * Y i j ≤ R * (c j * Y i l) := fun i hi => ho.swap.rows (r := c) hs hl hj hi
  set S := ∑ i ∈ I, Y i j * t i with hS
  set S' := ∑ i ∈ I, Y i l * t i with hS'
  have e1 : c j * (M * c l - S') ≤ R * (c l * (M * c j - S)) := by
    have h1 : c j * (M * c l - S') = ∑ i ∈ I, c j * Y i l * (M - t i) := by
      rw [hS', ← hs l hl, Finset.mul_sum, ← Finset.sum_sub_distrib, Finset.mul_sum]
      exact Finset.sum_congr rfl (fun i _ => by ring)
    have h2 : R * (c l * (M * c j - S)) = ∑ i ∈ I, R * (c l * Y i j) * (M - t i) := by
      rw [hS, ← hs j hj, Finset.mul_sum, ← Finset.sum_sub_distrib, Finset.mul_sum, Finset.mul_sum]
      exact Finset.sum_congr rfl (fun i _ => by ring)
    rw [h1, h2]
    exact Finset.sum_le_sum (fun i hi => mul_le_mul_of_nonneg_right (key i hi) (by linarith [hM i hi]))
  have e2 : c l * (S - m * c j) ≤ R * (c j * (S' - m * c l)) := by
    have h1 : c l * (S - m * c j) = ∑ i ∈ I, c l * Y i j * (t i - m) := by
      rw [hS, ← hs j hj, Finset.mul_sum, ← Finset.sum_sub_distrib, Finset.mul_sum]
      exact Finset.sum_congr rfl (fun i _ => by ring)
    have h2 : R * (c j * (S' - m * c l)) = ∑ i ∈ I, R * (c j * Y i l) * (t i - m) := by
      rw [hS', ← hs l hl, Finset.mul_sum, ← Finset.sum_sub_distrib, Finset.mul_sum, Finset.mul_sum]
      exact Finset.sum_congr rfl (fun i _ => by ring)
    rw [h1, h2]
    exact Finset.sum_le_sum (fun i hi => mul_le_mul_of_nonneg_right (key' i hi) (by linarith [hm i hi]))
  have hcc : 0 < c j * c l := mul_pos hcj hcl
  have e3 : (R + 1) * (S * c l - S' * c j) ≤ (R - 1) * (M - m) * (c j * c l) := by linarith
  rw [div_sub_div _ _ hcj.ne' hcl.ne', div_le_iff₀ hcc, div_mul_eq_mul_div, div_mul_eq_mul_div, le_div_iff₀ (by linarith)]
  linarith

theorem live_iff {I : Finset ι} {J : Finset κ} {r : ι → ℚ} {c : κ → ℚ} (hr : ∀ i ∈ I, 0 ≤ r i) (hc : ∀ j ∈ J, 0 ≤ c j)
    (hrc : ∑ i ∈ I, r i = ∑ j ∈ J, c j) : (∃ i ∈ I, 0 < r i) ↔ ∃ j ∈ J, 0 < c j := by
  constructor
  · rintro ⟨i, hi, hp⟩
    have h1 : 0 < ∑ i ∈ I, r i := Finset.sum_pos' hr ⟨i, hi, hp⟩
    rw [hrc] at h1
    by_contra hn
    push Not at hn
    exact absurd h1 (not_lt.mpr (Finset.sum_nonpos hn))
  · rintro ⟨j, hj, hp⟩
    have h1 : 0 < ∑ j ∈ J, c j := Finset.sum_pos' hc ⟨j, hj, hp⟩
    rw [← hrc] at h1
    by_contra hn
    push Not at hn
    exact absurd h1 (not_lt.mpr (Finset.sum_nonpos hn))

theorem HInv.rowSum_pos {R ρ : ℚ} {I : Finset ι} {J : Finset κ} {r : ι → ℚ} {c : κ → ℚ} {Y : ι → κ → ℚ} (h : HInv R ρ I J r c Y)
    (hrc : (∃ i ∈ I, 0 < r i) ↔ ∃ j ∈ J, 0 < c j) {i : ι} (hi : i ∈ I) (hpos : 0 < r i) : 0 < ∑ j ∈ J, Y i j := by
  obtain ⟨j, hj, hcj⟩ := hrc.mp ⟨i, hi, hpos⟩
  exact Finset.sum_pos' (fun j hj => h.nonneg i hi j hj) ⟨j, hj, h.live i hi j hj hpos hcj⟩

/-- scaling the rows -/
theorem HInv.step {R ρ : ℚ} (hR : 1 ≤ R) (hρ : 1 ≤ ρ) {I : Finset ι} {J : Finset κ} {r : ι → ℚ} {c : κ → ℚ}
    (hr : ∀ i ∈ I, 0 ≤ r i) (hc : ∀ j ∈ J, 0 ≤ c j) (hrc : (∃ i ∈ I, 0 < r i) ↔ ∃ j ∈ J, 0 < c j) {Y : ι → κ → ℚ}
    (h : HInv R ρ I J r c Y) :
    HInv R (1 + (R - 1) / (R + 1) * (ρ - 1)) J I c r (fun j i => rowScale J r Y i j) := by
  have hA : ∀ i ∈ I, 0 < r i → 0 < ∑ j ∈ J, Y i j := fun i hi hp => h.rowSum_pos hrc hi hp
  let f : ι → ℚ := fun i => if ∑ l ∈ J, Y i l = 0 then 0 else r i / ∑ l ∈ J, Y i l
  have hX : ∀ i j, rowScale J r Y i j = Y i j * f i := by
    intro i j
    simp only [rowScale, f]
    split <;> simp
  have hA0 : ∀ i ∈ I, 0 ≤ ∑ j ∈ J, Y i j := fun i hi => Finset.sum_nonneg (fun j hj => h.nonneg i hi j hj)
  have hf : ∀ i ∈ I, 0 ≤ f i := by
    intro i hi
    simp only [f]
    split
    · exact le_rfl
    · exact div_nonneg (hr i hi) (hA0 i hi)
  have hfp : ∀ i ∈ I, 0 < r i → f i = r i / ∑ j ∈ J, Y i j := fun i hi hp => if_neg (hA i hi hp).ne'
  refine ⟨?_, ?_, ?_, ?_, ?_, ?_⟩
  · intro j hj i hi
    show 0 ≤ rowScale J r Y i j
    rw [hX]; exact mul_nonneg (h.nonneg i hi j hj) (hf i hi)
  · intro j hj i hi hcj hri
    show 0 < rowScale J r Y i j
    rw [hX, hfp i hi hri]
    exact mul_pos (h.live i hi j hj hri hcj) (div_pos hri (hA i hi hri))
  · intro j hj i hi h0
    show rowScale J r Y i j = 0
    rw [hX, h.dead i hi j hj h0.symm, zero_mul]
  · exact (h.odds.scale f hf (fun i _ j _ => hX i j)).swap
  · intro i hi
    show ∑ j ∈ J, rowScale J r Y i j = r i
    simp only [hX]
    rw [← Finset.sum_mul]
    rcases (hr i hi).eq_or_lt with h0 | hp
    · rw [Finset.sum_eq_zero (fun j hj => h.dead i hi j hj (Or.inl h0.symm)), zero_mul, h0]
    · rw [hfp i hi hp]
      have := (hA i hi hp).ne'
      field_simp
  · intro j hj l hl
    show (∑ i ∈ I, rowScale J r Y i l) * c j ≤ _ * ((∑ i ∈ I, rowScale J r Y i j) * c l)
    simp only [hX]
    rcases (hc j hj).eq_or_lt with hj0 | hjp
    · rw [← hj0, mul_zero, Finset.sum_eq_zero (fun i hi => by rw [h.dead i hi j hj (Or.inr hj0.symm), zero_mul])]
      simp
    rcases (hc l hl).eq_or_lt with hl0 | hlp
    · rw [← hl0, Finset.sum_eq_zero (fun i hi => by rw [h.dead i hi l hl (Or.inr hl0.symm), zero_mul])]
      simp
    -- the smallest and largest factor
    obtain ⟨i1, hi1, hr1⟩ := hrc.mpr ⟨j, hj, hjp⟩
    obtain ⟨i0, hi0, hmin⟩ := (I.filter (fun i => 0 < r i)).exists_min_image (fun i => (∑ j ∈ J, Y i j) / r i)
      ⟨i1, Finset.mem_filter.mpr ⟨hi1, hr1⟩⟩
    obtain ⟨hi0, hr0⟩ := Finset.mem_filter.mp hi0
    set a := (∑ j ∈ J, Y i0 j) / r i0 with ha
    have hap : 0 < a := div_pos (hA i0 hi0 hr0) hr0
    have hlo : ∀ i ∈ I, 0 < r i → a ≤ (∑ j ∈ J, Y i j) / r i := fun i hi hp => hmin i (Finset.mem_filter.mpr ⟨hi, hp⟩)
    have hhi : ∀ i ∈ I, 0 < r i → (∑ j ∈ J, Y i j) / r i ≤ ρ * a := by
      intro i hi hp
      rw [ha, div_le_iff₀ hp, mul_div_assoc', div_mul_eq_mul_div, le_div_iff₀ hr0]
      have := h.spread i0 hi0 i hi
      linarith
    let t : ι → ℚ := fun i => if 0 < r i then r i / ∑ j ∈ J, Y i j else 1 / a
    have hρa : 0 < ρ * a := mul_pos (by linarith) hap
    have hle : 1 / (ρ * a) ≤ 1 / a := one_div_le_one_div_of_le hap (by nlinarith)
    have hm : ∀ i ∈ I, 1 / (ρ * a) ≤ t i := by
      intro i hi
      show _ ≤ if _ then _ else _
      split
      · rename_i hp
        rw [div_le_div_iff₀ hρa (hA i hi hp), one_mul]
        have := hhi i hi hp
        rw [div_le_iff₀ hp] at this
        linarith
      · exact hle
    have hM : ∀ i ∈ I, t i ≤ 1 / a := by
      intro i hi
      show (if _ then _ else _) ≤ _
      split
      · rename_i hp
        rw [div_le_div_iff₀ (hA i hi hp) hap, one_mul]
        have := hlo i hi hp
        rw [le_div_iff₀ hp] at this
        linarith
      · exact le_rfl
    have hYt : ∀ j ∈ J, ∑ i ∈ I, Y i j * f i = ∑ i ∈ I, Y i j * t i := by
      intro j hj
      apply Finset.sum_congr rfl
      intro i hi
      rcases (hr i hi).eq_or_lt with h0 | hp
      · rw [h.dead i hi j hj (Or.inl h0.symm), zero_mul, zero_mul]
      · rw [hfp i hi hp]
        show _ = Y i j * (if _ then _ else _)
        rw [if_pos hp]
    rw [hYt j hj, hYt l hl]
    have hcon := contract hR h.odds h.sums t hm hM hl hj hlp hjp
    -- the mean of the factors in column j is at least the smallest factor
    have hmean : 1 / (ρ * a) ≤ (∑ i ∈ I, Y i j * t i) / c j := by
      rw [le_div_iff₀ hjp, ← h.sums j hj, Finset.mul_sum]
      exact Finset.sum_le_sum (fun i hi => by rw [mul_comm]; exact mul_le_mul_of_nonneg_left (hm i hi) (h.nonneg i hi j hj))
    set σl := (∑ i ∈ I, Y i l * t i) / c l with hσl
    set σj := (∑ i ∈ I, Y i j * t i) / c j with hσj
    set k := (R - 1) / (R + 1) with hk
    have hk0 : 0 ≤ k := div_nonneg (by linarith) (by linarith)
    have e : 1 / a - 1 / (ρ * a) = (ρ - 1) * (1 / (ρ * a)) := by
      have : ρ ≠ 0 := by linarith
      field_simp
    rw [e] at hcon
    have h2 : k * ((ρ - 1) * (1 / (ρ * a))) ≤ k * ((ρ - 1) * σj) :=
      mul_le_mul_of_nonneg_left (mul_le_mul_of_nonneg_left hmean (by linarith)) hk0
    have h3 : σl ≤ (1 + k * (ρ - 1)) * σj := by linarith
    have e1 : ∑ i ∈ I, Y i l * t i = σl * c l := by rw [hσl]; field_simp
    have e2 : ∑ i ∈ I, Y i j * t i = σj * c j := by rw [hσj]; field_simp
    rw [e1, e2]
    have := mul_le_mul_of_nonneg_right h3 (mul_pos hjp hlp).le
    linarith

/-- one sweep: rows, then columns -/
theorem HInv.sweep {R ρ : ℚ} (hR : 1 ≤ R) (hρ : 1 ≤ ρ) {I : Finset ι} {J : Finset κ} {r : ι → ℚ} {c : κ → ℚ}
    (hr : ∀ i ∈ I, 0 ≤ r i) (hc : ∀ j ∈ J, 0 ≤ c j) (hrc : ∑ i ∈ I, r i = ∑ j ∈ J, c j) {Y : ι → κ → ℚ}
    (h : HInv R ρ I J r c Y) :
    HInv R (1 + ((R - 1) / (R + 1)) ^ 2 * (ρ - 1)) I J r c (colScale I c (rowScale J r Y)) := by
  have hk0 : 0 ≤ (R - 1) / (R + 1) := div_nonneg (by linarith) (by linarith)
  have h1 := h.step hR hρ hr hc (live_iff hr hc hrc)
  have h2 := h1.step hR (by nlinarith) hc hr (live_iff hr hc hrc).symm
  have e : 1 + (R - 1) / (R + 1) * (1 + (R - 1) / (R + 1) * (ρ - 1) - 1) = 1 + ((R - 1) / (R + 1)) ^ 2 * (ρ - 1) := by ring
  rw [e] at h2
  exact h2

/-- the first sweep -/
theorem first_sweep {R : ℚ} (hR : 1 ≤ R) {I : Finset ι} {J : Finset κ} {r : ι → ℚ} {c : κ → ℚ}
    (hr : ∀ i ∈ I, 0 ≤ r i) (hc : ∀ j ∈ J, 0 ≤ c j) (hrc : ∑ i ∈ I, r i = ∑ j ∈ J, c j) {b : ι → κ → ℚ}
    (hb : ∀ i ∈ I, ∀ j ∈ J, 0 < b i j) (ho : Odds R I J b) :
    HInv R R I J r c (colScale I c (rowScale J r b)) := by
  let f : ι → ℚ := fun i => if ∑ l ∈ J, b i l = 0 then 0 else r i / ∑ l ∈ J, b i l
  have hX : ∀ i j, rowScale J r b i j = b i j * f i := by
    intro i j
    simp only [rowScale, f]
    split <;> simp
  have hA0 : ∀ i ∈ I, 0 ≤ ∑ j ∈ J, b i j := fun i hi => Finset.sum_nonneg (fun j hj => (hb i hi j hj).le)
  have hf : ∀ i ∈ I, 0 ≤ f i := by
    intro i hi
    simp only [f]
    split
    · exact le_rfl
    · exact div_nonneg (hr i hi) (hA0 i hi)
  set X := rowScale J r b with hXdef
  have hJ : ∀ i ∈ I, 0 < r i → J.Nonempty := by
    intro i hi hp
    by_contra hn
    rw [Finset.not_nonempty_iff_eq_empty] at hn
    have h1 : 0 < ∑ i ∈ I, r i := Finset.sum_pos' hr ⟨i, hi, hp⟩
    rw [hrc, hn] at h1
    simp at h1
  have hAp : ∀ i ∈ I, ∀ j ∈ J, 0 < ∑ l ∈ J, b i l := fun i hi j hj =>
    Finset.sum_pos (fun l hl => hb i hi l hl) ⟨j, hj⟩
  have hXp : ∀ i ∈ I, ∀ j ∈ J, 0 < r i → 0 < X i j := by
    intro i hi j hj hp
    rw [hX]
    refine mul_pos (hb i hi j hj) ?_
    simp only [f]
    rw [if_neg (hAp i hi j hj).ne']
    exact div_pos hp (hAp i hi j hj)
  have hXz : ∀ i ∈ I, ∀ j ∈ J, r i = 0 → X i j = 0 := by
    intro i hi j hj h0
    rw [hX]
    have : f i = 0 := by
      show (if _ then _ else _) = (0 : ℚ)
      rw [h0]; simp
    rw [this, mul_zero]
  have hX0 : ∀ i ∈ I, ∀ j ∈ J, 0 ≤ X i j := fun i hi j hj => by rw [hX]; exact mul_nonneg (hb i hi j hj).le (hf i hi)
  have hXo : Odds R I J X := ho.scale f hf (fun i _ j _ => hX i j)
  have hXs : ∀ i ∈ I, ∑ j ∈ J, X i j = r i := by
    intro i hi
    rcases (hr i hi).eq_or_lt with h0 | hp
    · rw [Finset.sum_eq_zero (fun j hj => hXz i hi j hj h0.symm), h0]
    · obtain ⟨j, hj⟩ := hJ i hi hp
      have h1 := hAp i hi j hj
      simp only [hX]
      rw [← Finset.sum_mul]
      show _ * (if _ then _ else _) = _
      rw [if_neg h1.ne']
      field_simp
  let g : κ → ℚ := fun j => if ∑ k ∈ I, X k j = 0 then 0 else c j / ∑ k ∈ I, X k j
  have hY : ∀ i j, colScale I c X i j = X i j * g j := by
    intro i j
    simp only [colScale, g]
    split <;> simp
  have hC0 : ∀ j ∈ J, 0 ≤ ∑ k ∈ I, X k j := fun j hj => Finset.sum_nonneg (fun k hk => hX0 k hk j hj)
  have hg : ∀ j ∈ J, 0 ≤ g j := by
    intro j hj
    simp only [g]
    split
    · exact le_rfl
    · exact div_nonneg (hc j hj) (hC0 j hj)
  have hI : ∀ j ∈ J, 0 < c j → ∃ i ∈ I, 0 < r i := by
    intro j hj hp
    by_contra hn
    push Not at hn
    have h1 : 0 < ∑ j ∈ J, c j := Finset.sum_pos' hc ⟨j, hj, hp⟩
    rw [← hrc] at h1
    exact absurd h1 (not_lt.mpr (Finset.sum_nonpos hn))
  have hCp : ∀ j ∈ J, 0 < c j → 0 < ∑ k ∈ I, X k j := by
    intro j hj hp
    obtain ⟨i, hi, hri⟩ := hI j hj hp
    exact Finset.sum_pos' (fun k hk => hX0 k hk j hj) ⟨i, hi, hXp i hi j hj hri⟩
  have hgz : ∀ j, c j = 0 → g j = 0 := by
    intro j h0
    show (if _ then _ else _) = (0 : ℚ)
    rw [h0]; simp
  refine ⟨?_, ?_, ?_, ?_, ?_, ?_⟩
  · intro i hi j hj
    rw [hY]; exact mul_nonneg (hX0 i hi j hj) (hg j hj)
  · intro i hi j hj hri hcj
    rw [hY]
    refine mul_pos (hXp i hi j hj hri) ?_
    simp only [g]
    rw [if_neg (hCp j hj hcj).ne']
    exact div_pos hcj (hCp j hj hcj)
  · intro i hi j hj h0
    rw [hY]
    rcases h0 with h0 | h0
    · rw [hXz i hi j hj h0, zero_mul]
    · rw [hgz j h0, mul_zero]
  · have := hXo.swap.scale (X := fun j i => colScale I c X i j) g hg (fun j _ i _ => hY i j)
    exact this.swap
  · intro j hj
    simp only [hY]
    rw [← Finset.sum_mul]
    rcases (hc j hj).eq_or_lt with h0 | hp
    · rw [hgz j h0.symm, mul_zero, h0]
    · have h1 := hCp j hj hp
      show _ * (if _ then _ else _) = _
      rw [if_neg h1.ne']
      field_simp
  · intro i hi k hk
    simp only [hY]
    rw [Finset.sum_mul, Finset.sum_mul, Finset.mul_sum]
    apply Finset.sum_le_sum
    intro j hj
    have := mul_le_mul_of_nonneg_right (hXo.rows hXs hi hk hj) (hg j hj)
    linarith

/-- the sums of the rows are off by at most the spread -/
theorem HInv.dev {R ρ : ℚ} (hρ : 1 ≤ ρ) {I : Finset ι} {J : Finset κ} {r : ι → ℚ} {c : κ → ℚ}
    (hr : ∀ i ∈ I, 0 ≤ r i) (hrc : ∑ i ∈ I, r i = ∑ j ∈ J, c j) {Y : ι → κ → ℚ}
    (h : HInv R ρ I J r c Y) {i : ι} (hi : i ∈ I) : |(∑ j ∈ J, Y i j) - r i| ≤ r i * (ρ - 1) := by
  rcases (hr i hi).eq_or_lt with h0 | hp
  · rw [Finset.sum_eq_zero (fun j hj => h.dead i hi j hj (Or.inl h0.symm)), ← h0]
    simp
  set T := ∑ i ∈ I, r i with hT
  have hTp : 0 < T := Finset.sum_pos' hr ⟨i, hi, hp⟩
  have hYT : ∑ k ∈ I, ∑ j ∈ J, Y k j = T := by
    rw [Finset.sum_comm, hrc]
    exact Finset.sum_congr rfl h.sums
  have h1 : (∑ j ∈ J, Y i j) * T ≤ ρ * (r i * T) := by
    rw [hT, Finset.mul_sum, ← hT, ← hYT, Finset.mul_sum, Finset.mul_sum]
    apply Finset.sum_le_sum
    intro k hk
    have := h.spread k hk i hi
    linarith
  have h2 : r i * T ≤ ρ * ((∑ j ∈ J, Y i j) * T) := by
    have e1 : r i * T = ∑ k ∈ I, r i * ∑ j ∈ J, Y k j := by rw [← Finset.mul_sum, hYT]
    have e2 : ρ * ((∑ j ∈ J, Y i j) * T) = ∑ k ∈ I, ρ * ((∑ j ∈ J, Y i j) * r k) := by rw [hT, Finset.mul_sum, Finset.mul_sum]
    rw [e1, e2]
    apply Finset.sum_le_sum
    intro k hk
    have := h.spread i hi k hk
    linarith
  have h3 : (∑ j ∈ J, Y i j) ≤ ρ * r i := by
    have : (∑ j ∈ J, Y i j) * T ≤ (ρ * r i) * T := by linarith
    exact le_of_mul_le_mul_right this hTp
  have h4 : r i ≤ ρ * (∑ j ∈ J, Y i j) := by
    have : r i * T ≤ (ρ * (∑ j ∈ J, Y i j)) * T := by linarith
    exact le_of_mul_le_mul_right this hTp
  rw [abs_le]
  constructor
  · -- A ≥ r/ρ ≥ r (2 - ρ)
    have h5 : 0 ≤ r i * (ρ - 1) ^ 2 := mul_nonneg hp.le (sq_nonneg _)
    nlinarith
  · linarith

end HL.Rate

import Verif.Proof.IPFRate
import Verif.Proof.IPFUnitRound
import Mathlib.Algebra.BigOperators.Field

/-
The contraction of IPFRateMatrix.lean in rounded arithmetic (for C95 in double precision).
-/

namespace HL.Rate
open HL Micro Integerise
variable {fp : FP}

/-! ### One scaling -/

/-- a range of magnitudes far inside that of doubles -/
structure Range (lo B : ℚ) : Prop where
  pos : 0 < lo
  one : lo ≤ 1
  big : 1 ≤ B
  tiny : 8 * tinyQ * B ≤ lo
  huge : 8 * B ≤ hugeQ * lo

theorem marginalSum_zero_or {s ds : List Nat} {Y : List Int → ℚ} {lo : ℚ} (hlo : 0 < lo)
    (hY : ∀ v, InRange s v → Y v = 0 ∨ lo ≤ Y v) (j : List Int) :
    marginalSum s ds Y j = 0 ∧ (∀ v, InRange s v → proj ds v = j → Y v = 0) ∨ lo ≤ marginalSum s ds Y j := by
  by_cases h : ∃ v, InRange s v ∧ proj ds v = j ∧ Y v ≠ 0
  · right
    obtain ⟨v, hv, hp, h0⟩ := h
    have h1 : lo ≤ Y v := (hY v hv).resolve_left h0
    refine h1.trans ?_
    unfold marginalSum
    refine Finset.single_le_sum (f := Y) ?_ (Finset.mem_filter.mpr ⟨mem_cells.mpr hv, hp⟩)
    intro w hw
    rcases hY w (mem_cells.mp (Finset.mem_filter.mp hw).1) with h | h <;> linarith
  · left
    push Not at h
    refine ⟨Finset.sum_eq_zero ?_, h⟩
    intro w hw
    obtain ⟨hw1, hw2⟩ := Finset.mem_filter.mp hw
    exact h w (mem_cells.mp hw1) hw2

theorem scaled_rel (hfp : fp.Good) {s ds : List Nat} {m Y : List Int → ℚ} {a : List Int → Fl} {lo B : ℚ} {f : Nat}
    (hrg : Range lo B) (hd : ∀ d ∈ ds, d < s.length) (ha : ∀ v, InRange s v → a v = .fin (Y v))
    (hY : ∀ v, InRange s v → Y v = 0 ∨ lo ≤ Y v)
    (hS : ∀ j, InRange (projSizes ds s) j → marginalSum s ds Y j ≤ B)
    (hm : ∀ j, InRange (projSizes ds s) j → m j = 0 ∨ (1 ≤ m j ∧ m j ≤ B))
    (hf : ∀ j, ((cells s).filter (fun v => proj ds v = j)).card ≤ f) (hf' : f ≤ 2 ^ 50) :
    ∃ X φ : List Int → ℚ, ∀ v, InRange s v → scaled fp (numFl fp) s ds (fun j => .fin (m j)) a v = .fin (X v) ∧
      Rel (f + 2) (X v) (qscaled s ds m Y v) ∧ Rel 1 (X v) (Y v * φ (proj ds v)) ∧ 0 ≤ φ (proj ds v) := by
  have htp := tinyQ_pos
  have hlo := hrg.pos
  have hB := hrg.big
  have h2t : 2 * tinyQ ≤ lo := by have := hrg.tiny; nlinarith
  have hhp : 0 < hugeQ := lt_of_lt_of_le (by positivity) hugeQ_ge
  have hhl : hugeQ * lo ≤ hugeQ := mul_le_of_le_one_right hhp.le hrg.one
  have h2B : 2 * B ≤ hugeQ := by have := hrg.huge; linarith
  have hz := rnd_zero' hfp
  have hY0 : ∀ v, InRange s v → 0 ≤ Y v := fun v hv => by rcases hY v hv with h | h <;> linarith
  -- the factor
  have hfac : ∀ j, ∃ φ : ℚ, InRange (projSizes ds s) j → 0 ≤ φ ∧ ∀ v, InRange s v → proj ds v = j →
      ∃ x, scaled fp (numFl fp) s ds (fun j => .fin (m j)) a v = .fin x ∧ Rel (f + 2) x (qscaled s ds m Y v) ∧ Rel 1 x (Y v * φ) := by
    intro j
    by_cases hj : InRange (projSizes ds s) j
    swap
    · exact ⟨0, fun h => absurd h hj⟩
    obtain ⟨S', hS1, hS2⟩ := fsum_rel hfp (s := s) (ds := ds) (j := j) (K := 0) (f := f) (a := a) (y := Y) h2t h2B
      (fun v hv => ⟨Y v, ha v hv, Rel.refl _, hY v hv⟩) (hf j) (by omega) (hS j hj)
    rw [Nat.zero_add] at hS2
    rcases marginalSum_zero_or (ds := ds) hlo hY j with ⟨hS0, hv0⟩ | hSlo
    · -- an empty group
      refine ⟨0, fun _ => ⟨le_rfl, ?_⟩⟩
      intro v hv hp
      have hS'0 : S' = 0 := (hS2.zero_iff (by rw [hS0])).mpr hS0
      refine ⟨0, ?_, ?_, by simp [Rel]⟩
      · unfold scaled
        rw [hp, hS1, hS'0, if_pos (by simp [FP.feq])]
      · unfold qscaled
        rw [hp, if_pos hS0]; simp [Rel]
    · set S := marginalSum s ds Y j with hSdef
      have hSp : 0 < S := lt_of_lt_of_le hlo hSlo
      have hS'p : 0 < S' := lt_of_lt_of_le (mul_pos (uu_pow_pos f) hSp) hS2.1
      have hne : ¬ FP.feq (.fin S') (.fin 0) = true := by simp [FP.feq, hS'p.ne']
      have hsc : ∀ v, InRange s v → proj ds v = j → scaled fp (numFl fp) s ds (fun j => .fin (m j)) a v =
          fp.mul (.fin (Y v)) (fp.rnd (m j / S')) := by
        intro v hv hp
        unfold scaled
        rw [hp, hS1, if_neg hne, ha v hv]
        congr 1
        show (if S' = 0 then _ else fp.rnd (m j / S')) = _
        rw [if_neg hS'p.ne']
      have hqs : ∀ v, proj ds v = j → qscaled s ds m Y v = Y v * (m j / S) := by
        intro v hp
        unfold qscaled
        rw [hp, if_neg hSp.ne']
      rcases hm j hj with hm0 | ⟨hm1, hmB⟩
      · refine ⟨0, fun _ => ⟨le_rfl, ?_⟩⟩
        intro v hv hp
        refine ⟨0, ?_, ?_, by simp [Rel]⟩
        · rw [hsc v hv hp, hm0, zero_div, hz]
          show fp.rnd (Y v * 0) = _
          rw [mul_zero, hz]
        · rw [hqs v hp, hm0, zero_div, mul_zero]; simp [Rel]
      · have hS'lo : lo / 2 ≤ S' := by
          have := hS2.lower (by omega : f ≤ 2 ^ 52) hSp.le
          linarith
        have hS'hi : S' ≤ 2 * B := by
          have h1 := hS2.upper (by omega : f ≤ 2 ^ 52) hS'p.le
          have h2 := hS j hj
          linarith
        have hq1 : 1 / (2 * B) ≤ m j / S' := by
          rw [div_le_div_iff₀ (by linarith) hS'p]
          nlinarith
        have hq2 : m j / S' ≤ 2 * B / lo := by
          rw [div_le_div_iff₀ hS'p hlo]
          nlinarith
        have hti : tinyQ ≤ 1 / (2 * B) / 4 := by
          rw [div_div, le_div_iff₀ (by linarith)]
          have := hrg.tiny
          have := hrg.one
          linarith
        have hhu : 2 * B / lo * 4 ≤ hugeQ := by
          rw [div_mul_eq_mul_div, div_le_iff₀ hlo]
          have := hrg.huge
          linarith
        have hq0 : 0 < m j / S' := div_pos (by linarith) hS'p
        have hB4 : (0 : ℚ) < 1 / (2 * B) := by positivity
        have hBl : (0 : ℚ) < 2 * B / lo := by positivity
        obtain ⟨φ, hφ, hφr⟩ := rel_rnd hfp (q := m j / S') (Or.inr ⟨by linarith, by linarith⟩)
        have hφ0 : 0 < φ := lt_of_lt_of_le (mul_pos (uu_pow_pos 1) hq0) hφr.1
        have hφlo : 1 / (2 * B) / 2 ≤ φ := by
          have := hφr.lower (by norm_num) hq0.le
          linarith
        have hφhi : φ ≤ 2 * (m j / S') := hφr.upper (by norm_num) hφ0.le
        refine ⟨φ, fun _ => ⟨hφ0.le, ?_⟩⟩
        intro v hv hp
        rw [hsc v hv hp, hφ]
        have hrel : Rel (f + 1) (Y v * φ) (Y v * (m j / S)) := by
          have h1 : Rel (0 + f) (m j / S') (m j / S) := (Rel.refl (m j)).div hS2 (by linarith) (by linarith) hS'p hSp
          have h2 := hφr.trans h1
          have h3 := (Rel.refl (Y v)).mul h2 (hY0 v hv) (hY0 v hv) hφ0.le (div_nonneg (by linarith) hSp.le)
          rwa [show 0 + (1 + (0 + f)) = f + 1 by omega] at h3
        rcases hY v hv with hy0 | hylo
        · refine ⟨0, ?_, ?_, ?_⟩
          · show fp.rnd (Y v * φ) = _
            rw [hy0, zero_mul, hz]
          · rw [hqs v hp, hy0, zero_mul]; simp [Rel]
          · rw [hy0, zero_mul]; simp [Rel]
        · have hYS : Y v ≤ S := by
            rw [hSdef]
            unfold marginalSum
            exact Finset.single_le_sum (f := Y) (fun w hw => hY0 w (mem_cells.mp (Finset.mem_filter.mp hw).1))
              (Finset.mem_filter.mpr ⟨mem_cells.mpr hv, hp⟩)
          have hlo2 : tinyQ ≤ Y v * φ := by
            have h1 : lo * (1 / (2 * B) / 2) ≤ Y v * φ := mul_le_mul hylo hφlo (by positivity) (hY0 v hv)
            refine le_trans ?_ h1
            rw [div_div, mul_one_div, le_div_iff₀ (by linarith)]
            have := hrg.tiny
            have : 0 < tinyQ * B := by positivity
            linarith
          have hhi2 : Y v * φ ≤ hugeQ := by
            have h1 : Y v * φ ≤ S * (2 * (m j / S')) := mul_le_mul hYS hφhi hφ0.le hSp.le
            have h2 : S ≤ 2 * S' := by
              have := hS2.symm.upper (by omega : f ≤ 2 ^ 52) hSp.le
              exact this
            have h3 : S * (2 * (m j / S')) ≤ 4 * B := by
              rw [← mul_div_assoc, ← mul_div_assoc, div_le_iff₀ hS'p]
              nlinarith
            have := hrg.huge
            linarith
          obtain ⟨x, hx1, hx2⟩ := rel_rnd hfp (q := Y v * φ) (Or.inr ⟨hlo2, hhi2⟩)
          refine ⟨x, hx1, ?_, hx2⟩
          rw [hqs v hp]
          have := hx2.trans hrel
          rwa [show 1 + (f + 1) = f + 2 by omega] at this
  choose φ hφ using hfac
  have hX : ∀ v, ∃ x, InRange s v → scaled fp (numFl fp) s ds (fun j => .fin (m j)) a v = .fin x ∧
      Rel (f + 2) x (qscaled s ds m Y v) ∧ Rel 1 x (Y v * φ (proj ds v)) := by
    intro v
    by_cases hv : InRange s v
    · obtain ⟨x, hx⟩ := (hφ _ (inRange_proj hd hv)).2 v hv rfl
      exact ⟨x, fun _ => hx⟩
    · exact ⟨0, fun h => absurd h hv⟩
  choose X hX using hX
  exact ⟨X, φ, fun v hv => ⟨(hX v hv).1, (hX v hv).2.1, (hX v hv).2.2, (hφ _ (inRange_proj hd hv)).1⟩⟩

/-! ### A scaling of rows, in matrices -/

theorem Rel.sum {ι : Type*} {k : Nat} {I : Finset ι} {x y : ι → ℚ} (h : ∀ i ∈ I, Rel k (x i) (y i)) :
    Rel k (∑ i ∈ I, x i) (∑ i ∈ I, y i) :=
  ⟨by rw [Finset.mul_sum]; exact Finset.sum_le_sum (fun i hi => (h i hi).1),
   by rw [Finset.mul_sum]; exact Finset.sum_le_sum (fun i hi => (h i hi).2)⟩

theorem Odds.mono {ι κ : Type*} {R R' : ℚ} {I : Finset ι} {J : Finset κ} {Y : ι → κ → ℚ} (h : Odds R I J Y)
    (h0 : ∀ i ∈ I, ∀ j ∈ J, 0 ≤ Y i j) (hR : R ≤ R') : Odds R' I J Y := fun i hi k hk j hj l hl =>
  (h i hi k hk j hj l hl).trans (mul_le_mul_of_nonneg_right hR (mul_nonneg (h0 i hi l hl) (h0 k hk j hj)))

theorem Odds.round {ι κ : Type*} {R : ℚ} (hR : 0 ≤ R) {I : Finset ι} {J : Finset κ} {Z X : ι → κ → ℚ} (h : Odds R I J Z)
    (h0 : ∀ i ∈ I, ∀ j ∈ J, 0 ≤ Z i j) (hX : ∀ i ∈ I, ∀ j ∈ J, Rel 1 (X i j) (Z i j)) : Odds (R / uu ^ 4) I J X := by
  intro i hi k hk j hj l hl
  have hX0 : ∀ i ∈ I, ∀ j ∈ J, 0 ≤ X i j := fun i hi j hj => (hX i hi j hj).nonneg (h0 i hi j hj)
  have h1 := (hX i hi j hj).mul (hX k hk l hl) (hX0 i hi j hj) (h0 i hi j hj) (hX0 k hk l hl) (h0 k hk l hl)
  have h2 := (hX i hi l hl).mul (hX k hk j hj) (hX0 i hi l hl) (h0 i hi l hl) (hX0 k hk j hj) (h0 k hk j hj)
  have h3 := h i hi k hk j hj l hl
  have h4 := mul_le_mul_of_nonneg_left (mul_le_mul_of_nonneg_left h2.1 hR) (uu_pow_pos 0).le
  rw [div_mul_eq_mul_div, le_div_iff₀ (uu_pow_pos 4)]
  have e : uu ^ 4 = uu ^ (1 + 1) * uu ^ (1 + 1) := by ring
  have h5 : uu ^ (1 + 1) * (uu ^ (1 + 1) * (X i j * X k l)) ≤ uu ^ (1 + 1) * (R * (Z i l * Z k j)) :=
    mul_le_mul_of_nonneg_left (h1.2.trans h3) (uu_pow_pos _).le
  have h6 : R * (uu ^ (1 + 1) * (Z i l * Z k j)) ≤ R * (X i l * X k j) := mul_le_mul_of_nonneg_left h2.1 hR
  rw [e]
  linarith

theorem HInv.roundStep {ι κ : Type*} {R R' ρ : ℚ} {K : Nat} (hR0 : 0 ≤ R) (hR1 : 1 ≤ R') (hRR : R ≤ R') (hρ : 1 ≤ ρ)
    {I : Finset ι} {J : Finset κ}
    {r : ι → ℚ} {c cc : κ → ℚ} (hr : ∀ i ∈ I, 0 ≤ r i) (hc : ∀ j ∈ J, 0 ≤ c j) (hrel : ∀ j ∈ J, Rel K (cc j) (c j))
    (hlive : (∃ i ∈ I, 0 < r i) ↔ ∃ j ∈ J, 0 < c j) {Y X : ι → κ → ℚ} {φ : ι → ℚ}
    (h : HInv R ρ I J r cc Y) (hX : ∀ i ∈ I, ∀ j ∈ J, Rel K (X i j) (rowScale J r Y i j))
    (hX1 : ∀ i ∈ I, ∀ j ∈ J, Rel 1 (X i j) (Y i j * φ i)) (hφ : ∀ i ∈ I, 0 ≤ φ i) :
    HInv (R / uu ^ 4) ((1 + (R' - 1) / (R' + 1) * (ρ - 1)) / uu ^ (4 * K)) J I c (fun i => ∑ j ∈ J, X i j) (fun j i => X i j) ∧
      ∀ i ∈ I, Rel K (∑ j ∈ J, X i j) (r i) := by
  have hcc : ∀ j ∈ J, 0 ≤ cc j := fun j hj => (hrel j hj).nonneg (hc j hj)
  have hc0 : ∀ j ∈ J, cc j = 0 ↔ c j = 0 := fun j hj => (hrel j hj).zero_iff (hc j hj)
  have hcp : ∀ j ∈ J, 0 < cc j ↔ 0 < c j := fun j hj => by
    have := hc0 j hj
    constructor
    · intro hp; exact lt_of_le_of_ne (hc j hj) (fun e => hp.ne' (this.mpr e.symm))
    · intro hp; exact lt_of_le_of_ne (hcc j hj) (fun e => hp.ne' (this.mp e.symm))
  have hlive' : (∃ i ∈ I, 0 < r i) ↔ ∃ j ∈ J, 0 < cc j := by
    rw [hlive]
    exact ⟨fun ⟨j, hj, hp⟩ => ⟨j, hj, (hcp j hj).mpr hp⟩, fun ⟨j, hj, hp⟩ => ⟨j, hj, (hcp j hj).mp hp⟩⟩
  have hm : HInv R' ρ I J r cc Y := { h with odds := Odds.mono h.odds h.nonneg hRR }
  have E := hm.step hR1 hρ hr hcc hlive'
  have hX0 : ∀ i ∈ I, ∀ j ∈ J, 0 ≤ X i j := fun i hi j hj => (hX i hi j hj).nonneg (E.nonneg j hj i hi)
  have hrows : ∀ i ∈ I, Rel K (∑ j ∈ J, X i j) (r i) := by
    intro i hi
    have := Rel.sum (hX i hi)
    rwa [show ∑ j ∈ J, rowScale J r Y i j = r i from E.sums i hi] at this
  refine ⟨⟨fun j hj i hi => hX0 i hi j hj, ?_, ?_, ?_, fun i _ => rfl, ?_⟩, hrows⟩
  · intro j hj i hi hcj hri
    have hri' : 0 < r i := lt_of_le_of_ne (hr i hi) (fun e => hri.ne' (((hrows i hi).zero_iff (hr i hi)).mpr e.symm))
    have := E.live j hj i hi ((hcp j hj).mpr hcj) hri'
    exact lt_of_lt_of_le (mul_pos (uu_pow_pos K) this) (hX i hi j hj).1
  · intro j hj i hi h0
    have h0' : cc j = 0 ∨ r i = 0 := h0.imp (hc0 j hj).mpr ((hrows i hi).zero_iff (hr i hi)).mp
    exact ((hX i hi j hj).zero_iff (E.nonneg j hj i hi)).mpr (E.dead j hj i hi h0')
  · exact (Odds.round hR0 (h.odds.scale (X := fun i j => Y i j * φ i) φ hφ (fun _ _ _ _ => rfl))
      (fun i hi j hj => mul_nonneg (h.nonneg i hi j hj) (hφ i hi)) hX1).swap
  · intro j hj l hl
    show (∑ i ∈ I, X i l) * c j ≤ _ / uu ^ (4 * K) * ((∑ i ∈ I, X i j) * c l)
    have hcol : ∀ j ∈ J, Rel K (∑ i ∈ I, X i j) (∑ i ∈ I, rowScale J r Y i j) := fun j hj => Rel.sum (fun i hi => hX i hi j hj)
    have hs0 : ∀ j ∈ J, 0 ≤ ∑ i ∈ I, X i j := fun j hj => Finset.sum_nonneg (fun i hi => hX0 i hi j hj)
    have hs0' : ∀ j ∈ J, 0 ≤ ∑ i ∈ I, rowScale J r Y i j := fun j hj => Finset.sum_nonneg (fun i hi => E.nonneg j hj i hi)
    have h1 := (hcol l hl).mul (hrel j hj).symm (hs0 l hl) (hs0' l hl) (hc j hj) (hcc j hj)
    have h2 := (hcol j hj).mul (hrel l hl).symm (hs0 j hj) (hs0' j hj) (hc l hl) (hcc l hl)
    have h3 := E.spread j hj l hl
    set ρ1 := 1 + (R' - 1) / (R' + 1) * (ρ - 1) with hρ1
    have hρ0 : 0 ≤ ρ1 := by
      have : 0 ≤ (R' - 1) / (R' + 1) := div_nonneg (by linarith) (by linarith)
      have := mul_nonneg this (show 0 ≤ ρ - 1 by linarith)
      linarith
    rw [div_mul_eq_mul_div, le_div_iff₀ (uu_pow_pos _)]
    have e : uu ^ (4 * K) = uu ^ (K + K) * uu ^ (K + K) := by rw [← pow_add]; congr 1; omega
    rw [e]
    have h5 := mul_le_mul_of_nonneg_left (h1.2.trans h3) (uu_pow_pos (K + K)).le
    have h6 := mul_le_mul_of_nonneg_left h2.1 hρ0
    linarith

/-! ### The state of a run -/

/-- what the parameters of the problem have to satisfy -/
structure Params (s d1 d2 : List Nat) (r c : List Int → ℚ) (T R : ℚ) (f : Nat) : Prop where
  two : Two s d1 d2
  rows : ∀ i, InRange (projSizes d1 s) i → r i = 0 ∨ 1 ≤ r i
  cols : ∀ j, InRange (projSizes d2 s) j → c j = 0 ∨ 1 ≤ c j
  rsum : ∑ i ∈ cells (projSizes d1 s), r i = T
  csum : ∑ j ∈ cells (projSizes d2 s), c j = T
  fib1 : ∀ i, ((cells s).filter (fun v => proj d1 v = i)).card ≤ f
  fib2 : ∀ j, ((cells s).filter (fun v => proj d2 v = j)).card ≤ f
  small : f ≤ 2 ^ 20
  T1 : 1 ≤ T
  T2 : T ≤ 2 ^ 40
  R1 : 1 ≤ R
  R2 : R ≤ 2 ^ 13

theorem Two.swap {s d1 d2 : List Nat} (h : Two s d1 d2) : Two s d2 d1 :=
  ⟨List.perm_append_comm.nodup_iff.mp h.nodup, fun d hd => h.lt d (by simp only [List.mem_append] at hd ⊢; exact hd.symm),
   fun d hd => by have := h.all d hd; simp only [List.mem_append] at this ⊢; exact this.symm⟩

theorem Params.swap {s d1 d2 : List Nat} {r c : List Int → ℚ} {T R : ℚ} {f : Nat} (h : Params s d1 d2 r c T R f) :
    Params s d2 d1 c r T R f :=
  ⟨h.two.swap, h.cols, h.rows, h.csum, h.rsum, h.fib2, h.fib1, h.small, h.T1, h.T2, h.R1, h.R2⟩

theorem Two.glue_swap {s d1 d2 : List Nat} (h : Two s d1 d2) {i j : List Int} (hi : InRange (projSizes d1 s) i)
    (hj : InRange (projSizes d2 s) j) : glue s d2 d1 j i = glue s d1 d2 i j := by
  have h1 := h.glue_inRange hi hj
  obtain ⟨e1, e2⟩ := h.proj_app hi hj
  have := h.swap.glue_proj h1
  rw [e1, e2] at this
  exact this

/-- the state after a scaling to the marginal `c` at the dimensions `d2` -/
structure GS (s d1 d2 : List Nat) (r c : List Int → ℚ) (R : ℚ) (f : Nat) (ρ : ℚ) (m : Nat) (Y : List Int → ℚ) : Prop where
  inv : HInv (R / uu ^ (4 * m)) ρ (cells (projSizes d1 s)) (cells (projSizes d2 s)) r (fun j => marginalSum s d2 Y j) (mat s d1 d2 Y)
  rel : ∀ j ∈ cells (projSizes d2 s), Rel (f + 2) (marginalSum s d2 Y j) (c j)

variable {s d1 d2 : List Nat} {r c : List Int → ℚ} {T R ρ : ℚ} {f m : Nat} {Y : List Int → ℚ}

theorem Params.r0 (h : Params s d1 d2 r c T R f) : ∀ i ∈ cells (projSizes d1 s), 0 ≤ r i := fun i hi => by
  rcases h.rows i (mem_cells.mp hi) with h | h <;> linarith

theorem Params.rT (h : Params s d1 d2 r c T R f) : ∀ i ∈ cells (projSizes d1 s), r i ≤ T := fun i hi => by
  rw [← h.rsum]; exact Finset.single_le_sum h.r0 hi

theorem odds_small (hR1 : 1 ≤ R) (hR2 : R ≤ 2 ^ 13) (hm : m ≤ 2000) : R / uu ^ (4 * m) ≤ R + 1 / 2 := by
  rw [div_le_iff₀ (uu_pow_pos _)]
  have h1 := uu_pow_ge (4 * m)
  have h2 : ((4 * m : Nat) : ℚ) ≤ 8000 := by exact_mod_cast (by omega : 4 * m ≤ 8000)
  have h3 : 1 - 8000 / 2 ^ 53 ≤ uu ^ (4 * m) := by
    refine le_trans ?_ h1
    have : ((4 * m : Nat) : ℚ) / 2 ^ 53 ≤ 8000 / 2 ^ 53 := div_le_div_of_nonneg_right h2 (by norm_num)
    linarith
  have h4 : (R + 1 / 2) * (1 - 8000 / 2 ^ 53) ≤ (R + 1 / 2) * uu ^ (4 * m) := mul_le_mul_of_nonneg_left h3 (by linarith)
  refine le_trans ?_ h4
  norm_num at hR2 ⊢
  linarith

/-- the cells of a state are far from the ends of the range -/
theorem GS.range (hP : Params s d1 d2 r c T R f) (h : GS s d1 d2 r c R f ρ m Y) (hm : m ≤ 2000) (hρ : 1 ≤ ρ) (hρ2 : ρ ≤ 2 ^ 14) :
    (∀ v, InRange s v → Y v = 0 ∨ 1 / 2 ^ 100 ≤ Y v) ∧
    (∀ i, InRange (projSizes d1 s) i → marginalSum s d1 Y i ≤ 2 * T) := by
  have hK : f + 2 ≤ 2 ^ 52 := by have := hP.small; omega
  have hI := h.inv
  have hc0 := hP.swap.r0
  have hcc2 : ∀ j ∈ cells (projSizes d2 s), marginalSum s d2 Y j ≤ 2 * c j := fun j hj =>
    (h.rel j hj).upper hK ((h.rel j hj).nonneg (hc0 j hj))
  have hcc1 : ∀ j ∈ cells (projSizes d2 s), c j / 2 ≤ marginalSum s d2 Y j := fun j hj => (h.rel j hj).lower hK (hc0 j hj)
  set I := cells (projSizes d1 s) with hIdef
  set J := cells (projSizes d2 s) with hJdef
  have htot : ∑ k ∈ I, ∑ l ∈ J, mat s d1 d2 Y k l = ∑ j ∈ J, marginalSum s d2 Y j := by
    rw [Finset.sum_comm]; exact Finset.sum_congr rfl hI.sums
  have htot2 : ∑ j ∈ J, marginalSum s d2 Y j ≤ 2 * T := by
    rw [← hP.csum, Finset.mul_sum]; exact Finset.sum_le_sum hcc2
  have htot1 : T / 2 ≤ ∑ j ∈ J, marginalSum s d2 Y j := by
    rw [← hP.csum, Finset.sum_div]; exact Finset.sum_le_sum hcc1
  have hT1 := hP.T1
  constructor
  · intro v hv
    have hi : proj d1 v ∈ I := mem_cells.mpr (inRange_proj (fun d hd => hP.two.lt d (by simp [hd])) hv)
    have hj : proj d2 v ∈ J := mem_cells.mpr (inRange_proj (fun d hd => hP.two.lt d (by simp [hd])) hv)
    have hYv : mat s d1 d2 Y (proj d1 v) (proj d2 v) = Y v := by unfold mat; rw [hP.two.glue_proj hv]
    generalize proj d1 v = i at hi hYv
    generalize proj d2 v = j at hj hYv
    rcases hP.rows i (mem_cells.mp hi) with hr0 | hr1
    · left; rw [← hYv]; exact hI.dead i hi j hj (Or.inl hr0)
    rcases hP.cols j (mem_cells.mp hj) with hc0' | hc1
    · left; rw [← hYv]
      refine hI.dead i hi j hj (Or.inr ?_)
      exact ((h.rel j hj).zero_iff (hc0 j hj)).mpr hc0'
    right
    rw [← hYv]
    -- the sum of row i
    set A := ∑ l ∈ J, mat s d1 d2 Y i l with hA
    have hA1 : r i * ∑ j ∈ J, marginalSum s d2 Y j ≤ ρ * (A * T) := by
      rw [← htot, ← hP.rsum, Finset.mul_sum, Finset.mul_sum, Finset.mul_sum]
      apply Finset.sum_le_sum
      intro k hk
      have := hI.spread i hi k hk
      linarith
    have hA0 : 0 ≤ A := Finset.sum_nonneg (fun l hl => hI.nonneg i hi l hl)
    have hA2 : 1 / 2 ^ 15 ≤ A := by
      have h1 : T / 2 ≤ ρ * (A * T) := by nlinarith
      have h2 : 1 / 2 * T ≤ (2 ^ 14 * A) * T := by
        have : ρ * (A * T) ≤ 2 ^ 14 * (A * T) := mul_le_mul_of_nonneg_right hρ2 (mul_nonneg hA0 (by linarith))
        linarith
      have := le_of_mul_le_mul_right h2 (by linarith : (0 : ℚ) < T)
      norm_num at this ⊢
      linarith
    -- the cell as a part of it
    set R' := R / uu ^ (4 * m) with hR'
    have hR'2 : R' ≤ 2 ^ 14 := by
      have := odds_small hP.R1 hP.R2 hm
      have := hP.R2
      norm_num at this ⊢
      linarith
    have hB1 : marginalSum s d2 Y j * A ≤ R' * (∑ l ∈ J, marginalSum s d2 Y l) * mat s d1 d2 Y i j := by
      rw [hA, Finset.mul_sum, Finset.mul_sum, Finset.sum_mul]
      apply Finset.sum_le_sum
      intro l hl
      have := hI.odds.swap.rows (r := fun j => marginalSum s d2 Y j) hI.sums hj hl hi
      linarith
    have hYp := hI.nonneg i hi j hj
    have h3 : marginalSum s d2 Y j * A ≤ 2 ^ 55 * mat s d1 d2 Y i j := by
      have h4 : R' * (∑ l ∈ J, marginalSum s d2 Y l) ≤ 2 ^ 14 * 2 ^ 41 := by
        refine mul_le_mul hR'2 (htot2.trans ?_) (by linarith) (by norm_num)
        have := hP.T2
        norm_num at this ⊢
        linarith
      have := mul_le_mul_of_nonneg_right h4 hYp
      norm_num at this ⊢
      linarith
    have h5 : 1 / 2 * (1 / 2 ^ 15) ≤ marginalSum s d2 Y j * A :=
      mul_le_mul (by have := hcc1 j hj; linarith) hA2 (by norm_num) (by have := hcc1 j hj; linarith)
    norm_num at h3 h5 ⊢
    linarith
  · intro i hi
    rw [hP.two.rowSum Y hi]
    refine le_trans ?_ (htot.le.trans htot2)
    exact Finset.single_le_sum (f := fun k => ∑ l ∈ J, mat s d1 d2 Y k l)
      (fun k hk => Finset.sum_nonneg (fun l hl => hI.nonneg k hk l hl)) (mem_cells.mpr hi)

theorem range_ok : Range (1 / 2 ^ 400) (2 ^ 200) := by
  refine ⟨by positivity, ?_, one_le_pow₀ (by norm_num), ?_, ?_⟩
  · rw [div_le_one (by positivity)]; exact one_le_pow₀ (by norm_num)
  · rw [tinyQ_eq, le_div_iff₀ (by positivity)]
    have e : (8 : ℚ) * 2 ^ (-1022 : ℤ) * 2 ^ 200 * 2 ^ 400 = 2 ^ (3 + -1022 + 200 + 400 : ℤ) := by
      rw [zpow_add₀ (by norm_num), zpow_add₀ (by norm_num), zpow_add₀ (by norm_num)]
      norm_num
    rw [e]
    exact zpow_le_one_of_nonpos₀ (by norm_num) (by norm_num)
  · rw [hugeQ_eq, mul_one_div, le_div_iff₀ (by positivity)]
    have e : (8 : ℚ) * 2 ^ 200 * 2 ^ 400 = 2 ^ 603 := by
      rw [show (8 : ℚ) = 2 ^ 3 by norm_num, ← pow_add, ← pow_add]
    rw [e]
    exact pow_le_pow_right₀ (by norm_num) (by norm_num)

theorem HInv.congr_cols {ι κ : Type*} {R ρ : ℚ} {I : Finset ι} {J : Finset κ} {r : ι → ℚ} {c c' : κ → ℚ} {Y : ι → κ → ℚ}
    (h : HInv R ρ I J r c Y) (he : ∀ j ∈ J, c' j = c j) : HInv R ρ I J r c' Y :=
  ⟨h.nonneg, fun i hi j hj hr hc => h.live i hi j hj hr (by rw [← he j hj]; exact hc),
   fun i hi j hj h0 => h.dead i hi j hj (by rw [← he j hj]; exact h0), h.odds,
   fun j hj => by rw [he j hj]; exact h.sums j hj, h.spread⟩

/-- the spread after one scaling, given the one before -/
def nextSpread (R : ℚ) (f : Nat) (ρ : ℚ) : ℚ := (1 + (R - 1 / 2) / (R + 3 / 2) * (ρ - 1)) / uu ^ (4 * (f + 2))

theorem GS.half (hfp : fp.Good) (hP : Params s d1 d2 r c T R f) (h : GS s d1 d2 r c R f ρ m Y) (hm : m ≤ 2000) (hρ : 1 ≤ ρ)
    (hρ2 : ρ ≤ 2 ^ 14) {a : List Int → Fl} (ha : ∀ v, InRange s v → a v = .fin (Y v)) :
    ∃ X, (∀ v, InRange s v → scaled fp (numFl fp) s d1 (fun j => .fin (r j)) a v = .fin (X v)) ∧
      GS s d2 d1 c r R f (nextSpread R f ρ) (m + 1) X := by
  have hrange := h.range hP hm hρ hρ2
  have hrg := range_ok
  have hd1 : ∀ d ∈ d1, d < s.length := fun d hd => hP.two.lt d (by simp [hd])
  have hpow : (2 : ℚ) ^ 41 ≤ 2 ^ 200 := pow_le_pow_right₀ (by norm_num) (by norm_num)
  have hT2 := hP.T2
  have hT3 : 2 * T ≤ 2 ^ 200 := by norm_num at hT2 hpow ⊢; linarith
  have hT1 := hP.T1
  obtain ⟨X, φ, hX⟩ := scaled_rel hfp (m := r) (f := f) hrg hd1 ha
    (fun v hv => (hrange.1 v hv).imp_right (fun h => le_trans (one_div_le_one_div_of_le (by positivity)
      (pow_le_pow_right₀ (by norm_num) (by norm_num))) h))
    (fun j hj => (hrange.2 j hj).trans hT3)
    (fun j hj => (hP.rows j hj).imp_right (fun h1 => ⟨h1, by have := hP.rT j (mem_cells.mpr hj); linarith⟩)) hP.fib1
    (by have := hP.small; omega)
  refine ⟨X, fun v hv => (hX v hv).1, ?_⟩
  have hR1 := hP.R1
  have hglue : ∀ i ∈ cells (projSizes d1 s), ∀ j ∈ cells (projSizes d2 s), InRange s (glue s d1 d2 i j) := fun i hi j hj =>
    hP.two.glue_inRange (mem_cells.mp hi) (mem_cells.mp hj)
  have hproj : ∀ i ∈ cells (projSizes d1 s), ∀ j ∈ cells (projSizes d2 s), proj d1 (glue s d1 d2 i j) = i := fun i hi j hj =>
    (hP.two.proj_app (mem_cells.mp hi) (mem_cells.mp hj)).1
  obtain ⟨h1, h2⟩ := HInv.roundStep (R' := R + 1 / 2) (K := f + 2) (X := mat s d1 d2 X) (φ := φ) (c := c)
    (div_nonneg (by linarith) (uu_pow_pos _).le) (by linarith) (odds_small hR1 hP.R2 hm) hρ hP.r0 hP.swap.r0 h.rel
    (live_iff hP.r0 hP.swap.r0 (hP.rsum.trans hP.csum.symm)) h.inv
    (by
      intro i hi j hj
      have := (hX _ (hglue i hi j hj)).2.1
      rw [← hP.two.mat_row r Y hi hj]
      exact this)
    (by
      intro i hi j hj
      have := (hX _ (hglue i hi j hj)).2.2.1
      rw [hproj i hi j hj] at this
      exact this)
    (by
      intro i hi
      have : ∃ j, InRange (projSizes d2 s) j := by
        by_contra hn
        have he : cells (projSizes d2 s) = ∅ := Finset.eq_empty_of_forall_notMem (fun j hj => hn ⟨j, mem_cells.mp hj⟩)
        have := hP.csum
        rw [he, Finset.sum_empty] at this
        linarith
      obtain ⟨j, hj⟩ := this
      have h1 := (hX _ (hglue i hi j (mem_cells.mpr hj))).2.2.2
      rwa [hproj i hi j (mem_cells.mpr hj)] at h1)
  have hrow : ∀ i ∈ cells (projSizes d1 s), marginalSum s d1 X i = ∑ j ∈ cells (projSizes d2 s), mat s d1 d2 X i j :=
    fun i hi => hP.two.rowSum X (mem_cells.mp hi)
  refine ⟨?_, fun i hi => by rw [hrow i hi]; exact h2 i hi⟩
  have e1 : R / uu ^ (4 * (m + 1)) = R / uu ^ (4 * m) / uu ^ 4 := by rw [div_div, ← pow_add]; congr 2
  have e2 : nextSpread R f ρ = (1 + (R + 1 / 2 - 1) / (R + 1 / 2 + 1) * (ρ - 1)) / uu ^ (4 * (f + 2)) := by
    unfold nextSpread
    rw [show R + 1 / 2 - 1 = R - 1 / 2 by ring, show R + 1 / 2 + 1 = R + 3 / 2 by ring]
  rw [e1, e2]
  refine (h1.congr_cols hrow).congr ?_
  intro j hj i hi
  show X (glue s d2 d1 j i) = X (glue s d1 d2 i j)
  rw [hP.two.glue_swap (mem_cells.mp hi) (mem_cells.mp hj)]

/-- one sweep -/
theorem GS.sweep (hfp : fp.Good) (hP : Params s d1 d2 r c T R f) (h : GS s d1 d2 r c R f ρ m Y) (hm : m + 1 ≤ 2000) (hρ : 1 ≤ ρ)
    (hρ2 : ρ ≤ 2 ^ 14) (hρ' : 1 ≤ nextSpread R f ρ) (hρ2' : nextSpread R f ρ ≤ 2 ^ 14) {a : List Int → Fl}
    (ha : ∀ v, InRange s v → a v = .fin (Y v)) :
    ∃ X, (∀ v, InRange s v → HL.sweep fp (numFl fp) s (finProb [(d1, r), (d2, c)]) a v = .fin (X v)) ∧
      GS s d1 d2 r c R f (nextSpread R f (nextSpread R f ρ)) (m + 2) X := by
  obtain ⟨X, hX1, hX2⟩ := h.half hfp hP (by omega) hρ hρ2 ha
  obtain ⟨Z, hZ1, hZ2⟩ := hX2.half hfp hP.swap hm hρ' hρ2' hX1
  exact ⟨Z, hZ1, hZ2⟩

/-! ### The first sweep -/

theorem round_first {ι κ : Type*} {R : ℚ} {K : Nat} (hR : 0 ≤ R) {I : Finset ι} {J : Finset κ} (hJ : J.Nonempty) {r : ι → ℚ} {c : κ → ℚ}
    (hr : ∀ i ∈ I, 0 ≤ r i) (hc : ∀ j ∈ J, 0 ≤ c j) (hlive : ∃ i ∈ I, 0 < r i) {b X Y : ι → κ → ℚ} {φ : ι → ℚ} {g : κ → ℚ}
    (hb : ∀ i ∈ I, ∀ j ∈ J, 0 < b i j) (ho : Odds R I J b)
    (hX : ∀ i ∈ I, ∀ j ∈ J, Rel K (X i j) (rowScale J r b i j)) (hX1 : ∀ i ∈ I, ∀ j ∈ J, Rel 1 (X i j) (b i j * φ i))
    (hφ : ∀ i ∈ I, 0 ≤ φ i)
    (hY : ∀ i ∈ I, ∀ j ∈ J, Rel K (Y i j) (colScale I c X i j)) (hY1 : ∀ i ∈ I, ∀ j ∈ J, Rel 1 (Y i j) (X i j * g j))
    (hg : ∀ j ∈ J, 0 ≤ g j) :
    HInv (R / uu ^ 8) (R / uu ^ (4 + 4 * K)) I J r (fun j => ∑ i ∈ I, Y i j) Y ∧ (∀ j ∈ J, Rel K (∑ i ∈ I, Y i j) (c j)) ∧
      (∀ i ∈ I, Rel K (∑ j ∈ J, X i j) (r i)) := by
  have hS : ∀ i ∈ I, 0 < ∑ l ∈ J, b i l := fun i hi => Finset.sum_pos (fun l hl => hb i hi l hl) hJ
  have hXs : ∀ i ∈ I, ∀ j ∈ J, rowScale J r b i j = b i j * (r i / ∑ l ∈ J, b i l) := by
    intro i hi j _
    unfold rowScale
    rw [if_neg (hS i hi).ne']
  have hXs0 : ∀ i ∈ I, ∀ j ∈ J, 0 ≤ rowScale J r b i j := by
    intro i hi j hj
    rw [hXs i hi j hj]
    exact mul_nonneg (hb i hi j hj).le (div_nonneg (hr i hi) (hS i hi).le)
  have hX0 : ∀ i ∈ I, ∀ j ∈ J, 0 ≤ X i j := fun i hi j hj => (hX i hi j hj).nonneg (hXs0 i hi j hj)
  have hXz : ∀ i ∈ I, ∀ j ∈ J, X i j = 0 ↔ r i = 0 := by
    intro i hi j hj
    rw [(hX i hi j hj).zero_iff (hXs0 i hi j hj), hXs i hi j hj, mul_eq_zero, div_eq_zero_iff]
    simp [(hb i hi j hj).ne', (hS i hi).ne']
  have hXp : ∀ i ∈ I, ∀ j ∈ J, 0 < r i → 0 < X i j := fun i hi j hj hp =>
    lt_of_le_of_ne (hX0 i hi j hj) (fun e => hp.ne' ((hXz i hi j hj).mp e.symm))
  have hrows : ∀ i ∈ I, Rel K (∑ j ∈ J, X i j) (r i) := by
    intro i hi
    have := Rel.sum (hX i hi)
    have e : ∑ j ∈ J, rowScale J r b i j = r i := by
      rw [Finset.sum_congr rfl (fun j hj => hXs i hi j hj), ← Finset.sum_mul]
      have := (hS i hi).ne'
      field_simp
    rwa [e] at this
  obtain ⟨i0, hi0, hr0⟩ := hlive
  have hC : ∀ j ∈ J, 0 < ∑ k ∈ I, X k j := fun j hj =>
    Finset.sum_pos' (fun k hk => hX0 k hk j hj) ⟨i0, hi0, hXp i0 hi0 j hj hr0⟩
  have hYs : ∀ i ∈ I, ∀ j ∈ J, colScale I c X i j = X i j * (c j / ∑ k ∈ I, X k j) := by
    intro i _ j hj
    unfold colScale
    rw [if_neg (hC j hj).ne']
  have hYs0 : ∀ i ∈ I, ∀ j ∈ J, 0 ≤ colScale I c X i j := by
    intro i hi j hj
    rw [hYs i hi j hj]
    exact mul_nonneg (hX0 i hi j hj) (div_nonneg (hc j hj) (hC j hj).le)
  have hY0 : ∀ i ∈ I, ∀ j ∈ J, 0 ≤ Y i j := fun i hi j hj => (hY i hi j hj).nonneg (hYs0 i hi j hj)
  have hYz : ∀ i ∈ I, ∀ j ∈ J, Y i j = 0 ↔ r i = 0 ∨ c j = 0 := by
    intro i hi j hj
    rw [(hY i hi j hj).zero_iff (hYs0 i hi j hj), hYs i hi j hj, mul_eq_zero, div_eq_zero_iff, hXz i hi j hj]
    simp [(hC j hj).ne']
  have hcols : ∀ j ∈ J, Rel K (∑ i ∈ I, Y i j) (c j) := by
    intro j hj
    have := Rel.sum (fun i hi => hY i hi j hj)
    have e : ∑ i ∈ I, colScale I c X i j = c j := by
      rw [Finset.sum_congr rfl (fun i hi => hYs i hi j hj), ← Finset.sum_mul]
      have := (hC j hj).ne'
      field_simp
    rwa [e] at this
  have hXo : Odds (R / uu ^ 4) I J X := Odds.round hR (ho.scale (X := fun i j => b i j * φ i) φ hφ (fun _ _ _ _ => rfl))
    (fun i hi j hj => mul_nonneg (hb i hi j hj).le (hφ i hi)) hX1
  have hR4 : 0 ≤ R / uu ^ 4 := div_nonneg hR (uu_pow_pos 4).le
  refine ⟨⟨hY0, ?_, ?_, ?_, fun j _ => rfl, ?_⟩, hcols, hrows⟩
  · intro i hi j hj hri hcj
    refine lt_of_le_of_ne (hY0 i hi j hj) (fun e => ?_)
    rcases (hYz i hi j hj).mp e.symm with h | h
    · exact hri.ne' h
    · exact hcj.ne' (((hcols j hj).zero_iff (hc j hj)).mpr h)
  · intro i hi j hj h0
    exact (hYz i hi j hj).mpr (h0.imp_right ((hcols j hj).zero_iff (hc j hj)).mp)
  · have h1 := hXo.swap.scale (X := fun j i => X i j * g j) g hg (fun _ _ _ _ => rfl)
    have h2 := Odds.round hR4 h1 (fun j hj i hi => mul_nonneg (hX0 i hi j hj) (hg j hj)) (X := fun j i => Y i j)
      (fun j hj i hi => hY1 i hi j hj)
    have e : R / uu ^ 8 = R / uu ^ 4 / uu ^ 4 := by rw [div_div, ← pow_add]
    rw [e]
    exact h2.swap
  · intro i hi k hk
    -- exact scaling of the columns of X
    have hA : ∀ i ∈ I, Rel K (∑ j ∈ J, Y i j) (∑ j ∈ J, colScale I c X i j) := fun i hi => Rel.sum (hY i hi)
    have h0 : ∀ i ∈ I, 0 ≤ ∑ j ∈ J, colScale I c X i j := fun i hi => Finset.sum_nonneg (fun j hj => hYs0 i hi j hj)
    have h0' : ∀ i ∈ I, 0 ≤ ∑ j ∈ J, Y i j := fun i hi => Finset.sum_nonneg (fun j hj => hY0 i hi j hj)
    have hx0 : ∀ i ∈ I, 0 ≤ ∑ j ∈ J, X i j := fun i hi => Finset.sum_nonneg (fun j hj => hX0 i hi j hj)
    have h1 : (∑ j ∈ J, colScale I c X k j) * (∑ j ∈ J, X i j) ≤
        R / uu ^ 4 * ((∑ j ∈ J, colScale I c X i j) * (∑ j ∈ J, X k j)) := by
      rw [Finset.sum_mul, Finset.sum_mul, Finset.mul_sum]
      apply Finset.sum_le_sum
      intro j hj
      rw [hYs k hk j hj, hYs i hi j hj]
      have := mul_le_mul_of_nonneg_right (hXo.rows (r := fun i => ∑ j ∈ J, X i j) (fun _ _ => rfl) hi hk hj)
        (div_nonneg (hc j hj) (hC j hj).le)
      linarith
    have h2 := (hA k hk).mul (hrows i hi).symm (h0' k hk) (h0 k hk) (hr i hi) (hx0 i hi)
    have h3 := (hA i hi).mul (hrows k hk).symm (h0' i hi) (h0 i hi) (hr k hk) (hx0 k hk)
    have h4 := mul_le_mul_of_nonneg_left (h2.2.trans h1) (uu_pow_pos (K + K)).le
    have h5 := mul_le_mul_of_nonneg_left h3.1 hR4
    have e : uu ^ (4 + 4 * K) = uu ^ 4 * (uu ^ (K + K) * uu ^ (K + K)) := by rw [← pow_add, ← pow_add]; congr 1; omega
    rw [e, ← div_div, div_mul_eq_mul_div, le_div_iff₀ (mul_pos (uu_pow_pos _) (uu_pow_pos _))]
    linarith

theorem GS.first (hfp : fp.Good) (hP : Params s d1 d2 r c T R f) {b : List Int → ℚ}
    (hb : ∀ v, InRange s v → 1 / 2 ^ 100 ≤ b v ∧ b v ≤ 2 ^ 100)
    (ho : Odds R (cells (projSizes d1 s)) (cells (projSizes d2 s)) (mat s d1 d2 b)) :
    ∃ Y, (∀ v, InRange s v → HL.sweep fp (numFl fp) s (finProb [(d1, r), (d2, c)]) (fun v => .fin (b v)) v = .fin (Y v)) ∧
      GS s d1 d2 r c R f (R / uu ^ (4 + 4 * (f + 2))) 2 Y := by
  have hd1 : ∀ d ∈ d1, d < s.length := fun d hd => hP.two.lt d (by simp [hd])
  have hd2 : ∀ d ∈ d2, d < s.length := fun d hd => hP.two.lt d (by simp [hd])
  have hf := hP.small
  have hT1 := hP.T1
  have hT2 := hP.T2
  have hR1 := hP.R1
  have hK : f + 2 ≤ 2 ^ 52 := by omega
  have hbp : ∀ v, InRange s v → 0 < b v := fun v hv => lt_of_lt_of_le (by positivity) (hb v hv).1
  have hsumb : ∀ j, marginalSum s d1 b j ≤ 2 ^ 120 := by
    intro j
    unfold marginalSum
    have h1 : ∑ v ∈ (cells s).filter (fun v => proj d1 v = j), b v ≤ ((cells s).filter (fun v => proj d1 v = j)).card • (2 : ℚ) ^ 100 :=
      Finset.sum_le_card_nsmul _ _ _ (fun v hv => (hb v (mem_cells.mp (Finset.mem_filter.mp hv).1)).2)
    refine h1.trans ?_
    rw [nsmul_eq_mul]
    have h2 : (((cells s).filter (fun v => proj d1 v = j)).card : ℚ) ≤ 2 ^ 20 := by exact_mod_cast (hP.fib1 j).trans hf
    calc _ ≤ (2 : ℚ) ^ 20 * 2 ^ 100 := mul_le_mul_of_nonneg_right h2 (by positivity)
      _ = 2 ^ 120 := by rw [← pow_add]
  have hp1 : (2 : ℚ) ^ 120 ≤ 2 ^ 200 := pow_le_pow_right₀ (by norm_num) (by norm_num)
  have hp2 : (2 : ℚ) ^ 41 ≤ 2 ^ 200 := pow_le_pow_right₀ (by norm_num) (by norm_num)
  have hT3 : 2 * T ≤ 2 ^ 200 := by norm_num at hT2 hp2 ⊢; linarith
  obtain ⟨X, φ, hX⟩ := scaled_rel hfp (m := r) (Y := b) (f := f) (a := fun v => .fin (b v)) range_ok hd1 (fun _ _ => rfl)
    (fun v hv => Or.inr (le_trans (one_div_le_one_div_of_le (by positivity)
      (pow_le_pow_right₀ (by norm_num) (by norm_num))) (hb v hv).1))
    (fun j _ => (hsumb j).trans hp1)
    (fun j hj => (hP.rows j hj).imp_right (fun h1 => ⟨h1, by have := hP.rT j (mem_cells.mpr hj); linarith⟩)) hP.fib1
    (by omega)
  -- the cells after scaling the rows
  have hXlo : ∀ v, InRange s v → X v = 0 ∨ 1 / 2 ^ 400 ≤ X v := by
    intro v hv
    have h1 := (hX v hv).2.1
    have hj := inRange_proj hd1 hv
    have hSp : 0 < marginalSum s d1 b (proj d1 v) := by
      unfold marginalSum
      exact Finset.sum_pos (fun w hw => hbp w (mem_cells.mp (Finset.mem_filter.mp hw).1))
        ⟨v, Finset.mem_filter.mpr ⟨mem_cells.mpr hv, rfl⟩⟩
    have e : qscaled s d1 r b v = b v * (r (proj d1 v) / marginalSum s d1 b (proj d1 v)) := by
      unfold qscaled; rw [if_neg hSp.ne']
    rcases hP.rows _ hj with h0 | h0
    · left
      refine (h1.zero_iff ?_).mpr ?_ <;> rw [e, h0] <;> simp
    · right
      have hlow : 1 / 2 ^ 220 ≤ qscaled s d1 r b v := by
        rw [e]
        have h2 : 1 / 2 ^ 120 ≤ r (proj d1 v) / marginalSum s d1 b (proj d1 v) := by
          rw [div_le_div_iff₀ (by positivity) hSp, one_mul]
          have := hsumb (proj d1 v)
          nlinarith
        calc (1 : ℚ) / 2 ^ 220 = 1 / 2 ^ 100 * (1 / 2 ^ 120) := by rw [div_mul_div_comm, ← pow_add]; norm_num
          _ ≤ _ := mul_le_mul (hb v hv).1 h2 (by positivity) (hbp v hv).le
      have h3 := h1.lower hK (le_trans (by positivity) hlow)
      refine le_trans ?_ h3
      have h4 : (1 : ℚ) / 2 ^ 400 ≤ 1 / 2 ^ 221 := one_div_le_one_div_of_le (by positivity)
        (pow_le_pow_right₀ (by norm_num) (by norm_num))
      have h5 : (1 : ℚ) / 2 ^ 221 = 1 / 2 ^ 220 / 2 := by rw [div_div, ← pow_succ]
      linarith
  have hXnn : ∀ v, InRange s v → 0 ≤ X v := fun v hv => by
    rcases hXlo v hv with h | h
    · rw [h]
    · exact le_trans (by positivity) h
  have hglue : ∀ i ∈ cells (projSizes d1 s), ∀ j ∈ cells (projSizes d2 s), InRange s (glue s d1 d2 i j) := fun i hi j hj =>
    hP.two.glue_inRange (mem_cells.mp hi) (mem_cells.mp hj)
  have hproj : ∀ i ∈ cells (projSizes d1 s), ∀ j ∈ cells (projSizes d2 s), proj d1 (glue s d1 d2 i j) = i ∧
      proj d2 (glue s d1 d2 i j) = j := fun i hi j hj => hP.two.proj_app (mem_cells.mp hi) (mem_cells.mp hj)
  have hJ : (cells (projSizes d2 s)).Nonempty := by
    by_contra hn
    have := hP.csum
    rw [Finset.not_nonempty_iff_eq_empty.mp hn, Finset.sum_empty] at this
    linarith
  have hI : (cells (projSizes d1 s)).Nonempty := by
    by_contra hn
    have := hP.rsum
    rw [Finset.not_nonempty_iff_eq_empty.mp hn, Finset.sum_empty] at this
    linarith
  have hlive : ∃ i ∈ cells (projSizes d1 s), 0 < r i := by
    by_contra hn
    push Not at hn
    have := hP.rsum
    have := Finset.sum_nonpos hn
    linarith
  have hXm : ∀ i ∈ cells (projSizes d1 s), ∀ j ∈ cells (projSizes d2 s),
      Rel (f + 2) (mat s d1 d2 X i j) (rowScale (cells (projSizes d2 s)) r (mat s d1 d2 b) i j) := by
    intro i hi j hj
    rw [← hP.two.mat_row r b hi hj]
    exact (hX _ (hglue i hi j hj)).2.1
  -- row sums after the first scaling
  have hrows : ∀ i ∈ cells (projSizes d1 s), Rel (f + 2) (∑ j ∈ cells (projSizes d2 s), mat s d1 d2 X i j) (r i) := by
    intro i hi
    have := Rel.sum (hXm i hi)
    have hS : 0 < ∑ l ∈ cells (projSizes d2 s), mat s d1 d2 b i l :=
      Finset.sum_pos (fun l hl => hbp _ (hglue i hi l hl)) hJ
    have e : ∑ j ∈ cells (projSizes d2 s), rowScale (cells (projSizes d2 s)) r (mat s d1 d2 b) i j = r i := by
      unfold rowScale
      simp only [if_neg hS.ne']
      rw [← Finset.sum_mul]
      have := hS.ne'
      field_simp
    rwa [e] at this
  have hcolX : ∀ j, InRange (projSizes d2 s) j → marginalSum s d2 X j ≤ 2 * T := by
    intro j hj
    rw [hP.two.colSum X hj, ← hP.rsum, Finset.mul_sum]
    apply Finset.sum_le_sum
    intro i hi
    refine le_trans ?_ ((hrows i hi).upper hK (Finset.sum_nonneg (fun l hl => hXnn _ (hglue i hi l hl))))
    exact Finset.single_le_sum (f := fun l => mat s d1 d2 X i l) (fun l hl => hXnn _ (hglue i hi l hl)) (mem_cells.mpr hj)
  obtain ⟨Y, g, hY⟩ := scaled_rel hfp (m := c) (Y := X) (f := f)
    (a := scaled fp (numFl fp) s d1 (fun j => .fin (r j)) (fun v => .fin (b v))) range_ok hd2 (fun v hv => (hX v hv).1) hXlo
    (fun j hj => (hcolX j hj).trans hT3)
    (fun j hj => (hP.cols j hj).imp_right (fun h1 => ⟨h1, by have := hP.swap.rT j (mem_cells.mpr hj); linarith⟩)) hP.fib2
    (by omega)
  obtain ⟨j0, hj0⟩ := hJ
  obtain ⟨i0, hi0⟩ := hI
  obtain ⟨h1, h2, -⟩ := round_first (R := R) (K := f + 2) (by linarith) ⟨j0, hj0⟩ hP.r0 hP.swap.r0 hlive (b := mat s d1 d2 b)
    (X := mat s d1 d2 X) (Y := mat s d1 d2 Y) (φ := φ) (g := g) (fun i hi j hj => hbp _ (hglue i hi j hj)) ho hXm
    (by
      intro i hi j hj
      have := (hX _ (hglue i hi j hj)).2.2.1
      rw [(hproj i hi j hj).1] at this
      exact this)
    (by
      intro i hi
      have h1 := (hX _ (hglue i hi j0 hj0)).2.2.2
      rwa [(hproj i hi j0 hj0).1] at h1)
    (by
      intro i hi j hj
      rw [← hP.two.mat_col c X hi hj]
      exact (hY _ (hglue i hi j hj)).2.1)
    (by
      intro i hi j hj
      have := (hY _ (hglue i hi j hj)).2.2.1
      rw [(hproj i hi j hj).2] at this
      exact this)
    (by
      intro j hj
      have h1 := (hY _ (hglue i0 hi0 j hj)).2.2.2
      rwa [(hproj i0 hi0 j hj).2] at h1)
  refine ⟨Y, fun v hv => (hY v hv).1, ?_, ?_⟩
  · exact h1.congr_cols (fun j hj => hP.two.colSum Y (mem_cells.mp hj))
  · intro j hj
    rw [hP.two.colSum Y (mem_cells.mp hj)]
    exact h2 j hj

/-! ### The spread after `n` sweeps -/

/-- what rounding adds to the spread of one scaling -/
theorem inv_uu_le {k : Nat} (hk : k ≤ 2 ^ 24) : 1 / uu ^ k ≤ 1 + 5 / 4 * k / 2 ^ 53 := by
  rw [div_le_iff₀ (uu_pow_pos k)]
  have h1 := uu_pow_ge k
  have h2 : (k : ℚ) ≤ 16777216 := by exact_mod_cast hk
  have h3 : (0 : ℚ) ≤ k := Nat.cast_nonneg k
  have h4 : (1 + 5 / 4 * (k : ℚ) / 2 ^ 53) * (1 - k / 2 ^ 53) ≤ (1 + 5 / 4 * k / 2 ^ 53) * uu ^ k :=
    mul_le_mul_of_nonneg_left h1 (by positivity)
  refine le_trans ?_ h4
  have h5 : 5 / 4 * (k : ℚ) / 2 ^ 53 * (k / 2 ^ 53) ≤ 1 / 4 * k / 2 ^ 53 := by
    have h6 : (k : ℚ) / 2 ^ 53 ≤ 1 / 5 := by rw [div_le_iff₀ (by norm_num)]; norm_num; linarith
    calc 5 / 4 * (k : ℚ) / 2 ^ 53 * (k / 2 ^ 53) ≤ 5 / 4 * k / 2 ^ 53 * (1 / 5) := mul_le_mul_of_nonneg_left h6 (by positivity)
      _ = 1 / 4 * k / 2 ^ 53 := by ring
  have e : (1 + 5 / 4 * (k : ℚ) / 2 ^ 53) * (1 - k / 2 ^ 53) =
      1 + 1 / 4 * k / 2 ^ 53 - 5 / 4 * (k : ℚ) / 2 ^ 53 * (k / 2 ^ 53) := by ring
  rw [e]
  linarith

theorem one_le_inv_uu (k : Nat) : 1 ≤ 1 / uu ^ k := by
  rw [le_div_iff₀ (uu_pow_pos k), one_mul]
  exact pow_le_one₀ (by unfold uu; norm_num) (by unfold uu; norm_num)

/-- the error that rounding can keep alive -/
def floorErr (R : ℚ) (f : Nat) : ℚ := 5 * (f + 2) / 2 ^ 54 * (R + 2)

theorem next_le {R ρ E : ℚ} {f : Nat} (hR1 : 1 ≤ R) (hR2 : R ≤ 2 ^ 13) (hf : f ≤ 2 ^ 20) (hρ : 1 ≤ ρ) (hE : 0 ≤ E)
    (h : ρ - 1 ≤ E + floorErr R f) :
    1 ≤ nextSpread R f ρ ∧ nextSpread R f ρ - 1 ≤ R / (R + 2) * E + floorErr R f := by
  have hw1 := one_le_inv_uu (4 * (f + 2))
  have hw2 := inv_uu_le (k := 4 * (f + 2)) (by omega)
  set w := 1 / uu ^ (4 * (f + 2)) with hw
  have hfq : (f : ℚ) ≤ 1048576 := by exact_mod_cast hf
  have hf0 : (0 : ℚ) ≤ f := Nat.cast_nonneg f
  set ε : ℚ := 5 * (f + 2) / 2 ^ 53 with hε
  have hw3 : w ≤ 1 + ε := by
    refine hw2.trans (le_of_eq ?_)
    rw [hε]; push_cast; ring
  have hε0 : 0 ≤ ε := by positivity
  have hε1 : ε ≤ 1 / 2 ^ 30 := by
    rw [hε, div_le_iff₀ (by norm_num)]
    norm_num
    linarith
  have e1 : nextSpread R f ρ = (1 + (R - 1 / 2) / (R + 3 / 2) * (ρ - 1)) * w := by
    unfold nextSpread
    rw [hw, mul_one_div]
  set κ := (R - 1 / 2) / (R + 3 / 2) with hκ
  have hκ0 : 0 ≤ κ := div_nonneg (by linarith) (by linarith)
  have hx : 0 ≤ κ * (ρ - 1) := mul_nonneg hκ0 (by linarith)
  have hfl : floorErr R f = ε / 2 * (R + 2) := by unfold floorErr; rw [hε]; ring
  have hlam0 : 0 ≤ R / (R + 2) := div_nonneg (by linarith) (by linarith)
  have hkl : κ * (1 + ε) ≤ R / (R + 2) := by
    rw [hκ, div_mul_eq_mul_div, div_le_div_iff₀ (by linarith) (by linarith)]
    have h1 : ε * ((R - 1 / 2) * (R + 2)) ≤ 1 / 2 ^ 30 * (2 ^ 13 * (2 ^ 13 + 2)) := by
      apply mul_le_mul hε1 _ (mul_nonneg (by linarith) (by linarith)) (by norm_num)
      exact mul_le_mul (by linarith) (by linarith) (by linarith) (by norm_num)
    norm_num at h1
    nlinarith
  constructor
  · rw [e1]
    nlinarith
  · rw [e1]
    have h1 : (1 + κ * (ρ - 1)) * w ≤ (1 + κ * (ρ - 1)) * (1 + ε) := mul_le_mul_of_nonneg_left hw3 (by linarith)
    have h2 : κ * (1 + ε) * (ρ - 1) ≤ R / (R + 2) * (E + floorErr R f) := mul_le_mul hkl h (by linarith) hlam0
    have h3 : R / (R + 2) * floorErr R f + ε = floorErr R f := by
      rw [hfl]
      have : R + 2 ≠ 0 := by linarith
      field_simp
    linarith

theorem floor_nonneg {R : ℚ} {f : Nat} (hR1 : 1 ≤ R) : 0 ≤ floorErr R f := by
  unfold floorErr
  exact mul_nonneg (by positivity) (by linarith)

theorem floor_le {R : ℚ} {f : Nat} (hR1 : 1 ≤ R) (hR2 : R ≤ 2 ^ 13) (hf : f ≤ 2 ^ 20) : floorErr R f ≤ 1 := by
  unfold floorErr
  have hfq : (f : ℚ) ≤ 2 ^ 20 := by exact_mod_cast hf
  calc 5 * ((f : ℚ) + 2) / 2 ^ 54 * (R + 2) ≤ 5 * (2 ^ 20 + 2) / 2 ^ 54 * (2 ^ 13 + 2) :=
        mul_le_mul (div_le_div_of_nonneg_right (by linarith) (by norm_num)) (by linarith) (by linarith) (by norm_num)
    _ ≤ 1 := by norm_num

theorem GS.run (hfp : fp.Good) (hP : Params s d1 d2 r c T R f) {b : List Int → ℚ}
    (hb : ∀ v, InRange s v → 1 / 2 ^ 100 ≤ b v ∧ b v ≤ 2 ^ 100)
    (ho : Odds R (cells (projSizes d1 s)) (cells (projSizes d2 s)) (mat s d1 d2 b)) (n : Nat) (hn : n ≤ 999) :
    ∃ Y ρ, (∀ v, InRange s v → (HL.sweep fp (numFl fp) s (finProb [(d1, r), (d2, c)]))^[n + 1] (fun v => .fin (b v)) v = .fin (Y v)) ∧
      GS s d1 d2 r c R f ρ (2 * (n + 1)) Y ∧ 1 ≤ ρ ∧ ρ - 1 ≤ (R / (R + 2)) ^ (2 * n) * R + floorErr R f := by
  have hR1 := hP.R1
  have hR2 := hP.R2
  have hf := hP.small
  have hfl := floor_nonneg (f := f) hR1
  have hfl1 := floor_le hR1 hR2 hf
  have hlam0 : 0 ≤ R / (R + 2) := div_nonneg (by linarith) (by linarith)
  have hlam1 : R / (R + 2) ≤ 1 := by rw [div_le_one (by linarith)]; linarith
  induction n with
  | zero =>
    obtain ⟨Y, h1, h2⟩ := GS.first hfp hP hb ho
    refine ⟨Y, _, h1, h2, ?_, ?_⟩
    · have h3 := one_le_inv_uu (4 + 4 * (f + 2))
      rw [div_eq_mul_one_div]
      nlinarith
    · have h3 := inv_uu_le (k := 4 + 4 * (f + 2)) (by omega)
      have h4 : 1 / uu ^ (4 + 4 * (f + 2)) ≤ 1 + 1 / 2 ^ 20 := by
        refine h3.trans ?_
        have h5 : ((4 + 4 * (f + 2) : Nat) : ℚ) ≤ 2 ^ 24 := by exact_mod_cast (by omega : 4 + 4 * (f + 2) ≤ 2 ^ 24)
        have h6 : 5 / 4 * ((4 + 4 * (f + 2) : Nat) : ℚ) / 2 ^ 53 ≤ 1 / 2 ^ 20 := by
          rw [div_le_iff₀ (by norm_num)]
          norm_num at h5 ⊢
          linarith
        linarith
      have h5 := mul_le_mul_of_nonneg_left h4 (show 0 ≤ R by linarith)
      rw [div_eq_mul_one_div]
      simp only [Nat.mul_zero, pow_zero, one_mul]
      norm_num at h5 hR2 ⊢
      linarith
  | succ n ih =>
    obtain ⟨Y, ρ, h1, h2, h3, h4⟩ := ih (by omega)
    have hE : 0 ≤ (R / (R + 2)) ^ (2 * n) * R := mul_nonneg (pow_nonneg hlam0 _) (by linarith)
    have hE1 : (R / (R + 2)) ^ (2 * n) * R ≤ R := by
      have := pow_le_one₀ hlam0 hlam1 (n := 2 * n)
      nlinarith
    obtain ⟨h5, h6⟩ := next_le hR1 hR2 hf h3 hE h4
    have hE' : 0 ≤ R / (R + 2) * ((R / (R + 2)) ^ (2 * n) * R) := mul_nonneg hlam0 hE
    have hE2 : R / (R + 2) * ((R / (R + 2)) ^ (2 * n) * R) ≤ R := by nlinarith
    obtain ⟨h7, h8⟩ := next_le hR1 hR2 hf h5 hE' h6
    obtain ⟨X, h9, h10⟩ := h2.sweep hfp hP (by omega) h3 (by norm_num at hR2 ⊢; linarith) h5
      (by norm_num at hR2 ⊢; linarith) h1
    refine ⟨X, _, ?_, h10, h7, ?_⟩
    · intro v hv
      rw [Function.iterate_succ_apply']
      exact h9 v hv
    · refine h8.trans (le_of_eq ?_)
      rw [show 2 * (n + 1) = 2 * n + 1 + 1 by ring, pow_succ, pow_succ]
      ring

/-! ### The convergence test -/

theorem dev_lt_tol8 (hfp : fp.Good) {S m T x : ℚ} (hm : 0 ≤ m) (hmT : m ≤ T) (hx : 0 ≤ x) (h1 : S ≤ m * (1 + x))
    (h2 : m ≤ S * (1 + x)) (hT : T * x ≤ 98 / 10 ^ 10) : FP.lt (FP.abs (fp.sub (.fin S) (.fin m))) (tol8 fp) = true := by
  obtain ⟨t, ht, ht'⟩ := tol8_ge hfp
  have hmx : m * x ≤ 98 / 10 ^ 10 := (mul_le_mul_of_nonneg_right hmT hx).trans hT
  have hab : |S - m| ≤ 98 / 10 ^ 10 := by
    rw [abs_le]
    constructor
    · have h3 : m * (1 - x) ≤ S := by
        by_contra hlt
        push Not at hlt
        have h4 := mul_lt_mul_of_pos_right hlt (show 0 < 1 + x by linarith)
        have h5 : m * (1 - x) * (1 + x) = m - m * x * x := by ring
        have h6 : 0 ≤ m * x * x := by positivity
        linarith
      linarith
    · linarith
  obtain ⟨d, hd1, hd2, -⟩ := relA_rnd hfp (q := S - m) (by
    have := hugeQ_ge
    refine hab.trans (le_trans ?_ this)
    norm_num)
  have e : fp.sub (.fin S) (.fin m) = .fin d := by
    show fp.rnd (S + -m) = _
    rw [← sub_eq_add_neg, hd1]
  rw [e, ht]
  simp only [FP.abs, FP.lt, decide_eq_true_eq]
  have h5 := hd2.2
  have h6 := tinyQ_le'
  have h7 : (1 : ℚ) / 2 ^ 200 ≤ 1 / 10 ^ 50 := by norm_num
  unfold uu at h5
  norm_num at h5 h7 hab ht' ⊢
  linarith

/-- the row sums of a state, up to the spread -/
theorem GS.rows (hP : Params s d1 d2 r c T R f) (h : GS s d1 d2 r c R f ρ m Y) (hρ : 1 ≤ ρ) {i : List Int}
    (hi : i ∈ cells (projSizes d1 s)) :
    marginalSum s d1 Y i * uu ^ (f + 2) ≤ ρ * r i ∧ r i * uu ^ (f + 2) ≤ ρ * marginalSum s d1 Y i := by
  have hI := h.inv
  set I := cells (projSizes d1 s) with hIdef
  set J := cells (projSizes d2 s) with hJdef
  have htot : ∑ k ∈ I, ∑ l ∈ J, mat s d1 d2 Y k l = ∑ j ∈ J, marginalSum s d2 Y j := by
    rw [Finset.sum_comm]; exact Finset.sum_congr rfl hI.sums
  have hrel : Rel (f + 2) (∑ j ∈ J, marginalSum s d2 Y j) T := by rw [← hP.csum]; exact Rel.sum h.rel
  have hT1 := hP.T1
  have hr0 := hP.r0 i hi
  rw [hP.two.rowSum Y (mem_cells.mp hi)]
  set A := ∑ l ∈ J, mat s d1 d2 Y i l with hA
  have hA0 : 0 ≤ A := Finset.sum_nonneg (fun l hl => hI.nonneg i hi l hl)
  have hA1 : r i * ∑ j ∈ J, marginalSum s d2 Y j ≤ ρ * (A * T) := by
    rw [← htot, ← hP.rsum, Finset.mul_sum, Finset.mul_sum, Finset.mul_sum]
    apply Finset.sum_le_sum
    intro k hk
    have := hI.spread i hi k hk
    linarith
  have hA2 : A * T ≤ ρ * (r i * ∑ j ∈ J, marginalSum s d2 Y j) := by
    rw [← htot, ← hP.rsum, Finset.mul_sum, Finset.mul_sum, Finset.mul_sum]
    apply Finset.sum_le_sum
    intro k hk
    have := hI.spread k hk i hi
    linarith
  set W := ∑ j ∈ J, marginalSum s d2 Y j with hW
  have hu := uu_pow_pos (f + 2)
  constructor
  · have h1 := mul_le_mul_of_nonneg_left hrel.2 (mul_nonneg (by linarith : 0 ≤ ρ) hr0)
    have h2 := mul_le_mul_of_nonneg_right hA2 hu.le
    have h3 : A * uu ^ (f + 2) * T ≤ ρ * r i * T := by linarith
    exact le_of_mul_le_mul_right h3 (by linarith)
  · have h1 := mul_le_mul_of_nonneg_left hrel.1 hr0
    have h3 : r i * uu ^ (f + 2) * T ≤ ρ * A * T := by linarith
    exact le_of_mul_le_mul_right h3 (by linarith)

/-- the error of a state as `ipf` reports it is below the tolerance -/
theorem GS.conv (hfp : fp.Good) (hP : Params s d1 d2 r c T R f) (h : GS s d1 d2 r c R f ρ m Y) (hm : m ≤ 2000) (hρ : 1 ≤ ρ)
    {E : ℚ} (hE : E ≤ R) (hρE : ρ - 1 ≤ E + floorErr R f) (hE0 : 0 ≤ E)
    (hT : T * (E + (f + 2) * (R + 2) / 2 ^ 50) ≤ 98 / 10 ^ 10) {a : List Int → Fl} (ha : ∀ v, InRange s v → a v = .fin (Y v)) :
    convAt fp (numFl fp) s (finProb [(d1, r), (d2, c)]) a := by
  have hR1 := hP.R1
  have hR2 := hP.R2
  have hf := hP.small
  have hT1 := hP.T1
  have hT2 := hP.T2
  have hfl := floor_nonneg (f := f) hR1
  have hfl1 := floor_le hR1 hR2 hf
  have hρ2 : ρ ≤ 2 ^ 14 := by norm_num at hR2 ⊢; linarith
  obtain ⟨hlo, hup⟩ := h.range hP hm hρ hρ2
  have hcc2 : ∀ j ∈ cells (projSizes d2 s), marginalSum s d2 Y j ≤ 2 * T := fun j hj => by
    have h1 := (h.rel j hj).upper (by omega : f + 2 ≤ 2 ^ 52) ((h.rel j hj).nonneg (hP.swap.r0 j hj))
    have := hP.swap.rT j hj
    linarith
  set x : ℚ := E + (f + 2) * (R + 2) / 2 ^ 50 with hx
  have hf0 : (0 : ℚ) ≤ f := Nat.cast_nonneg f
  have hRf : 0 ≤ ((f : ℚ) + 2) * (R + 2) := mul_nonneg (by linarith) (by linarith)
  have hx0 : 0 ≤ x := by rw [hx]; positivity
  -- all the roundings together
  have hbig : ρ * (1 / uu ^ (2 * (f + 2))) ≤ 1 + x := by
    have h1 := inv_uu_le (k := 2 * (f + 2)) (by omega)
    have h2 := mul_le_mul_of_nonneg_left h1 (show 0 ≤ ρ by linarith)
    refine h2.trans ?_
    have h3 : ρ * (5 / 4 * ((2 * (f + 2) : Nat) : ℚ) / 2 ^ 53) ≤ (R + 2) * (5 / 4 * ((2 * (f + 2) : Nat) : ℚ) / 2 ^ 53) :=
      mul_le_mul_of_nonneg_right (by linarith) (by positivity)
    push_cast at h3 ⊢
    unfold floorErr at hρE
    rw [hx]
    norm_num at h3 hρE ⊢
    linarith
  have hu1 : 1 ≤ 1 / uu ^ (2 * (f + 2)) := one_le_inv_uu _
  have hufp := uu_pow_pos f
  have hu2 := uu_pow_pos (f + 2)
  have hu3 := uu_pow_pos (2 * (f + 2))
  have hule : uu ^ (2 * (f + 2)) ≤ uu ^ (f + 2) * uu ^ f := by
    rw [← pow_add]
    exact pow_le_pow_of_le_one (by unfold uu; norm_num) (by unfold uu; norm_num) (by omega)
  have hfs : ∀ ds, (∀ j, ((cells s).filter (fun v => proj ds v = j)).card ≤ f) → ∀ j, marginalSum s ds Y j ≤ 2 * T →
      ∃ S, fsum fp s ds a j = .fin S ∧ Rel f S (marginalSum s ds Y j) := by
    intro ds hds j hj
    have hrg := range_ok
    obtain ⟨S, h1, h2⟩ := fsum_rel hfp (s := s) (ds := ds) (j := j) (K := 0) (f := f) (a := a) (y := Y) (lo := 1 / 2 ^ 100)
      (B := 2 * T)
      (by
        have := tinyQ_le'
        have e : (1 : ℚ) / 2 ^ 200 * 2 ≤ 1 / 2 ^ 100 := by norm_num
        linarith)
      (by have := hugeQ_ge; norm_num at this hT2 ⊢; linarith)
      (fun v hv => ⟨Y v, ha v hv, Rel.refl _, hlo v hv⟩) (hds j) (by omega) hj
    exact ⟨S, h1, by rwa [zero_add] at h2⟩
  have key : ∀ {S A m : ℚ}, 0 ≤ m → 0 ≤ A → Rel f S A → A * uu ^ (f + 2) ≤ ρ * m → m * uu ^ (f + 2) ≤ ρ * A →
      S ≤ m * (1 + x) ∧ m ≤ S * (1 + x) := by
    intro S A m hm hA hS h1 h2
    have hS0 := hS.nonneg hA
    constructor
    · have h3 : S * uu ^ (2 * (f + 2)) ≤ ρ * m := by
        have h4 := mul_le_mul_of_nonneg_left hule hS0
        have h5 := mul_le_mul_of_nonneg_right hS.2 hu2.le
        linarith
      have h4 : S ≤ ρ * m * (1 / uu ^ (2 * (f + 2))) := by rw [mul_one_div, le_div_iff₀ hu3]; exact h3
      have h5 := mul_le_mul_of_nonneg_right hbig hm
      linarith
    · have h3 : m * uu ^ (2 * (f + 2)) ≤ ρ * S := by
        have h4 := mul_le_mul_of_nonneg_left hule hm
        have h5 := mul_le_mul_of_nonneg_right h2 hufp.le
        have h6 := mul_le_mul_of_nonneg_left hS.1 (show 0 ≤ ρ by linarith)
        linarith
      have h4 : m ≤ ρ * S * (1 / uu ^ (2 * (f + 2))) := by rw [mul_one_div, le_div_iff₀ hu3]; exact h3
      have h5 := mul_le_mul_of_nonneg_right hbig hS0
      linarith
  have hY0 : ∀ v, InRange s v → 0 ≤ Y v := fun v hv => by
    rcases hlo v hv with h | h
    · rw [h]
    · exact le_trans (by positivity) h
  unfold convAt
  apply maxDev_lt' _ _ _ (lt_tol8 hfp)
  intro p hp j hj
  simp only [finProb, List.map_cons, List.map_nil, List.mem_cons, List.not_mem_nil, or_false] at hp
  rcases hp with rfl | rfl
  · have hj' := mem_cells.mpr hj
    obtain ⟨S, h1, h2⟩ := hfs d1 hP.fib1 j (hup j hj)
    show FP.lt (FP.abs (fp.sub (fsum fp s d1 a j) (.fin (r j)))) (tol8 fp) = true
    rw [h1]
    obtain ⟨h3, h4⟩ := h.rows hP hρ hj'
    obtain ⟨h5, h6⟩ := key (hP.r0 j hj') (marginalSum_nonneg hY0 j) h2 h3 h4
    exact dev_lt_tol8 hfp (hP.r0 j hj') (hP.rT j hj') hx0 h5 h6 hT
  · have hj' := mem_cells.mpr hj
    obtain ⟨S, h1, h2⟩ := hfs d2 hP.fib2 j (hcc2 j hj')
    show FP.lt (FP.abs (fp.sub (fsum fp s d2 a j) (.fin (c j)))) (tol8 fp) = true
    rw [h1]
    have hA0 := marginalSum_nonneg hY0 (ds := d2) j
    have hc0 := hP.swap.r0 j hj'
    have h3 := h.rel j hj'
    obtain ⟨h5, h6⟩ := key hc0 hA0 h2
      (by have := h3.2; nlinarith) (by have := h3.1; nlinarith)
    exact dev_lt_tol8 hfp hc0 (hP.swap.rT j hj') hx0 h5 h6 hT

end HL.Rate

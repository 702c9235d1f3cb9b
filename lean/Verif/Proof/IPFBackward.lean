import Verif.Proof.IPFUnitRound
import Verif.Proof.IPFAlgebra
import Verif.RegularSpec
import Mathlib.Algebra.Order.BigOperators.Ring.Finset

/-
Scaling in rounded arithmetic as exact scaling of a nearby seed.
-/

namespace HL
open Micro Integerise
variable {fp : FP}

theorem Regular.pos {x : ℚ} (h : Regular x) : 0 < x := lt_of_lt_of_le (by positivity) h.1

theorem Regular.bounds {x : ℚ} (h : Regular x) : 2 * tinyQ ≤ x ∧ x ≤ hugeQ / 2 := by
  constructor
  · refine le_trans (le_of_eq ?_) h.1
    rw [tinyQ_eq, show (-1021 : ℤ) = -1022 + 1 by norm_num, zpow_add_one₀ (by norm_num)]
    ring
  · refine h.2.trans (le_of_eq ?_)
    rw [hugeQ_eq, eq_div_iff (by norm_num), ← pow_succ]

/-- a product that is regular after rounding was rounded once -/
theorem rel_of_regular (hfp : fp.Good) {q y : ℚ} (hq : 0 ≤ q) (h : fp.rnd q = .fin y) (hy : Regular y) : Rel 1 y q := by
  replace hy := hy.bounds
  have ht := tinyQ_pos
  have hh := hugeQ_ge
  have hh0 : 0 < hugeQ := lt_of_lt_of_le (by positivity) hh
  have hth : tinyQ ≤ hugeQ := by
    have := hy.1; have := hy.2; linarith
  have h1 : tinyQ ≤ q := by
    by_contra hlt
    push Not at hlt
    obtain ⟨b, hb1, hb2⟩ := near' hfp tinyQ (by rw [abs_of_pos ht]) (by rw [abs_of_pos ht]; linarith)
    have := hfp.mono _ _ _ _ hlt.le h hb1
    rw [abs_of_pos ht] at hb2
    have := (abs_le.mp hb2).2
    have := hy.1
    linarith
  have h2 : q ≤ hugeQ := by
    by_contra hlt
    push Not at hlt
    obtain ⟨b, hb1, hb2⟩ := near' hfp hugeQ (by rw [abs_of_pos hh0]; exact hth) (by rw [abs_of_pos hh0]; linarith)
    have := hfp.mono _ _ _ _ hlt.le hb1 h
    rw [abs_of_pos hh0] at hb2
    have := (abs_le.mp hb2).1
    have := hy.2
    linarith
  obtain ⟨a, ha, hr⟩ := rel_rnd hfp (Or.inr ⟨h1, h2⟩)
  rw [h] at ha
  injection ha with ha
  rw [ha]; exact hr

/-- the factor one scaling multiplies the cells of a group with -/
def factorAt (fp : FP) (s ds : List Nat) (m : List Int → ℚ) (a : List Int → Fl) (j : List Int) : ℚ :=
  if FP.feq (fsum fp s ds a j) (.fin 0) then 0
  else match fp.div (.fin (m j)) (fsum fp s ds a j) with
    | .fin f => f
    | _ => 0

theorem factorAt_zero (h0 : fp.rnd 0 = .fin 0) {s ds : List Nat} {m : List Int → ℚ} {a : List Int → Fl} {j : List Int}
    (hm : m j = 0) : factorAt fp s ds m a j = 0 := by
  unfold factorAt
  split
  · rfl
  · rename_i hne
    cases hf : fsum fp s ds a j with
    | fin S =>
      have hS : S ≠ 0 := by rw [hf] at hne; simpa [FP.feq] using hne
      rw [hm]
      have : fp.div (.fin 0) (.fin S) = .fin 0 := by
        show (if S = 0 then _ else fp.rnd (0 / S)) = _
        rw [if_neg hS, zero_div, h0]
      rw [this]
    | pinf => rw [hm]; rfl
    | ninf => rw [hm]; rfl
    | nan => rfl

theorem infOfSign_ne_fin (x y : ℚ) : FP.infOfSign x ≠ .fin y := by
  unfold FP.infOfSign
  split_ifs <;> simp

/-- one scaling of a positive cell that stays regular -/
theorem scaled_factor (hfp : fp.Good) {s ds : List Nat} {m : List Int → ℚ} {a : List Int → Fl} {v : List Int} {x y : ℚ}
    (hx : a v = .fin x) (hx0 : 0 < x) (hy : scaled fp (numFl fp) s ds (fun j => .fin (m j)) a v = .fin y) (hr : Regular y) :
    0 < factorAt fp s ds m a (proj ds v) ∧ Rel 1 y (x * factorAt fp s ds m a (proj ds v)) := by
  have hy0 := hr.pos
  unfold scaled at hy
  unfold factorAt
  by_cases h0 : FP.feq (fsum fp s ds a (proj ds v)) (.fin 0) = true
  · rw [if_pos h0] at hy
    injection hy with hy
    linarith
  · rw [if_neg h0, hx] at hy
    rw [if_neg h0]
    change fp.mul (.fin x) (fp.div (.fin (m (proj ds v))) (fsum fp s ds a (proj ds v))) = .fin y at hy
    cases hd : fp.div (.fin (m (proj ds v))) (fsum fp s ds a (proj ds v)) with
    | fin f =>
      rw [hd] at hy
      change fp.rnd (x * f) = .fin y at hy
      have hf : 0 < f := by
        by_contra hle
        push Not at hle
        have h1 : x * f ≤ 0 := mul_nonpos_of_nonneg_of_nonpos hx0.le hle
        have := hfp.mono _ _ _ _ h1 hy (rnd_zero' hfp)
        linarith
      exact ⟨hf, rel_of_regular hfp (mul_nonneg hx0.le hf.le) hy hr⟩
    | pinf =>
      rw [hd] at hy
      exact absurd hy (infOfSign_ne_fin _ _)
    | ninf =>
      rw [hd] at hy
      exact absurd hy (infOfSign_ne_fin _ _)
    | nan => rw [hd, mul_nan_right] at hy; cases hy

theorem mul_zero_fin (h0 : fp.rnd 0 = .fin 0) {r : Fl} {y : ℚ} (h : fp.mul (.fin 0) r = .fin y) : y = 0 := by
  cases r with
  | fin f =>
    change fp.rnd (0 * f) = _ at h
    rw [zero_mul, h0] at h
    injection h with h
    exact h.symm
  | pinf => exact absurd h (infOfSign_ne_fin _ _)
  | ninf => exact absurd h (infOfSign_ne_fin _ _)
  | nan => rw [mul_nan_right] at h; cases h

theorem scaled_zero_cell (h0 : fp.rnd 0 = .fin 0) {s ds : List Nat} {m : List Int → ℚ} {a : List Int → Fl} {v : List Int} {y : ℚ}
    (hx : a v = .fin 0) (hy : scaled fp (numFl fp) s ds (fun j => .fin (m j)) a v = .fin y) : y = 0 := by
  unfold scaled at hy
  split at hy
  · injection hy with hy; exact hy.symm
  · rw [hx] at hy
    exact mul_zero_fin h0 hy

theorem scaled_zero_marg (h0 : fp.rnd 0 = .fin 0) {s ds : List Nat} {m : List Int → ℚ} {a : List Int → Fl} {v : List Int} {x y : ℚ}
    (hx : a v = .fin x) (hm : m (proj ds v) = 0) (hy : scaled fp (numFl fp) s ds (fun j => .fin (m j)) a v = .fin y) : y = 0 := by
  unfold scaled at hy
  by_cases h1 : FP.feq (fsum fp s ds a (proj ds v)) (.fin 0) = true
  · rw [if_pos h1] at hy
    injection hy with hy; exact hy.symm
  · rw [if_neg h1, hx] at hy
    change fp.mul (.fin x) (fp.div (.fin (m (proj ds v))) (fsum fp s ds a (proj ds v))) = .fin y at hy
    rw [hm] at hy
    have key : fp.div (.fin 0) (fsum fp s ds a (proj ds v)) = .fin 0 ∨ fp.div (.fin 0) (fsum fp s ds a (proj ds v)) = .nan := by
      cases hf : fsum fp s ds a (proj ds v) with
      | fin S =>
        left
        have hS : S ≠ 0 := by rw [hf] at h1; simpa [FP.feq] using h1
        show (if S = 0 then _ else fp.rnd (0 / S)) = _
        rw [if_neg hS, zero_div, h0]
      | pinf => left; rfl
      | ninf => left; rfl
      | nan => right; rfl
    rcases key with h2 | h2
    · rw [h2] at hy
      change fp.rnd (x * 0) = _ at hy
      rw [mul_zero, h0] at hy
      injection hy with hy; exact hy.symm
    · rw [h2, mul_nan_right] at hy; cases hy

/-- `a` is the seed `b` times one factor for each marginal, up to `k` roundings; cells of which the seed or a marginal in `Z`
is zero are zero -/
structure BInv (s : List Nat) (Q : Prob ℚ) (b : List Int → ℚ) (k : Nat) (Z : Fin Q.length → Prop) (a : List Int → Fl)
    (F : Fin Q.length → List Int → ℚ) : Prop where
  live : ∀ v, InRange s v → Live Q b v → ∃ x, a v = .fin x ∧ 0 < x ∧ (∀ i, 0 < F i (proj Q[i].1 v)) ∧
    Rel k x (b v * ∏ i, F i (proj Q[i].1 v))
  dead : ∀ v, InRange s v → (b v = 0 ∨ ∃ i, Z i ∧ Q[i].2 (proj Q[i].1 v) = 0) → a v = .fin 0
  zero : ∀ i, Z i → ∀ j, Q[i].2 j = 0 → F i j = 0

theorem binv_step (hfp : fp.Good) {s : List Nat} {Q : Prob ℚ} {b : List Int → ℚ} {k : Nat} {Z : Fin Q.length → Prop}
    {a : List Int → Fl} {F : Fin Q.length → List Int → ℚ} (h : BInv s Q b k Z a F) (i : Fin Q.length)
    (hra : RegularTable s Q b a)
    (hr : RegularTable s Q b (scaled fp (numFl fp) s Q[i].1 (fun j => .fin (Q[i].2 j)) a)) :
    ∃ F', BInv s Q b (k + 1) (fun l => Z l ∨ l = i) (scaled fp (numFl fp) s Q[i].1 (fun j => .fin (Q[i].2 j)) a) F' := by
  have h0 := rnd_zero' hfp
  refine ⟨fun l j => if l = i then F l j * factorAt fp s Q[i].1 Q[i].2 a j else F l j, ?_, ?_, ?_⟩
  · intro v hv hl
    obtain ⟨x, hx, hx0, hF, hR⟩ := h.live v hv hl
    obtain ⟨y, hy, hyr⟩ := hr v hv
    have hyr : Regular y := hyr.resolve_right (fun h => h.2 hl)
    obtain ⟨h1, h2⟩ := scaled_factor hfp hx hx0 hy hyr
    refine ⟨y, hy, hyr.pos, ?_, ?_⟩
    · intro l
      by_cases hli : l = i
      · subst hli
        rw [if_pos rfl]
        exact mul_pos (hF l) h1
      · rw [if_neg hli]
        exact hF l
    · have e : ∏ l, (if l = i then F l (proj Q[l].1 v) * factorAt fp s Q[i].1 Q[i].2 a (proj Q[l].1 v) else F l (proj Q[l].1 v)) =
          (∏ l, F l (proj Q[l].1 v)) * factorAt fp s Q[i].1 Q[i].2 a (proj Q[i].1 v) := by
        rw [← Finset.mul_prod_erase _ _ (Finset.mem_univ i), ← Finset.mul_prod_erase Finset.univ (fun l => F l (proj Q[l].1 v)) (Finset.mem_univ i),
          if_pos rfl]
        rw [Finset.prod_congr rfl (g := fun l => F l (proj Q[l].1 v)) (fun l hl => if_neg (Finset.ne_of_mem_erase hl))]
        ring
      rw [e, ← mul_assoc]
      have hp : 0 ≤ b v * ∏ l, F l (proj Q[l].1 v) := mul_nonneg hl.1.le (Finset.prod_nonneg fun l _ => (hF l).le)
      have h3 := hR.mul (Rel.refl (factorAt fp s Q[i].1 Q[i].2 a (proj Q[i].1 v))) hx0.le hp h1.le h1.le
      have := h2.trans h3
      rwa [add_zero, Nat.add_comm] at this
  · intro v hv hd
    obtain ⟨y, hy, -⟩ := hr v hv
    rw [hy]
    congr 1
    by_cases hold : b v = 0 ∨ ∃ i, Z i ∧ Q[i].2 (proj Q[i].1 v) = 0
    · exact scaled_zero_cell h0 (h.dead v hv hold) hy
    · obtain ⟨x, hx, -⟩ := hra v hv
      rcases hd with hd | ⟨l, hl, hm⟩
      · exact absurd (Or.inl hd) hold
      · rcases hl with hl | rfl
        · exact absurd (Or.inr ⟨l, hl, hm⟩) hold
        · exact scaled_zero_marg h0 hx hm hy
  · intro l hl j hj
    by_cases hli : l = i
    · subst hli
      rw [if_pos rfl, factorAt_zero h0 hj, mul_zero]
    · rw [if_neg hli]
      exact h.zero l (hl.resolve_right hli) j hj

theorem sweep_take {α : Type} (fp : FP) (N : Num α) (s : List Nat) (P : Prob α) (i : Nat) (hi : i < P.length) (a : List Int → Fl) :
    sweep fp N s (P.take (i + 1)) a = scaled fp N s P[i].1 P[i].2 (sweep fp N s (P.take i) a) := by
  unfold sweep
  rw [List.take_succ_eq_append_getElem hi, List.foldl_append]
  rfl

/-- part of a sweep -/
theorem binv_take (hfp : fp.Good) {s : List Nat} {Q : Prob ℚ} {b : List Int → ℚ} {k : Nat} {Z : Fin Q.length → Prop}
    {a : List Int → Fl} {F : Fin Q.length → List Int → ℚ} (h : BInv s Q b k Z a F)
    (hr : ∀ i ≤ Q.length, RegularTable s Q b (sweep fp (numFl fp) s ((finProb Q).take i) a)) :
    ∀ i ≤ Q.length, ∃ F', BInv s Q b (k + i) (fun l => Z l ∨ l.1 < i) (sweep fp (numFl fp) s ((finProb Q).take i) a) F'
  | 0, _ => ⟨F, by simpa [sweep] using h⟩
  | i + 1, hi => by
    obtain ⟨F', hF'⟩ := binv_take hfp h hr i (by omega)
    have hlen : (finProb Q).length = Q.length := by simp [finProb]
    have e := sweep_take fp (numFl fp) s (finProb Q) i (by omega) a
    have e2 : (finProb Q)[i]'(by omega) = (Q[i].1, fun j => .fin (Q[i].2 j)) := by simp [finProb]
    rw [e2] at e
    have h1 := hr (i + 1) hi
    rw [e] at h1 ⊢
    obtain ⟨F'', hF''⟩ := binv_step hfp hF' ⟨i, by omega⟩ (hr i (by omega)) h1
    refine ⟨F'', hF''.live, ?_, ?_⟩
    · intro v hv hd
      refine hF''.dead v hv (hd.imp id ?_)
      rintro ⟨l, hl, hm⟩
      exact ⟨l, by rcases hl with hl | hl
                   · exact Or.inl (Or.inl hl)
                   · by_cases hli : l.1 = i
                     · right; exact Fin.ext hli
                     · left; right; omega, hm⟩
    · intro l hl
      refine hF''.zero l ?_
      rcases hl with hl | hl
      · exact Or.inl (Or.inl hl)
      · by_cases hli : l.1 = i
        · right; exact Fin.ext hli
        · left; right; omega

theorem binv_run (hfp : fp.Good) {s : List Nat} {Q : Prob ℚ} {b : List Int → ℚ} : ∀ n, RegularRun fp s Q b n →
    ∃ F, BInv s Q b (n * Q.length) (fun _ => 0 < n) ((sweep fp (numFl fp) s (finProb Q))^[n] (fun v => .fin (b v))) F
  | 0, _ => ⟨fun _ _ => 1, by
      refine ⟨?_, ?_, ?_⟩
      · intro v hv hl
        exact ⟨b v, rfl, hl.1, fun _ => one_pos, by simpa using Rel.refl (b v)⟩
      · intro v hv hd
        rcases hd with hd | ⟨i, hi, -⟩
        · show Fl.fin (b v) = _
          rw [hd]
        · exact absurd hi (lt_irrefl _)
      · intro i hi
        exact absurd hi (lt_irrefl _)⟩
  | n + 1, h => by
    obtain ⟨F, hF⟩ := binv_run hfp n (fun m hm => h m (by omega))
    obtain ⟨F', hF'⟩ := binv_take hfp hF (h n (by omega)) Q.length le_rfl
    have hlen : (finProb Q).length = Q.length := by simp [finProb]
    rw [List.take_of_length_le (by omega), ← Function.iterate_succ_apply' (sweep fp (numFl fp) s (finProb Q))] at hF'
    refine ⟨F', ?_, ?_, ?_⟩
    · intro v hv hl
      have := hF'.live v hv hl
      rwa [Nat.succ_mul]
    · intro v hv hd
      refine hF'.dead v hv (hd.imp id ?_)
      rintro ⟨l, -, hm⟩
      exact ⟨l, Or.inr l.2, hm⟩
    · intro l _
      exact hF'.zero l (Or.inr l.2)

/-- the seed of which the result is an exact scaling -/
theorem backward_seed (hfp : fp.Good) {s : List Nat} {Q : Prob ℚ} {b : List Int → ℚ} (hd : ∀ q ∈ Q, ∀ d ∈ q.1, d < s.length)
    (hq : ∀ q ∈ Q, ∀ j, InRange (projSizes q.1 s) j → 0 ≤ q.2 j) (hb : ∀ v, InRange s v → 0 ≤ b v) {n : Nat} (hn : 0 < n)
    (h : RegularRun fp s Q b n) :
    ∃ c b' : List Int → ℚ, (∀ v, InRange s v → (sweep fp (numFl fp) s (finProb Q))^[n] (fun v => .fin (b v)) v = .fin (c v)) ∧
      (∀ v, InRange s v → 0 ≤ c v) ∧ (∀ v, InRange s v → 0 ≤ b' v ∧ Rel (n * Q.length) (b' v) (b v)) ∧ Factored s Q b' c := by
  classical
  obtain ⟨F, hF⟩ := binv_run hfp n h
  have hcell : ∀ v, ∃ x : ℚ, InRange s v → (sweep fp (numFl fp) s (finProb Q))^[n] (fun v => .fin (b v)) v = .fin x ∧
      (Live Q b v → 0 < x ∧ (∀ i, 0 < F i (proj Q[i].1 v)) ∧ Rel (n * Q.length) x (b v * ∏ i, F i (proj Q[i].1 v))) ∧
      (¬ Live Q b v → x = 0 ∧ b v * ∏ i, F i (proj Q[i].1 v) = 0) := by
    intro v
    by_cases hv : InRange s v
    · by_cases hl : Live Q b v
      · obtain ⟨x, h1, h2, h3, h4⟩ := hF.live v hv hl
        exact ⟨x, fun _ => ⟨h1, fun _ => ⟨h2, h3, h4⟩, fun h => absurd hl h⟩⟩
      · refine ⟨0, fun _ => ⟨?_, fun h => absurd h hl, fun _ => ⟨rfl, ?_⟩⟩⟩
        all_goals
          unfold Live at hl
          have hz : b v = 0 ∨ ∃ i : Fin Q.length, Q[i].2 (proj Q[i].1 v) = 0 := by
            by_contra hno
            push Not at hno
            apply hl
            refine ⟨lt_of_le_of_ne (hb v hv) (Ne.symm hno.1), fun q hqm => ?_⟩
            obtain ⟨i, hi, rfl⟩ := List.mem_iff_getElem.mp hqm
            exact lt_of_le_of_ne (hq _ hqm _ (inRange_proj (hd _ hqm) hv)) (Ne.symm (hno.2 ⟨i, hi⟩))
        · exact hF.dead v hv (hz.imp id (fun ⟨i, hi⟩ => ⟨i, hn, hi⟩))
        · rcases hz with hz | ⟨i, hi⟩
          · rw [hz, zero_mul]
          · rw [Finset.prod_eq_zero (Finset.mem_univ i) (hF.zero i hn _ hi), mul_zero]
    · exact ⟨0, fun h => absurd h hv⟩
  choose c hc using hcell
  refine ⟨c, fun v => if Live Q b v then c v / ∏ i, F i (proj Q[i].1 v) else b v, fun v hv => (hc v hv).1, ?_, ?_, F, ?_⟩
  · intro v hv
    by_cases hl : Live Q b v
    · exact ((hc v hv).2.1 hl).1.le
    · exact ((hc v hv).2.2 hl).1.ge
  · intro v hv
    by_cases hl : Live Q b v
    · simp only [if_pos hl]
      obtain ⟨h1, h2, h3⟩ := (hc v hv).2.1 hl
      have hp : 0 < ∏ i, F i (proj Q[i].1 v) := Finset.prod_pos fun i _ => h2 i
      refine ⟨(div_pos h1 hp).le, ?_⟩
      have h4 := h3.div (Rel.refl (∏ i, F i (proj Q[i].1 v))) h1.le (mul_nonneg hl.1.le hp.le) hp hp
      rwa [add_zero, mul_div_cancel_right₀ _ hp.ne'] at h4
    · simp only [if_neg hl]
      have := (Rel.refl (b v)).mono (hb v hv) (hb v hv) (Nat.zero_le (n * Q.length))
      exact ⟨hb v hv, this⟩
  · intro v hv
    dsimp only
    by_cases hl : Live Q b v
    · rw [if_pos hl]
      obtain ⟨h1, h2, h3⟩ := (hc v hv).2.1 hl
      have hp : 0 < ∏ i, F i (proj Q[i].1 v) := Finset.prod_pos fun i _ => h2 i
      exact (div_mul_cancel₀ _ hp.ne').symm
    · rw [if_neg hl, ((hc v hv).2.2 hl).1, ((hc v hv).2.2 hl).2]

end HL

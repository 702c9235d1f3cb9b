import Verif.Proof.GammaTail
import Verif.Proof.StatLemmas

/-
The loops of `gamain` in exact arithmetic compute partial sums of the series and convergents of the continued fraction.
-/

namespace HL.GammaR
open HL Real

theorem div_exact {a b : ℚ} (hb : b ≠ 0) : FP.exact.div (.fin a) (.fin b) = .fin (a / b) := by
  show (if b = 0 then FP.infOfSign a else FP.exact.rnd (a / b)) = _
  rw [if_neg hb]; rfl

theorem le_fin {a b : ℚ} : FP.le (.fin a) (.fin b) = decide (a ≤ b) := rfl

theorem series_exact {x p : ℚ} (hp : 0 < p) : ∀ (k n : ℕ) (r t g : ℚ) (v : Fl), r = p + n → (t : ℝ) = serTerm x p n →
    (g : ℝ) = ∑ i ∈ Finset.range (n + 1), serTerm x p i →
    Gamain.series FP.exact (.fin x) k (.fin r) (.fin t) (.fin g) = (v, true) →
    ∃ m, n + 1 ≤ m ∧ m ≤ n + k ∧ serTerm x p m ≤ 1 / 10 ^ 8 ∧ ∃ g' : ℚ, v = .fin g' ∧ (g' : ℝ) = ∑ i ∈ Finset.range (m + 1), serTerm x p i := by
  intro k
  induction k with
  | zero => intro n r t g v _ _ _ h; simp [Gamain.series] at h
  | succ k ih =>
    intro n r t g v hr ht hg h
    have hr1 : (r + 1 : ℚ) ≠ 0 := by
      have : (0 : ℚ) ≤ n := Nat.cast_nonneg n
      rw [hr]; positivity
    unfold Gamain.series at h
    have e1 : FP.exact.add (.fin r) (.fin 1) = .fin (r + 1) := rfl
    have e2 : FP.exact.mul (.fin t) (.fin x) = .fin (t * x) := rfl
    have e4 : FP.exact.add (.fin g) (.fin (t * x / (r + 1))) = .fin (g + t * x / (r + 1)) := rfl
    have e5 : Gamain.acu FP.exact = .fin (1 / 10 ^ 8) := rfl
    simp only [e1, e2, div_exact hr1, e4, e5, le_fin] at h
    have ht' : ((t * x / (r + 1) : ℚ) : ℝ) = serTerm x p (n + 1) := by
      unfold serTerm
      push_cast
      rw [ht, hr]
      push_cast
      congr 1; ring
    have hg' : ((g + t * x / (r + 1) : ℚ) : ℝ) = ∑ i ∈ Finset.range (n + 1 + 1), serTerm x p i := by
      rw [Finset.sum_range_succ, ← hg, ← ht']; push_cast; ring
    split at h
    · rename_i hc
      simp only [Prod.mk.injEq, and_true] at h
      refine ⟨n + 1, le_rfl, by omega, ?_, _, h.symm, hg'⟩
      rw [← ht']
      have : (t * x / (r + 1) : ℚ) ≤ 1 / 10 ^ 8 := of_decide_eq_true hc
      exact le_trans (Rat.cast_le.mpr this) (le_of_eq (by norm_num))
    · obtain ⟨m, h1, h2, h3⟩ := ih (n + 1) (r + 1) _ _ v (by rw [hr]; push_cast; ring) ht' hg' h
      exact ⟨m, by omega, by omega, h3⟩

theorem fraction_exact {x p F : ℚ} (hx : 1 < x) (hp : p ≤ x) : ∀ (k n : ℕ) (l g p0 p1 p2 p3 : ℚ) (v : Fl), 0 < l →
    (p0 : ℝ) = l * num x p n → (p1 : ℝ) = l * den x p n → (p2 : ℝ) = l * num x p (n + 1) → (p3 : ℝ) = l * den x p (n + 1) →
    (g : ℝ) = num x p (n + 1) / den x p (n + 1) →
    Gamain.fraction FP.exact (.fin F) k ⟨.fin (n + 1 - p), .fin (x + 2 * n + 2 - p), .fin n, .fin g, .fin p0, .fin p1, .fin p2, .fin p3⟩ = some v →
    ∃ m, n + 1 ≤ m ∧ m ≤ n + k ∧ ∃ g' r : ℚ, v = .fin (1 - F * g') ∧ (g' : ℝ) = num x p m / den x p m ∧
      (r : ℝ) = num x p (m + 1) / den x p (m + 1) ∧ |g' - r| ≤ 1 / 10 ^ 8 ∧ |g' - r| ≤ 1 / 10 ^ 8 * r := by
  have hx' : (1 : ℝ) < x := by exact_mod_cast hx
  have hp' : (p : ℝ) ≤ x := by exact_mod_cast hp
  intro k
  induction k with
  | zero => intro n l g p0 p1 p2 p3 v _ _ _ _ _ _ h; simp [Gamain.fraction] at h
  | succ k ih =>
    intro n l g p0 p1 p2 p3 v hl h0 h1 h2 h3 hg h
    unfold Gamain.fraction at h
    have e1 : Gamain.nextFrac FP.exact ⟨.fin (n + 1 - p), .fin (x + 2 * n + 2 - p), .fin n, .fin g, .fin p0, .fin p1, .fin p2, .fin p3⟩ =
        ⟨.fin (n + 1 - p + 1), .fin (x + 2 * n + 2 - p + 2), .fin (n + 1), .fin g, .fin p0, .fin p1, .fin p2, .fin p3⟩ := rfl
    rw [e1] at h
    have e2 : ∀ hi lo : ℚ, Gamain.newPn FP.exact ⟨.fin (n + 1 - p + 1), .fin (x + 2 * n + 2 - p + 2), .fin (n + 1), .fin g, .fin p0, .fin p1, .fin p2, .fin p3⟩
        (.fin hi) (.fin lo) = .fin ((x + 2 * n + 2 - p + 2) * hi - (n + 1 - p + 1) * (n + 1) * lo) := by
      intro hi lo
      show Fl.fin _ = Fl.fin _
      congr 1; ring
    simp only [e2] at h
    set p4 : ℚ := (x + 2 * n + 2 - p + 2) * p2 - (n + 1 - p + 1) * (n + 1) * p0 with hp4
    set p5 : ℚ := (x + 2 * n + 2 - p + 2) * p3 - (n + 1 - p + 1) * (n + 1) * p1 with hp5
    have h4 : (p4 : ℝ) = l * num x p (n + 1 + 1) := by
      rw [hp4]; simp only [num]; push_cast; rw [h2, h0]; ring
    have h5 : (p5 : ℝ) = l * den x p (n + 1 + 1) := by
      rw [hp5]; simp only [den]; push_cast; rw [h3, h1]; ring
    have hl' : (0 : ℝ) < l := by exact_mod_cast hl
    have hd := (den_bounds hx' hp' (n + 1 + 1)).1
    have hp50 : p5 ≠ 0 := by
      intro hc
      rw [hc, Rat.cast_zero] at h5
      have := mul_pos hl' hd
      linarith
    have e3 : FP.feq (.fin p5) (.fin 0) = false := by unfold FP.feq; simp [hp50]
    have hr : ((p4 / p5 : ℚ) : ℝ) = num x p (n + 1 + 1) / den x p (n + 1 + 1) := by
      push_cast
      rw [h4, h5, mul_div_mul_left _ _ hl'.ne']
    have e4 : FP.abs (FP.exact.sub (.fin g) (.fin (p4 / p5))) = .fin |g - p4 / p5| := by
      show Fl.fin _ = Fl.fin _
      congr 1
      rw [sub_eq_add_neg]
    have e5 : Gamain.acu FP.exact = .fin (1 / 10 ^ 8) := rfl
    have e6 : FP.exact.mul (.fin (1 / 10 ^ 8)) (.fin (p4 / p5)) = .fin (1 / 10 ^ 8 * (p4 / p5)) := rfl
    have e7 : FP.exact.sub (.fin 1) (FP.exact.mul (.fin F) (.fin g)) = .fin (1 - F * g) := by
      show Fl.fin _ = Fl.fin _
      congr 1; ring
    simp only [e3, Bool.not_false, if_true, div_exact hp50, e4, e5, e6, e7, le_fin] at h
    split at h
    · rename_i hc
      rw [Bool.and_eq_true] at hc
      simp only [Option.some.injEq] at h
      exact ⟨n + 1, le_rfl, by omega, g, p4 / p5, h.symm, hg, hr, of_decide_eq_true hc.1, of_decide_eq_true hc.2⟩
    · have ea : (n + 1 - p + 1 : ℚ) = ((n + 1 : ℕ) : ℚ) + 1 - p := by push_cast; ring
      have eb : (x + 2 * n + 2 - p + 2 : ℚ) = x + 2 * ((n + 1 : ℕ) : ℚ) + 2 - p := by push_cast; ring
      have ec : (n + 1 : ℚ) = ((n + 1 : ℕ) : ℚ) := by push_cast; ring
      rw [ea, eb, ec] at h
      have eo : Gamain.oflo FP.exact = .fin (10 ^ 37) := rfl
      have ho : (10 ^ 37 : ℚ) ≠ 0 := by norm_num
      unfold Gamain.shiftPn at h
      rw [eo] at h
      simp only [div_exact ho] at h
      have hdiv : ∀ (q : ℚ) (z : ℝ), (q : ℝ) = l * z → ((q / 10 ^ 37 : ℚ) : ℝ) = ((l / 10 ^ 37 : ℚ) : ℝ) * z := by
        intro q z hq
        push_cast
        rw [hq]; ring
      split at h
      · obtain ⟨m, ha, hb, hc⟩ := ih (n + 1) (l / 10 ^ 37) (p4 / p5) _ _ _ _ v (by positivity) (hdiv _ _ h2) (hdiv _ _ h3) (hdiv _ _ h4) (hdiv _ _ h5) hr h
        exact ⟨m, by omega, by omega, hc⟩
      · obtain ⟨m, ha, hb, hc⟩ := ih (n + 1) l (p4 / p5) _ _ _ _ v hl h2 h3 h4 h5 hr h
        exact ⟨m, by omega, by omega, hc⟩

end HL.GammaR

import Verif.Proof.GammaFrac
import Verif.Proof.PValueRound

/-
The recurrence behind the continued fraction of `gamain`, over any ordered field: growth of its solutions, used for the
rational sequences the rounded computation follows and for the real ones.
-/

namespace HL.GammaR
open HL.Integerise

section Field
variable {K : Type*} [Field K] [LinearOrder K] [IsStrictOrderedRing K] {x s : K} {y : ℕ → K}

/-- the recurrence of numerators and denominators -/
def Rec (x s : K) (y : ℕ → K) : Prop := ∀ n : ℕ, y (n + 2) = (x + 2 * n + 4 - s) * y (n + 1) - (n + 1) * (n + 2 - s) * y n

/-- a solution that starts with enough growth -/
structure Sol (x s : K) (y : ℕ → K) : Prop where
  step : Rec x s y
  pos0 : 0 < y 0
  lo : s ≤ 1 → (x + 1) * y 0 ≤ y 1
  hi : 1 ≤ s → (x + 2 - s) * y 0 ≤ y 1

theorem weak_pos (hx : 1 < x) (hs : s ≤ x) (hr : Rec x s y) (h0 : 0 < y 0) (h1 : y 0 ≤ y 1) : ∀ n : ℕ, 0 < y n ∧ (n + 1) * y n ≤ y (n + 1)
  | 0 => by simpa using ⟨h0, h1⟩
  | n + 1 => by
    obtain ⟨h0, h1⟩ := weak_pos hx hs hr h0 h1 n
    have hn : (0 : K) ≤ n := Nat.cast_nonneg n
    have hp : 0 < y (n + 1) := lt_of_lt_of_le (by positivity) h1
    refine ⟨hp, ?_⟩
    rw [hr n]
    push_cast
    rcases le_total 0 ((n : K) + 2 - s) with h | h
    · have := mul_le_mul_of_nonneg_left h1 h
      nlinarith
    · have : 0 ≤ (n + 1) * (s - n - 2) * y n := by
        have : 0 ≤ s - n - 2 := by linarith
        positivity
      nlinarith

theorem Sol.weak (hx : 1 < x) (hs : s ≤ x) (h : Sol x s y) : y 0 ≤ y 1 := by
  have := h.pos0
  rcases le_total s 1 with h1 | h1
  · have := h.lo h1; nlinarith
  · have := h.hi h1; nlinarith

theorem Sol.pos (hx : 1 < x) (hs : s ≤ x) (h : Sol x s y) (n : ℕ) : 0 < y n := (weak_pos hx hs h.step h.pos0 (h.weak hx hs) n).1

theorem Sol.incr (hx : 1 < x) (hs : s ≤ x) (h : Sol x s y) (n : ℕ) : (n + 1) * y n ≤ y (n + 1) :=
  (weak_pos hx hs h.step h.pos0 (h.weak hx hs) n).2

theorem Sol.early (hx : 1 < x) (hs : s ≤ x) (h : Sol x s y) : ∀ n : ℕ, (n : K) + 1 ≤ s → (x + 2 * n + 2 - s) * y n ≤ y (n + 1)
  | 0, hn => by simpa using h.hi (by simpa using hn)
  | n + 1, hn => by
    have h0 := h.pos hx hs n
    have hnn : (0 : K) ≤ n := Nat.cast_nonneg n
    push_cast at hn
    rw [h.step n]
    have : 0 ≤ (n + 1) * (s - n - 2) * y n := by
      have : 0 ≤ s - n - 2 := by linarith
      positivity
    push_cast
    nlinarith

/-- beyond the order of the function, growth by a fixed margin for 10000 steps -/
theorem Sol.grow (hx : 1 < x) (hs : s ≤ x) (h : Sol x s y) : ∀ n : ℕ, n ≤ 10000 → 0 ≤ (n : K) + 2 - s → 203 / 202 * (n + 1) * y n ≤ y (n + 1)
  | 0, _, hA => by
    have := h.pos0
    simp only [Nat.cast_zero, zero_add, mul_one] at hA ⊢
    rcases le_total s 1 with h1 | h1
    · have := h.lo h1
      nlinarith
    · have := h.hi h1
      nlinarith
  | n + 1, hn, hA => by
    have hp := h.pos hx hs (n + 1)
    have hnn : (0 : K) ≤ n := Nat.cast_nonneg n
    have hnr : (n : K) + 1 ≤ 10000 := by exact_mod_cast hn
    push_cast at hA ⊢
    rcases le_total 0 ((n : K) + 2 - s) with h1 | h1
    · have ih := Sol.grow hx hs h n (by omega) h1
      rw [h.step n]
      have t : (n + 1) * (n + 2 - s) * y n ≤ (n + 2 - s) * (202 / 203 * y (n + 1)) := by
        have : (n + 1) * y n ≤ 202 / 203 * y (n + 1) := by linarith
        calc _ = ((n : K) + 2 - s) * ((n + 1) * y n) := by ring
          _ ≤ _ := mul_le_mul_of_nonneg_left this h1
      have t2 : 203 / 202 * ((n : K) + 1 + 1) ≤ x + 2 * n + 4 - s - 202 / 203 * (n + 2 - s) := by linarith
      have := mul_le_mul_of_nonneg_right t2 hp.le
      linarith
    · have := h.early hx hs (n + 1) (by push_cast; linarith)
      push_cast at this
      refine le_trans (mul_le_mul_of_nonneg_right ?_ hp.le) this
      linarith

theorem Sol.theta (hx : 1 < x) (hs : s ≤ x) (h : Sol x s y) (hs0 : 0 ≤ s) {n : ℕ} (hn : n + 1 ≤ 10000) (hA : 0 ≤ (n : K) + 2 - s) :
    (n + 1) * (n + 2 - s) * y n ≤ 101 / 102 * y (n + 2) := by
  have h0 := h.pos hx hs n
  have hnn : (0 : K) ≤ n := Nat.cast_nonneg n
  have g0 := h.grow hx hs n (by omega) hA
  have g1 := h.grow hx hs (n + 1) hn (by push_cast; linarith)
  push_cast at g1
  have g2 : 203 / 202 * ((n : K) + 1 + 1) * (203 / 202 * (n + 1) * y n) ≤ y (n + 2) :=
    le_trans (mul_le_mul_of_nonneg_left g0 (by positivity)) g1
  have g3 : 101 / 102 * (203 / 202 * ((n : K) + 1 + 1) * (203 / 202 * (n + 1) * y n)) ≤ 101 / 102 * y (n + 2) :=
    mul_le_mul_of_nonneg_left g2 (by norm_num)
  refine le_trans ?_ g3
  have e : 101 / 102 * (203 / 202 * ((n : K) + 1 + 1) * (203 / 202 * (n + 1) * y n)) =
      (101 / 102 * (203 / 202) * (203 / 202)) * (((n : K) + 1) * (n + 2) * y n) := by ring
  rw [e]
  have t1 : (n + 1) * ((n : K) + 2 - s) * y n ≤ (n + 1) * (n + 2) * y n :=
    mul_le_mul_of_nonneg_right (mul_le_mul_of_nonneg_left (by linarith) (by positivity)) h0.le
  have t2 : 0 ≤ ((n : K) + 1) * (n + 2) * y n := by positivity
  have t3 : (1 : K) ≤ 101 / 102 * (203 / 202) * (203 / 202) := by norm_num
  calc _ ≤ 1 * (((n : K) + 1) * (n + 2) * y n) := by rw [one_mul]; exact t1
    _ ≤ _ := mul_le_mul_of_nonneg_right t3 t2

end Field

/-! ### the numerators and denominators as rational numbers -/

def numQ (x s : ℚ) : ℕ → ℚ
  | 0 => 1
  | 1 => x + 1
  | n + 2 => (x + 2 * n + 4 - s) * numQ x s (n + 1) - (n + 1) * (n + 2 - s) * numQ x s n

def denQ (x s : ℚ) : ℕ → ℚ
  | 0 => x
  | 1 => x * (x + 2 - s)
  | n + 2 => (x + 2 * n + 4 - s) * denQ x s (n + 1) - (n + 1) * (n + 2 - s) * denQ x s n

theorem numQ_cast (x s : ℚ) : ∀ n, ((numQ x s n : ℚ) : ℝ) = num x s n
  | 0 => by simp [numQ, num]
  | 1 => by simp [numQ, num]
  | n + 2 => by simp only [numQ, num]; push_cast; rw [numQ_cast x s n, numQ_cast x s (n + 1)]

theorem denQ_cast (x s : ℚ) : ∀ n, ((denQ x s n : ℚ) : ℝ) = den x s n
  | 0 => by simp [denQ, den]
  | 1 => by simp [denQ, den]
  | n + 2 => by simp only [denQ, den]; push_cast; rw [denQ_cast x s n, denQ_cast x s (n + 1)]

theorem numQ_sol (x s : ℚ) : Sol x s (numQ x s) :=
  ⟨fun _ => rfl, by simp [numQ], fun h => by simp [numQ], fun h => by simp only [numQ]; linarith⟩

theorem denQ_sol {x s : ℚ} (hx : 1 < x) (hs : s ≤ x) : Sol x s (denQ x s) :=
  ⟨fun _ => rfl, by simp only [denQ]; linarith, fun h => by simp only [denQ]; nlinarith, fun h => by simp only [denQ]; linarith⟩

theorem den_sol {x s : ℝ} (hx : 1 < x) : Sol x s (den x s) :=
  ⟨fun _ => rfl, by simp only [den]; linarith, fun h => by simp only [den]; nlinarith, fun h => by simp only [den]; linarith⟩

/-- the convergents are at most 1 and at least `1 / 2x` -/
theorem conv_bounds {x s : ℚ} (hx : 1 < x) (hs : s ≤ x) (hs0 : 0 < s) (n : ℕ) : numQ x s n ≤ denQ x s n ∧ denQ x s n ≤ 2 * x * numQ x s n := by
  constructor
  · have := (weak_pos (y := fun n => denQ x s n - numQ x s n) hx hs (fun n => by simp only [denQ, numQ]; ring)
      (by simp only [denQ, numQ]; linarith) (by simp only [denQ, numQ]; nlinarith) n).1
    linarith
  · have := (weak_pos (y := fun n => 2 * x * numQ x s n - denQ x s n) hx hs (fun n => by simp only [denQ, numQ]; ring)
      (by simp only [denQ, numQ]; linarith) (by simp only [denQ, numQ]; nlinarith) n).1
    linarith

/-- growth from above -/
theorem Sol.upper {x s : ℚ} {y : ℕ → ℚ} (hx : 1 < x) (hs : s ≤ x) (hs0 : 0 < s) (hxb : x ≤ 500000) (h : Sol x s y) (h1 : y 1 ≤ 2 ^ 33 * y 0) :
    ∀ n : ℕ, n ≤ 10000 → y (n + 1) ≤ 2 ^ 33 * y n
  | 0, _ => h1
  | n + 1, hn => by
    have h0 := h.pos hx hs n
    have hp := h.pos hx hs (n + 1)
    have hi := h.incr hx hs n
    have hnn : (0 : ℚ) ≤ n := Nat.cast_nonneg n
    have hnr : (n : ℚ) + 1 ≤ 10000 := by exact_mod_cast hn
    rw [h.step n]
    have t1 : -((n + 1) * ((n : ℚ) + 2 - s) * y n) ≤ 500000 * y (n + 1) := by
      have : -((n + 1) * ((n : ℚ) + 2 - s) * y n) = (s - n - 2) * ((n + 1) * y n) := by ring
      rw [this]
      rcases le_total 0 (s - n - 2) with h2 | h2
      · exact mul_le_mul (by linarith) hi (by positivity) (by norm_num)
      · have : (s - n - 2) * ((n + 1) * y n) ≤ 0 := mul_nonpos_of_nonpos_of_nonneg h2 (by positivity)
        have : 0 ≤ 500000 * y (n + 1) := by positivity
        linarith
    have t2 : (x + 2 * n + 4 - s) * y (n + 1) ≤ 600000 * y (n + 1) := mul_le_mul_of_nonneg_right (by linarith) hp.le
    have t3 : (1100000 : ℚ) * y (n + 1) ≤ 2 ^ 33 * y (n + 1) := mul_le_mul_of_nonneg_right (by norm_num) hp.le
    linarith

end HL.GammaR

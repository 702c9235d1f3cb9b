import Mathlib.Analysis.Calculus.Deriv.Mul
import Mathlib.Analysis.Calculus.Deriv.Add
import Mathlib.Analysis.Calculus.Deriv.Pow
import Mathlib.Data.Real.Basic
import Mathlib.Tactic.FieldSimp
import Mathlib.Tactic.Linarith

/-
Polynomials with integer coefficients as lists, lowest degree first: arithmetic, derivative, and a test, by
computation with the coefficients, that a polynomial is positive on an interval.
-/

namespace HL.PolyCert

/-- value at a real number -/
noncomputable def ev : List ℤ → ℝ → ℝ
  | [], _ => 0
  | a :: p, x => a + x * ev p x

def add : List ℤ → List ℤ → List ℤ
  | [], q => q
  | p, [] => p
  | a :: p, b :: q => (a + b) :: add p q

def smul (k : ℤ) : List ℤ → List ℤ
  | [] => []
  | a :: p => (k * a) :: smul k p

def mul : List ℤ → List ℤ → List ℤ
  | [], _ => []
  | a :: p, q => add (smul a q) (0 :: mul p q)

/-- derivative: `(a + x p)' = p + x p'` -/
def der : List ℤ → List ℤ
  | [] => []
  | _ :: p => add p (0 :: der p)

theorem ev_add (p q : List ℤ) (x : ℝ) : ev (add p q) x = ev p x + ev q x := by
  induction p generalizing q with
  | nil => simp [add, ev]
  | cons a p ih =>
    cases q with
    | nil => simp [add, ev]
    | cons b q => simp only [add, ev, ih]; push_cast; ring

theorem ev_smul (k : ℤ) (p : List ℤ) (x : ℝ) : ev (smul k p) x = k * ev p x := by
  induction p with
  | nil => simp [smul, ev]
  | cons a p ih => simp only [smul, ev, ih]; push_cast; ring

theorem ev_mul (p q : List ℤ) (x : ℝ) : ev (mul p q) x = ev p x * ev q x := by
  induction p with
  | nil => simp [mul, ev]
  | cons a p ih => simp only [mul, ev_add, ev_smul, ev, ih]; push_cast; ring

theorem ev_der (p : List ℤ) (x : ℝ) : HasDerivAt (ev p) (ev (der p) x) x := by
  induction p with
  | nil => exact hasDerivAt_const x 0
  | cons a p ih =>
    have h := ((hasDerivAt_id x).mul ih).const_add (a : ℝ)
    refine h.congr_deriv ?_
    simp only [der, ev_add, ev, id]; push_cast; ring

/-- the coefficients, in `y`, of `(d (1 + y)) ^ n * p ((b + a y) / (d (1 + y)))` for `n` the length of `p`, and of
`(d (1 + y)) ^ n` -/
def homog (a b d : ℤ) : List ℤ → List ℤ × List ℤ
  | [] => ([], [1])
  | k :: p =>
    let r := homog a b d p
    let l := mul [d, d] r.2
    (add (smul k l) (mul [b, a] r.1), l)

theorem homog_spec (a b d : ℤ) (p : List ℤ) (x y : ℝ) (h : d * (1 + y) * x = b + a * y) :
    ev (homog a b d p).2 y = (d * (1 + y)) ^ p.length ∧
    ev (homog a b d p).1 y = (d * (1 + y)) ^ p.length * ev p x := by
  induction p with
  | nil => simp [homog, ev]
  | cons k p ih =>
    obtain ⟨h2, h1⟩ := ih
    simp only [homog, ev_add, ev_smul, ev_mul, h1, h2, List.length_cons, pow_succ, ev]
    refine ⟨by ring, ?_⟩
    rw [show (b : ℝ) + y * (a + y * 0) = d * (1 + y) * x by rw [h]; ring]
    ring

/-- every coefficient positive -/
def allPos (p : List ℤ) : Bool := !p.isEmpty && p.all (fun k => decide (0 < k))

theorem ev_pos : ∀ (p : List ℤ) (y : ℝ), 0 ≤ y → allPos p = true → 0 < ev p y
  | [], _, _, h => by simp [allPos] at h
  | [k], y, _, h => by
    simp [allPos] at h
    simp only [ev]
    have : (0 : ℝ) < k := by exact_mod_cast h
    linarith
  | k :: k' :: p, y, hy, h => by
    simp only [allPos, List.isEmpty_cons, Bool.not_false, Bool.true_and, List.all_cons, Bool.and_eq_true, decide_eq_true_eq] at h
    have := ev_pos (k' :: p) y hy (by simpa only [allPos, List.isEmpty_cons, Bool.not_false, Bool.true_and, List.all_cons, Bool.and_eq_true,
      decide_eq_true_eq] using h.2)
    have h1 : (0 : ℝ) < k := by exact_mod_cast h.1
    rw [ev]
    nlinarith

/-- the test for `(a / d, b / d]` -/
def posOn (a b d : ℤ) (p : List ℤ) : Bool := allPos (homog a b d p).1

theorem posOn_spec {a b d : ℤ} {p : List ℤ} (hp : posOn a b d p = true) (hd : 0 < d) {x : ℝ} (h1 : (a : ℝ) / d < x)
    (h2 : x ≤ (b : ℝ) / d) : 0 < ev p x := by
  have hd' : (0 : ℝ) < d := by exact_mod_cast hd
  rw [div_lt_iff₀ hd'] at h1
  rw [le_div_iff₀ hd'] at h2
  have hs : 0 < x * d - a := by linarith
  set y := (b - x * d) / (x * d - a) with hy
  have hy0 : 0 ≤ y := div_nonneg (by linarith) hs.le
  have he : d * (1 + y) * x = b + a * y := by
    have := div_mul_cancel₀ (b - x * d) hs.ne'
    rw [← hy] at this
    linear_combination this
  have h := (homog_spec a b d p x y he).2
  have hpos := ev_pos _ y hy0 hp
  rw [h] at hpos
  exact pos_of_mul_pos_right hpos (by positivity)

end HL.PolyCert

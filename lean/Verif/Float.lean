import Mathlib.Algebra.Order.Field.Basic
import Mathlib.Algebra.Order.Field.Power
import Mathlib.Algebra.Order.Floor.Defs
import Mathlib.Algebra.Order.Floor.Ring
import Mathlib.Algebra.Order.Round
import Mathlib.Data.Rat.Floor
import Mathlib.Data.Nat.Log
import Mathlib.Tactic.Ring
import Mathlib.Tactic.Linarith
import Mathlib.Tactic.NormNum
import Mathlib.Tactic.Positivity
import Mathlib.Tactic.FieldSimp
import Verif.Base

/-
Model of C++ `double`.

A value is a finite rational, an infinity or NaN (`+0` and `-0` are identified).  Every arithmetic
operation computes the exact result and rounds it with `fp.rnd`, so the same model covers exact
arithmetic (`FP.exact`) and IEEE 754 binary64 with round-to-nearest-even (`FP.ieee`).
-/

namespace HL

/-- A C++ `double`. -/
inductive Fl
  | fin (q : ℚ)
  | pinf
  | ninf
  | nan
  deriving DecidableEq, Inhabited

/-- A floating-point environment: the rounding of exact results, and libm's `sqrt`
(an uninterpreted parameter). -/
structure FP where
  rnd : ℚ → Fl
  sqrt : Fl → Fl

namespace FP
variable (fp : FP)

def neg : Fl → Fl
  | .fin q => .fin (-q)
  | .pinf => .ninf
  | .ninf => .pinf
  | .nan => .nan

def abs : Fl → Fl
  | .fin q => .fin |q|
  | .pinf => .pinf
  | .ninf => .pinf
  | .nan => .nan

/-- `a + b` -/
def add : Fl → Fl → Fl
  | .nan, _ => .nan
  | _, .nan => .nan
  | .fin a, .fin b => fp.rnd (a + b)
  | .pinf, .ninf => .nan
  | .ninf, .pinf => .nan
  | .pinf, _ => .pinf
  | _, .pinf => .pinf
  | .ninf, _ => .ninf
  | _, .ninf => .ninf

/-- `a - b` -/
def sub (a b : Fl) : Fl := fp.add a (neg b)

/-- Infinity with the sign of `s` (`s ≠ 0`), NaN when `s = 0`. -/
def infOfSign (s : ℚ) : Fl := if s = 0 then .nan else if 0 < s then .pinf else .ninf

/-- sign of a non-NaN value as -1, 0, 1 -/
def sgn : Fl → ℚ
  | .fin q => if q = 0 then 0 else if 0 < q then 1 else -1
  | .pinf => 1
  | .ninf => -1
  | .nan => 0

/-- `a * b` -/
def mul (a b : Fl) : Fl :=
  match a, b with
  | .nan, _ => .nan
  | _, .nan => .nan
  | .fin a, .fin b => fp.rnd (a * b)
  | a, b => infOfSign (sgn a * sgn b)

/-- `a / b` (division of a non-zero finite number by zero gives the infinity with its sign,
`0/0` gives NaN). -/
def div (a b : Fl) : Fl :=
  match a, b with
  | .nan, _ => .nan
  | _, .nan => .nan
  | .fin a, .fin b => if b = 0 then infOfSign a else fp.rnd (a / b)
  | .fin _, _ => .fin 0
  | a, .fin b => if b < 0 then neg a else a
  | _, _ => .nan

/-- `a < b` (false when an operand is NaN) -/
def lt : Fl → Fl → Bool
  | .fin a, .fin b => decide (a < b)
  | .nan, _ => false
  | _, .nan => false
  | .ninf, .ninf => false
  | .ninf, _ => true
  | _, .ninf => false
  | .pinf, _ => false
  | .fin _, .pinf => true

/-- `a <= b` (false when an operand is NaN) -/
def le : Fl → Fl → Bool
  | .fin a, .fin b => decide (a ≤ b)
  | .nan, _ => false
  | _, .nan => false
  | .ninf, _ => true
  | _, .ninf => false
  | .fin _, .pinf => true
  | .pinf, .pinf => true
  | .pinf, .fin _ => false

/-- `a == b` (false when an operand is NaN) -/
def feq : Fl → Fl → Bool
  | .nan, _ => false
  | _, .nan => false
  | a, b => decide (a = b)

/-- conversion of an integer (`int64_t`, `uint32_t`, `size_t`, `int`) to `double` -/
def ofInt (z : ℤ) : Fl := fp.rnd z

/-- truncation toward zero of a rational -/
def truncQ (q : ℚ) : ℤ := if 0 ≤ q then ⌊q⌋ else ⌈q⌉

/-- `static_cast<int64_t>(x)`: undefined outside the range of `int64_t` -/
def toInt64 : Fl → Out ℤ
  | .fin q => if -2 ^ 63 ≤ truncQ q ∧ truncQ q < 2 ^ 63 then .ok (truncQ q) else .ub .badCast
  | _ => .ub .badCast

/-- `static_cast<int>(x)`: undefined outside the range of 32-bit `int` -/
def toInt32 : Fl → Out ℤ
  | .fin q => if -2 ^ 31 ≤ truncQ q ∧ truncQ q < 2 ^ 31 then .ok (truncQ q) else .ub .badCast
  | _ => .ub .badCast

/-- `round(x)` of `<cmath>`: to nearest, halfway cases away from zero (always exact). -/
def roundHalfAway (q : ℚ) : ℤ := if 0 ≤ q then ⌊q + 1 / 2⌋ else ⌈q - 1 / 2⌉

def round : Fl → Fl
  | .fin q => .fin (roundHalfAway q)
  | x => x

/-- Exact rational arithmetic. -/
def exact : FP := ⟨Fl.fin, fun x => x⟩

/-! ### IEEE 754 binary64, round to nearest, ties to even -/

/-- `⌊log₂ q⌋` for `q > 0`. -/
def ilog2 (q : ℚ) : ℤ :=
  let e : ℤ := (Nat.log2 q.num.natAbs : ℤ) - (Nat.log2 q.den : ℤ)
  if q < (2 : ℚ) ^ e then e - 1 else e

/-- nearest integer, ties to even -/
def rne (q : ℚ) : ℤ :=
  let f := ⌊q⌋
  if q - f < 1 / 2 then f
  else if 1 / 2 < q - f then f + 1
  else if f % 2 = 0 then f else f + 1

/-- Rounding to binary64, with gradual underflow and overflow to infinity. -/
def rndIeee (q : ℚ) : Fl :=
  if q = 0 then .fin 0 else
  let e := max (ilog2 |q|) (-1022)
  let u : ℚ := (2 : ℚ) ^ (e - 52)
  let a : ℚ := rne (q / u) * u
  if 2 ^ 1024 ≤ |a| then (if 0 < q then .pinf else .ninf) else .fin a

/-- IEEE binary64 arithmetic; `sqrt` is left as a parameter. -/
def ieee (sqrt : Fl → Fl) : FP := ⟨rndIeee, sqrt⟩

/-- What the theorems about rounded arithmetic ask of the rounding function: it is monotone,
idempotent, exact on dyadic rationals with a 53-bit numerator, accurate to half a unit in the last
place on the normal range, and does not overflow below 2^1023.  `FP.exact` and `FP.ieee` both qualify (`exact_good`, `ieee_good`). -/
structure Good (fp : FP) : Prop where
  dyadic : ∀ (z : ℤ) (k : ℕ), |z| ≤ 2 ^ 53 → k ≤ 64 →
    fp.rnd ((z : ℚ) / 2 ^ k) = .fin ((z : ℚ) / 2 ^ k)
  mono : ∀ p q a b : ℚ, p ≤ q → fp.rnd p = .fin a → fp.rnd q = .fin b → a ≤ b
  idem : ∀ q a : ℚ, fp.rnd q = .fin a → fp.rnd a = .fin a
  near : ∀ q : ℚ, (2 : ℚ) ^ (-1022 : ℤ) ≤ |q| → |q| ≤ 2 ^ 1023 →
    ∃ a, fp.rnd q = .fin a ∧ |a - q| ≤ |q| / 2 ^ 53
  finite : ∀ q : ℚ, |q| ≤ 2 ^ 1023 → ∃ a, fp.rnd q = .fin a

theorem exact_good : Good exact where
  dyadic _ _ _ _ := rfl
  mono p q a b h ha hb := by
    simp only [exact, Fl.fin.injEq] at ha hb; rw [← ha, ← hb]; exact h
  idem _ _ _ := rfl
  near q _ _ := ⟨q, rfl, by simp; positivity⟩
  finite q _ := ⟨q, rfl⟩

/-! ### binary64 meets `Good` -/

theorem ilog2_spec {q : ℚ} (hq : 0 < q) : (2 : ℚ) ^ ilog2 q ≤ q ∧ q < (2 : ℚ) ^ (ilog2 q + 1) := by
  have hn : q.num.natAbs ≠ 0 := by
    have := Rat.num_pos.mpr hq; omega
  have hd : q.den ≠ 0 := q.den_nz
  have hqe : q = (q.num.natAbs : ℚ) / (q.den : ℚ) := by
    have h1 : ((q.num.natAbs : ℤ) : ℚ) = (q.num : ℚ) := by
      have := Rat.num_pos.mpr hq
      congr 1; omega
    have h2 : (q.num.natAbs : ℚ) = (q.num : ℚ) := by rw [← h1, Int.cast_natCast]
    rw [h2, Rat.num_div_den]
  set N := q.num.natAbs with hN
  set D := q.den with hD
  have hN1 : 2 ^ Nat.log2 N ≤ N := Nat.log2_self_le hn
  have hN2 : N < 2 ^ (Nat.log2 N + 1) := Nat.lt_log2_self
  have hD1 : 2 ^ Nat.log2 D ≤ D := Nat.log2_self_le hd
  have hD2 : D < 2 ^ (Nat.log2 D + 1) := Nat.lt_log2_self
  have hDpos : (0 : ℚ) < D := by exact_mod_cast Nat.pos_of_ne_zero hd
  have c1 : (2 : ℚ) ^ (Nat.log2 N) ≤ N := by exact_mod_cast hN1
  have c2 : (N : ℚ) < 2 ^ (Nat.log2 N + 1) := by exact_mod_cast hN2
  have c3 : (2 : ℚ) ^ (Nat.log2 D) ≤ D := by exact_mod_cast hD1
  have c4 : (D : ℚ) < 2 ^ (Nat.log2 D + 1) := by exact_mod_cast hD2
  have two : (2 : ℚ) ≠ 0 := by norm_num
  have hlow : (2 : ℚ) ^ ((Nat.log2 N : ℤ) - (Nat.log2 D : ℤ) - 1) < q := by
    rw [hqe, lt_div_iff₀ hDpos, show (Nat.log2 N : ℤ) - (Nat.log2 D : ℤ) - 1 =
      (Nat.log2 N : ℤ) - ((Nat.log2 D + 1 : ℕ) : ℤ) by push_cast; ring, zpow_sub₀ two,
      zpow_natCast, zpow_natCast]
    have hp : (0 : ℚ) < 2 ^ (Nat.log2 D + 1) := by positivity
    rw [div_mul_eq_mul_div, div_lt_iff₀ hp]
    calc (2 : ℚ) ^ Nat.log2 N * D ≤ N * D := by gcongr
      _ < N * 2 ^ (Nat.log2 D + 1) := by
          have : (0 : ℚ) < N := by exact_mod_cast Nat.pos_of_ne_zero hn
          gcongr
  have hhigh : q < (2 : ℚ) ^ ((Nat.log2 N : ℤ) - (Nat.log2 D : ℤ) + 1) := by
    rw [hqe, div_lt_iff₀ hDpos, show (Nat.log2 N : ℤ) - (Nat.log2 D : ℤ) + 1 =
      ((Nat.log2 N + 1 : ℕ) : ℤ) - (Nat.log2 D : ℤ) by push_cast; ring, zpow_sub₀ two,
      zpow_natCast, zpow_natCast]
    have hp : (0 : ℚ) < 2 ^ (Nat.log2 D) := by positivity
    rw [div_mul_eq_mul_div, lt_div_iff₀ hp]
    calc (N : ℚ) * 2 ^ Nat.log2 D ≤ N * D := by gcongr
      _ < 2 ^ (Nat.log2 N + 1) * D := by gcongr
  unfold ilog2
  simp only [← hN, ← hD]
  split
  · rename_i h
    refine ⟨hlow.le, ?_⟩
    rw [sub_add_cancel]; exact h
  · rename_i h
    exact ⟨not_lt.mp h, hhigh⟩

theorem ilog2_unique {q : ℚ} {e : ℤ} (h1 : (2 : ℚ) ^ e ≤ q) (h2 : q < (2 : ℚ) ^ (e + 1)) :
    ilog2 q = e := by
  have hq : 0 < q := lt_of_lt_of_le (by positivity) h1
  obtain ⟨h3, h4⟩ := ilog2_spec hq
  have a1 := (zpow_lt_zpow_iff_right₀ (a := (2:ℚ)) (by norm_num)).mp (lt_of_le_of_lt h1 h4)
  have a2 := (zpow_lt_zpow_iff_right₀ (a := (2:ℚ)) (by norm_num)).mp (lt_of_le_of_lt h3 h2)
  omega

theorem ilog2_mono {p q : ℚ} (hp : 0 < p) (h : p ≤ q) : ilog2 p ≤ ilog2 q := by
  have h1 := (ilog2_spec hp).1
  have h2 := (ilog2_spec (lt_of_lt_of_le hp h)).2
  have := (zpow_lt_zpow_iff_right₀ (a := (2:ℚ)) (by norm_num)).mp (lt_of_le_of_lt (h1.trans h) h2)
  omega

theorem rne_int (z : ℤ) : rne (z : ℚ) = z := by
  unfold rne; simp

theorem rne_abs_sub (q : ℚ) : |(rne q : ℚ) - q| ≤ 1 / 2 := by
  unfold rne
  have h1 := Int.floor_le q
  have h2 := Int.lt_floor_add_one q
  rw [abs_le]
  simp only
  split
  · constructor <;> linarith
  · split
    · push_cast; constructor <;> linarith
    · split
      · constructor <;> linarith
      · push_cast; constructor <;> linarith

theorem rne_mono {p q : ℚ} (h : p ≤ q) : rne p ≤ rne q := by
  have h1 := Int.floor_le p
  have h2 := Int.lt_floor_add_one p
  have h3 := Int.floor_le q
  have h4 := Int.lt_floor_add_one q
  have hf : ⌊p⌋ ≤ ⌊q⌋ := Int.floor_mono h
  rcases hf.lt_or_eq with hlt | heq
  · have : rne p ≤ ⌊p⌋ + 1 := by
      unfold rne; simp only; split
      · omega
      · split
        · omega
        · split <;> omega
    have h5 : ⌊q⌋ ≤ rne q := by
      unfold rne; simp only; split
      · omega
      · split
        · omega
        · split <;> omega
    omega
  · unfold rne
    simp only [heq]
    split
    · split
      · omega
      · split
        · omega
        · split <;> omega
    · rename_i hp
      rw [heq] at *
      have : ¬ (q - ⌊q⌋ < 1/2) := by
        intro hh; apply hp; linarith
      simp only [this, if_false]
      split
      · have : (1/2 < q - ⌊q⌋) := by linarith
        simp only [this, if_true, le_refl]
      · split
        · split <;> omega
        · split <;> omega

theorem rne_neg (q : ℚ) : rne (-q) = - rne q := by
  by_cases hi : (⌊q⌋ : ℚ) = q
  · rw [← hi, rne_int, ← Int.cast_neg, rne_int]
  · have h1 : ⌊-q⌋ = -⌊q⌋ - 1 := by
      rw [Int.floor_neg]
      have : ⌈q⌉ = ⌊q⌋ + 1 := by
        have ha := Int.floor_le q
        have hb := Int.lt_floor_add_one q
        rw [Int.ceil_eq_iff]
        push_cast
        constructor
        · rcases ha.lt_or_eq with h | h
          · linarith
          · exact absurd h hi
        · linarith
      omega
    unfold rne
    simp only [h1]
    have e1 : (-q - ((-⌊q⌋ - 1 : ℤ) : ℚ)) = 1 - (q - ⌊q⌋) := by push_cast; ring
    rw [e1]
    rcases lt_trichotomy (q - ⌊q⌋) (1/2) with h | h | h
    · have : ¬ (1 - (q - (⌊q⌋:ℚ)) < 1/2) := by linarith
      have h' : 1/2 < 1 - (q - (⌊q⌋:ℚ)) := by linarith
      simp only [this, h', h, if_true, if_false]
      omega
    · have : ¬ (1 - (q - (⌊q⌋:ℚ)) < 1/2) := by linarith
      have h' : ¬ (1/2 < 1 - (q - (⌊q⌋:ℚ))) := by linarith
      have h2 : ¬ (q - (⌊q⌋:ℚ) < 1/2) := by linarith
      have h3 : ¬ (1/2 < q - (⌊q⌋:ℚ)) := by linarith
      rw [if_neg this, if_neg h', if_neg h2, if_neg h3]
      split <;> split <;> omega
    · have : (1 - (q - (⌊q⌋:ℚ)) < 1/2) := by linarith
      have h' : ¬ (q - (⌊q⌋:ℚ) < 1/2) := by linarith
      simp only [this, h, h', if_false, if_true]
      omega

theorem rndIeee_neg (q : ℚ) : rndIeee (-q) = neg (rndIeee q) := by
  unfold rndIeee
  by_cases h0 : q = 0
  · simp [h0, neg]
  · have h0' : -q ≠ 0 := by simpa using h0
    simp only [h0, h0', if_false, abs_neg, neg_div, rne_neg]
    push_cast
    rw [neg_mul, abs_neg]
    split
    · rcases lt_or_gt_of_ne h0 with h | h
      · have : ¬ (0 < q) := by linarith
        simp [h, this, neg]
      · have : ¬ (q < 0) := by linarith
        simp [h, this, neg]
    · simp [neg]

/-- unit in the last place used when rounding a number of magnitude `q` -/
def ulp (q : ℚ) : ℚ := (2 : ℚ) ^ (max (ilog2 q) (-1022) - 52)

theorem ulp_pos (q : ℚ) : 0 < ulp q := by unfold ulp; positivity

theorem rndIeee_pos {q : ℚ} (hq : 0 < q) :
    rndIeee q = if 2 ^ 1024 ≤ (rne (q / ulp q) : ℚ) * ulp q then .pinf
      else .fin ((rne (q / ulp q) : ℚ) * ulp q) := by
  have h0 : q ≠ 0 := hq.ne'
  have ha : 0 ≤ (rne (q / ulp q) : ℚ) * ulp q := by
    have : (0 : ℤ) ≤ rne (q / ulp q) := by
      have := rne_mono (p := ((0:ℤ):ℚ)) (q := q / ulp q) (by
        have := ulp_pos q; push_cast; positivity)
      rwa [rne_int] at this
    have h2 : (0:ℚ) ≤ (rne (q / ulp q) : ℚ) := by exact_mod_cast this
    exact mul_nonneg h2 (ulp_pos q).le
  unfold rndIeee
  simp only [h0, if_false, abs_of_pos hq]
  rw [show (2:ℚ) ^ (max (ilog2 q) (-1022) - 52) = ulp q from rfl, abs_of_nonneg ha]
  simp [hq]

theorem rndIeee_zero : rndIeee 0 = .fin 0 := by simp [rndIeee]

theorem fin_pos_bounds {q a : ℚ} (hq : 0 < q) (h : rndIeee q = .fin a) :
    a = (rne (q / ulp q) : ℚ) * ulp q ∧ 0 ≤ a := by
  rw [rndIeee_pos hq] at h
  split at h
  · cases h
  · injection h with h
    refine ⟨h.symm, ?_⟩
    rw [← h]
    have : (0 : ℤ) ≤ rne (q / ulp q) := by
      have := rne_mono (p := ((0:ℤ):ℚ)) (q := q / ulp q) (by
        have := ulp_pos q; push_cast; positivity)
      rwa [rne_int] at this
    have h2 : (0:ℚ) ≤ (rne (q / ulp q) : ℚ) := by exact_mod_cast this
    exact mul_nonneg h2 (ulp_pos q).le

/-- A number that fits in 53 bits above the smallest subnormal is its own rounding. -/
theorem rndIeee_exact {n t : ℤ} (hn : |n| ≤ 2 ^ 53) (ht : -1074 ≤ t)
    (hb : |(n : ℚ) * (2 : ℚ) ^ t| < 2 ^ 1024) :
    rndIeee ((n : ℚ) * (2 : ℚ) ^ t) = .fin ((n : ℚ) * (2 : ℚ) ^ t) := by
  wlog hpos : 0 ≤ n generalizing n
  · have := this (n := -n) (by rwa [abs_neg]) (by push_cast; rwa [neg_mul, abs_neg]) (by omega)
    push_cast at this
    rw [neg_mul, rndIeee_neg] at this
    cases hc : rndIeee ((n : ℚ) * (2 : ℚ) ^ t) with
    | fin c =>
      rw [hc] at this; simp only [neg, Fl.fin.injEq, neg_inj] at this; rw [this]
    | pinf => rw [hc] at this; cases this
    | ninf => rw [hc] at this; cases this
    | nan => rw [hc] at this; cases this
  rcases hpos.lt_or_eq with hpos | h0
  swap
  · rw [← h0]; simp [rndIeee_zero]
  have hnq : (0 : ℚ) < n := by exact_mod_cast hpos
  have two : (2 : ℚ) ≠ 0 := by norm_num
  set q := (n : ℚ) * (2 : ℚ) ^ t with hqdef
  have hq : 0 < q := by positivity
  rw [abs_of_pos hq] at hb
  have hnle : n ≤ 2 ^ 53 := (le_abs_self n).trans hn
  have key : ∃ z : ℤ, q / ulp q = z := by
    -- exponent of the unit is at most t, or n = 2^53
    set e := max (ilog2 q) (-1022) with he
    have hu : ulp q = (2 : ℚ) ^ (e - 52) := rfl
    have hdiv : q / ulp q = (n : ℚ) * (2 : ℚ) ^ (t - (e - 52)) := by
      rw [hu, hqdef, mul_div_assoc, ← zpow_sub₀ two]
    rw [hdiv]
    by_cases hle : e - 52 ≤ t
    · refine ⟨n * 2 ^ (t - (e - 52)).toNat, ?_⟩
      push_cast
      congr 1
      conv_lhs => rw [← Int.toNat_of_nonneg (show 0 ≤ t - (e - 52) by omega)]
      rw [zpow_natCast]
    · have hlt : t < e - 52 := not_le.mp hle
      have he2 : e = ilog2 q := by
        have : -1022 < e := by omega
        omega
      have h1 : (2 : ℚ) ^ e ≤ q := he2 ▸ (ilog2_spec hq).1
      have h2 : q ≤ (2 : ℚ) ^ (t + 53) := by
        rw [hqdef, add_comm, zpow_add₀ two]
        have : (n : ℚ) ≤ (2 : ℚ) ^ (53 : ℤ) := by
          have : (n : ℚ) ≤ ((2 ^ 53 : ℤ) : ℚ) := by exact_mod_cast hnle
          refine this.trans (le_of_eq ?_)
          norm_num
        gcongr
      have h3 := (zpow_le_zpow_iff_right₀ (a := (2:ℚ)) (by norm_num)).mp (h1.trans h2)
      have he3 : e = t + 53 := by omega
      have hqe : q = (2 : ℚ) ^ (t + 53) := le_antisymm h2 (he3 ▸ h1)
      refine ⟨2 ^ 52, ?_⟩
      rw [← hdiv, hu, hqe, he3, ← zpow_sub₀ two]
      rw [show t + 53 - (t + 53 - 52) = 52 by ring]
      norm_num
  obtain ⟨z, hz⟩ := key
  rw [rndIeee_pos hq, hz, rne_int]
  have : (z : ℚ) * ulp q = q := by
    rw [← hz, div_mul_cancel₀ _ (ulp_pos q).ne']
  rw [this]
  simp [not_le.mpr hb]

/-- a rounded positive number is an integer multiple of its unit, with at most 53 bits -/
theorem rne_bound {q : ℚ} (hq : 0 < q) :
    0 ≤ rne (q / ulp q) ∧ rne (q / ulp q) ≤ 2 ^ 53 := by
  have hu := ulp_pos q
  constructor
  · have := rne_mono (p := ((0:ℤ):ℚ)) (q := q / ulp q) (by push_cast; positivity)
    rwa [rne_int] at this
  · have hle : q / ulp q ≤ ((2 ^ 53 : ℤ) : ℚ) := by
      rw [div_le_iff₀ hu]
      have h1 := (ilog2_spec hq).2
      have h2 : (2:ℚ) ^ (ilog2 q + 1) ≤ (2:ℚ) ^ (max (ilog2 q) (-1022) + 1) := by
        apply zpow_le_zpow_right₀ (by norm_num); omega
      have h3 : ((2 ^ 53 : ℤ) : ℚ) * ulp q = (2:ℚ) ^ (max (ilog2 q) (-1022) + 1) := by
        unfold ulp
        rw [show ((2 ^ 53 : ℤ) : ℚ) = (2:ℚ) ^ (53:ℤ) by norm_num, ← zpow_add₀ (by norm_num)]
        congr 1; ring
      rw [h3]; linarith
    have := rne_mono hle
    rwa [rne_int] at this

theorem rndIeee_mono_pos {p q a b : ℚ} (hp : 0 < p) (h : p ≤ q) (ha : rndIeee p = .fin a)
    (hb : rndIeee q = .fin b) : a ≤ b := by
  have hq : 0 < q := lt_of_lt_of_le hp h
  obtain ⟨ha, -⟩ := fin_pos_bounds hp ha
  obtain ⟨hb, -⟩ := fin_pos_bounds hq hb
  have hm := ilog2_mono hp h
  by_cases heq : ulp p = ulp q
  · rw [ha, hb, heq]
    have hu := ulp_pos q
    have : rne (p / ulp q) ≤ rne (q / ulp q) := rne_mono (by gcongr)
    have : (rne (p / ulp q) : ℚ) ≤ rne (q / ulp q) := by exact_mod_cast this
    gcongr
  · have hne : max (ilog2 p) (-1022) ≠ max (ilog2 q) (-1022) := by
      intro h; apply heq; unfold ulp; rw [h]
    have hlt : max (ilog2 p) (-1022) + 1 ≤ ilog2 q := by omega
    have hqe : max (ilog2 q) (-1022) = ilog2 q := by omega
    have h1 : a ≤ (2:ℚ) ^ (max (ilog2 p) (-1022) + 1) := by
      rw [ha]
      have := (rne_bound hp).2
      have : (rne (p / ulp p) : ℚ) ≤ ((2 ^ 53 : ℤ) : ℚ) := by exact_mod_cast this
      calc (rne (p / ulp p) : ℚ) * ulp p ≤ ((2 ^ 53 : ℤ) : ℚ) * ulp p := by
            have := (ulp_pos p).le; gcongr
        _ = _ := by
            unfold ulp
            rw [show ((2 ^ 53 : ℤ) : ℚ) = (2:ℚ) ^ (53:ℤ) by norm_num, ← zpow_add₀ (by norm_num)]
            congr 1; ring
    have h2 : (2:ℚ) ^ (ilog2 q) ≤ b := by
      rw [hb]
      have hu := ulp_pos q
      have hge : ((2 ^ 52 : ℤ) : ℚ) ≤ q / ulp q := by
        rw [le_div_iff₀ hu]
        have h3 : ((2 ^ 52 : ℤ) : ℚ) * ulp q = (2:ℚ) ^ (ilog2 q) := by
          unfold ulp
          rw [hqe, show ((2 ^ 52 : ℤ) : ℚ) = (2:ℚ) ^ (52:ℤ) by norm_num, ← zpow_add₀ (by norm_num)]
          congr 1; ring
        rw [h3]; exact (ilog2_spec hq).1
      have h4 := rne_mono hge
      rw [rne_int] at h4
      have h5 : ((2 ^ 52 : ℤ) : ℚ) ≤ rne (q / ulp q) := by exact_mod_cast h4
      calc (2:ℚ) ^ (ilog2 q) = ((2 ^ 52 : ℤ) : ℚ) * ulp q := by
            unfold ulp
            rw [hqe, show ((2 ^ 52 : ℤ) : ℚ) = (2:ℚ) ^ (52:ℤ) by norm_num, ← zpow_add₀ (by norm_num)]
            congr 1; ring
        _ ≤ _ := by gcongr
    have h3 : (2:ℚ) ^ (max (ilog2 p) (-1022) + 1) ≤ (2:ℚ) ^ (ilog2 q) :=
      zpow_le_zpow_right₀ (by norm_num) hlt
    linarith

theorem neg_fin {x : Fl} {a : ℚ} (h : neg x = .fin a) : x = .fin (-a) := by
  cases x <;> simp_all [neg]
  rw [← h]; simp

theorem rndIeee_mono {p q a b : ℚ} (h : p ≤ q) (ha : rndIeee p = .fin a)
    (hb : rndIeee q = .fin b) : a ≤ b := by
  rcases lt_trichotomy p 0 with hp | hp | hp
  · have ha' : rndIeee (-p) = .fin (-a) := by rw [rndIeee_neg, ha]; rfl
    have hna := (fin_pos_bounds (by linarith) ha').2
    rcases lt_trichotomy q 0 with hq | hq | hq
    · have hb' : rndIeee (-q) = .fin (-b) := by rw [rndIeee_neg, hb]; rfl
      have := rndIeee_mono_pos (by linarith) (by linarith : -q ≤ -p) hb' ha'
      linarith
    · subst hq; rw [rndIeee_zero] at hb; injection hb with hb; linarith
    · have := (fin_pos_bounds hq hb).2; linarith
  · subst hp; rw [rndIeee_zero] at ha; injection ha with ha
    rcases h.lt_or_eq with hq | hq
    · have := (fin_pos_bounds hq hb).2; linarith
    · subst hq; rw [rndIeee_zero] at hb; injection hb with hb; linarith
  · exact rndIeee_mono_pos hp h ha hb

theorem rndIeee_idem_pos {q a : ℚ} (hq : 0 < q) (h : rndIeee q = .fin a) : rndIeee a = .fin a := by
  have hb := rne_bound hq
  have hlt : a < 2 ^ 1024 := by
    rw [rndIeee_pos hq] at h
    split at h
    · cases h
    · injection h with h; rw [← h]; push Not at *; assumption
  obtain ⟨ha, h0⟩ := fin_pos_bounds hq h
  have := rndIeee_exact (n := rne (q / ulp q)) (t := max (ilog2 q) (-1022) - 52)
    (by rw [abs_of_nonneg hb.1]; exact hb.2) (by omega)
    (by
      rw [show (2:ℚ) ^ (max (ilog2 q) (-1022) - 52) = ulp q from rfl, ← ha, abs_of_nonneg h0]
      exact hlt)
  rw [show (2:ℚ) ^ (max (ilog2 q) (-1022) - 52) = ulp q from rfl, ← ha] at this
  exact this

theorem rndIeee_near_pos {q : ℚ} (h1 : (2 : ℚ) ^ (-1022 : ℤ) ≤ q) (h2 : q ≤ 2 ^ 1023) :
    ∃ a, rndIeee q = .fin a ∧ |a - q| ≤ q / 2 ^ 53 := by
  have hq : 0 < q := lt_of_lt_of_le (by positivity) h1
  have hu := ulp_pos q
  have hlog : -1022 ≤ ilog2 q := by
    have h3 := (ilog2_spec hq).2
    have := (zpow_lt_zpow_iff_right₀ (a := (2:ℚ)) (by norm_num)).mp (lt_of_le_of_lt h1 h3)
    omega
  have hul : ulp q = (2:ℚ) ^ (ilog2 q) / 2 ^ 52 := by
    unfold ulp
    rw [max_eq_left hlog, zpow_sub₀ (by norm_num)]
    norm_num
  have herr : |(rne (q / ulp q) : ℚ) * ulp q - q| ≤ q / 2 ^ 53 := by
    have h3 := rne_abs_sub (q / ulp q)
    have h4 : (rne (q / ulp q) : ℚ) * ulp q - q = ((rne (q / ulp q) : ℚ) - q / ulp q) * ulp q := by
      field_simp
    rw [h4, abs_mul, abs_of_pos hu]
    have h5 : (2:ℚ) ^ (ilog2 q) ≤ q := (ilog2_spec hq).1
    calc |(rne (q / ulp q) : ℚ) - q / ulp q| * ulp q ≤ 1 / 2 * ulp q := by gcongr
      _ = (2:ℚ) ^ (ilog2 q) / 2 ^ 53 := by rw [hul]; ring
      _ ≤ q / 2 ^ 53 := by gcongr
  refine ⟨_, ?_, herr⟩
  rw [rndIeee_pos hq]
  have : ¬ (2 ^ 1024 ≤ (rne (q / ulp q) : ℚ) * ulp q) := by
    rw [abs_le] at herr
    have h6 : q / 2 ^ 53 ≤ q / 2 := by
      apply div_le_div_of_nonneg_left hq.le (by norm_num)
      norm_num
    have h7 : (2:ℚ) ^ 1024 = 2 * 2 ^ 1023 := by rw [← pow_succ']
    have h8 : (0:ℚ) < 2 ^ 1023 := by positivity
    have h10 := herr.2
    intro h9
    rw [h7] at h9
    clear h7 h1 hul hlog hu
    generalize (2:ℚ) ^ 1023 = X at *
    generalize q / 2 ^ 53 = Y at *
    generalize (rne (q / ulp q) : ℚ) * ulp q = Z at *
    linarith
  simp [this]

theorem rndIeee_finite_pos {q : ℚ} (hq : 0 < q) (h : q ≤ 2 ^ 1023) : ∃ a, rndIeee q = .fin a := by
  by_cases h1 : (2 : ℚ) ^ (-1022 : ℤ) ≤ q
  · obtain ⟨a, ha, -⟩ := rndIeee_near_pos h1 h
    exact ⟨a, ha⟩
  · have hlog : ilog2 q < -1022 := by
      by_contra hc
      push Not at hc
      exact h1 ((zpow_le_zpow_right₀ (by norm_num) hc).trans (ilog2_spec hq).1)
    have hb := (rne_bound hq).2
    have hu : ulp q = (2 : ℚ) ^ (-1074 : ℤ) := by
      unfold ulp
      rw [max_eq_right hlog.le]
      norm_num
    refine ⟨(rne (q / ulp q) : ℚ) * ulp q, ?_⟩
    rw [rndIeee_pos hq, if_neg]
    rw [not_le, hu]
    have h2 : (rne (q / (2 : ℚ) ^ (-1074 : ℤ)) : ℚ) ≤ 2 ^ 53 := by
      rw [← hu]; exact_mod_cast hb
    have h3 : (2 : ℚ) ^ (-1074 : ℤ) ≤ 1 := by
      calc (2 : ℚ) ^ (-1074 : ℤ) ≤ 2 ^ (0 : ℤ) := zpow_le_zpow_right₀ (by norm_num) (by norm_num)
        _ = 1 := by norm_num
    have h4 : (0 : ℚ) < (2 : ℚ) ^ (-1074 : ℤ) := by positivity
    calc (rne (q / (2 : ℚ) ^ (-1074 : ℤ)) : ℚ) * (2 : ℚ) ^ (-1074 : ℤ) ≤ 2 ^ 53 * 1 := by gcongr
      _ = 2 ^ 53 := mul_one _
      _ < 2 ^ 1024 := pow_lt_pow_right₀ (by norm_num) (by norm_num)

/-- IEEE binary64 arithmetic satisfies the accuracy assumptions. -/
theorem ieee_good (sqrt : Fl → Fl) : Good (ieee sqrt) where
  dyadic z k hz hk := by
    have h : (z : ℚ) / 2 ^ k = (z : ℚ) * (2 : ℚ) ^ (-(k : ℤ)) := by
      rw [zpow_neg, zpow_natCast, div_eq_mul_inv]
    show rndIeee _ = _
    rw [h]
    apply rndIeee_exact hz (by omega)
    rw [← h, abs_div]
    have h1 : |(z : ℚ)| ≤ 2 ^ 53 := by exact_mod_cast hz
    have h2 : (1 : ℚ) ≤ |(2 : ℚ) ^ k| := by
      rw [abs_of_pos (by positivity)]; exact one_le_pow₀ (by norm_num)
    calc |(z : ℚ)| / |(2 : ℚ) ^ k| ≤ |(z : ℚ)| / 1 :=
          div_le_div_of_nonneg_left (abs_nonneg _) (by norm_num) h2
      _ ≤ 2 ^ 53 := by simpa using h1
      _ < 2 ^ 1024 := by
          apply pow_lt_pow_right₀ <;> norm_num
  mono p q a b h ha hb := rndIeee_mono h ha hb
  idem q a h := by
    show rndIeee a = .fin a
    have h : rndIeee q = .fin a := h
    rcases lt_trichotomy q 0 with hq | hq | hq
    · have h' : rndIeee (-q) = .fin (-a) := by rw [rndIeee_neg, h]; rfl
      have := rndIeee_idem_pos (by linarith) h'
      rw [rndIeee_neg] at this
      have := neg_fin this
      simpa using this
    · subst hq; rw [rndIeee_zero] at h; injection h with h; rw [← h, rndIeee_zero]
    · exact rndIeee_idem_pos hq h
  near q h1 h2 := by
    show ∃ a, rndIeee q = .fin a ∧ _
    rcases lt_or_ge q 0 with hq | hq
    · rw [abs_of_neg hq] at *
      obtain ⟨a, ha, hb⟩ := rndIeee_near_pos h1 h2
      rw [rndIeee_neg] at ha
      refine ⟨-a, neg_fin ha, ?_⟩
      rw [← abs_neg]
      convert hb using 2
      ring
    · rw [abs_of_nonneg hq] at *
      exact rndIeee_near_pos h1 h2
  finite q h := by
    show ∃ a, rndIeee q = .fin a
    rcases lt_trichotomy q 0 with hq | hq | hq
    · rw [abs_of_neg hq] at h
      obtain ⟨a, ha⟩ := rndIeee_finite_pos (by linarith) h
      rw [rndIeee_neg] at ha
      exact ⟨-a, neg_fin ha⟩
    · subst hq; exact ⟨0, rndIeee_zero⟩
    · rw [abs_of_pos hq] at h
      exact rndIeee_finite_pos hq h

end FP

end HL

import Verif.ProblemSpec

/-
What the quasirandom samplers are meant to compute.
-/

namespace HL

/-- State `i` is where the cumulative distribution of the weights `w 0, ..., w (n-1)` passes the fraction `u / 2^32`
of the total. -/
def InverseCDF (w : Nat → Int) (n u : Nat) (i : Int) : Prop :=
  ∃ k : Nat, i = k ∧ k < n ∧
    (∑ a ∈ Finset.range k, w a) * 2 ^ 32 ≤ u * ∑ a ∈ Finset.range n, w a ∧
    u * ∑ a ∈ Finset.range n, w a < (∑ a ∈ Finset.range (k + 1), w a) * 2 ^ 32

/-- State `i` is the first whose running total of the weights `w 0, ..., w (n-1)` is above the level `r`. -/
def FirstPast (w : Nat → Int) (n : Nat) (r : ℚ) (i : Int) : Prop :=
  ∃ k : Nat, i = k ∧ k < n ∧ (∀ m < k, ((∑ a ∈ Finset.range (m + 1), w a : Int) : ℚ) ≤ r) ∧
    r < ((∑ a ∈ Finset.range (k + 1), w a : Int) : ℚ)

/-- The same for rational weights. -/
def FirstPastQ (w : Nat → ℚ) (n : Nat) (r : ℚ) (i : Int) : Prop :=
  ∃ k : Nat, i = k ∧ k < n ∧ (∀ m < k, ∑ a ∈ Finset.range (m + 1), w a ≤ r) ∧ r < ∑ a ∈ Finset.range (k + 1), w a

/-- The weight of the cells of the table `b` that have `x` in dimension `d` and agree with the individual `v` in the
dimensions after `d`. -/
def sliceWeight (s : List Nat) (b : List Int → ℚ) (v : List Int) (d x : Nat) : ℚ :=
  ∑ u ∈ (cells s).filter (fun u => u.getD d 0 = (x : Int) ∧ ∀ e < s.length, d < e → u.getD e 0 = v.getD e 0), b u

/-- `r` is `x` to within the relative error of one rounding. -/
def RoundedTo (x r : ℚ) : Prop := |r - x| ≤ |x| / 2 ^ 53

/-- The cells of a marginal over the dimensions `ds` that have `x` at position `a` and agree with the individual `v`
at every other position that comes after `a` or whose dimension is one of `F`. -/
def condCells (s ds F : List Nat) (v : List Int) (a x : Nat) : Finset (List Int) :=
  (cells (projSizes ds s)).filter (fun j => j.getD a 0 = (x : Int) ∧
    ∀ b < ds.length, b ≠ a → (a < b ∨ ds.getD b 0 ∈ F) → j.getD b 0 = v.getD (ds.getD b 0) 0)

/-- `2 ^ e` is the largest power of two smaller than `n`. -/
def LargestPow2Below (n c : Nat) : Prop := ∃ e, c = 2 ^ e ∧ 2 ^ e < n ∧ n ≤ 2 ^ (e + 1)

/-- The product of the marginals of `P` at the cell `v` of the table. -/
def productAt (P : Prob Int) (v : List Int) : ℚ := (P.map (fun p => (p.2 (proj p.1 v) : ℚ))).prod

/-- what is left of the marginals after the individuals `hs` -/
def remaining (hs : List (List Int)) (P : Prob Int) : Prob Int :=
  P.map (fun p => (p.1, fun j => p.2 j - (hs.countP (fun v => proj p.1 v = j) : Int)))

end HL

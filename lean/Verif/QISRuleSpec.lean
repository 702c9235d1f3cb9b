import Verif.QISSpec
import Verif.SobolSpec
import Verif.Float

/-
How the individuals of `qis` are drawn: the rule.
-/

namespace HL

/-- What the individuals `done` have left of the marginal `p`, in its cells that have `x` at position `a` and agree with the
individual `v` at the positions that are drawn before position `a`: those that come after it in the marginal, and those whose
dimension is one of `F`. -/
def leftAt (s : List Nat) (p : List Nat × (List Int → Int)) (F : List Nat) (done : List (List Int)) (v : List Int) (a x : Nat) : Int :=
  ∑ j ∈ condCells s p.1 F v a x, (p.2 j - (done.countP (fun w => proj p.1 w = j) : Int))

/-- The individual `v` is read off the point `pt` (one whole number below 2^32 for each dimension) after the individuals `done`: for
each marginal `p` of the problem, and each position `a` of it whose dimension `d` no earlier marginal names, the coordinate `d` of `v`
is the first state whose running total passes the fraction `pt d / 2^32` of what is left in all states, rounded once. -/
def ReadOff (rnd : ℚ → Fl) (s : List Nat) (P : Prob Int) (done : List (List Int)) (pt : Nat → Nat) (v : List Int) : Prop :=
  InRange s v ∧ ∀ A p B, P = A ++ p :: B → ∀ a d, p.1[a]? = some d → (∀ q ∈ A, d ∉ q.1) →
    ∃ r : ℚ, rnd ((pt d : ℚ) / 2 ^ 32 * ((∑ x ∈ Finset.range (s.getD d 0), leftAt s p (A.flatMap Prod.fst) done v a x : Int) : ℚ)) = .fin r ∧
      FirstPast (leftAt s p (A.flatMap Prod.fst) done v a) (s.getD d 0) r (v.getD d 0)

/-- The individuals `vs`, each read off the next of the points `pt 0`, `pt 1`, ... -/
def ByRule (rnd : ℚ → Fl) (s : List Nat) (P : Prob Int) (pt : Nat → Nat → Nat) (vs : List (List Int)) : Prop :=
  ∀ i v, vs[i]? = some v → ReadOff rnd s P (vs.take i) (pt i) v

/-- The points of the Sobol sequence in `n` dimensions that follow its first `c` points. -/
def SobolAfter (n c : Nat) (pt : Nat → Nat → Nat) : Prop :=
  ∀ i, ∀ k < n, ∀ m, IsDirection k m → pt i k = (sobolValue m (c + i + 1)).toNat

/-- The number of points that the argument `skips` leaves out: the largest power of two below it, and 1 if it is at most 2. -/
def SkipTo (skips : Int) (c : Nat) : Prop := (skips ≤ 2 → c = 1) ∧ (2 ≤ skips → LargestPow2Below skips.toNat c)

end HL

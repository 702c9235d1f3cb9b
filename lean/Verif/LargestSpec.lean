import Mathlib.Algebra.Order.Floor.Ring
import Mathlib.Data.Rat.Floor
import Mathlib.Algebra.BigOperators.Group.List.Basic
import Mathlib.Data.Finset.Card
import Mathlib.Order.Interval.Finset.Nat

/-
The method of largest remainders.
-/

namespace HL

/-- When the parts `y` are made whole, `j` is served before `i`: its remainder is larger, or the same and it stands first. -/
def Ahead (y : Nat → ℚ) (j i : Nat) : Prop := Int.fract (y i) < Int.fract (y j) ∨ Int.fract (y i) = Int.fract (y j) ∧ j < i

instance (y : Nat → ℚ) (j i : Nat) : Decidable (Ahead y j i) := by unfold Ahead; infer_instance

/-- the exact values of `xs` scaled to the population -/
def sharesOf (xs : List ℚ) (pop : Int) : List ℚ := xs.map (fun x => x / xs.sum * pop)

/-- The parts `ys` made whole so that they sum to `pop`: all are rounded down, and those served first are raised by one. -/
def largest (ys : List ℚ) (pop : Int) : List Int :=
  (List.range ys.length).map (fun i => ⌊ys.getD i 0⌋ +
    if (((Finset.range ys.length).filter (fun j => Ahead (fun k => ys.getD k 0) j i)).card : Int) < pop - (ys.map Int.floor).sum then 1 else 0)

end HL

import Mathlib.Data.Rat.Defs
import Mathlib.Algebra.Order.Floor.Ring
import Mathlib.Data.Rat.Floor

/-
Lists in another order.
-/

namespace HL

/-- The list `xs'` has the entries of `xs` in another order: the entry `i` is at `em i`. -/
structure Reordered {α : Type} [Zero α] (em : Nat → Nat) (xs xs' : List α) : Prop where
  length : xs'.length = xs.length
  bound : ∀ i < xs.length, em i < xs.length
  inj : ∀ i < xs.length, ∀ j < xs.length, em i = em j → i = j
  «at» : ∀ i < xs.length, xs'.getD (em i) 0 = xs.getD i 0

/-- Nothing else in `ys` has the remainder of the part `i`, or it has none. -/
def OwnRemainder (ys : List ℚ) (i : Nat) : Prop :=
  Int.fract (ys.getD i 0) = 0 ∨ ∀ j < ys.length, j ≠ i → Int.fract (ys.getD j 0) ≠ Int.fract (ys.getD i 0)

end HL

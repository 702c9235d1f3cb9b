import Verif.ProblemSpec
import Mathlib.Algebra.BigOperators.Group.List.Basic

/-
Splitting categories in fixed proportions: the vocabulary of C127.
-/

namespace HL

/-- The categories of a table of sizes `s` are split: in each dimension `d` the new category `x` is part of the old category
`π d x` and gets the share `w d x` of it; the shares of the parts of each category add up to one. -/
structure Split (s s' : List Nat) (π : Nat → Nat → Nat) (w : Nat → Nat → ℚ) : Prop where
  len : s'.length = s.length
  into : ∀ d < s.length, ∀ x < s'.getD d 0, π d x < s.getD d 0
  nonneg : ∀ d < s.length, ∀ x < s'.getD d 0, 0 ≤ w d x
  one : ∀ d < s.length, ∀ y < s.getD d 0, ∑ x ∈ (Finset.range (s'.getD d 0)).filter (fun x => π d x = y), w d x = 1

/-- The old index that a new index, with entries for the dimensions `ds`, is part of. -/
def merged (π : Nat → Nat → Nat) (ds : List Nat) (j : List Int) : List Int := List.zipWith (fun d x => (π d x.toNat : Int)) ds j

/-- The share of it that the new index gets: the product of the shares of its entries. -/
def share (w : Nat → Nat → ℚ) (ds : List Nat) (j : List Int) : ℚ := (List.zipWith (fun d (x : Int) => w d x.toNat) ds j).prod

/-- The new entries `f'`, over the dimensions `ds`, are the old ones `f`, shared out. -/
def SplitOf (π : Nat → Nat → Nat) (w : Nat → Nat → ℚ) (s' ds : List Nat) (f f' : List Int → ℚ) : Prop :=
  ∀ j, InRange (projSizes ds s') j → f' j = share w ds j * f (merged π ds j)

/-- The new problem has the same marginals, shared out. -/
def SplitProb (π : Nat → Nat → Nat) (w : Nat → Nat → ℚ) (s' : List Nat) (Q Q' : Prob ℚ) : Prop :=
  List.Forall₂ (fun q q' => q'.1 = q.1 ∧ SplitOf π w s' q.1 q.2 q'.2) Q Q'

end HL

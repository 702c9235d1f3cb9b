import Mathlib.Data.Finset.Basic
import Mathlib.Data.List.Forall2
import Mathlib.Algebra.BigOperators.Group.Finset.Basic
import Verif.Model.NDArray

/-
The vocabulary the property theorems are stated in.  Nothing here refers to how the code works.
-/

namespace HL

/-- `v` is an index of a cell of an array of sizes `s`: same length, each entry in `[0, size)`. -/
def InRange (s : List Nat) (v : List Int) : Prop :=
  List.Forall₂ (fun (n : Nat) (i : Int) => 0 ≤ i ∧ i < n) s v

instance (s : List Nat) (v : List Int) : Decidable (InRange s v) := by
  unfold InRange; exact inferInstance

/-- All indices of an array of sizes `s`, last dimension fastest (`mem_allIdx`, `allIdx_sorted`:
exactly the indices in range, in increasing lexicographic order). -/
def allIdx : List Nat → List (List Int)
  | [] => [[]]
  | n :: s => (List.range n).flatMap fun (i : Nat) => (allIdx s).map ((i : Int) :: ·)

/-- The set of cells of an array of sizes `s`. -/
def cells (s : List Nat) : Finset (List Int) := (allIdx s).toFinset

/-- The entries of `v` at the dimensions `dims`, in that order. -/
def proj (dims : List Nat) (v : List Int) : List Int := dims.map (fun d => v.getD d 0)

/-- The sizes of the dimensions `dims`. -/
def projSizes (dims : List Nat) (s : List Nat) : List Nat := dims.map (fun d => s.getD d 0)

/-- Sum of `f` over the cells of an array of sizes `s` whose entries at `dims` are `j`. -/
def marginalSum {β : Type} [AddCommMonoid β] (s : List Nat) (dims : List Nat) (f : List Int → β)
    (j : List Int) : β :=
  ∑ v ∈ (cells s).filter (fun v => proj dims v = j), f v

/-- The array of sizes `s` whose cell `v` holds `g v` (`none`: not initialised), stored row-major. -/
def arrO {α : Type} (s : List Nat) (g : List Int → Option α) : NDArray α :=
  { sizes := s, offsets := (List.range s.length).map (fun i => prodSizes (s.drop (i + 1))),
    storageSize := prodSizes s, data := (allIdx s).map g }

/-- The array of sizes `s` whose cell `v` holds `g v`, stored row-major. -/
def arr {α : Type} (s : List Nat) (g : List Int → α) : NDArray α := arrO s (fun v => some (g v))

/-- A shape with at least one dimension and no empty dimension. -/
def GoodShape (s : List Nat) : Prop := s ≠ [] ∧ ∀ n ∈ s, 0 < n

instance (s : List Nat) : Decidable (GoodShape s) := by unfold GoodShape; exact inferInstance

/-- The dimensions of an `n`-dimensional array not fixed by `fx`. -/
def freeDims (n : Nat) (fx : List (Nat × Int)) : List Nat :=
  (List.range n).filter (fun d => d ∉ fx.map Prod.fst)

/-- A well-formed list of (dimension, index) pairs for an array of sizes `s`: distinct dimensions of the
array, each with an index inside that dimension. -/
structure FixedOK (s : List Nat) (fx : List (Nat × Int)) : Prop where
  nodup : (fx.map Prod.fst).Nodup
  range : ∀ p ∈ fx, p.1 < s.length ∧ 0 ≤ p.2 ∧ p.2 < (s.getD p.1 0 : Nat)

/-- Position of the cell `v` in a column-major array of sizes `s` (first dimension fastest). -/
def colRank : List Nat → List Int → Int
  | n :: s, i :: v => i + n * colRank s v
  | _, _ => 0


end HL

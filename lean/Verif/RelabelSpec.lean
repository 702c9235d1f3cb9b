import Verif.ProblemSpec
import Mathlib.Data.Set.Function

/-
What it means to name the categories, the dimensions of the table and the dimensions of the marginals differently.
-/

namespace HL

/-- New names for the categories: within each dimension `d` of a table of sizes `s` the categories `0, …, s[d] - 1` are
permuted by `π d`. -/
def Renaming (s : List Nat) (π : Nat → Int → Int) : Prop :=
  ∀ d < s.length, Set.BijOn (π d) (Set.Ico 0 (s.getD d 0 : Int)) (Set.Ico 0 (s.getD d 0 : Int))

/-- The cell with new names `j` (of an array over the dimensions `ds`), under its old names. -/
def oldNames (π : Nat → Int → Int) (ds : List Nat) (j : List Int) : List Int := List.zipWith π ds j

/-- The cell with new names `v` of the whole table, under its old names. -/
def oldCell (s : List Nat) (π : Nat → Int → Int) (v : List Int) : List Int := oldNames π (List.range s.length) v

/-- The problem with the new names. -/
def renamed (π : Nat → Int → Int) (Q : Prob ℚ) : Prob ℚ := Q.map (fun q => (q.1, fun j => q.2 (oldNames π q.1 j)))

/-- The problem when the dimensions of the table are listed in the order `τ` (a permutation of `0, …, n - 1`): dimension
`d` is now the one at the position of `d` in `τ`.  The marginal arrays are the same. -/
def renumbered (τ : List Nat) (Q : Prob ℚ) : Prob ℚ := Q.map (fun q => (q.1.map (fun d => τ.idxOf d), q.2))

/-- `q'` is the marginal `q` with its own dimensions in the order `ρ`: both the index list and the array are transposed. -/
def Transposed (s : List Nat) (q q' : List Nat × (List Int → ℚ)) : Prop :=
  ∃ ρ : List Nat, ρ.Perm (List.range q.1.length) ∧ q'.1 = ρ.map (fun k => q.1.getD k 0) ∧
    ∀ j, InRange (projSizes q.1 s) j → q'.2 (proj ρ j) = q.2 j

end HL

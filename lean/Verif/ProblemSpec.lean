import Verif.Spec
import Verif.Model.Utils

/-
What a microsynthesis problem is: the vocabulary of the solver theorems.
-/

namespace HL
variable {α : Type}

/-- A problem on a population table: a list of marginals, each given by the dimensions of the table it
ranges over and its entries. -/
abbrev Prob (α : Type) := List (List Nat × (List Int → α))

/-- The index lists a user passes for `P`. -/
def indicesOf (P : Prob α) : List (List Int) := P.map (fun p => p.1.map (fun d : Nat => (d : Int)))

/-- The marginal arrays a user passes for `P` when the table has sizes `s`. -/
def marginalsOf (s : List Nat) (P : Prob α) : List (NDArray α) := P.map (fun p => arr (projSizes p.1 s) p.2)

/-- The shape requirements: at least two marginals, at least two dimensions, no empty dimension, every
marginal ranges over dimensions of the table, every dimension occurs in some marginal. -/
structure ProbShape (s : List Nat) (P : Prob α) : Prop where
  lists : 2 ≤ P.length
  two : 2 ≤ s.length
  pos : ∀ n ∈ s, 0 < n
  dims : ∀ p ∈ P, p.1 ≠ [] ∧ ∀ d ∈ p.1, d < s.length
  cover : ∀ d < s.length, ∃ p ∈ P, d ∈ p.1

/-- A consistent problem with integer marginals for a population of `pop`: no entry is negative, every
marginal sums to `pop`, and wherever a dimension `d` of the table occurs (as dimension `a` of one marginal
and `b` of another, or twice in the same) the sums along it are the same. -/
structure ProbOK (s : List Nat) (P : Prob Int) (pop : Int) : Prop extends ProbShape s P where
  nonneg : ∀ p ∈ P, ∀ j, InRange (projSizes p.1 s) j → 0 ≤ p.2 j
  total : ∀ p ∈ P, ∑ j ∈ cells (projSizes p.1 s), p.2 j = pop
  partials : ∀ p ∈ P, ∀ q ∈ P, ∀ (a b d : Nat), p.1[a]? = some d → q.1[b]? = some d →
    ∀ x : Nat, x < s.getD d 0 →
      marginalSum (projSizes p.1 s) [a] p.2 [(x : Int)] = marginalSum (projSizes q.1 s) [b] q.2 [(x : Int)]

/-- The (marginal, position) pairs at which dimension `d` occurs in one index list. -/
def placesIn (d k : Nat) : Nat → List Nat → List (Nat × Nat)
  | _, [] => []
  | i, e :: ds => (if e = d then [(k, i)] else []) ++ placesIn d k (i + 1) ds

/-- The (marginal, position) pairs at which dimension `d` occurs, in order. -/
def places (d : Nat) : Nat → List (List Nat) → List (Nat × Nat)
  | _, [] => []
  | k, ds :: rest => placesIn d k 0 ds ++ places d (k + 1) rest

/-- The sum of the entries of an array of sizes `s`, added up in row-major order in the arithmetic `N`. -/
def seqSum (N : Num α) (s : List Nat) (g : List Int → α) : α :=
  (allIdx s).foldl (fun acc v => N.add acc (g v)) N.zero

/-- The sums along dimension `d`, in the arithmetic `N`. -/
def seqSums1 (N : Num α) (s : List Nat) (g : List Int → α) (d : Nat) : List α :=
  (List.range (s.getD d 0)).map (fun j : Nat =>
    ((allIdx s).filter (fun v => v.getD d 0 = (j : Int))).foldl (fun acc v => N.add acc (g v)) N.zero)

/-- The sums along position `p.2` of marginal number `p.1`. -/
def sumsAt (N : Num α) (s : List Nat) (P : Prob α) (p : Nat × Nat) : List α :=
  match P[p.1]? with
  | none => []
  | some m => seqSums1 N (projSizes m.1 s) m.2 p.2

/-- The sum of the cells of a table of sizes `s` whose entries at the dimensions `ds` are `j`, added up in
row-major order in the arithmetic `fp`. -/
def fsum (fp : FP) (s ds : List Nat) (a : List Int → Fl) (j : List Int) : Fl :=
  ((allIdx s).filter (fun v => proj ds v = j)).foldl (fun acc v => fp.add acc (a v)) (.fin 0)

/-- A consistent problem in the arithmetic `N` (`int64_t` or `double`), as the code compares sums: every
total rounds to `pop` after adding one half, and the sums along a dimension are close to those at the first
place it occurs. -/
structure ProbOKG (fp : FP) (N : Num α) (s : List Nat) (P : Prob α) (pop : Int) : Prop
    extends ProbShape s P where
  nonneg : ∀ p ∈ P, ∀ j, InRange (projSizes p.1 s) j → N.lt (p.2 j) N.zero = false
  total : ∀ p ∈ P, FP.toInt64 (fp.add (N.toFl (seqSum N (projSizes p.1 s) p.2)) (.fin (1 / 2))) = .ok pop
  partials : ∀ d < s.length, ∀ p q, (places d 0 (P.map Prod.fst)).head? = some p →
    q ∈ (places d 0 (P.map Prod.fst)).tail → N.allclose (sumsAt N s P q) (sumsAt N s P p) = true

/-- A problem whose marginal entries are the finite doubles `Q`. -/
def finProb (Q : Prob ℚ) : Prob Fl := Q.map (fun q => (q.1, fun j => .fin (q.2 j)))

/-- A consistent problem with rational marginals for a population of `pop` (as `ProbOK`). -/
structure RatOK (s : List Nat) (Q : Prob ℚ) (pop : Int) : Prop extends ProbShape s Q where
  nonneg : ∀ p ∈ Q, ∀ j, InRange (projSizes p.1 s) j → 0 ≤ p.2 j
  total : ∀ p ∈ Q, ∑ j ∈ cells (projSizes p.1 s), p.2 j = pop
  partials : ∀ p ∈ Q, ∀ q ∈ Q, ∀ (a b d : Nat), p.1[a]? = some d → q.1[b]? = some d →
    ∀ x : Nat, x < s.getD d 0 →
      marginalSum (projSizes p.1 s) [a] p.2 [(x : Int)] = marginalSum (projSizes q.1 s) [b] q.2 [(x : Int)]

/-- Each index list names no dimension twice and at most one dimension that an earlier list names (in
particular: lists without dimensions in common). -/
def TreeDims (D : List (List Nat)) : Prop :=
  ∀ A ds B, D = A ++ ds :: B → ds.Nodup ∧
    ∀ d ∈ ds, ∀ e ∈ ds, (∃ es ∈ A, d ∈ es) → (∃ es ∈ A, e ∈ es) → d = e

/-- No dimension is named twice, except dimensions of size one. -/
def Loose (s ds : List Nat) : Prop := ds.Pairwise (fun d e => d = e → s.getD d 0 = 1)

/-- The index lists `ipf` can work with: no more entries than the table has dimensions, at least one dimension left
out, and none named twice, except dimensions of size one. -/
def ProperDims (s ds : List Nat) : Prop := ds.length ≤ s.length ∧ (∃ d < s.length, d ∉ ds) ∧ Loose s ds

instance (s ds : List Nat) : Decidable (Loose s ds) := inferInstanceAs (Decidable (List.Pairwise _ _))

instance (s ds : List Nat) : Decidable (ProperDims s ds) := inferInstanceAs (Decidable (_ ∧ _))

/-- Every marginal of the problem is of that kind. -/
def ProperProb (s : List Nat) (P : Prob α) : Prop := ∀ p ∈ P, ProperDims s p.1

end HL

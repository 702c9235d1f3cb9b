import Verif.ProblemSpec
import Verif.Model.RApi

/-
What an R programmer passes and gets: the vocabulary of the theorems about the R functions.
-/

namespace HL
variable {α : Type}

/-- The R vector `r` is an array of sizes `s` whose element `v` (counting from 0) is `g v`.  R stores arrays column by column. -/
structure RArray.Holds (r : RArray α) (s : List Nat) (g : List Int → α) : Prop where
  sizes : r.sizes = s
  length : r.data.length = prodSizes s
  elems : ∀ v, InRange s v → r.data[(colRank s v).toNat]? = some (g v)

/-- The lists an R programmer passes for the problem `P` on a table of sizes `s`: dimensions are counted from 1. -/
structure RPasses (il : List (List Int)) (ml : List (RArray α)) (s : List Nat) (P : Prob α) : Prop where
  indices : il = P.map (fun p => p.1.map (fun d : Nat => (d : Int) + 1))
  marginals : List.Forall₂ (fun r (p : List Nat × (List Int → α)) => RArray.Holds r (projSizes p.1 s) p.2) ml P

/-- The problem with the dimensions of the table (`n` of them) in reverse order, and the marginals in reverse order too. -/
def flipProb (n : Nat) (P : Prob α) : Prob α := P.reverse.map (fun p => (p.1.map (fun d => n - 1 - d), p.2))

end HL

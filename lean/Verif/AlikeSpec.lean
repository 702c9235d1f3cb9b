import Verif.ProblemSpec

/-
Categories that cannot be told apart: the vocabulary of C126.
-/

namespace HL
variable {α β : Type}

/-- The table `f` of sizes `s` has the same entries in the categories `i` and `k` of dimension `d`. -/
def AlikeIn (s : List Nat) (d : Nat) (i k : Int) (f : List Int → β) : Prop :=
  ∀ v, InRange s v → v[d]? = some i → f v = f (v.set d k)

/-- So does the marginal `p`, wherever it ranges over dimension `d` (it names it at most once). -/
def AlikeIn.marginal (s : List Nat) (d : Nat) (i k : Int) (p : List Nat × (List Int → α)) : Prop :=
  ∀ e, p.1[e]? = some d → AlikeIn (projSizes p.1 s) e i k p.2

end HL

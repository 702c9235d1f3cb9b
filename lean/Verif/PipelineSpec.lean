import Verif.ProblemSpec

/-
From distributions to a table of individuals: the vocabulary.
-/

namespace HL

/-- The number of the first `n` rows of the table with columns `cols` whose entries in the columns `ds` are `j`. -/
def tally (cols : List (List Int)) (n : Nat) (ds : List Nat) (j : List Int) : Nat :=
  (List.range n).countP (fun r => ds.map (fun d => (cols.getD d []).getD r 0) = j)

/-- The problem with one marginal for each attribute: the frequencies `fs`. -/
def oneWay (fs : List (List Int)) : Prob Int :=
  (List.range fs.length).map (fun d => ([d], fun j => (fs.getD d []).getD (j.getD 0 0).toNat 0))

end HL

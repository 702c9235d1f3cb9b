import Verif.ProblemSpec

/-
Vocabulary of the theorems about whole numbers given as doubles.
-/

namespace HL

/-- whole numbers as doubles -/
def intFl (g : List Int → Int) : List Int → Fl := fun v => .fin (g v)

/-- a problem with whole-number marginals, the marginals given as doubles -/
def dblProb (P : Prob Int) : Prob Fl := P.map (fun p => (p.1, intFl p.2))

end HL

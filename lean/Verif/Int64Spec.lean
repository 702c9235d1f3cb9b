import Verif.Base

/-
When the outcomes of two runs are the same.
-/

namespace HL

/-- The two runs end in the same way, with the same result or exception; if the behaviour of one is undefined, so is that
of the other (for whatever reason). -/
def SameOutcome {α : Type} (x y : Out α) : Prop := x = y ∨ ((∃ u, x = .ub u) ∧ ∃ u, y = .ub u)

end HL

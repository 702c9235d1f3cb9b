import Verif.Model.Integerise
import Verif.Spec
import Mathlib.Algebra.BigOperators.Group.List.Basic

/-
Vocabulary of the theorems about integerisation.
-/

namespace HL

/-- exact arithmetic with a given square root function -/
def FP.exactWith (sqrt : Fl → Fl) : FP := ⟨Fl.fin, sqrt⟩

/-- the probabilities proportional to the numbers `xs` -/
def probs (xs : List ℚ) : List ℚ := xs.map (fun x => x / xs.sum)

/-- the sum of the squares of the deviations of the frequencies `f` from `p * pop` -/
def sqDev (pop : Int) (p : List ℚ) (f : List Int) : ℚ :=
  (List.zipWith (fun (x : ℚ) (k : Int) => ((k : ℚ) - x * pop) ^ 2) p f).sum

/-- `n` is the integer nearest to the double `x`, and the distance, computed in the arithmetic `fp`, is at most the
double nearest to 1e-4. -/
def NearInt (fp : FP) (x : Fl) (n : Int) : Prop :=
  FP.round x = .fin n ∧ FP.lt (fp.rnd (1 / 10 ^ 4)) (FP.abs (fp.sub x (.fin n))) = false

/-- the 1-d array holding the finite doubles `xs` -/
def vec (xs : List ℚ) : NDArray Fl := arr [xs.length] (fun j => .fin (xs.getD (j.getD 0 0).toNat 0))

/-- the 1-d array holding the integers `f` -/
def intVec (f : List Int) : NDArray Int := arr [f.length] (fun j => f.getD (j.getD 0 0).toNat 0)

end HL

import Verif.RefusalSpec
import Verif.Model.RefusalFl

/-
What it means for a message of the constructor to be true of the caller's index lists `is` and `double` marginals `ms` (sizes and
entries of each), with sums added up in row-major order in the arithmetic `fp`.
-/

namespace HL

/-- The shapes of the marginals. -/
def shapesOnly (ms : List (List Nat × (List Int → Fl))) : List (List Nat × (List Int → Int)) := ms.map (fun m => (m.1, fun _ => 0))

/-- The total of a marginal plus one half, rounded toward zero to a 64-bit integer. -/
def roundedOf (fp : FP) (m : List Nat × (List Int → Fl)) : Out Int :=
  FP.toInt64 (fp.add (seqSum (numFl fp) m.1 m.2) (.fin (1 / 2)))

/-- The sums belonging to the place `p` (marginal number `p.1`, its dimension `p.2`). -/
def sumsAtPlaceFl (fp : FP) (ms : List (List Nat × (List Int → Fl))) (p : Nat × Nat) : Option (List Fl) :=
  ms[p.1]?.map (fun m => seqSums1 (numFl fp) m.1 m.2 p.2)

/-- Lists of the same length no entries of which differ by more than 1e-8, as far as `fp` can tell. -/
def CloseLists (fp : FP) (a b : List Fl) : Prop :=
  a.length = b.length ∧ ∀ k < a.length, FP.lt (fp.rnd (1 / 10 ^ 8)) (FP.abs (fp.sub (a.getD k (.fin 0)) (b.getD k (.fin 0)))) = false

/-- The refusal tells the truth about the input, and about the first offence of its kind. -/
def TruthfulFl (fp : FP) (is : List (List Int)) (ms : List (List Nat × (List Int → Fl))) : RefusalFl → Prop
  | .counts (.marginalSum i t pop) => t ≠ pop ∧ ms[i]?.map (roundedOf fp) = some (.ok t) ∧ ms[0]?.map (roundedOf fp) = some (.ok pop) ∧
      ∀ i' < i, ms[i']?.map (roundedOf fp) = some (.ok pop)
  | .counts (.negative ..) => False
  | .counts (.partialSum ..) => False
  | .counts r => Truthful is (shapesOnly ms) r
  | .negative k x => FP.lt x (.fin 0) = true ∧ ∃ m, ms[k]? = some m ∧ (∃ v, InRange m.1 v ∧ m.2 v = x) ∧
      (∀ v, InRange m.1 v → FP.lt (m.2 v) x = false) ∧
      ∀ k' < k, ∀ m', ms[k']? = some m' → ∀ v, InRange m'.1 v → FP.lt (m'.2 v) (.fin 0) = false
  | .partialSum d i msi ms0 => ¬ CloseLists fp msi ms0 ∧
      (placesNamed is d)[i]?.bind (sumsAtPlaceFl fp ms) = some msi ∧ (placesNamed is d)[0]?.bind (sumsAtPlaceFl fp ms) = some ms0 ∧
      (∀ i' < i, i' ≠ 0 → ∃ l, (placesNamed is d)[i']?.bind (sumsAtPlaceFl fp ms) = some l ∧ CloseLists fp l ms0) ∧
      ∀ d' < d, ∀ (p : Nat × Nat) (l0 : List Fl), (placesNamed is (d' : Int))[0]? = some p → sumsAtPlaceFl fp ms p = some l0 →
        ∀ (i' : Nat) (q : Nat × Nat), i' ≠ 0 → (placesNamed is (d' : Int))[i']? = some q → ∃ l, sumsAtPlaceFl fp ms q = some l ∧ CloseLists fp l l0

end HL

import Verif.Model.Utils

/-
`Rhelpers::convertArray` (rcpp_api.cpp).
-/

namespace HL
variable {α : Type}

/-- rcpp_api.cpp:54-57, the body of the loop in `convertArray`: `array[idx] = rArray[i]`, then `++i`. -/
def rConvertStep (data : List α) (t : NDArray α × Nat) (idx : List Int) : Out (NDArray α × Nat) :=
  match data[t.2]? with
  | some x => do
    let a ← t.1.set idx x
    pure (a, t.2 + 1)
  | none => .ub .oob

/-- rcpp_api.cpp:35-60, `convertArray`: `data` is the R vector (column-major), `dims` its "dim"
attribute (`none` for a plain vector, lines 40-48). -/
def rConvertArray (dims : Option (List Nat)) (data : List α) : Out (NDArray α) := do
  let sizes := match dims with
    | some d => d
    | none => [data.length]
  let a ← NDArray.new sizes
  let r ← forTransposed sizes (rConvertStep data) (a, 0)
  pure r.1

end HL

import Verif.Model.RApi
import Verif.Model.Sobol
import Verif.Model.Utils

/-
The remaining functions of the R interface (rcpp_api.cpp:443-499): `sobolSequence` and `flatten`.
-/

namespace HL.R

/-- rcpp_api.cpp:455: `0.5 / (1ull<<31)`. -/
def sobolScale (fp : FP) : Fl := fp.div (.fin (1 / 2)) (fp.ofInt (2 ^ 31))

/-- rcpp_api.cpp:462-463: `k` values of one row, from the generator `s`. -/
def sobolRow (fp : FP) : Nat → Sobol → Out (Sobol × List Fl)
  | 0, s => .ok (s, [])
  | k + 1, s => do
    let r ← s.call
    match r.2 with
    | .error e => .thrown e
    | .ok v => do
      let t ← sobolRow fp k r.1
      pure (t.1, fp.mul (fp.ofInt v.toNat) (sobolScale fp) :: t.2)

/-- rcpp_api.cpp:461-463: the rows. -/
def sobolRows (fp : FP) (dim : Nat) : Nat → Sobol → Out (List (List Fl))
  | 0, _ => .ok []
  | k + 1, s => do
    let r ← sobolRow fp dim s
    let t ← sobolRows fp dim k r.1
    pure (r.2 :: t)

/-- rcpp_api.cpp:452-466, `sobolSequence`; the arguments are `int`s.  The matrix is given by its rows.  R refuses a matrix with a
negative number of rows or columns.  `Sobol(dim, skip)` takes a `size_t` and a `uint32_t`: a negative `skip` wraps around.
Failure to allocate the matrix is not modelled. -/
def sobolSequence (fp : FP) (dim n skip : Int) : Out (List (List Fl)) :=
  if n < 0 ∨ dim < 0 then .thrown .lengthError
  else do
    let s ← Sobol.new dim.toNat (skip % 2 ^ 32).toNat
    sobolRows fp dim.toNat n.toNat s

/-- rcpp_api.cpp:495: `proxyDf[name] = column`: replaces the element called `name` of a list, or appends it. -/
def setColumn : List (String × List Int) → String → List Int → List (String × List Int)
  | [], k, c => [(k, c)]
  | (l, b) :: t, k, c => if l = k then (l, c) :: t else (l, b) :: setColumn t k c

/-- rcpp_api.cpp:492-496: the loop over the columns; `categoryNames[i]` is not checked. -/
def nameColumns (names : List String) : Nat → List (List Int) → List (String × List Int) → Out (List (String × List Int))
  | _, [], df => .ok df
  | i, c :: cs, df =>
    match names[i]? with
    | none => .ub .oob
    | some k => nameColumns names (i + 1) cs (setColumn df k c)

/-- rcpp_api.cpp:481-499, `flatten`: the columns of the data frame with their names.  `pop` is an `int64_t` passed as a `size_t`;
the conversion of the list to a data frame is left to Rcpp.  (No floating-point operation is involved; the floating-point
environment given to `numInt` is irrelevant.) -/
def flatten (a : RArray Int) (names : List String) : Out (List (String × List Int)) := do
  let t ← a.convert
  let pop ← sumArr (numInt FP.exact) t
  let cols ← listify (pop % 2 ^ 64).toNat t 1
  nameColumns names 0 cols []

end HL.R

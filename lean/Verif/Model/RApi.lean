import Verif.Model.RConvert
import Verif.Model.IPF
import Verif.Model.QIS
import Verif.Model.QISI
import Verif.Model.Integerise

/-
The R functions (rcpp_api.cpp) with their arguments as they come from R: vectors, some with a "dim" attribute, and lists of
them.  Not modelled: the conversion of a numeric vector to an integer one by Rcpp (`IntegerVector iv = indices[i]`), missing
values (NA as an integer is -2^31, a negative number like others).
-/

namespace HL
variable {α : Type}

/-- An R vector: its elements, and its "dim" attribute if it has one (R makes sure that the product of the dimensions is the
number of elements). -/
structure RArray (α : Type) where
  data : List α
  dims : Option (List Nat)

namespace RArray

/-- rcpp_api.cpp:40-48,71-79: the "dim" attribute, for a plain vector its length. -/
def sizes (r : RArray α) : List Nat :=
  match r.dims with
  | some d => d
  | none => [r.data.length]

/-- rcpp_api.cpp:94,142,310,382: `Dimension rSizes = seed.attr("dim")`.  Without the attribute this is the conversion of NULL,
which Rcpp (not part of the repository) refuses. -/
def dimAttr (r : RArray α) : Out (List Nat) :=
  match r.dims with
  | some d => .ok d
  | none => .thrown .rcppNull

/-- rcpp_api.cpp:35-60, `convertArray`. -/
def convert (r : RArray α) : Out (NDArray α) := rConvertArray r.dims r.data

/-- rcpp_api.cpp:179,349,393: `NDArray<double> wrapper(s, (double*)&seed[0])`. -/
def wrapper (r : RArray α) (s : List Nat) : Out (NDArray α) := NDArray.wrap s (r.data.map some)

end RArray

namespace R

/-- rcpp_api.cpp:82: `lookup[k] = n`, on a `std::map` (a list sorted by key). -/
def insert : List (Int × Nat) → Int → Nat → List (Int × Nat)
  | [], k, n => [(k, n)]
  | (l, m) :: t, k, n =>
    if k < l then (k, n) :: (l, m) :: t
    else if k = l then (k, n) :: t
    else (l, m) :: insert t k n

/-- rcpp_api.cpp:80-83: enter the sizes of one marginal.  `iv[j]` is read for every dimension of the marginal. -/
def enter (m : List (Int × Nat)) : List Int → List Nat → Out (List (Int × Nat))
  | _, [] => .ok m
  | [], _ :: _ => .ub .oob
  | k :: iv, n :: s => enter (insert m k n) iv s

/-- rcpp_api.cpp:63-90, `getDimension`. -/
def getDimension (indices : List (List Int)) (marginals : List (RArray α)) : Out (List Nat) := do
  let m ← (indices.zip marginals).foldlM (fun m p => enter m p.1 p.2.sizes) []
  pure (m.map Prod.snd)

/-- rcpp_api.cpp:95-99: compare the sizes. -/
def checkDims : List Nat → List Nat → Out Unit
  | [], _ => .ok ()
  | _ :: _, [] => .ub .oob
  | n :: s, m :: t => if n ≠ m then .thrown .seedMismatchR else checkDims s t

/-- rcpp_api.cpp:92-107, `checkSeed`. -/
def checkSeed (seed : RArray Fl) (implied : List Nat) : Out Unit := do
  let d ← seed.dimAttr
  checkDims d implied
  if seed.data.any (fun x => FP.lt x (.fin 0)) then .thrown .negativeSeedR else .ok ()

/-- rcpp_api.cpp:167-170,243-246,335-338: `dim - iv[j]`. -/
def coreIndex (dim : Nat) (iv : List Int) : List Int := iv.map (fun k => (dim : Int) - k)

/-- rcpp_api.cpp:163-174,239-249,331-341: the index lists, last first. -/
def coreIndices (dim : Nat) (indices : List (List Int)) : List (List Int) := indices.reverse.map (coreIndex dim)

/-- rcpp_api.cpp:163-174,239-249,331-341: the marginals, last first. -/
def coreMarginals (marginals : List (RArray α)) : Out (List (NDArray α)) := marginals.reverse.mapM RArray.convert

/-- rcpp_api.cpp:182-185,257-267,343-360,397-400: an R array of sizes `s`, filled with `zero`, then with the elements of `a`
as they are stored. -/
def result (zero : α) (s : List Nat) (a : NDArray α) : Out (RArray α) :=
  if a.storageSize ≤ prodSizes s then do
    let xs ← a.readAll
    pure ⟨xs ++ List.replicate (prodSizes s - xs.length) zero, some s⟩
  else .ub .oob

/-- rcpp_api.cpp:264,355,400: `std::copy` from `int64_t` to the `int`s of an `IntegerVector`. -/
def toInt (x : Int) : Int := x.bmod (2 ^ 32)

/-- An array of `int64_t` as an `IntegerVector`. -/
def intResult (s : List Nat) (a : NDArray Int) : Out (RArray Int) := do
  let r ← result 0 s a
  pure { r with data := r.data.map toInt }

/-- The list `ipf` returns. -/
structure IpfList where
  conv : Bool
  result : RArray Fl
  pop : Int
  iterations : Nat
  maxError : Fl

/-- rcpp_api.cpp:182-192. -/
def ipfList (s : List Nat) (x : HL.IPF Fl) : Out IpfList := do
  let r ← result (.fin 0) s x.micro.array
  pure ⟨x.conv, r, x.micro.population, x.iters, x.maxError⟩

/-- rcpp_api.cpp:133-193, `ipf`. -/
def ipf (dbg : Bool) (fp : FP) (seed : RArray Fl) (indices : List (List Int)) (marginals : List (RArray Fl)) : Out IpfList :=
  if indices.length ≠ marginals.length then .thrown .listsDiffer
  else do
    let rSizes ← seed.dimAttr
    let d ← getDimension indices marginals
    checkSeed seed d
    let m ← coreMarginals marginals
    let sd ← seed.wrapper rSizes.reverse
    let x ← IPF.run dbg fp (numFl fp) (coreIndices rSizes.length indices) m sd
    ipfList rSizes x

/-- The list `qis` returns, and `qisi` (without `degeneracy`). -/
structure QisList where
  conv : Bool
  result : RArray Int
  expectation : RArray Fl
  pop : Int
  chiSq : Fl
  pValue : Fl
  degeneracy : Option Fl

/-- rcpp_api.cpp:257-276. -/
def qisList (s : List Nat) (x : HL.QIS) : Out QisList := do
  let r ← intResult s x.micro.array
  let e ← result (.fin 0) s x.expected
  pure ⟨x.conv, r, e, x.micro.population, x.chiSq, x.pValue, some x.degeneracy⟩

/-- rcpp_api.cpp:216-277, `qis`. -/
def qis (fp : FP) (lm : Libm) (indices : List (List Int)) (marginals : List (RArray Int)) (skips : Int) : Out QisList :=
  if indices.length ≠ marginals.length then .thrown .listsDiffer
  else do
    let rSizes ← getDimension indices marginals
    let m ← coreMarginals marginals
    let x ← QIS.run fp lm (coreIndices rSizes.length indices) m skips
    qisList rSizes x

/-- rcpp_api.cpp:343-368. -/
def qisiList (s : List Nat) (x : HL.QISI) : Out QisList := do
  let r ← intResult s x.micro.array
  let e ← result (.fin 0) s x.expected
  pure ⟨x.conv, r, e, x.micro.population, x.chiSq, x.pValue, none⟩

/-- rcpp_api.cpp:301-369, `qisi`. -/
def qisi (dbg : Bool) (fp : FP) (lm : Libm) (seed : RArray Fl) (indices : List (List Int)) (marginals : List (RArray Int)) (skips : Int) :
    Out QisList :=
  if indices.length ≠ marginals.length then .thrown .listsDiffer
  else do
    let rSizes ← seed.dimAttr
    let d ← getDimension indices marginals
    checkSeed seed d
    let m ← coreMarginals marginals
    let sd ← seed.wrapper rSizes.reverse
    let x ← QISI.run dbg fp lm (coreIndices rSizes.length indices) m sd skips
    qisiList rSizes x

/-- The list `integerise` returns. -/
structure IntegeriseList where
  result : RArray Int
  conv : Bool
  rmse : Fl

/-- rcpp_api.cpp:380-407, `integerise`. -/
def integerise (dbg : Bool) (fp : FP) (lm : Libm) (population : RArray Fl) : Out IntegeriseList := do
  let rSizes ← population.dimAttr
  let sd ← population.wrapper rSizes.reverse
  let x ← Integerise.run dbg fp lm sd
  let r ← intResult rSizes x.result
  pure ⟨r, x.conv, x.rmse⟩

end R

end HL

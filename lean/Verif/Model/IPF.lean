import Verif.Model.Microsynthesis

/-
Model of src/IPF.h.
-/

namespace HL

/-- IPF.h:124-127, the data members beyond those of `Microsynthesis` (`m_seed` is never used).  Before the
first `solve` `m_iters`, `m_conv` and `m_maxError` are not initialised; the values here are placeholders. -/
structure IPF (α : Type) where
  micro : Micro Fl α
  iters : Nat
  conv : Bool
  errors : List (NDArray Fl)
  maxError : Fl

namespace IPF
variable {α : Type}

/-- IPF.h:23-26, constructor. -/
def new (fp : FP) (N : Num α) (indices : List (List Int)) (marginals : List (NDArray α)) : Out (IPF α) := do
  let m ← Micro.new fp N indices marginals
  pure { micro := m, iters := 0, conv := false, errors := [], maxError := .fin 0 }

/-- IPF.h:40-46, QISI.cpp:80-86: the seed has the shape of the population array. -/
def checkSeed (seed sizes : List Nat) : Out Unit :=
  if seed.length ≠ sizes.length then .thrown .seedDims
  else if seed ≠ sizes then .thrown .seedSizes
  else .ok ()

/-- `std::max(m, e)` on doubles: `m < e ? e : m`. -/
def stdMax (m e : Fl) : Fl := if FP.lt m e then e else m

/-- IPF.h:113-118: the errors of one marginal, with the running maximum. -/
def errorsOne (d : NDArray Fl) (e : NDArray Fl) (mx : Fl) : Out (NDArray Fl × Fl) :=
  forIndex d.sizes (fun (s : NDArray Fl × Fl) idx => do
    let x ← d.get idx
    let e ← s.1.set idx (FP.abs x)
    pure (e, stdMax s.2 (FP.abs x))) (e, mx)

/-- IPF.h:111-119: the errors of all marginals. -/
def errorsAll : List (NDArray Fl) → List (NDArray Fl) → Fl → Out (List (NDArray Fl) × Fl)
  | [], es, mx => .ok (es, mx)
  | _ :: _, [], _ => .ub .oob
  | d :: ds, e :: es, mx => do
    let r ← errorsOne d e mx
    let rest ← errorsAll ds es r.2
    pure (r.1 :: rest.1, rest.2)

/-- IPF.h:105-122, `computeErrors`. -/
def computeErrors (fp : FP) (x : IPF α) (diffs : List (NDArray Fl)) : Out (IPF α) := do
  let r ← errorsAll diffs x.errors (.fin (-dblMax))
  pure { x with errors := r.1, maxError := r.2, conv := FP.lt r.2 (tol8 fp) }

/-- `std::vector<NDArray<double>>::resize(n)` on a vector that never shrinks here. -/
def resizeList (es : List (NDArray Fl)) (n : Nat) : List (NDArray Fl) :=
  es.take n ++ List.replicate (n - es.length) NDArray.empty

/-- IPF.h:63-67: `a[k].resize(m_marginals[k].sizes())` for all `k`. -/
def resizeAll : List (NDArray Fl) → List (NDArray α) → Out (List (NDArray Fl))
  | [], _ => .ok []
  | _ :: _, [] => .ub .oob
  | a :: as, m :: ms => do
    let a ← a.resize m.sizes
    let r ← resizeAll as ms
    pure (a :: r)

/-- IPF.h:131, `s_MAXITER`. -/
def maxIter : Nat := 1000

/-- IPF.h:72-76: one iteration. -/
def step (dbg : Bool) (fp : FP) (N : Num α) (t : IPF α × List (NDArray Fl)) : Out (IPF α × List (NDArray Fl)) := do
  let m := t.1.micro
  let a ← Micro.rScale dbg fp N m.array m.indices m.marginals
  let x := { t.1 with micro := { m with array := a } }
  let diffs ← Micro.rDiff dbg fp N a m.indices m.marginals t.2
  let x ← computeErrors fp x diffs
  pure ({ x with iters := x.iters + 1 }, diffs)

/-- IPF.h:70, the loop condition. -/
def continues (t : IPF α × List (NDArray Fl)) : Bool := !t.1.conv && decide (t.1.iters < maxIter)

/-- IPF.h:58-70: the state when the loop is entered. -/
def start (x : IPF α) (seed : NDArray Fl) : Out (IPF α × List (NDArray Fl)) := do
  let xs ← seed.readAll
  let a ← x.micro.array.copyIn xs
  let n := x.micro.marginals.length
  let diffs ← resizeAll (List.replicate n NDArray.empty) x.micro.marginals
  let errors ← resizeAll (resizeList x.errors n) x.micro.marginals
  pure ({ x with micro := { x.micro with array := a }, errors := errors, conv := false, iters := 0 }, diffs)

/-- IPF.h:37-80, `solve`.  The result array is `micro.array` of the object afterwards.  The mappings
built in lines 48-55 are not used. -/
def solve (dbg : Bool) (fp : FP) (N : Num α) (x : IPF α) (seed : NDArray Fl) : Out (IPF α) := do
  checkSeed seed.sizes x.micro.array.sizes
  let main ← Index.new x.micro.array.sizes
  let _ ← Micro.mappings main x.micro.indices
  let t ← start x seed
  let r ← loop continues (step dbg fp N) t
  pure r.1

/-- module.cpp:176-205, `hl::ipf`, after the conversion of its arguments: construct, then solve once.  The
dictionary returned to the caller holds `conv`, `micro.population`, `iters` and `maxError` of the object. -/
def run (dbg : Bool) (fp : FP) (N : Num α) (indices : List (List Int)) (marginals : List (NDArray α))
    (seed : NDArray Fl) : Out (IPF α) := do
  let x ← new fp N indices marginals
  solve dbg fp N x seed

end IPF

end HL

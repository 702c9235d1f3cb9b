import Verif.Model.Utils

/-
Model of src/Microsynthesis.h: validation of the inputs and the scaling and difference steps shared by the
solvers.
-/

namespace HL

/-- Microsynthesis.h:240-248, the data members.  `β` is the population type `T`, `α` the marginal type `M`.
`m_marginals` is a reference to the caller's list; here it is the list, and functions that change it return
the new one. -/
structure Micro (β α : Type) where
  dim : Nat
  sizes : List Nat
  indices : List (List Int)
  marginals : List (NDArray α)
  population : Int
  dimLookup : List (List (Nat × Nat))
  array : NDArray β

namespace Micro
variable {α β : Type}

/-- Microsynthesis.h:48-52: enter the size of one dimension, or check it against the size entered before.
The `std::map` is an association list. -/
def enterDim (m : List (Int × Nat)) (d : Int) (n : Nat) : Out (List (Int × Nat)) :=
  match m.lookup d with
  | none => .ok (m ++ [(d, n)])
  | some n' => if n' ≠ n then .thrown .sizeRedefined else .ok m

/-- Microsynthesis.h:43-53: the dimensions of one marginal. -/
def enterDims (m : List (Int × Nat)) : List Int → List Nat → Out (List (Int × Nat))
  | d :: ds, n :: ns => do
    let m ← enterDim m d n
    enterDims m ds ns
  | _, _ => .ok m

/-- Microsynthesis.h:39-54: the sizes of all dimensions. -/
def enterAll (m : List (Int × Nat)) : List (List Int) → List (NDArray α) → Out (List (Int × Nat))
  | i :: is, a :: as =>
    if i.length ≠ a.dim then .thrown .indexDimMismatch
    else do
      let m ← enterDims m i a.sizes
      enterAll m is as
  | _, _ => .ok m

/-- Microsynthesis.h:60-64: no marginal has a negative entry. -/
def checkNonneg (N : Num α) : List (NDArray α) → Out Unit
  | [] => .ok ()
  | a :: as => do
    let x ← minArr N a
    if N.lt x N.zero then .thrown .negativeMarginal else checkNonneg N as

/-- Microsynthesis.h:73-79: the sizes of dimensions `k`, `k+1`, ... (`n` of them). -/
def collectSizes (m : List (Int × Nat)) : Nat → Nat → Out (List Nat)
  | 0, _ => .ok []
  | n + 1, k =>
    match m.lookup (k : Int) with
    | none => .thrown .dimUndefined
    | some s => do
      let r ← collectSizes m n (k + 1)
      pure (s :: r)

/-- Microsynthesis.h:208-209: `m_dim_lookup[d].push_back({k, i})` for the entries `d` of one index list,
starting at position `i`. -/
def lookupDims (lk : List (List (Nat × Nat))) (k : Nat) : Nat → List Int → Out (List (List (Nat × Nat)))
  | _, [] => .ok lk
  | i, d :: ds =>
    if 0 ≤ d ∧ d.toNat < lk.length then
      lookupDims (lk.set d.toNat (lk.getD d.toNat [] ++ [(k, i)])) k (i + 1) ds
    else .ub .oob

/-- Microsynthesis.h:205-209: all index lists, starting with number `k`. -/
def lookupAll (lk : List (List (Nat × Nat))) : Nat → List (List Int) → Out (List (List (Nat × Nat)))
  | _, [] => .ok lk
  | k, i :: is => do
    let lk ← lookupDims lk k 0 i
    lookupAll lk (k + 1) is

/-- Microsynthesis.h:214,217: `static_cast<int64_t>(sum(a) + 0.5)`. -/
def roundedSum (fp : FP) (N : Num α) (a : NDArray α) : Out Int := do
  let t ← sumArr N a
  FP.toInt64 (fp.add (N.toFl t) (.fin (1 / 2)))

/-- Microsynthesis.h:215-220: every other marginal has the rounded total `pop`. -/
def checkSums (fp : FP) (N : Num α) (pop : Int) : List (NDArray α) → Out Unit
  | [] => .ok ()
  | a :: as => do
    let t ← roundedSum fp N a
    if t ≠ pop then .thrown .marginalSum else checkSums fp N pop as

/-- The partial sums `reduce(m_marginals[p.first], p.second)` of Microsynthesis.h:230,233. -/
def partialSum (N : Num α) (ms : List (NDArray α)) (p : Nat × Nat) : Out (List α) :=
  match ms[p.1]? with
  | none => .ub .oob
  | some a => reduce1 N a p.2

/-- Microsynthesis.h:231-236: the partial sums at the other places agree with `ms0`. -/
def checkPartials (N : Num α) (ms : List (NDArray α)) (ms0 : List α) : List (Nat × Nat) → Out Unit
  | [] => .ok ()
  | p :: ps => do
    let msi ← partialSum N ms p
    if N.allclose msi ms0 then checkPartials N ms ms0 ps else .thrown .partialSum

/-- Microsynthesis.h:223-237: all dimensions. -/
def checkDims (N : Num α) (ms : List (NDArray α)) : List (List (Nat × Nat)) → Out Unit
  | [] => .ok ()
  | mi :: rest => do
    match mi with
    | p :: q :: ps => do
      let ms0 ← partialSum N ms p
      checkPartials N ms ms0 (q :: ps)
      checkDims N ms rest
    | _ => checkDims N ms rest

/-- Microsynthesis.h:30-111, constructor (with `createMappings`, lines 202-238). -/
def new (fp : FP) (N : Num α) (indices : List (List Int)) (marginals : List (NDArray α)) :
    Out (Micro β α) := do
  if indices.length ≠ marginals.length ∨ indices.length < 2 then .thrown .listSize
  else
    let dimSizes ← enterAll [] indices marginals
    if dimSizes.length < 2 then .thrown .tooFewDims
    else
      checkNonneg N marginals
      let sizes ← collectSizes dimSizes dimSizes.length 0
      let lookup ← lookupAll (List.replicate dimSizes.length []) 0 indices
      match marginals with
      | [] => .ub .oob
      | a :: rest =>
        let pop ← roundedSum fp N a
        checkSums fp N pop rest
        checkDims N marginals lookup
        let array ← NDArray.new sizes
        pure { dim := dimSizes.length, sizes := sizes, indices := indices, marginals := marginals,
               population := pop, dimLookup := lookup, array := array }

/-- Microsynthesis.h:136-148, `invert`.  `max - excluded.size()` is a `size_t`: with more excluded entries
than dimensions it wraps around and `reserve` throws. -/
def invert (max : Nat) (excluded : List Int) : Out (List Int) :=
  if max < excluded.length then .thrown .lengthError
  else .ok (((List.range max).filter (fun (i : Nat) => decide ((i : Int) ∉ excluded))).map (fun (i : Nat) => (i : Int)))

/-- Microsynthesis.h:182-194: the body of the inner loop of `rScale`, at the main index `idx`. -/
def scaleCell (dbg : Bool) (fp : FP) (N : Num α) (r : NDArray Fl) (marg : NDArray α) (a : NDArray Fl)
    (m : MappedIndex) (idx : List Int) : Out (NDArray Fl) := do
  let rv ← r.get (m.vals idx)
  let mv ← marg.get (m.vals idx)
  if dbg && FP.feq rv (.fin 0) && !(FP.feq (N.toFl mv) (.fin 0)) then .thrown .div0
  else if !(FP.feq rv (.fin 0)) then
    a.modify idx (fun x => fp.mul x (fp.div (N.toFl mv) rv))
  else a.set idx (.fin 0)

/-- Microsynthesis.h:174-199: one iteration of the outer loop of `rScale`, for one marginal. -/
def scaleOne (dbg : Bool) (fp : FP) (N : Num α) (a : NDArray Fl) (dims : List Int) (marg : NDArray α) :
    Out (NDArray Fl) := do
  let r ← reduceM dbg (numFl fp) a dims
  let main ← Index.new a.sizes
  let inv ← invert a.dim dims
  let res ← forMapped main inv (fun a _ idx =>
    forMapped { main with idx := idx } dims (fun a m idx => do
      let a ← scaleCell dbg fp N r marg a m idx
      pure (a, idx)) a) a
  pure res.1

/-- Microsynthesis.h:170-200, `rScale`. -/
def rScale (dbg : Bool) (fp : FP) (N : Num α) (a : NDArray Fl) : List (List Int) → List (NDArray α) →
    Out (NDArray Fl)
  | [], _ => .ok a
  | _ :: _, [] => .ub .oob
  | i :: is, m :: ms => do
    let a ← scaleOne dbg fp N a i m
    rScale dbg fp N a is ms

/-- Microsynthesis.h:161-166, `rDiff`. -/
def rDiff (dbg : Bool) (fp : FP) (N : Num α) (a : NDArray Fl) : List (List Int) → List (NDArray α) →
    List (NDArray Fl) → Out (List (NDArray Fl))
  | [], _, ds => .ok ds
  | i :: is, m :: ms, d :: ds => do
    let r ← reduceM dbg (numFl fp) a i
    let d ← diff fp N r m d
    let rest ← rDiff dbg fp N a is ms ds
    pure (d :: rest)
  | _ :: _, _, _ => .ub .oob

/-- Microsynthesis.h:122-131, `makeMarginalMappings`. -/
def mappings (main : Index) (indices : List (List Int)) : Out (List MappedIndex) :=
  indices.mapM (MappedIndex.new main)

end Micro

end HL

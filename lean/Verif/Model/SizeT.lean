import Verif.Model.QIS

/-
The size of a table as the code computes it.  `NDArray.lean` multiplies the sizes as natural numbers and every allocation
succeeds; here the product is a `size_t`, which wraps around at 2^64, and an allocation can fail.  Only the steps of `qis`
that create arrays are written again; a null pointer is a block without elements.  The other solvers need a seed with the
shape of the table, which the caller has already got into memory.  (`Props/SizeT.lean` compares the two models.)
-/

namespace HL

/-- NDArray.h:120-126: the product of the sizes in `size_t`. -/
def storage64 : List Nat → Nat
  | [] => 0
  | n :: s => s.foldl (fun m k => m * k % 2 ^ 64) (n % 2 ^ 64)

/-- NDArray.h:112-140, `resize` of an array that owns its storage.  `mem k` is whether `new T[k]` succeeds (it does not from
2^60 elements of 8 bytes on); when it does not, it throws (`Exn.lengthError` stands for `std::bad_alloc`). -/
def NDArray.resizeW {α : Type} (mem : Nat → Bool) (a : NDArray α) (sizes : List Nat) : Out (NDArray α) :=
  match sizes with
  | [] => .ub .oob
  | _ =>
    if storage64 sizes > a.storageSize then
      if mem (storage64 sizes) then do
        let offsets ← NDArray.computeOffsets (storage64 sizes) sizes
        pure { sizes := sizes, offsets := offsets, storageSize := storage64 sizes,
               data := List.replicate (storage64 sizes) none }
      else .thrown .lengthError
    else do
      let offsets ← NDArray.computeOffsets (storage64 sizes) sizes
      pure { sizes := sizes, offsets := offsets, storageSize := storage64 sizes, data := a.data }

/-- NDArray.h:62-66, `copy(src, dest)`. -/
def NDArray.copyW {α : Type} (mem : Nat → Bool) (src dest : NDArray α) : Out (NDArray α) := do
  let d ← dest.resizeW mem src.sizes
  let xs ← src.readAll
  d.copyIn xs

/-- Microsynthesis.h:30-111, constructor: the same as `Micro.new`, but for the array made at line 83. -/
def Micro.newW {α β : Type} (mem : Nat → Bool) (fp : FP) (N : Num α) (indices : List (List Int)) (marginals : List (NDArray α)) :
    Out (Micro β α) := do
  if indices.length ≠ marginals.length ∨ indices.length < 2 then .thrown .listSize
  else
    let dimSizes ← enterAll [] indices marginals
    if dimSizes.length < 2 then .thrown .tooFewDims
    else
      checkNonneg N marginals
      let sizes ← collectSizes dimSizes dimSizes.length 0
      let lookup ← lookupAll (List.replicate dimSizes.length []) 0 indices
      match marginals with
      | [] => .ub .oob
      | a :: rest =>
        let pop ← roundedSum fp N a
        checkSums fp N pop rest
        checkDims N marginals lookup
        let array ← NDArray.empty.resizeW mem sizes
        pure { dim := dimSizes.length, sizes := sizes, indices := indices, marginals := marginals,
               population := pop, dimLookup := lookup, array := array }

namespace QIS

/-- QIS.cpp:159-176, constructor. -/
def newW (mem : Nat → Bool) (fp : FP) (indices : List (List Int)) (marginals : List (NDArray Int)) (skips : Int) : Out QIS := do
  let m ← Micro.newW mem fp (numInt fp) indices marginals
  let sobol ← Sobol.new m.dim 0
  let sobol ← sobol.skip (skips % 2 ^ 32).toNat
  let sv ← NDArray.empty.resizeW mem m.array.sizes
  let sv ← computeStateValues fp m sv
  let e ← NDArray.copyW mem sv NDArray.empty
  let total ← sumArr (numFl fp) sv
  let scale := fp.div (fp.ofInt m.population) total
  let e ← forIndex e.sizes (fun (e : NDArray Fl) idx => e.modify idx (fun x => fp.mul x scale)) e
  pure { micro := m, sobol := sobol, stateValues := sv, expected := e, chiSq := .fin 0, pValue := .fin 0,
         degeneracy := .fin 0, conv := false }

/-- module.cpp:208-240, `hl::qis`, after the conversion of its arguments. -/
def runW (mem : Nat → Bool) (fp : FP) (lm : Libm) (indices : List (List Int)) (marginals : List (NDArray Int)) (skips : Int) :
    Out QIS := do
  let x ← newW mem fp indices marginals skips
  solve fp lm x false

end QIS

end HL

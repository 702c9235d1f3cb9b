import Verif.Base

/-
Model of src/Index.h and src/Index.cpp.

Sizes are natural numbers (numpy and R never produce a negative extent); index vectors are `List Int`
because the code stores the sentinel -1 in them.  Arithmetic on `int64_t`/`size_t` is unbounded: the
model does not represent overflow of index arithmetic.
-/

namespace HL

/-- Index.h:13-51, class `Index`.  `m_dim` is `sizes.length`; `m_storageSize` is not stored because
nothing reads it. -/
structure Index where
  sizes : List Nat
  idx : List Int
  atEnd : Bool
  deriving DecidableEq, Repr

namespace Index

/-- Index.cpp:10-17, constructor.  With no dimensions `m_sizes[0]` is read out of bounds. -/
def new (sizes : List Nat) : Out Index :=
  match sizes with
  | [] => .ub .oob
  | _ => .ok { sizes := sizes, idx := List.replicate sizes.length 0, atEnd := false }

/-- Index.cpp:21-29, the loop of `operator++`.  The first argument is `i + 1` for the loop variable
`i`, which counts down from `m_dim - 1` to 0. -/
def incrLoop (sizes : List Nat) : Nat → List Int → Bool → List Int × Bool
  | 0, idx, e => (idx, e)
  | i + 1, idx, e =>
    let idx := idx.set i (idx.getD i 0 + 1)
    if idx.getD i 0 ≠ (sizes.getD i 0 : Int) then (idx, e)
    else
      let e := if i = 0 then true else e
      incrLoop sizes i (idx.set i 0) e

/-- Index.cpp:19-31, `operator++`. -/
def incr (x : Index) : Index :=
  let r := incrLoop x.sizes x.sizes.length x.idx x.atEnd
  { x with idx := r.1, atEnd := r.2 }

/-- Index.cpp:62-66, `reset`. -/
def reset (x : Index) : Index :=
  { x with idx := List.replicate x.sizes.length 0, atEnd := false }

end Index

namespace TransposedIndex

/-- Index.cpp:80-88, the loop of `TransposedIndex::operator++`.  The first argument is the number of
iterations left, so the loop variable is `m_dim` minus it, counting up from 0. -/
def incrLoop (sizes : List Nat) : Nat → List Int → Bool → List Int × Bool
  | 0, idx, e => (idx, e)
  | k + 1, idx, e =>
    let i := sizes.length - (k + 1)
    let idx := idx.set i (idx.getD i 0 + 1)
    if idx.getD i 0 ≠ (sizes.getD i 0 : Int) then (idx, e)
    else
      let e := if i = sizes.length - 1 then true else e
      incrLoop sizes k (idx.set i 0) e

/-- Index.cpp:78-90, `TransposedIndex::operator++` (the class adds no state to `Index`). -/
def incr (x : Index) : Index :=
  let r := incrLoop x.sizes x.sizes.length x.idx x.atEnd
  { x with idx := r.1, atEnd := r.2 }

end TransposedIndex

/-- Index.h:68-91, class `MappedIndex`.  The C++ object holds pointers into the index vector of
another object; here `pos` are the positions they point to, and the functions take and return the
vector they point into. -/
structure MappedIndex where
  pos : List Nat
  sizes : List Nat
  atEnd : Bool
  deriving DecidableEq, Repr

namespace MappedIndex

/-- One dimension of Index.cpp:97-103: reading `sizes()[d]` and taking the address of element `d`
is out of bounds unless `0 <= d < dim`. -/
def checkDim (n : Nat) (d : Int) : Out Nat :=
  if 0 ≤ d ∧ d < n then .ok d.toNat else .ub .oob

/-- Index.cpp:93-104, constructor. -/
def new (x : Index) (dims : List Int) : Out MappedIndex := do
  let pos ← dims.mapM (checkDim x.sizes.length)
  pure { pos := pos, sizes := pos.map (fun d => x.sizes.getD d 0), atEnd := x.atEnd }

/-- The values the pointers see: Index.cpp:121-130. -/
def vals (m : MappedIndex) (idx : List Int) : List Int := m.pos.map (fun p => idx.getD p 0)

/-- Index.cpp:108-116, the loop of `MappedIndex::operator++` (first argument: loop variable + 1). -/
def incrLoop (pos sizes : List Nat) : Nat → List Int → Bool → List Int × Bool
  | 0, idx, e => (idx, e)
  | i + 1, idx, e =>
    let p := pos.getD i 0
    let idx := idx.set p (idx.getD p 0 + 1)
    if idx.getD p 0 ≠ (sizes.getD i 0 : Int) then (idx, e)
    else
      let e := if i = 0 then true else e
      incrLoop pos sizes i (idx.set p 0) e

/-- Index.cpp:106-118, `operator++`, acting on the index vector pointed into. -/
def incr (m : MappedIndex) (idx : List Int) : MappedIndex × List Int :=
  let r := incrLoop m.pos m.sizes m.pos.length idx m.atEnd
  ({ m with atEnd := r.2 }, r.1)

end MappedIndex

/-- Index.h:93-124, class `FixedIndex`; `freePos` are the positions `m_freeIndex` points to. -/
structure FixedIndex where
  freeDim : Nat
  full : List Int
  freePos : List Nat
  freeSizes : List Nat
  atEnd : Bool
  deriving DecidableEq, Repr

namespace FixedIndex

/-- Index.cpp:154-157: set the fixed values in the full index (a position outside it is out of
bounds). -/
def setFixed (full : List Int) : List (Int × Int) → Out (List Int)
  | [] => .ok full
  | (d, v) :: rest =>
    if 0 ≤ d ∧ d < full.length then setFixed (full.set d.toNat v) rest else .ub .oob

/-- Index.cpp:159-168: collect the positions still holding -1, record their sizes and set them to 0.
`n` iterations are left, `i` is the loop variable.  Writing `m_freeSizes[j]` beyond its `freeDim`
entries is out of bounds. -/
def collect (sizes : List Nat) (freeDim : Nat) : Nat → Nat → List Int → List Nat → List Nat →
    Out (List Int × List Nat × List Nat)
  | 0, _, full, freePos, freeSizes => .ok (full, freePos, freeSizes)
  | n + 1, i, full, freePos, freeSizes =>
    if full.getD i 0 = -1 then
      if freeSizes.length < freeDim then
        collect sizes freeDim n (i + 1) (full.set i 0) (freePos ++ [i])
          (freeSizes ++ [sizes.getD i 0])
      else .ub .oob
    else collect sizes freeDim n (i + 1) full freePos freeSizes

/-- Index.cpp:144-169, constructor.  `sizes.size() - fixed.size()` wraps around when there are more
fixed entries than dimensions, and allocating a vector of that length throws.  Entries of
`m_freeSizes` that the loop does not reach keep their initial value 0. -/
def new (sizes : List Nat) (fixed : List (Int × Int)) : Out FixedIndex := do
  if sizes.length < fixed.length then .thrown .lengthError
  else if sizes = [] then .ub .oob
  else
    let freeDim := sizes.length - fixed.length
    let full ← setFixed (List.replicate sizes.length (-1)) fixed
    let r ← collect sizes freeDim sizes.length 0 full [] []
    pure { freeDim := freeDim, full := r.1, freePos := r.2.1,
           freeSizes := r.2.2 ++ List.replicate (freeDim - r.2.2.length) 0, atEnd := false }

/-- Index.cpp:173-181, the loop of `FixedIndex::operator++` (first argument: loop variable + 1). -/
def incrLoop (pos sizes : List Nat) : Nat → List Int → Bool → List Int × Bool
  | 0, idx, e => (idx, e)
  | i + 1, idx, e =>
    let p := pos.getD i 0
    let idx := idx.set p (idx.getD p 0 + 1)
    if idx.getD p 0 ≠ (sizes.getD i 0 : Int) then (idx, e)
    else
      let e := if i = 0 then true else e
      incrLoop pos sizes i (idx.set p 0) e

/-- Index.cpp:171-183, `operator++`. -/
def incr (x : FixedIndex) : FixedIndex :=
  let r := incrLoop x.freePos x.freeSizes x.freeDim x.full x.atEnd
  { x with full := r.1, atEnd := r.2 }

/-- Index.cpp:209-212, the values `free()` points to. -/
def free (x : FixedIndex) : List Int := x.freePos.map (fun p => x.full.getD p 0)

end FixedIndex

/-- The loop `for (Index i(sizes); !i.end(); ++i) body` used throughout, e.g. NDArrayUtils.h:19-22;
`σ` is whatever the body updates. -/
def forIndex {σ : Type} (sizes : List Nat) (body : σ → List Int → Out σ) (s : σ) : Out σ := do
  let x ← Index.new sizes
  let r ← loop (fun (t : Index × σ) => !t.1.atEnd)
    (fun t => do
      let s' ← body t.2 t.1.idx
      pure (t.1.incr, s')) (x, s)
  pure r.2

/-- The loop `for (TransposedIndex i(sizes); !i.end(); ++i) body`, e.g. rcpp_api.cpp:71-74. -/
def forTransposed {σ : Type} (sizes : List Nat) (body : σ → List Int → Out σ) (s : σ) : Out σ := do
  let x ← Index.new sizes
  let r ← loop (fun (t : Index × σ) => !t.1.atEnd)
    (fun t => do
      let s' ← body t.2 t.1.idx
      pure (TransposedIndex.incr t.1, s')) (x, s)
  pure r.2

/-- The loop `for (MappedIndex m(main, dims); !m.end(); ++m) body` (Microsynthesis.h:178,180).  The
body sees and may move the main index; the result is the final main index vector and state. -/
def forMapped {σ : Type} (x : Index) (dims : List Int)
    (body : σ → MappedIndex → List Int → Out (σ × List Int)) (s : σ) : Out (σ × List Int) := do
  let m ← MappedIndex.new x dims
  let r ← loop (fun (t : MappedIndex × List Int × σ) => !t.1.atEnd)
    (fun t => do
      let s' ← body t.2.2 t.1 t.2.1
      let n := t.1.incr s'.2
      pure (n.1, n.2, s'.1)) (m, x.idx, s)
  pure (r.2.2, r.2.1)

/-- The loop `for (FixedIndex i(...); !i.end(); ++i) body` over a constructed index
(NDArrayUtils.h:196-199). -/
def forFixed {σ : Type} (x : FixedIndex) (body : σ → FixedIndex → Out σ) (s : σ) : Out σ := do
  let r ← loop (fun (t : FixedIndex × σ) => !t.1.atEnd)
    (fun t => do
      let s' ← body t.2 t.1
      pure (t.1.incr, s')) (x, s)
  pure r.2

end HL

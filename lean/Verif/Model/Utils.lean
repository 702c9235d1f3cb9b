import Verif.Model.NDArray

/-
Model of src/NDArrayUtils.h.  The C++ templates are instantiated with `int64_t` and `double`; `Num`
carries the operations of the element type.
-/

namespace HL

/-- The operations the templates use on their element type. -/
structure Num (α : Type) where
  zero : α
  add : α → α → α
  lt : α → α → Bool
  /-- `std::numeric_limits<T>::max()` -/
  maxVal : α
  /-- conversion to `double` -/
  toFl : α → Fl
  /-- NDArrayUtils.h:229-247, `allclose` -/
  allclose : List α → List α → Bool

/-- Largest finite `double`, `std::numeric_limits<double>::max()`. -/
def dblMax : ℚ := (2 - 1 / 2 ^ 52) * 2 ^ 1023

/-- `int64_t` (arithmetic is unbounded: signed overflow is not modelled).  NDArrayUtils.h:229-233. -/
def numInt (fp : FP) : Num Int where
  zero := 0
  add := (· + ·)
  lt a b := decide (a < b)
  maxVal := 2 ^ 63 - 1
  toFl := fp.ofInt
  allclose a b := decide (a = b)

/-- The literal `1e-8`. -/
def tol8 (fp : FP) : Fl := fp.rnd (1 / 10 ^ 8)

/-- NDArrayUtils.h:241-245, the loop of `allclose` for `double`. -/
def allcloseLoop (fp : FP) : List Fl → List Fl → Bool
  | a :: as, b :: bs =>
    if FP.lt (tol8 fp) (FP.abs (fp.sub a b)) then false else allcloseLoop fp as bs
  | _, _ => true

/-- `double`.  NDArrayUtils.h:235-247. -/
def numFl (fp : FP) : Num Fl where
  zero := .fin 0
  add := fp.add
  lt := FP.lt
  maxVal := .fin dblMax
  toFl := id
  allclose a b := if a.length ≠ b.length then false else allcloseLoop fp a b

variable {α : Type}

/-- NDArrayUtils.h:27-31, `sum` of a vector (`std::accumulate`). -/
def sumVec (N : Num α) (v : List α) : α := v.foldl N.add N.zero

/-- NDArrayUtils.h:39-43, `sum` of an array. -/
def sumArr (N : Num α) (a : NDArray α) : Out α := do
  let xs ← a.readAll
  pure (sumVec N xs)

/-- NDArrayUtils.h:45-54, `min` of an array; `std::min(x, y)` is `y < x ? y : x`. -/
def minArr (N : Num α) (a : NDArray α) : Out α :=
  forIndex a.sizes (fun m idx => do
    let x ← a.get idx
    pure (if N.lt x m then x else m)) N.maxVal

/-- NDArrayUtils.h:56-65, `max` of an array: the code is the same as `min`. -/
def maxArr (N : Num α) (a : NDArray α) : Out α :=
  forIndex a.sizes (fun m idx => do
    let x ← a.get idx
    pure (if N.lt x m then x else m)) N.maxVal

/-- NDArrayUtils.h:90-99, `isZero` of a vector of integers. -/
def isZeroVec : List Int → Bool
  | [] => true
  | x :: v => if x ≠ 0 then false else isZeroVec v

/-- NDArrayUtils.h:101-112, the loop of `marginalProduct` from dimension `d` (integers; the `assert` on the
lengths is compiled out, so a short `idx` is read beyond its end). -/
def marginalProductFrom : List (List Int) → List Int → Int → Out Int
  | [], _, p => .ok p
  | _ :: _, [], _ => .ub .oob
  | m :: ms, i :: idx, p =>
    if h : 0 ≤ i ∧ i.toNat < m.length then marginalProductFrom ms idx (p * m[i.toNat]'h.2) else .ub .oob

/-- NDArrayUtils.h:101-112, `marginalProduct`. -/
def marginalProduct (m : List (List Int)) (idx : List Int) : Out Int := marginalProductFrom m idx 1

/-- `v[i] op= …` on a vector, out of bounds unless `0 <= i < v.size()`. -/
def vecModify (v : List α) (i : Int) (f : α → α) : Out (List α) :=
  if h : 0 ≤ i ∧ i.toNat < v.length then
    .ok (v.set i.toNat (f (v[i.toNat]'h.2)))
  else .ub .oob

/-- NDArrayUtils.h:116-136, `reduce` to the 1-d sums along dimension `orient`. -/
def reduce1 (N : Num α) (a : NDArray α) (orient : Nat) : Out (List α) :=
  if ¬ orient < a.dim then .thrown .reduceDim
  else
    forIndex a.sizes (fun sums idx => do
      let x ← a.get idx
      vecModify sums (idx.getD orient 0) (fun s => N.add s x))
      (List.replicate (a.sizes.getD orient 0) N.zero)

/-- NDArrayUtils.h:140-164, `reduce` to the sums over the preserved dimensions.  `dbg` selects a build
in which `assert` is active (line 145). -/
def reduceM (dbg : Bool) (N : Num α) (a : NDArray α) (dims : List Int) : Out (NDArray α) :=
  if dbg ∧ ¬ dims.length < a.dim then .ub .assertFail
  else do
    let pos ← dims.mapM (MappedIndex.checkDim a.dim)
    let reduced ← NDArray.new (pos.map (fun d => a.sizes.getD d 0))
    let reduced ← reduced.assign N.zero
    let x ← Index.new a.sizes
    let m ← MappedIndex.new x dims
    forIndex a.sizes (fun (r : NDArray α) idx => do
      let v ← a.get idx
      r.modify (m.vals idx) (fun s => N.add s v)) reduced

/-- NDArrayUtils.h:177-183: the checks at the start of `slice`.  The conversion to `size_t` makes a
negative dimension too large; a negative index is not rejected. -/
def sliceCheck (sizes : List Nat) : List (Int × Int) → Out Unit
  | [] => .ok ()
  | (d, i) :: rest =>
    if d < 0 ∨ (sizes.length : Int) ≤ d then .thrown .sliceDim
    else if (sizes.getD d.toNat 0 : Int) ≤ i then .thrown .sliceIndex
    else sliceCheck sizes rest

/-- NDArrayUtils.h:174-201, `slice` at several fixed (dimension, index) pairs. -/
def slice (a : NDArray α) (fixed : List (Int × Int)) : Out (NDArray α) := do
  sliceCheck a.sizes fixed
  if fixed = [] then
    let c ← NDArray.new a.sizes
    let xs ← a.readAll
    c.copyIn xs
  else
    let x ← FixedIndex.new a.sizes fixed
    let sliced ← NDArray.new x.freeSizes
    forFixed x (fun (s : NDArray α) (x : FixedIndex) => do
      let v ← a.get x.full
      s.set x.free v) sliced

/-- NDArrayUtils.h:168-172, `slice` at one fixed pair. -/
def slice1 (a : NDArray α) (d i : Int) : Out (NDArray α) := slice a [(d, i)]

/-- NDArrayUtils.h:16-23, `diff`: `x - y` in floating point, written to `d`. -/
def diff (fp : FP) (N : Num α) (x : NDArray Fl) (y : NDArray α) (d : NDArray Fl) :
    Out (NDArray Fl) :=
  forIndex x.sizes (fun (d : NDArray Fl) idx => do
    let a ← x.get idx
    let b ← y.get idx
    d.set idx (fp.sub a (N.toFl b))) d

/-- NDArrayUtils.h:218-221: write one row of the table, `list[j][p] = offset + ref[j]`. -/
def writeRow (offset : Int) (p : Nat) : List (List Int) → List Int → Out (List (List Int))
  | [], _ => .ok []
  | _ :: _, [] => .ub .oob
  | col :: cols, i :: is =>
    if p < col.length then do
      let r ← writeRow offset p cols is
      pure (col.set p (offset + i) :: r)
    else .ub .oob

/-- NDArrayUtils.h:215-223: the inner loop, `n` rows for the cell `idx`. -/
def writeRows (offset : Int) (idx : List Int) : Nat → List (List Int) × Nat →
    Out (List (List Int) × Nat)
  | 0, s => .ok s
  | n + 1, (list, p) => do
    let list ← writeRow offset p list idx
    writeRows offset idx n (list, p + 1)

/-- NDArrayUtils.h:204-227, `listify`.  `pop` is a `size_t`; a vector of more than 2^61-1 `int`s cannot
be constructed and throws.  The narrowing of an index to `int` is not modelled. -/
def listify (pop : Nat) (t : NDArray Int) (offset : Int) : Out (List (List Int)) :=
  if 2 ^ 61 ≤ pop then .thrown .lengthError
  else do
    let r ← forIndex t.sizes (fun (s : List (List Int) × Nat) idx => do
      let n ← t.get idx
      writeRows offset idx n.toNat s)
      (List.replicate t.dim (List.replicate pop 0), 0)
    pure r.1

end HL

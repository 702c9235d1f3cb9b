import Verif.Float
import Verif.Model.Index

/-
Model of src/NDArray.h: contents, addressing, resizing.  Ownership of the storage (m_owned, move,
release, destruction) is modelled separately in Verif/Model/Heap.lean.
-/

namespace HL

/-- Product of the sizes: NDArray.h:120-126 (overflow of `size_t` is not modelled). -/
def prodSizes : List Nat → Nat
  | [] => 1
  | n :: s => n * prodSizes s

/-- NDArray.h:250-255.  `m_dim` is `sizes.length`.  `data` is the allocated block; `none` is an
element that has not been written since allocation. -/
structure NDArray (α : Type) where
  sizes : List Nat
  offsets : List Nat
  storageSize : Nat
  data : List (Option α)
  deriving DecidableEq, Repr

namespace NDArray
variable {α : Type}

/-- NDArray.h:29-31, default constructor. -/
def empty : NDArray α := { sizes := [], offsets := [], storageSize := 0, data := [] }

/-- NDArray.h:86-89 -/
def dim (a : NDArray α) : Nat := a.sizes.length

/-- NDArray.h:205-214, `computeOffsets`: the loop over the remaining sizes with the current value of
`mult`.  A zero size is an integer division by zero. -/
def computeOffsets (mult : Nat) : List Nat → Out (List Nat)
  | [] => .ok []
  | n :: s =>
    if n = 0 then .ub .divZero
    else do
      let r ← computeOffsets (mult / n) s
      pure (mult / n :: r)

/-- NDArray.h:112-140, `resize` of an array that owns its storage.  With no dimensions `sizes[0]` is
read out of bounds.  The block is only replaced when the new storage size exceeds the old one. -/
def resize (a : NDArray α) (sizes : List Nat) : Out (NDArray α) :=
  match sizes with
  | [] => .ub .oob
  | _ => do
    let storageSize := prodSizes sizes
    let data := if storageSize > a.storageSize then List.replicate storageSize none else a.data
    let offsets ← computeOffsets storageSize sizes
    pure { sizes := sizes, offsets := offsets, storageSize := storageSize, data := data }

/-- NDArray.h:33-36, constructor from sizes. -/
def new (sizes : List Nat) : Out (NDArray α) := resize empty sizes

/-- NDArray.h:39-54, constructor wrapping a block managed elsewhere; `block` is what that block
holds. -/
def wrap (sizes : List Nat) (block : List (Option α)) : Out (NDArray α) :=
  match sizes with
  | [] => .ub .oob
  | _ => do
    let storageSize := prodSizes sizes
    let offsets ← computeOffsets storageSize sizes
    pure { sizes := sizes, offsets := offsets, storageSize := storageSize, data := block }

/-- NDArray.h:216-236, `offset`.  Reading `idx[i]` past the end of a short index is out of bounds;
extra entries are ignored.  Computed in the integers: a negative total would wrap to an address
beyond any allocation. -/
def offset : List Nat → List Int → Out Int
  | [], _ => .ok 0
  | _ :: _, [] => .ub .oob
  | o :: os, i :: is => do
    let r ← offset os is
    pure ((o : Int) * i + r)

/-- NDArray.h:157-165,177-185, reading an element. -/
def get (a : NDArray α) (idx : List Int) : Out α := do
  let o ← offset a.offsets idx
  if 0 ≤ o ∧ o < a.data.length then
    match a.data.getD o.toNat none with
    | some x => .ok x
    | none => .ub .uninit
  else .ub .oob

/-- NDArray.h:147-155,167-175, assigning to an element. -/
def set (a : NDArray α) (idx : List Int) (x : α) : Out (NDArray α) := do
  let o ← offset a.offsets idx
  if 0 ≤ o ∧ o < a.data.length then
    .ok { a with data := a.data.set o.toNat (some x) }
  else .ub .oob

/-- Read-modify-write through `operator[]` (`+=`, `*=`, `++`, `--`). -/
def modify (a : NDArray α) (idx : List Int) (f : α → α) : Out (NDArray α) := do
  let x ← a.get idx
  a.set idx (f x)

/-- NDArray.h:142-145, `assign`: fills the first `m_storageSize` elements. -/
def assign (a : NDArray α) (x : α) : Out (NDArray α) :=
  if a.storageSize ≤ a.data.length then
    .ok { a with data := List.replicate a.storageSize (some x) ++ a.data.drop a.storageSize }
  else .ub .oob

/-- Copying `n` elements from the block `src` to the front of the array's block
(`std::copy(begin, end, rawData())`; copying an indeterminate value is undefined). -/
def copyIn (a : NDArray α) (src : List α) : Out (NDArray α) :=
  if src.length ≤ a.data.length then
    .ok { a with data := src.map some ++ a.data.drop src.length }
  else .ub .oob

/-- The elements `[rawData(), rawData() + storageSize())`, NDArray.h:107-110,187-195. -/
def readAll (a : NDArray α) : Out (List α) :=
  if a.storageSize ≤ a.data.length then
    (a.data.take a.storageSize).mapM (fun x => match x with
      | some x => .ok x
      | none => .ub .uninit)
  else .ub .oob

/-- NDArray.h:62-66, `copy(src, dest)`. -/
def copy (src dest : NDArray α) : Out (NDArray α) := do
  let d ← dest.resize src.sizes
  let xs ← src.readAll
  d.copyIn xs

end NDArray

end HL

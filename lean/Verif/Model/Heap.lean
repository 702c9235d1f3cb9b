import Verif.Model.NDArray

/-
Who owns the storage of an `NDArray` (NDArray.h).

`Model/NDArray.lean` models the contents of one array.  Here the contents are left out and the memory is put in: a heap of
blocks, array objects holding a pointer into it and a flag, and the operations of the class, any of which can be applied to
any array at any time, interleaved with allocations and deallocations made by the caller.
-/

namespace HL.Heap

/-- A block of memory: its size in elements and whether it is still allocated.  Freed blocks stay in the heap, so that a
pointer is never reused. -/
structure Block where
  size : Nat
  live : Bool
  deriving DecidableEq, Repr

/-- NDArray.h:250-255, the members, except that `data` is a position in the heap or null.  `alive` is false after the
destructor has run. -/
structure Obj where
  dim : Nat
  sizes : List Nat
  offsets : List Nat
  storage : Nat
  data : Option Nat
  owned : Bool
  alive : Bool
  deriving DecidableEq, Repr

/-- The memory and the arrays in it, in order of creation. -/
structure St where
  heap : List Block
  objs : List Obj
  deriving DecidableEq, Repr

/-- What can be done.  `ok` says whether the allocation the operation makes, if any, succeeds. -/
inductive Op
  | new0                                        -- NDArray()
  | new (sizes : List Nat) (ok : Bool)          -- NDArray(sizes)
  | wrap (sizes : List Nat) (p : Nat)           -- NDArray(sizes, storage)
  | move (i : Nat)                              -- NDArray(std::move(objs[i]))
  | resize (i : Nat) (sizes : List Nat) (ok : Bool)
  | release (i : Nat)
  | destroy (i : Nat)
  | access (i : Nat) (idx : List Int)           -- objs[i][idx], read or written
  | callerNew (size : Nat)                      -- the caller allocates a block
  | callerDelete (p : Nat)                      -- the caller frees a block
  deriving DecidableEq, Repr

/-- How an operation ends when it is not undefined: normally, or with one of the two exceptions.  The caller may catch the
exception and go on. -/
inductive End
  | done
  | notOwned   -- NDArray.h:138
  | badAlloc   -- `new T[size]` in NDArray.h:240
  deriving DecidableEq, Repr

/-- NDArray.h:243-246, `delete[] p`: nothing for a null pointer. -/
def deallocate (h : List Block) (p : Option Nat) : Out (List Block) :=
  match p with
  | none => .ok h
  | some k =>
    match h[k]? with
    | none => .ub .oob
    | some b => if b.live then .ok (h.set k { b with live := false }) else .ub .doubleFree

/-- NDArray.h:238-241, `new T[size]`: a block that is not already in use. -/
def allocate (h : List Block) (size : Nat) : List Block × Nat := (h ++ [⟨size, true⟩], h.length)

/-- NDArray.h:29-31. -/
def empty : Obj := { dim := 0, sizes := [], offsets := [], storage := 0, data := none, owned := true, alive := true }

/-- NDArray.h:112-140, `resize`.  The members are updated in the order of the code, so that they are half updated when the
allocation throws. -/
def resize (h : List Block) (a : Obj) (sizes : List Nat) (ok : Bool) : Out (List Block × Obj × End) :=
  if a.owned then
    match sizes with
    | [] => .ub .oob
    | _ =>
      let a' := { a with dim := sizes.length, sizes := sizes, storage := prodSizes sizes }
      if prodSizes sizes > a.storage then do
        let h ← deallocate h a.data
        if ok then do
          let (h, p) := allocate h (prodSizes sizes)
          let offsets ← NDArray.computeOffsets (prodSizes sizes) sizes
          pure (h, { a' with data := some p, offsets := offsets }, .done)
        else pure (h, a', .badAlloc)
      else do
        let offsets ← NDArray.computeOffsets (prodSizes sizes) sizes
        pure (h, { a' with offsets := offsets }, .done)
  else .ok (h, a, .notOwned)

/-- NDArray.h:39-54, the constructor for storage managed by some other object. -/
def wrapObj (sizes : List Nat) (p : Nat) : Out Obj :=
  match sizes with
  | [] => .ub .oob
  | _ => do
    let offsets ← NDArray.computeOffsets (prodSizes sizes) sizes
    pure { dim := sizes.length, sizes := sizes, offsets := offsets, storage := prodSizes sizes, data := some p, owned := false, alive := true }

/-- NDArray.h:69-78, the move constructor: the array made. -/
def moveTo (a : Obj) : Obj := a

/-- NDArray.h:69-78, the move constructor: what is left behind.  The vectors are swapped with empty ones; the number of
dimensions, the storage size and the pointer stay. -/
def moveFrom (a : Obj) : Obj := { a with sizes := [], offsets := [], owned := false }

/-- NDArray.h:80-84, the destructor. -/
def destroy (h : List Block) (a : Obj) : Out (List Block × Obj) :=
  if a.owned then do
    let h ← deallocate h a.data
    pure (h, { a with alive := false })
  else .ok (h, { a with alive := false })

/-- NDArray.h:147-185,216-236, reaching an element. -/
def access (h : List Block) (a : Obj) (idx : List Int) : Out Unit :=
  if a.offsets.length < a.dim then .ub .oob
  else do
    let o ← NDArray.offset (a.offsets.take a.dim) idx
    match a.data with
    | none => .ub .nullDeref
    | some k =>
      match h[k]? with
      | none => .ub .oob
      | some b =>
        if b.live then if 0 ≤ o ∧ o < b.size then .ok () else .ub .oob
        else .ub .useAfterFree

/-- One operation.  An operation naming an array that does not exist or has been destroyed does nothing: C++ programs in
which names go out of scope with their objects do not contain one. -/
def step (s : St) (op : Op) : Out (St × End) :=
  match op with
  | .new0 => .ok (⟨s.heap, s.objs ++ [empty]⟩, .done)
  | .new sizes ok => do
    let (h, a, e) ← resize s.heap { empty with dim := sizes.length, sizes := sizes } sizes ok
    -- the destructor of an object whose constructor throws does not run
    pure (⟨h, s.objs ++ [{ a with alive := e == .done }]⟩, e)
  | .wrap sizes p => do
    let a ← wrapObj sizes p
    pure (⟨s.heap, s.objs ++ [a]⟩, .done)
  | .move i =>
    match s.objs[i]? with
    | some a => if a.alive then .ok (⟨s.heap, s.objs.set i (moveFrom a) ++ [moveTo a]⟩, .done) else .ok (s, .done)
    | none => .ok (s, .done)
  | .resize i sizes ok =>
    match s.objs[i]? with
    | some a =>
      if a.alive then do
        let (h, a, e) ← resize s.heap a sizes ok
        pure (⟨h, s.objs.set i a⟩, e)
      else .ok (s, .done)
    | none => .ok (s, .done)
  | .release i =>
    match s.objs[i]? with
    | some a => if a.alive then .ok (⟨s.heap, s.objs.set i { a with owned := false }⟩, .done) else .ok (s, .done)
    | none => .ok (s, .done)
  | .destroy i =>
    match s.objs[i]? with
    | some a =>
      if a.alive then do
        let (h, a) ← destroy s.heap a
        pure (⟨h, s.objs.set i a⟩, .done)
      else .ok (s, .done)
    | none => .ok (s, .done)
  | .access i idx =>
    match s.objs[i]? with
    | some a =>
      if a.alive then do
        let _ ← access s.heap a idx
        pure (s, .done)
      else .ok (s, .done)
    | none => .ok (s, .done)
  | .callerNew size => .ok (⟨(allocate s.heap size).1, s.objs⟩, .done)
  | .callerDelete p => do
    let h ← deallocate s.heap (some p)
    pure (⟨h, s.objs⟩, .done)

/-- A program: one operation after another. -/
def run (s : St) : List Op → Out St
  | [] => .ok s
  | op :: ops => do
    let (s, _) ← step s op
    run s ops

/-- The start of a program. -/
def init : St := ⟨[], []⟩

end HL.Heap

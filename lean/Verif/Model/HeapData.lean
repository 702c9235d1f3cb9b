import Verif.Model.Heap

/-
The memory behind the arrays, with what is in it (NDArray.h).

`Model/NDArray.lean` takes an array to be a value; `Model/Heap.lean` has blocks and owners but nothing in the blocks.  Here a
block has contents, arrays are objects with a pointer into the heap, and the operations of the class read and write through
those pointers.  The caller holds pointers of its own: to blocks it has allocated, and to blocks it took over from an array
it called `release` on.  Allocations succeed here (`Model/Heap.lean` has failing ones).
-/

namespace HL.Mem

open Heap (Obj)

variable {α : Type}

/-- A block of memory: its elements, `none` if not written since the allocation, and whether it is still allocated.  Freed
blocks stay, so that a pointer is never reused. -/
structure Block (α : Type) where
  cells : List (Option α)
  live : Bool
  deriving DecidableEq, Repr

/-- The memory, the arrays in order of creation, and the caller's own pointers in the order in which it got them. -/
structure St (α : Type) where
  heap : List (Block α)
  objs : List Obj
  ptrs : List (Option Nat)
  deriving DecidableEq, Repr

/-- What can be done.  Arrays and the caller's pointers are named by position. -/
inductive Op (α : Type)
  | new0                                        -- NDArray()
  | new (sizes : List Nat)                      -- NDArray(sizes)
  | wrap (sizes : List Nat) (k : Nat)           -- NDArray(sizes, pointer k)
  | move (i : Nat)                              -- NDArray(std::move(array i))
  | resize (i : Nat) (sizes : List Nat)
  | release (i : Nat)                           -- the caller takes rawData() and then calls release()
  | destroy (i : Nat)
  | read (i : Nat) (idx : List Int)             -- array i[idx]
  | write (i : Nat) (idx : List Int) (x : α)    -- array i[idx] = x
  | assign (i : Nat) (x : α)
  | copy (i j : Nat)                            -- copy(array i, array j)
  | callerNew (size : Nat)                      -- the caller allocates a block
  | callerRead (k : Nat) (o : Nat)              -- pointer k[o]
  | callerWrite (k : Nat) (o : Nat) (x : α)
  | callerDelete (k : Nat)
  deriving DecidableEq, Repr

/-- How an operation ends when it is not undefined: with nothing to show, with the element read, or with the exception of
NDArray.h:138, which the caller may catch. -/
inductive Res (α : Type)
  | done
  | value (x : α)
  | notOwned
  deriving DecidableEq, Repr

/-- NDArray.h:243-246, `delete[] p`. -/
def deallocate (h : List (Block α)) (p : Option Nat) : Out (List (Block α)) :=
  match p with
  | none => .ok h
  | some k =>
    match h[k]? with
    | none => .ub .oob
    | some b => if b.live then .ok (h.set k { b with live := false }) else .ub .doubleFree

/-- NDArray.h:238-241, `new T[size]`: a block not already in use, with indeterminate elements. -/
def allocate (h : List (Block α)) (size : Nat) : List (Block α) × Nat :=
  (h ++ [⟨List.replicate size none, true⟩], h.length)

/-- NDArray.h:112-140, `resize`. -/
def resize (h : List (Block α)) (a : Obj) (sizes : List Nat) : Out (List (Block α) × Obj × Res α) :=
  if a.owned then
    match sizes with
    | [] => .ub .oob
    | _ =>
      let a' := { a with dim := sizes.length, sizes := sizes, storage := prodSizes sizes }
      if prodSizes sizes > a.storage then do
        let h ← deallocate h a.data
        let (h, p) := allocate h (prodSizes sizes)
        let offsets ← NDArray.computeOffsets (prodSizes sizes) sizes
        pure (h, { a' with data := some p, offsets := offsets }, .done)
      else do
        let offsets ← NDArray.computeOffsets (prodSizes sizes) sizes
        pure (h, { a' with offsets := offsets }, .done)
  else .ok (h, a, .notOwned)

/-- NDArray.h:39-54, the constructor for storage managed by some other object. -/
def wrapObj (sizes : List Nat) (p : Option Nat) : Out Obj :=
  match sizes with
  | [] => .ub .oob
  | _ => do
    let offsets ← NDArray.computeOffsets (prodSizes sizes) sizes
    pure { dim := sizes.length, sizes := sizes, offsets := offsets, storage := prodSizes sizes, data := p, owned := false, alive := true }

/-- What a pointer points to, if it may be read or written through. -/
def deref (h : List (Block α)) (p : Option Nat) : Out (Nat × List (Option α)) :=
  match p with
  | none => .ub .nullDeref
  | some k =>
    match h[k]? with
    | none => .ub .oob
    | some b => if b.live then .ok (k, b.cells) else .ub .useAfterFree

/-- `p[o]`, read.  Reading an indeterminate value is undefined. -/
def load (h : List (Block α)) (p : Option Nat) (o : Int) : Out α := do
  let (_, cells) ← deref h p
  if 0 ≤ o ∧ o < cells.length then
    match cells.getD o.toNat none with
    | some x => .ok x
    | none => .ub .uninit
  else .ub .oob

/-- `p[o] = x`. -/
def store (h : List (Block α)) (p : Option Nat) (o : Int) (x : α) : Out (List (Block α)) := do
  let (k, cells) ← deref h p
  if 0 ≤ o ∧ o < cells.length then .ok (h.set k ⟨cells.set o.toNat (some x), true⟩)
  else .ub .oob

/-- NDArray.h:216-236, `offset`, over `m_dim` entries of `m_offsets`. -/
def offset (a : Obj) (idx : List Int) : Out Int :=
  if a.offsets.length < a.dim then .ub .oob else NDArray.offset (a.offsets.take a.dim) idx

/-- NDArray.h:142-145, `assign`: `std::fill` over `m_storageSize` elements, none of which is reached when there are none. -/
def fill (h : List (Block α)) (a : Obj) (x : α) : Out (List (Block α)) :=
  if a.storage = 0 then .ok h
  else do
    let (k, cells) ← deref h a.data
    if a.storage ≤ cells.length then
      .ok (h.set k ⟨List.replicate a.storage (some x) ++ cells.drop a.storage, true⟩)
    else .ub .oob

/-- Reading the first `n` elements of a block, all of which must have been written. -/
def readAll (cells : List (Option α)) (n : Nat) : Out (List α) :=
  if n ≤ cells.length then
    (cells.take n).mapM (fun x => match x with
      | some x => .ok x
      | none => .ub .uninit)
  else .ub .oob

/-- NDArray.h:65, `std::copy` of `n` elements from one pointer to another.  (Copying a range onto itself is outside what
`std::copy` allows; for numbers it is done with `memmove` and that is what this definition has.) -/
def copyRange (h : List (Block α)) (src dst : Option Nat) (n : Nat) : Out (List (Block α)) :=
  if n = 0 then .ok h
  else do
    let (_, from_) ← deref h src
    let xs ← readAll from_ n
    let (k, to_) ← deref h dst
    if n ≤ to_.length then .ok (h.set k ⟨xs.map some ++ to_.drop n, true⟩) else .ub .oob

/-- NDArray.h:80-84, the destructor. -/
def destroy (h : List (Block α)) (a : Obj) : Out (List (Block α) × Obj) :=
  if a.owned then do
    let h ← deallocate h a.data
    pure (h, { a with alive := false })
  else .ok (h, { a with alive := false })

/-- One operation.  As in `Model/Heap.lean`, one naming an array that does not exist or has been destroyed, or a pointer the
caller does not have, does nothing. -/
def step (s : St α) (op : Op α) : Out (St α × Res α) :=
  match op with
  | .new0 => .ok (⟨s.heap, s.objs ++ [Heap.empty], s.ptrs⟩, .done)
  | .new sizes => do
    let (h, a, e) ← resize s.heap { Heap.empty with dim := sizes.length, sizes := sizes } sizes
    pure (⟨h, s.objs ++ [a], s.ptrs⟩, e)
  | .wrap sizes k =>
    match s.ptrs[k]? with
    | some p => do
      let a ← wrapObj sizes p
      pure (⟨s.heap, s.objs ++ [a], s.ptrs⟩, .done)
    | none => .ok (s, .done)
  | .move i =>
    match s.objs[i]? with
    | some a =>
      if a.alive then .ok (⟨s.heap, s.objs.set i (Heap.moveFrom a) ++ [Heap.moveTo a], s.ptrs⟩, .done) else .ok (s, .done)
    | none => .ok (s, .done)
  | .resize i sizes =>
    match s.objs[i]? with
    | some a =>
      if a.alive then do
        let (h, a, e) ← resize s.heap a sizes
        pure (⟨h, s.objs.set i a, s.ptrs⟩, e)
      else .ok (s, .done)
    | none => .ok (s, .done)
  | .release i =>
    match s.objs[i]? with
    | some a =>
      -- an array that owns nothing has nothing to hand over
      if a.alive ∧ a.owned then .ok (⟨s.heap, s.objs.set i { a with owned := false }, s.ptrs ++ [a.data]⟩, .done)
      else .ok (s, .done)
    | none => .ok (s, .done)
  | .destroy i =>
    match s.objs[i]? with
    | some a =>
      if a.alive then do
        let (h, a) ← destroy s.heap a
        pure (⟨h, s.objs.set i a, s.ptrs⟩, .done)
      else .ok (s, .done)
    | none => .ok (s, .done)
  | .read i idx =>
    match s.objs[i]? with
    | some a =>
      if a.alive then do
        let o ← offset a idx
        let x ← load s.heap a.data o
        pure (s, .value x)
      else .ok (s, .done)
    | none => .ok (s, .done)
  | .write i idx x =>
    match s.objs[i]? with
    | some a =>
      if a.alive then do
        let o ← offset a idx
        let h ← store s.heap a.data o x
        pure (⟨h, s.objs, s.ptrs⟩, .done)
      else .ok (s, .done)
    | none => .ok (s, .done)
  | .assign i x =>
    match s.objs[i]? with
    | some a =>
      if a.alive then do
        let h ← fill s.heap a x
        pure (⟨h, s.objs, s.ptrs⟩, .done)
      else .ok (s, .done)
    | none => .ok (s, .done)
  | .copy i j =>
    match s.objs[i]?, s.objs[j]? with
    | some a, some b =>
      if a.alive ∧ b.alive then do
        -- NDArray.h:62-66: the destination is resized, then the elements are copied
        let (h, b, e) ← resize s.heap b a.sizes
        match e with
        | .done => do
          let h ← copyRange h a.data b.data a.storage
          pure (⟨h, s.objs.set j b, s.ptrs⟩, .done)
        | e => pure (⟨h, s.objs.set j b, s.ptrs⟩, e)
      else .ok (s, .done)
    | _, _ => .ok (s, .done)
  | .callerNew size => .ok (⟨(allocate s.heap size).1, s.objs, s.ptrs ++ [some (allocate s.heap size).2]⟩, .done)
  | .callerRead k o =>
    match s.ptrs[k]? with
    | some p => do
      let x ← load s.heap p o
      pure (s, .value x)
    | none => .ok (s, .done)
  | .callerWrite k o x =>
    match s.ptrs[k]? with
    | some p => do
      let h ← store s.heap p o x
      pure (⟨h, s.objs, s.ptrs⟩, .done)
    | none => .ok (s, .done)
  | .callerDelete k =>
    match s.ptrs[k]? with
    | some p => do
      let h ← deallocate s.heap p
      pure (⟨h, s.objs, s.ptrs⟩, .done)
    | none => .ok (s, .done)

/-- A program, one operation after another, and how each of its operations ended. -/
def run (s : St α) : List (Op α) → Out (St α × List (Res α))
  | [] => .ok (s, [])
  | op :: ops => do
    let (s, r) ← step s op
    let (s, rs) ← run s ops
    pure (s, r :: rs)

/-- The start of a program. -/
def init : St α := ⟨[], [], []⟩

/-- What a program shows. -/
def outcome (ops : List (Op α)) : Out (List (Res α)) := Prod.snd <$> run init ops

end HL.Mem

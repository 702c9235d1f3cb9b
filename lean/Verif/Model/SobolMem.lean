import Verif.Model.Sobol

/-
The Sobol generator in memory.  `Model/Sobol.lean` keeps the state of a generator as a value; here it is where the code puts it:
four blocks obtained from `malloc`, any of which may fail, pointers between them, and `free`.  Blocks are read word by word,
words that were never written are marked, and freed blocks stay marked, so that every misuse of memory has an outcome.
-/

namespace HL.SMem

/-- SobolImpl.h:15-23, `SobolData`.  `none` is a member that was never written; a pointer that was written is null or the number of
a block; the row pointers `m[j]` have the number of a block and a position in it. -/
structure Fields where
  sdim : Option Nat
  mdata : Option (Option Nat)
  m : List (Option (Nat × Nat))
  x : Option (Option Nat)
  b : Option (Option Nat)
  n : Option Nat
  deriving DecidableEq, Repr

/-- What a block holds: 32-bit words (`none`: never written), or a `SobolData`. -/
inductive Content
  | words (w : List (Option U32))
  | data (f : Fields)
  deriving DecidableEq, Repr

/-- A block and whether it is still allocated. -/
structure Block where
  content : Content
  live : Bool
  deriving DecidableEq, Repr

abbrev Mem := List Block

/-- Computations that use memory. -/
abbrev M := StateT Mem Out

/-- The C function `malloc`; `ok` says whether it succeeds, `c` is the unwritten block. -/
def malloc (ok : Bool) (c : Content) : M (Option Nat) :=
  fun h => .ok (if ok then (some h.length, h ++ [⟨c, true⟩]) else (none, h))

/-- The C function `free`. -/
def free (p : Option Nat) : M Unit := fun h =>
  match p with
  | none => .ok ((), h)
  | some k =>
    match h[k]? with
    | none => .ub .oob
    | some b => if b.live then .ok ((), h.set k { b with live := false }) else .ub .doubleFree

/-- Reading the word at position `i` of block `k`. -/
def loadW (k i : Nat) : M U32 := fun h =>
  match h[k]? with
  | some ⟨.words w, true⟩ =>
    match w[i]? with
    | some (some v) => .ok (v, h)
    | some none => .ub .uninit
    | none => .ub .oob
  | some ⟨_, false⟩ => .ub .useAfterFree
  | _ => .ub .oob

/-- Writing the word at position `i` of block `k`. -/
def storeW (k i : Nat) (v : U32) : M Unit := fun h =>
  match h[k]? with
  | some ⟨.words w, true⟩ => if i < w.length then .ok ((), h.set k ⟨.words (w.set i (some v)), true⟩) else .ub .oob
  | some ⟨_, false⟩ => .ub .useAfterFree
  | _ => .ub .oob

/-- Reading the members of the `SobolData` in block `k`. -/
def loadS (k : Nat) : M Fields := fun h =>
  match h[k]? with
  | some ⟨.data f, true⟩ => .ok (f, h)
  | some ⟨_, false⟩ => .ub .useAfterFree
  | _ => .ub .oob

/-- Writing members of the `SobolData` in block `k`. -/
def modifyS (k : Nat) (g : Fields → Fields) : M Unit := fun h =>
  match h[k]? with
  | some ⟨.data f, true⟩ => .ok ((), h.set k ⟨.data (g f), true⟩)
  | some ⟨_, false⟩ => .ub .useAfterFree
  | _ => .ub .oob

/-- Using a member that may not have been written. -/
def need {α : Type} : Option α → M α
  | none => fun _ => .ub .uninit
  | some a => pure a

/-- Following a pointer that may be null. -/
def deref : Option Nat → M Nat
  | none => fun _ => .ub .nullDeref
  | some k => pure k

/-- A computation that uses no memory. -/
def lift {α : Type} (x : Out α) : M α := fun h => x >>= fun a => .ok (a, h)

/-- The pointer `sd->m[j]`. -/
def row (s j : Nat) : M (Nat × Nat) := do
  let f ← loadS s
  match f.m[j]? with
  | none => fun _ => .ub .oob
  | some r => need r

/-- Reading `sd->m[j][i]`. -/
def loadM (s j i : Nat) : M U32 := do
  let r ← row s j
  loadW r.1 (r.2 + i)

/-- Writing `sd->m[j][i]`. -/
def storeM (s j i : Nat) (v : U32) : M Unit := do
  let r ← row s j
  storeW r.1 (r.2 + i) v

/-- Reading `sd->x[i]`. -/
def loadX (s i : Nat) : M U32 := do
  let f ← loadS s
  let p ← need f.x
  let p ← deref p
  loadW p i

/-- Writing `sd->x[i]`. -/
def storeX (s i : Nat) (v : U32) : M Unit := do
  let f ← loadS s
  let p ← need f.x
  let p ← deref p
  storeW p i v

/-- Reading `sd->b[i]`. -/
def loadB (s i : Nat) : M U32 := do
  let f ← loadS s
  let p ← need f.b
  let p ← deref p
  loadW p i

/-- Writing `sd->b[i]`. -/
def storeB (s i : Nat) (v : U32) : M Unit := do
  let f ← loadS s
  let p ← need f.b
  let p ← deref p
  storeW p i v

/-- SobolImpl.cpp:129-130: a row pointer, and the direction number of the first coordinate in that row. -/
def initRow (s p sdim j : Nat) : M Unit := do
  modifyS s (fun f => { f with m := f.m.set j (some (p, j * sdim)) })
  storeM s j 0 1

/-- SobolImpl.cpp:145: an entry taken from the table. -/
def initEntry (s i j : Nat) : M Unit := do
  let v ← lift (minitAt i j)
  storeM s j (i + 1) v

/-- SobolImpl.cpp:152-156: the loop over `k`; first argument: how many are left. -/
def fillInner (s i j d : Nat) : Nat → Nat → Nat → M Unit
  | 0, _, _ => pure ()
  | r + 1, k, a => do
    let v ← loadM s (j - d + k) i
    let t ← lift (shlSub (BitVec.ofNat 32 (a % 2) * v) d k)
    let cur ← loadM s j i
    storeM s j i (cur ^^^ t)
    fillInner s i j d r (k + 1) (a / 2)

/-- SobolImpl.cpp:148-157: the loop over `j`; first argument: how many are left. -/
def fill (s i a d : Nat) : Nat → Nat → M Unit
  | 0, _ => pure ()
  | r + 1, j => do
    let v ← loadM s (j - d) i
    storeM s j i v
    fillInner s i j d d 0 a
    fill s i a d r (j + 1)

/-- SobolImpl.cpp:134-157: the direction numbers of coordinate `i + 1`. -/
def column (s i : Nat) : M Unit :=
  match sobolA[i]? with
  | none => fun _ => .ub .oob
  | some a =>
    if a = 0 then fun _ => .ub .oob
    else do
      let d := bitLen 32 a - 1
      (List.range d).forM (initEntry s i)
      fill s (i + 1) a d (32 - d) d

/-- `free` of a pointer member. -/
def freeMember (s : Nat) (g : Fields → Option (Option Nat)) : M Unit := do
  let f ← loadS s
  let p ← need (g f)
  free p

/-- SobolImpl.cpp:176-177. -/
def clear (s i : Nat) : M Unit := do
  storeX s i 0
  storeB s i 0

/-- SobolImpl.cpp:160-183: the rest of `sobol_init`, after the table is filled. -/
def initRest (ok : Nat → Bool) (s sdim : Nat) : M Bool := do
  let x ← malloc (ok 2) (.words (List.replicate sdim none))
  modifyS s (fun f => { f with x := some x })
  match x with
  | none => do
    freeMember s Fields.mdata
    pure false
  | some _ => do
    let b ← malloc (ok 3) (.words (List.replicate sdim none))
    modifyS s (fun f => { f with b := some b })
    match b with
    | none => do
      freeMember s Fields.x
      freeMember s Fields.mdata
      pure false
    | some _ => do
      (List.range sdim).forM (clear s)
      modifyS s (fun f => { f with n := some 0 })
      modifyS s (fun f => { f with sdim := some sdim })
      pure true

/-- SobolImpl.cpp:116-184, `sobol_init`; `ok k` says whether the `k`-th `malloc` of `nlopt_sobol_create` succeeds. -/
def init (ok : Nat → Bool) (s sdim : Nat) : M Bool :=
  if sdim = 0 ∨ 1111 < sdim then pure false
  else do
    let p ← malloc (ok 1) (.words (List.replicate (sdim * 32) none))
    modifyS s (fun f => { f with mdata := some p })
    match p with
    | none => pure false
    | some p => do
      (List.range 32).forM (initRow s p sdim)
      (List.range (sdim - 1)).forM (column s)
      initRest ok s sdim

/-- A `SobolData` none of whose members was written. -/
def unwritten : Fields := { sdim := none, mdata := none, m := List.replicate 32 none, x := none, b := none, n := none }

/-- SobolImpl.cpp:202-207: what `nlopt_sobol_create` does with the result of `sobol_init`. -/
def created (s : Nat) (r : Bool) : M (Option Nat) :=
  if r then pure (some s)
  else do
    free (some s)
    pure none

/-- SobolImpl.cpp:197-208, `nlopt_sobol_create`. -/
def create (ok : Nat → Bool) (sdim : Nat) : M (Option Nat) := do
  match ← malloc (ok 0) (.data unwritten) with
  | none => pure none
  | some s => do
    let r ← init ok s sdim
    created s r

/-- SobolImpl.cpp:186-191 and 210-216, `nlopt_sobol_destroy`. -/
def destroy (s : Option Nat) : M Unit :=
  match s with
  | none => pure ()
  | some s => do
    freeMember s Fields.mdata
    freeMember s Fields.x
    freeMember s Fields.b
    free (some s)

/-- Writing into the caller's buffer. -/
def setOut (out : List U32) (i : Nat) (v : U32) : M (List U32) :=
  if i < out.length then pure (out.set i v) else fun _ => .ub .oob

/-- SobolImpl.cpp:95-108, the body of the loop over the coordinates. -/
def genCoord (s c : Nat) (out : List U32) (i : Nat) : M (List U32) := do
  let b ← loadB s i
  if c ≤ b.toNat then do
    let mc ← loadM s c i
    let t ← lift (shlSub mc b.toNat c)
    let x ← loadX s i
    storeX s i (x ^^^ t)
    let x ← loadX s i
    let o ← lift (shlSub x 31 b.toNat)
    setOut out i o
  else do
    let x ← loadX s i
    let t ← lift (shlSub x c b.toNat)
    let mc ← loadM s c i
    storeX s i (t ^^^ mc)
    storeB s i (BitVec.ofNat 32 c)
    let x ← loadX s i
    let o ← lift (shlSub x 31 c)
    setOut out i o

/-- SobolImpl.cpp:83-112 and 219-223, `sobol_gen` and `nlopt_sobol_next`: whether a point was produced, and the buffer. -/
def gen (s : Option Nat) (out : List U32) : M (Bool × List U32) := do
  let s ← deref s
  let f ← loadS s
  let n ← need f.n
  if n = 2 ^ 32 - 1 then pure (false, out)
  else do
    let c ← lift (rightzero32 n)
    modifyS s (fun f => { f with n := some ((n + 1) % 2 ^ 32) })
    let f ← loadS s
    let sdim ← need f.sdim
    let out ← (List.range sdim).foldlM (genCoord s c) out
    pure (true, out)

/-- SobolImpl.cpp:235: `while (k-- > 0) sobol_gen(s, x);`. -/
def genTimes (s : Option Nat) : Nat → List U32 → M (List U32)
  | 0, out => pure out
  | k + 1, out => do
    let r ← gen s out
    genTimes s k r.2

/-- SobolImpl.cpp:229-237, `nlopt_sobol_skip`. -/
def skip (s : Option Nat) (n : Nat) (out : List U32) : M (List U32) :=
  match s with
  | none => pure out
  | some s => do
    let k ← lift (skipCount n)
    genTimes (some s) k out

/-- Sobol.h:48-53: the members of a `Sobol`. -/
structure Obj where
  s : Option Nat
  dim : Nat
  buf : List U32
  pos : Nat
  deriving DecidableEq, Repr

namespace Obj

/-- Sobol.cpp:45-48, `skip`. -/
def skip (x : Obj) (n : Nat) : M Obj := do
  let buf ← SMem.skip x.s n x.buf
  pure { x with buf := buf }

/-- Sobol.cpp:9-19, constructor.  The result of `nlopt_sobol_create` is not looked at. -/
def new (ok : Nat → Bool) (dim nSkip : Nat) : M Obj :=
  if 2 ^ 61 ≤ dim then fun _ => .thrown .lengthError
  else if dim < 1 ∨ 1111 < dim then fun _ => .thrown .sobolDim
  else do
    let s ← create ok dim
    let x : Obj := { s := s, dim := dim, buf := List.replicate dim 0, pos := dim }
    if nSkip > 0 then x.skip nSkip else pure x

/-- Sobol.cpp:26-32, `buf`. -/
def next (x : Obj) : M (Obj × Except Exn (List U32)) := do
  let r ← gen x.s x.buf
  let x' := { x with buf := r.2 }
  if r.1 then pure (x', .ok x'.buf) else pure (x', .error .sobolExhausted)

/-- Sobol.cpp:41: `return m_buf[m_pos++];`. -/
def take (x : Obj) : M (Obj × Except Exn U32) :=
  match x.buf[x.pos]? with
  | none => fun _ => .ub .oob
  | some v => pure ({ x with pos := x.pos + 1 }, .ok v)

/-- Sobol.cpp:34-42, `operator()`. -/
def call (x : Obj) : M (Obj × Except Exn U32) :=
  if x.pos = x.dim then do
    let r ← x.next
    match r.2 with
    | .error e => pure (r.1, .error e)
    | .ok _ => take { r.1 with pos := 0 }
  else take x

/-- Sobol.cpp:51-57, `reset`. -/
def reset (ok : Nat → Bool) (x : Obj) (nSkip : Nat) : M Obj := do
  SMem.destroy x.s
  let s ← create ok x.dim
  let x := { x with s := s }
  if nSkip > 0 then x.skip nSkip else pure x

end Obj

/-- What a program can do with generators.  `ok` says which of the allocations succeed. -/
inductive Op
  | make (dim nSkip : Nat) (ok : Nat → Bool)
  | next (i : Nat)
  | call (i : Nat)
  | skip (i n : Nat)
  | reset (i n : Nat) (ok : Nat → Bool)
  | destroy (i : Nat)

/-- What the program sees. -/
inductive Res
  | done
  | point (p : List U32)
  | value (v : U32)
  | error (e : Exn)
  deriving DecidableEq, Repr

/-- The memory and the generators, in order of creation; `none` is one that was destroyed. -/
structure St where
  mem : Mem
  objs : List (Option Obj)

/-- One operation.  Operations on generators that do not exist do nothing.  (The constructor throws before it allocates; then
there is no generator.  Sobol.h:27-28: generators cannot be copied.) -/
def step (st : St) : Op → Out (St × Res)
  | .make dim nSkip ok =>
    match Obj.new ok dim nSkip st.mem with
    | .ok (x, h) => .ok (⟨h, st.objs ++ [some x]⟩, .done)
    | .thrown e => .ok (⟨st.mem, st.objs ++ [none]⟩, .error e)
    | .ub u => .ub u
    | .diverges => .diverges
  | .next i =>
    match st.objs[i]? with
    | some (some x) => do
      let ((x, r), h) ← x.next st.mem
      pure (⟨h, st.objs.set i (some x)⟩, match r with | .ok p => .point p | .error e => .error e)
    | _ => .ok (st, .done)
  | .call i =>
    match st.objs[i]? with
    | some (some x) => do
      let ((x, r), h) ← x.call st.mem
      pure (⟨h, st.objs.set i (some x)⟩, match r with | .ok v => .value v | .error e => .error e)
    | _ => .ok (st, .done)
  | .skip i n =>
    match st.objs[i]? with
    | some (some x) => do
      let (x, h) ← x.skip n st.mem
      pure (⟨h, st.objs.set i (some x)⟩, .done)
    | _ => .ok (st, .done)
  | .reset i n ok =>
    match st.objs[i]? with
    | some (some x) => do
      let (x, h) ← x.reset ok n st.mem
      pure (⟨h, st.objs.set i (some x)⟩, .done)
    | _ => .ok (st, .done)
  | .destroy i =>
    match st.objs[i]? with
    | some (some x) => do
      let (_, h) ← destroy x.s st.mem
      pure (⟨h, st.objs.set i none⟩, .done)
    | _ => .ok (st, .done)

/-- A program, with what it sees. -/
def run (st : St) : List Op → Out (St × List Res)
  | [] => .ok (st, [])
  | op :: ops => do
    let (st, r) ← step st op
    let (st, rs) ← run st ops
    pure (st, r :: rs)

end HL.SMem

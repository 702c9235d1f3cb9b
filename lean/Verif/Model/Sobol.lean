import Verif.Float
import Verif.Model.SobolData

/-
Model of src/SobolImpl.cpp, src/Sobol.cpp and the Sobol generator of src/module.cpp.

`uint32_t` values that are combined bitwise are `BitVec 32`; counters are `Nat` with explicit
wrap-around.  A shift by 32 or more is undefined.  Failure of `malloc` and the
blocks of memory themselves are modelled in `Model/SobolMem.lean`, and shown to refine what is here (C87).
-/

namespace HL

abbrev U32 := BitVec 32

/-- C `x << (a - b)` for unsigned `a`, `b`: undefined when the distance is not in [0, 32). -/
def shlSub (x : U32) (a b : Nat) : Out U32 :=
  if b ≤ a ∧ a - b < 32 then .ok (x <<< (a - b)) else .ub .badShift

/-- Number of trailing zero bits among the first `fuel` bits. -/
def ctz : Nat → Nat → Nat
  | 0, _ => 0
  | fuel + 1, k => if k % 2 = 1 then 0 else ctz fuel (k / 2) + 1

/-- SobolImpl.cpp:67-71, `rightzero32` with the gcc builtin (`__builtin_ctz(0)` is undefined).  `n` is a
`uint32_t`, `~n` is `2^32 - 1 - n`. -/
def rightzero32 (n : Nat) : Out Nat :=
  if 2 ^ 32 - 1 - n = 0 then .ub .badShift else .ok (ctz 32 (2 ^ 32 - 1 - n))

/-- SobolImpl.cpp:73, the table of the portable `rightzero32`. -/
def rz32Decode : List Nat :=
  [0, 1, 2, 26, 23, 3, 15, 27, 24, 21, 19, 4, 12, 16, 28, 6, 31, 25, 22, 14, 20, 18, 11, 5, 30, 13, 17, 10,
   29, 9, 8, 7]

/-- SobolImpl.cpp:72-76, `rightzero32` without the builtin. -/
def rightzero32Portable (n : U32) : Nat :=
  let k := ~~~n
  rz32Decode.getD ((0x05f66a47#32 * (k &&& -k)) >>> 27).toNat 0

/-- One coordinate of `SobolData` (SobolImpl.h:15-23): its direction numbers `m[0..31][i]` (stored by
coordinate here, by row in the code), `x[i]` and `b[i]`. -/
structure SCoord where
  m : List U32
  x : U32
  b : Nat
  deriving DecidableEq, Repr

/-- SobolImpl.h:15-23; `sdim` is the number of coordinates. -/
structure SobolData where
  coords : List SCoord
  n : Nat
  deriving DecidableEq, Repr

/-- SobolImpl.cpp:95-108, the body of the loop over coordinates: new state and value stored in `x[i]`. -/
def genCoord (c : Nat) (s : SCoord) : Out (SCoord × U32) :=
  match s.m[c]? with
  | none => .ub .oob
  | some mc =>
    if c ≤ s.b then do
      let t ← shlSub mc s.b c
      let x := s.x ^^^ t
      let o ← shlSub x 31 s.b
      pure ({ s with x := x }, o)
    else do
      let t ← shlSub s.x c s.b
      let x := t ^^^ mc
      let o ← shlSub x 31 c
      pure ({ s with x := x, b := c }, o)

/-- SobolImpl.cpp:83-112, `sobol_gen` (and `nlopt_sobol_next`, lines 219-223): new state, buffer, and
whether a point was produced.  `buf` is the caller's buffer, left alone on failure. -/
def sobolGen (sd : SobolData) (buf : List U32) : Out (SobolData × List U32 × Bool) :=
  if sd.n = 2 ^ 32 - 1 then .ok (sd, buf, false)
  else do
    let c ← rightzero32 sd.n
    let r ← sd.coords.mapM (genCoord c)
    pure ({ coords := r.map Prod.fst, n := (sd.n + 1) % 2 ^ 32 }, r.map Prod.snd, true)

/-- SobolImpl.cpp:137-140: number of bits of `a` (a 32-bit value). -/
def bitLen : Nat → Nat → Nat
  | 0, _ => 0
  | fuel + 1, a => if a = 0 then 0 else bitLen fuel (a / 2) + 1

/-- SobolImpl.cpp:152-156: the loop over `k`, with the current `a` and `m[j][i]`. -/
def sobolInner (col : List U32) (base d : Nat) : Nat → Nat → Nat → U32 → Out U32
  | 0, _, _, acc => .ok acc
  | r + 1, k, a, acc =>
    match col[base + k]? with
    | none => .ub .oob
    | some v => do
      let t ← shlSub (BitVec.ofNat 32 (a % 2) * v) d k
      sobolInner col base d r (k + 1) (a / 2) (acc ^^^ t)

/-- SobolImpl.cpp:148-157: the loop over `j`; `col` holds `m[0..j-1][i]`. -/
def sobolFill (a d : Nat) : Nat → List U32 → Out (List U32)
  | 0, col => .ok col
  | r + 1, col =>
    if col.length < d then .ub .oob
    else match col[col.length - d]? with
      | none => .ub .oob
      | some v => do
        let mj ← sobolInner col (col.length - d) d d 0 a v
        sobolFill a d r (col ++ [mj])

/-- SobolImpl.cpp:145: `sobol_minit[j][i]`. -/
def minitAt (i j : Nat) : Out U32 :=
  match (sobolMinit.getD j [])[i]? with
  | none => .ub .oob
  | some v => .ok (BitVec.ofNat 32 v)

/-- SobolImpl.cpp:127-158: the direction numbers of coordinate `i`.  (`d--` wraps around when the table
holds 0; the next access is then far out of bounds.) -/
def sobolColumn : Nat → Out (List U32)
  | 0 => .ok (List.replicate 32 1)
  | i + 1 =>
    match sobolA[i]? with
    | none => .ub .oob
    | some a =>
      if a = 0 then .ub .oob
      else do
        let d := bitLen 32 a - 1
        let init ← (List.range d).mapM (minitAt i)
        sobolFill a d (32 - d) init

/-- SobolImpl.cpp:116-184 and 197-208, `sobol_init` / `nlopt_sobol_create`; `none` is a null pointer. -/
def sobolCreate (sdim : Nat) : Out (Option SobolData) :=
  if sdim = 0 ∨ 1111 < sdim then .ok none
  else do
    let cols ← (List.range sdim).mapM sobolColumn
    pure (some { coords := cols.map (fun m => { m := m, x := 0, b := 0 }), n := 0 })

/-- SobolImpl.cpp:235: `while (k-- > 0) sobol_gen(s, x);`. -/
def genTimes : Nat → SobolData → List U32 → Out (SobolData × List U32)
  | 0, sd, buf => .ok (sd, buf)
  | k + 1, sd, buf => do
    let r ← sobolGen sd buf
    genTimes k r.1 r.2.1

/-- SobolImpl.cpp:233-234: `k = 1; while (k*2 < n) k *= 2;` in 32-bit arithmetic. -/
def skipCount (n : Nat) : Out Nat :=
  loop (fun k => decide (k * 2 % 2 ^ 32 < n)) (fun k => .ok (k * 2 % 2 ^ 32)) 1

/-- SobolImpl.cpp:229-237, `nlopt_sobol_skip`. -/
def sobolSkip (sd : SobolData) (n : Nat) (buf : List U32) : Out (SobolData × List U32) := do
  let k ← skipCount n
  genTimes k sd buf

/-- Sobol.h:48-53. -/
structure Sobol where
  s : SobolData
  dim : Nat
  buf : List U32
  pos : Nat
  deriving DecidableEq, Repr

namespace Sobol

/-- Sobol.cpp:45-48, `skip`. -/
def skip (x : Sobol) (n : Nat) : Out Sobol := do
  let r ← sobolSkip x.s n x.buf
  pure { x with s := r.1, buf := r.2 }

/-- Sobol.cpp:9-19, constructor; `dim` is a `size_t`.  The buffer is allocated before the check. -/
def new (dim nSkip : Nat) : Out Sobol :=
  if 2 ^ 61 ≤ dim then .thrown .lengthError
  else if dim < 1 ∨ 1111 < dim then .thrown .sobolDim
  else do
    match ← sobolCreate dim with
    | none => .ub .nullDeref
    | some s =>
      let x : Sobol := { s := s, dim := dim, buf := List.replicate dim 0, pos := dim }
      if nSkip > 0 then x.skip nSkip else pure x

/-- Sobol.cpp:26-32, `buf`: the object afterwards and the returned value or exception. -/
def next (x : Sobol) : Out (Sobol × Except Exn (List U32)) := do
  let r ← sobolGen x.s x.buf
  let x' := { x with s := r.1, buf := r.2.1 }
  if r.2.2 then pure (x', .ok x'.buf) else pure (x', .error .sobolExhausted)

/-- Sobol.cpp:41: `return m_buf[m_pos++];`. -/
def take (x : Sobol) : Out (Sobol × Except Exn U32) :=
  match x.buf[x.pos]? with
  | none => .ub .oob
  | some v => .ok ({ x with pos := x.pos + 1 }, .ok v)

/-- Sobol.cpp:34-42, `operator()`. -/
def call (x : Sobol) : Out (Sobol × Except Exn U32) :=
  if x.pos = x.dim then do
    let r ← x.next
    match r.2 with
    | .error e => pure (r.1, .error e)
    | .ok _ => take { r.1 with pos := 0 }
  else take x

/-- Sobol.cpp:51-57, `reset`. -/
def reset (x : Sobol) (nSkip : Nat) : Out Sobol := do
  match ← sobolCreate x.dim with
  | none => .ub .nullDeref
  | some s =>
    let x := { x with s := s }
    if nSkip > 0 then x.skip nSkip else pure x

end Sobol

/-- Which of the exceptions thrown inside `SobolGenerator::next` are caught as `std::runtime_error`
(module.cpp:147): `std::out_of_range` (Sobol.cpp:30) is a `std::logic_error`. -/
def Exn.isRuntimeError : Exn → Bool
  | .sobolExhausted => false
  | .lengthError => false
  | _ => true

/-- module.cpp:133-160 and 335-337, the Python `SobolSequence`. -/
structure SobolGenerator where
  sobol : Sobol
  deriving DecidableEq, Repr

namespace SobolGenerator

/-- Sobol.h:23, `SCALE`: `1.0 / (1ull << 32)`. -/
def scale (fp : FP) : Fl := fp.div (.fin 1) (fp.ofInt (2 ^ 32))

/-- module.cpp:136 with the bindings of lines 336-337: the Python arguments are a `size_t` and a
`uint32_t`; the constructor parameter `dim` is a `uint32_t`. -/
def new (dim nSkip : Nat) : Out SobolGenerator := do
  let s ← Sobol.new (dim % 2 ^ 32) nSkip
  pure ⟨s⟩

/-- module.cpp:138-151, `next`. -/
def next (fp : FP) (g : SobolGenerator) : Out (SobolGenerator × Except Exn (List Fl)) := do
  let r ← g.sobol.next
  match r.2 with
  | .ok buf => pure (⟨r.1⟩, .ok (buf.map (fun i => fp.mul (fp.ofInt i.toNat) (scale fp))))
  | .error e => if e.isRuntimeError then pure (⟨r.1⟩, .error .stopIteration) else pure (⟨r.1⟩, .error e)

end SobolGenerator

end HL

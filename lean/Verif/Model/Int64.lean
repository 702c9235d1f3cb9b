import Verif.Model.Integerise

/-
The integer arithmetic of the solvers with its actual width.  The model in `Microsynthesis.lean`, `QIS.lean` and
`QISI.lean` computes with unbounded integers where the C++ has `int64_t`; here the same functions are written again with
every `int64_t` addition, increment and decrement checked: a result out of range is undefined behaviour.  Everything
that does not do such arithmetic is shared.  (`Props/Int64.lean` shows that the two models agree.)
-/

namespace HL

/-- The result of an `int64_t` operation: signed overflow is undefined. -/
def chk64 (x : Int) : Out Int := if -2 ^ 63 ≤ x ∧ x < 2 ^ 63 then .ok x else .ub .overflow

/-- NDArrayUtils.h:27-31, `sum` of a vector of `int64_t`. -/
def sumVec64 (v : List Int) : Out Int := v.foldlM (fun a x => chk64 (a + x)) 0

/-- NDArrayUtils.h:39-43, `sum` of an array of `int64_t`. -/
def sumArr64 (a : NDArray Int) : Out Int := do
  let xs ← a.readAll
  sumVec64 xs

/-- `v[i] = f(v[i])` for an `f` that can fail. -/
def vecModifyM (v : List Int) (i : Int) (f : Int → Out Int) : Out (List Int) :=
  if h : 0 ≤ i ∧ i.toNat < v.length then do
    let y ← f (v[i.toNat]'h.2)
    .ok (v.set i.toNat y)
  else .ub .oob

/-- NDArrayUtils.h:116-136, `reduce` of an array of `int64_t` to the 1-d sums along dimension `orient`. -/
def reduce64 (a : NDArray Int) (orient : Nat) : Out (List Int) :=
  if ¬ orient < a.dim then .thrown .reduceDim
  else
    forIndex a.sizes (fun sums idx => do
      let x ← a.get idx
      vecModifyM sums (idx.getD orient 0) (fun s => chk64 (s + x)))
      (List.replicate (a.sizes.getD orient 0) 0)

/-- `++a[idx]`, `--a[idx]` on an array of `int64_t`: add `k`. -/
def NDArray.addAt64 (a : NDArray Int) (idx : List Int) (k : Int) : Out (NDArray Int) := do
  let x ← a.get idx
  let y ← chk64 (x + k)
  a.set idx y

namespace Micro
variable {β : Type}

/-- Microsynthesis.h:214,217: `static_cast<int64_t>(sum(a) + 0.5)`, `sum` in `int64_t`. -/
def roundedSum64 (fp : FP) (a : NDArray Int) : Out Int := do
  let t ← sumArr64 a
  FP.toInt64 (fp.add (fp.ofInt t) (.fin (1 / 2)))

/-- Microsynthesis.h:215-220. -/
def checkSums64 (fp : FP) (pop : Int) : List (NDArray Int) → Out Unit
  | [] => .ok ()
  | a :: as => do
    let t ← roundedSum64 fp a
    if t ≠ pop then .thrown .marginalSum else checkSums64 fp pop as

/-- Microsynthesis.h:230,233. -/
def partialSum64 (ms : List (NDArray Int)) (p : Nat × Nat) : Out (List Int) :=
  match ms[p.1]? with
  | none => .ub .oob
  | some a => reduce64 a p.2

/-- Microsynthesis.h:231-236 (NDArrayUtils.h:229-233: vectors of `int64_t` are compared with `==`). -/
def checkPartials64 (ms : List (NDArray Int)) (ms0 : List Int) : List (Nat × Nat) → Out Unit
  | [] => .ok ()
  | p :: ps => do
    let msi ← partialSum64 ms p
    if msi = ms0 then checkPartials64 ms ms0 ps else .thrown .partialSum

/-- Microsynthesis.h:223-237. -/
def checkDims64 (ms : List (NDArray Int)) : List (List (Nat × Nat)) → Out Unit
  | [] => .ok ()
  | mi :: rest => do
    match mi with
    | p :: q :: ps => do
      let ms0 ← partialSum64 ms p
      checkPartials64 ms ms0 (q :: ps)
      checkDims64 ms rest
    | _ => checkDims64 ms rest

/-- Microsynthesis.h:30-111, constructor for marginals of `int64_t` (with `createMappings`, lines 202-238). -/
def new64 (fp : FP) (indices : List (List Int)) (marginals : List (NDArray Int)) : Out (Micro β Int) := do
  if indices.length ≠ marginals.length ∨ indices.length < 2 then .thrown .listSize
  else
    let dimSizes ← enterAll [] indices marginals
    if dimSizes.length < 2 then .thrown .tooFewDims
    else
      checkNonneg (numInt fp) marginals
      let sizes ← collectSizes dimSizes dimSizes.length 0
      let lookup ← lookupAll (List.replicate dimSizes.length []) 0 indices
      match marginals with
      | [] => .ub .oob
      | a :: rest =>
        let pop ← roundedSum64 fp a
        checkSums64 fp pop rest
        checkDims64 marginals lookup
        let array ← NDArray.new sizes
        pure { dim := dimSizes.length, sizes := sizes, indices := indices, marginals := marginals,
               population := pop, dimLookup := lookup, array := array }

end Micro

/-- QIS.cpp:18-25 with `int64_t`: the loop of `pick`. -/
def pickLoop64 (fp : FP) (r : Fl) : Int → Nat → List Int → Out Nat
  | _, _, [] => .thrown .pickFailed
  | run, i, x :: xs => do
    let run ← chk64 (run + x)
    if FP.lt r (fp.ofInt run) then .ok i else pickLoop64 fp r run (i + 1) xs

/-- QIS.cpp:12-26 with `int64_t`, `pick`.  The total it scales by is a `double` (the initial value of the sum is
`0.0`). -/
def pick64 (fp : FP) (dist : List Int) (r : Fl) : Out Nat :=
  pickLoop64 fp (fp.mul r (dist.foldl (fun acc x => fp.add acc (fp.ofInt x)) (.fin 0))) 0 0 dist

namespace QIS

/-- QIS.cpp:52-88, `recursive_sample`. -/
def recursiveSample64 (fp : FP) (pos : List Nat) (sliceMap : List (Nat × Nat)) :
    List (Nat × U32) → NDArray Int → List Int → Out (List Int)
  | [], _, _ => .ub .oob
  | [(d, u)], marginal, idx => do
    let dist ← marginal.readAll
    let i ← pick64 fp dist (variate fp u)
    writeMapped pos d i idx
  | (d, u) :: rest, marginal, idx => do
    let r ← reduce64 marginal (mapAt sliceMap d)
    let i ← pick64 fp r (variate fp u)
    let idx ← writeMapped pos d i idx
    let v ← readMapped pos d idx
    let sliced ← slice1 marginal (mapAt sliceMap d) v
    recursiveSample64 fp pos sliceMap rest sliced idx

/-- QIS.cpp:91-155, `sample`. -/
def sample64 (fp : FP) (dims : List Int) (seq : List U32) (marginal : NDArray Int) (m : MappedIndex)
    (idx : List Int) : Out (List Int) := do
  let t ← split seq m.pos idx 0 dims ⟨[], [], []⟩
  if t.toSample = [] then pure idx
  else
    let free ← slice marginal t.toSlice
    recursiveSample64 fp m.pos t.sliceMap t.toSample.reverse free idx

/-- QIS.cpp:159-176, constructor. -/
def new64 (fp : FP) (indices : List (List Int)) (marginals : List (NDArray Int)) (skips : Int) : Out QIS := do
  let m ← Micro.new64 fp indices marginals
  let sobol ← Sobol.new m.dim 0
  let sobol ← sobol.skip (skips % 2 ^ 32).toNat
  let sv ← NDArray.empty.resize m.array.sizes
  let sv ← computeStateValues fp m sv
  let e ← NDArray.copy sv NDArray.empty
  let total ← sumArr (numFl fp) sv
  let scale := fp.div (fp.ofInt m.population) total
  let e ← forIndex e.sizes (fun (e : NDArray Fl) idx => e.modify idx (fun x => fp.mul x scale)) e
  pure { micro := m, sobol := sobol, stateValues := sv, expected := e, chiSq := .fin 0, pValue := .fin 0,
         degeneracy := .fin 0, conv := false }

/-- QIS.cpp:279-285. -/
def sampleAll64 (fp : FP) (seq : List U32) : List (List Int) → List MappedIndex → List (NDArray Int) → List Int →
    Out (List Int)
  | _, [], _, idx => .ok idx
  | i :: is, m :: ms, g :: gs, idx => do
    let idx ← sample64 fp i seq g m idx
    sampleAll64 fp seq is ms gs idx
  | _, _ :: _, _, _ => .ub .oob

/-- QIS.cpp:291-296, QISI.cpp:118-123. -/
def decrement64 (idx : List Int) : List MappedIndex → List (NDArray Int) → Bool → Out (List (NDArray Int) × Bool)
  | [], gs, conv => .ok (gs, conv)
  | _ :: _, [], _ => .ub .oob
  | m :: ms, g :: gs, conv => do
    let g ← g.addAt64 (m.vals idx) (-1)
    let v ← g.get (m.vals idx)
    let r ← decrement64 idx ms gs (if v < 0 then false else conv)
    pure (g :: r.1, r.2)

/-- QIS.cpp:269-298: the body of the loop over the population. -/
def individual64 (fp : FP) (maps : List MappedIndex) (x : QIS) : Out QIS := do
  let p ← x.sobol.next
  match p.2 with
  | .error e => .thrown e
  | .ok seq => do
    let idx ← sampleAll64 fp seq x.micro.indices maps x.micro.marginals (List.replicate x.micro.dim (-1))
    if idx.any (fun i => decide (i < 0)) then .thrown .notAllDims
    else do
      let d ← decrement64 idx maps x.micro.marginals x.conv
      let a ← x.micro.array.addAt64 idx 1
      pure { x with micro := { x.micro with marginals := d.1, array := a }, sobol := p.1, conv := d.2 }

/-- QIS.cpp:264-303. -/
def individuals64 (fp : FP) (maps : List MappedIndex) : Nat → QIS → Out QIS
  | 0, x => .ok x
  | n + 1, x => do
    let x ← individual64 fp maps x
    individuals64 fp maps n x

/-- QIS.cpp:179-188, 249-320, `solve`. -/
def solve64 (fp : FP) (lm : Libm) (x : QIS) (reset : Bool) : Out QIS := do
  let x ← begin reset x
  let main ← Index.new x.micro.array.sizes
  let maps ← Micro.mappings main x.micro.indices
  let x ← individuals64 fp maps x.micro.population.toNat x
  stats fp lm x

/-- module.cpp:208-240, `hl::qis`, after the conversion of its arguments. -/
def run64 (fp : FP) (lm : Libm) (indices : List (List Int)) (marginals : List (NDArray Int)) (skips : Int) :
    Out QIS := do
  let x ← new64 fp indices marginals skips
  solve64 fp lm x false

end QIS

/-- IPF.h:23-26 and 37-80 for marginals of `int64_t` (QISI.cpp:150-156): the only `int64_t` arithmetic is in the
constructor. -/
def IPF.run64 (dbg : Bool) (fp : FP) (indices : List (List Int)) (marginals : List (NDArray Int))
    (seed : NDArray Fl) : Out (IPF Int) := do
  let m ← Micro.new64 fp indices marginals
  IPF.solve dbg fp (numInt fp) { micro := m, iters := 0, conv := false, errors := [], maxError := .fin 0 } seed

namespace QISI

/-- QISI.cpp:66-74, constructor. -/
def new64 (fp : FP) (indices : List (List Int)) (marginals : List (NDArray Int)) (skips : Int) : Out QISI := do
  let m ← Micro.new64 fp indices marginals
  let sobol ← Sobol.new m.dim 0
  let sobol ← sobol.skip (skips % 2 ^ 32).toNat
  pure { micro := m, sobol := sobol, expected := NDArray.empty, ipf := NDArray.empty, chiSq := .nan, pValue := .nan,
         degeneracy := .nan, conv := false }

/-- QISI.cpp:150-156, `recomputeIPF`. -/
def recomputeIPF64 (dbg : Bool) (fp : FP) (seed : NDArray Fl) (x : QISI) : Out QISI := do
  let f ← IPF.run64 dbg fp x.micro.indices x.micro.marginals seed
  let p ← NDArray.copy f.micro.array x.ipf
  pure { x with ipf := p }

/-- QISI.cpp:115-123. -/
def place64 (maps : List MappedIndex) (idx : List Int) (x : QISI) : Out QISI := do
  let a ← x.micro.array.addAt64 idx 1
  let d ← QIS.decrement64 idx maps x.micro.marginals x.conv
  pure { x with micro := { x.micro with marginals := d.1, array := a }, conv := d.2 }

/-- QISI.cpp:129-131. -/
def takeOut64 (dbg : Bool) (fp : FP) (seed : NDArray Fl) (idx : List Int) (x : QISI) : Out QISI := do
  let p ← x.ipf.modify idx (fun v => fp.sub v (.fin 1))
  let v ← p.get idx
  if FP.lt v (.fin 0) then recomputeIPF64 dbg fp seed { x with ipf := p } else pure { x with ipf := p }

/-- QISI.cpp:108-131. -/
def individual64 (dbg : Bool) (fp : FP) (seed : NDArray Fl) (maps : List MappedIndex) (t : Loop) : Out Loop := do
  let p ← t.gen.next
  match p.2 with
  | .error e => .thrown e
  | .ok seq => do
    let idx ← getIndex fp seq (t.obj.ipf.sizes.length - 2) t.obj.ipf t.idx
    let x ← place64 maps idx t.obj
    let x ← takeOut64 dbg fp seed idx x
    pure ⟨x, p.1, idx⟩

/-- QISI.cpp:106-132. -/
def individuals64 (dbg : Bool) (fp : FP) (seed : NDArray Fl) (maps : List MappedIndex) : Nat → Loop → Out Loop
  | 0, t => .ok t
  | n + 1, t => do
    let t ← individual64 dbg fp seed maps t
    individuals64 dbg fp seed maps n t

/-- QISI.cpp:93-98, 102. -/
def begin64 (dbg : Bool) (fp : FP) (seed : NDArray Fl) (x : QISI) : Out QISI := do
  let p ← x.ipf.resize x.micro.array.sizes
  let e ← x.expected.resize x.micro.array.sizes
  let x ← recomputeIPF64 dbg fp seed { x with ipf := p, expected := e }
  let e ← NDArray.copy x.ipf x.expected
  let a ← x.micro.array.assign 0
  pure { x with micro := { x.micro with array := a }, expected := e, conv := true }

/-- QISI.cpp:76-140, `solve`. -/
def solve64 (dbg : Bool) (fp : FP) (lm : Libm) (x : QISI) (seed : NDArray Fl) (reset : Bool) : Out QISI := do
  IPF.checkSeed seed.sizes x.micro.array.sizes
  let sobol ← resetIf reset x.sobol
  let x ← begin64 dbg fp seed { x with sobol := sobol }
  let main ← Index.new x.micro.array.sizes
  let maps ← Micro.mappings main x.micro.indices
  let gen ← Sobol.new x.micro.dim 0
  let t ← individuals64 dbg fp seed maps x.micro.population.toNat ⟨x, gen, main.idx⟩
  stats fp lm t.obj

/-- module.cpp:242-273, `hl::qisi`, after the conversion of its arguments. -/
def run64 (dbg : Bool) (fp : FP) (lm : Libm) (indices : List (List Int)) (marginals : List (NDArray Int))
    (seed : NDArray Fl) (skips : Int) : Out QISI := do
  let x ← new64 fp indices marginals skips
  solve64 dbg fp lm x seed false

end QISI

namespace Integerise

/-- Integerise.cpp:75-100: the case of an array with two or more dimensions (or none). -/
def array64 (dbg : Bool) (fp : FP) (lm : Libm) (seed : NDArray Fl) : Out Result := do
  let ms ← (List.range seed.dim).mapM (marginalOf fp seed)
  let x ← QISI.run64 dbg fp lm ((List.range seed.dim).map (fun d : Nat => [(d : Int)])) ms seed 0
  let a ← NDArray.copy x.micro.array NDArray.empty
  let e ← sqErr fp a seed
  pure ⟨a, x.conv, fp.sqrt (fp.div e (fp.ofInt a.storageSize))⟩

/-- Integerise.cpp:53-101, the constructor of `Integeriser`. -/
def run64 (dbg : Bool) (fp : FP) (lm : Libm) (seed : NDArray Fl) : Out Result := do
  let s ← sumArr (numFl fp) seed
  let _ ← checkedRound fp s
  if seed.dim = 1 then vector fp seed else array64 dbg fp lm seed

end Integerise

end HL

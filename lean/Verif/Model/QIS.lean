import Verif.Model.Microsynthesis
import Verif.Model.Sobol
import Verif.Model.StatFuncs

/-
Model of src/QIS.h and src/QIS.cpp, as compiled without USE_STATE_SAMPLING.
-/

namespace HL
variable {α : Type}

/-- QIS.cpp:18-25, QISI.cpp:16-23: the loop of `pick`, with the running sum and the position. -/
def pickLoop (N : Num α) (r : Fl) : α → Nat → List α → Out Nat
  | _, _, [] => .thrown .pickFailed
  | run, i, x :: xs =>
    if FP.lt r (N.toFl (N.add run x)) then .ok i else pickLoop N r (N.add run x) (i + 1) xs

/-- QIS.cpp:12-26 (with `int64_t`), QISI.cpp:11-24 (with `double`), `pick`. -/
def pick (fp : FP) (N : Num α) (dist : List α) (r : Fl) : Out Nat :=
  pickLoop N (fp.mul r (dist.foldl (fun acc x => fp.add acc (N.toFl x)) (.fin 0))) N.zero 0 dist

/-- QIS.cpp:55, QISI.cpp:29, `scale`. -/
def pickScale (fp : FP) : Fl := fp.div (.fin (1 / 2)) (fp.ofInt (2 ^ 31))

/-- QIS.cpp:64,76, QISI.cpp:38,51,59: a Sobol value times `scale`. -/
def variate (fp : FP) (u : U32) : Fl := fp.mul (fp.ofInt u.toNat) (pickScale fp)

/-- QIS.h:36-46, the data members beyond those of `Microsynthesis`.  Before the first `solve` `m_chiSq`,
`m_pValue` and `m_degeneracy` are not initialised; the values here are placeholders. -/
structure QIS where
  micro : Micro Int Int
  sobol : Sobol
  stateValues : NDArray Fl
  expected : NDArray Fl
  chiSq : Fl
  pValue : Fl
  degeneracy : Fl
  conv : Bool

namespace QIS

/-- Assignment `index[d] = v` through a `MappedIndex` (Index.cpp:133-136): the element pointed to. -/
def writeMapped (pos : List Nat) (d : Nat) (v : Int) (idx : List Int) : Out (List Int) :=
  match pos[d]? with
  | none => .ub .oob
  | some p => if p < idx.length then .ok (idx.set p v) else .ub .oob

/-- `index[d]` through a `MappedIndex` (Index.cpp:127-130). -/
def readMapped (pos : List Nat) (d : Nat) (idx : List Int) : Out Int :=
  match pos[d]? with
  | none => .ub .oob
  | some p => match idx[p]? with
    | none => .ub .oob
    | some v => .ok v

/-- QIS.cpp:99-102: what the first loop of `sample` produces.  The `std::map` is an association list. -/
structure Split where
  toSlice : List (Int × Int)
  toSample : List (Nat × U32)
  sliceMap : List (Nat × Nat)

/-- QIS.cpp:113: `seq[dims[d]]`. -/
def readSeq (seq : List U32) (d : Int) : Out U32 :=
  if d < 0 then .ub .oob
  else match seq[d.toNat]? with
    | none => .ub .oob
    | some u => .ok u

/-- QIS.cpp:104-117: the loop over the remaining dimensions, from position `d`.  `slice_index` is the size of
the map. -/
def split (seq : List U32) (pos : List Nat) (idx : List Int) : Nat → List Int → Split → Out Split
  | _, [], t => .ok t
  | d, dim :: dims, t => do
    let i ← readMapped pos d idx
    if i > -1 then
      split seq pos idx (d + 1) dims { t with toSlice := t.toSlice ++ [((d : Int), i)] }
    else do
      let u ← readSeq seq dim
      split seq pos idx (d + 1) dims
        ⟨t.toSlice, t.toSample ++ [(d, u)], t.sliceMap ++ [(d, t.sliceMap.length)]⟩

/-- `slice_map[d]` (QIS.cpp:75,77): `std::map::operator[]` gives 0 for a missing key. -/
def mapAt (sliceMap : List (Nat × Nat)) (d : Nat) : Nat := (sliceMap.lookup d).getD 0

/-- QIS.cpp:52-88, `recursive_sample`.  `dims` is the vector in reverse, so its head is `dims.back()`; the
result is the index vector the `MappedIndex` with positions `pos` points into. -/
def recursiveSample (fp : FP) (pos : List Nat) (sliceMap : List (Nat × Nat)) :
    List (Nat × U32) → NDArray Int → List Int → Out (List Int)
  | [], _, _ => .ub .oob
  | [(d, u)], marginal, idx => do
    let dist ← marginal.readAll
    let i ← pick fp (numInt fp) dist (variate fp u)
    writeMapped pos d i idx
  | (d, u) :: rest, marginal, idx => do
    let r ← reduce1 (numInt fp) marginal (mapAt sliceMap d)
    let i ← pick fp (numInt fp) r (variate fp u)
    let idx ← writeMapped pos d i idx
    let v ← readMapped pos d idx
    let sliced ← slice1 marginal (mapAt sliceMap d) v
    recursiveSample fp pos sliceMap rest sliced idx

/-- QIS.cpp:91-155, `sample`. -/
def sample (fp : FP) (dims : List Int) (seq : List U32) (marginal : NDArray Int) (m : MappedIndex)
    (idx : List Int) : Out (List Int) := do
  let t ← split seq m.pos idx 0 dims ⟨[], [], []⟩
  if t.toSample = [] then pure idx
  else
    let free ← slice marginal t.toSlice
    recursiveSample fp m.pos t.sliceMap t.toSample.reverse free idx

/-- QIS.cpp:335-342: one iteration of the inner loops of `computeStateValues`, at the main index `idx`. -/
def mulMarginals (fp : FP) (idx : List Int) : List MappedIndex → List (NDArray Int) → NDArray Fl →
    Out (NDArray Fl)
  | _, [], a => .ok a
  | [], _ :: _, _ => .ub .oob
  | m :: ms, g :: gs, a => do
    let v ← g.get (m.vals idx)
    let a ← a.modify idx (fun x => fp.mul x (fp.ofInt v))
    mulMarginals fp idx ms gs a

/-- QIS.cpp:329-344, `computeStateValues`. -/
def computeStateValues (fp : FP) (m : Micro Int Int) (a : NDArray Fl) : Out (NDArray Fl) := do
  let main ← Index.new m.array.sizes
  let maps ← Micro.mappings main m.indices
  let a ← a.assign (.fin 1)
  forIndex m.array.sizes (fun a idx => mulMarginals fp idx maps m.marginals a) a

/-- QIS.cpp:159-176, constructor.  `skips` (`int64_t`) is converted to `uint32_t`. -/
def new (fp : FP) (indices : List (List Int)) (marginals : List (NDArray Int)) (skips : Int) : Out QIS := do
  let m ← Micro.new fp (numInt fp) indices marginals
  let sobol ← Sobol.new m.dim 0
  let sobol ← sobol.skip (skips % 2 ^ 32).toNat
  let sv ← NDArray.empty.resize m.array.sizes
  let sv ← computeStateValues fp m sv
  let e ← NDArray.copy sv NDArray.empty
  let total ← sumArr (numFl fp) sv
  let scale := fp.div (fp.ofInt m.population) total
  let e ← forIndex e.sizes (fun (e : NDArray Fl) idx => e.modify idx (fun x => fp.mul x scale)) e
  pure { micro := m, sobol := sobol, stateValues := sv, expected := e, chiSq := .fin 0, pValue := .fin 0,
         degeneracy := .fin 0, conv := false }

/-- QIS.cpp:279-285: sample every marginal in turn. -/
def sampleAll (fp : FP) (seq : List U32) : List (List Int) → List MappedIndex → List (NDArray Int) → List Int →
    Out (List Int)
  | _, [], _, idx => .ok idx
  | i :: is, m :: ms, g :: gs, idx => do
    let idx ← sample fp i seq g m idx
    sampleAll fp seq is ms gs idx
  | _, _ :: _, _, _ => .ub .oob

/-- QIS.cpp:291-296, QISI.cpp:118-123: decrement every marginal at its mapped index, noting a negative
entry. -/
def decrement (idx : List Int) : List MappedIndex → List (NDArray Int) → Bool → Out (List (NDArray Int) × Bool)
  | [], gs, conv => .ok (gs, conv)
  | _ :: _, [], _ => .ub .oob
  | m :: ms, g :: gs, conv => do
    let g ← g.modify (m.vals idx) (fun x => x - 1)
    let v ← g.get (m.vals idx)
    let r ← decrement idx ms gs (if v < 0 then false else conv)
    pure (g :: r.1, r.2)

/-- QIS.cpp:269-298: the body of the loop over the population. -/
def individual (fp : FP) (maps : List MappedIndex) (x : QIS) : Out QIS := do
  let p ← x.sobol.next
  match p.2 with
  | .error e => .thrown e
  | .ok seq => do
    let idx ← sampleAll fp seq x.micro.indices maps x.micro.marginals (List.replicate x.micro.dim (-1))
    if idx.any (fun i => decide (i < 0)) then .thrown .notAllDims
    else do
      let d ← decrement idx maps x.micro.marginals x.conv
      let a ← x.micro.array.modify idx (fun n => n + 1)
      pure { x with micro := { x.micro with marginals := d.1, array := a }, sobol := p.1, conv := d.2 }

/-- QIS.cpp:264-303: the loop over the population, with the number of individuals left. -/
def individuals (fp : FP) (maps : List MappedIndex) : Nat → QIS → Out QIS
  | 0, x => .ok x
  | n + 1, x => do
    let x ← individual fp maps x
    individuals fp maps n x

/-- QIS.cpp:251-262: the state when the loop is entered. -/
def begin (reset : Bool) (x : QIS) : Out QIS := do
  let sobol ← if reset then x.sobol.reset 0 else pure x.sobol
  let a ← x.micro.array.assign 0
  pure { x with micro := { x.micro with array := a }, sobol := sobol, conv := true }

/-- QIS.cpp:313-317: the statistics. -/
def stats (fp : FP) (lm : Libm) (x : QIS) : Out QIS := do
  let c ← HL.chiSq fp x.micro.array x.expected
  let g ← HL.degeneracy fp lm x.micro.array
  pure { x with chiSq := c, pValue := tablePValue fp lm x.micro.array.sizes c, degeneracy := g }

/-- QIS.cpp:179-188, 249-320, `solve`.  The result is `micro.array` of the object afterwards. -/
def solve (fp : FP) (lm : Libm) (x : QIS) (reset : Bool) : Out QIS := do
  let x ← begin reset x
  let main ← Index.new x.micro.array.sizes
  let maps ← Micro.mappings main x.micro.indices
  let x ← individuals fp maps x.micro.population.toNat x
  stats fp lm x

/-- module.cpp:208-240, `hl::qis`, after the conversion of its arguments: construct, then solve once.  The
caller gets `micro.array`, `expected`, `conv`, `micro.population`, `chiSq`, `pValue` and `degeneracy`. -/
def run (fp : FP) (lm : Libm) (indices : List (List Int)) (marginals : List (NDArray Int)) (skips : Int) :
    Out QIS := do
  let x ← new fp indices marginals skips
  solve fp lm x false

end QIS

end HL

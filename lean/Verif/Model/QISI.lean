import Verif.Model.QIS
import Verif.Model.IPF

/-
Model of src/QISI.h and src/QISI.cpp.
-/

namespace HL

/-- QISI.h:30-37, the data members beyond those of `Microsynthesis`.  `m_marginals` is a reference to the caller's
list, so it is the same list for the `IPF` objects made by `recomputeIPF`. -/
structure QISI where
  micro : Micro Int Int
  sobol : Sobol
  expected : NDArray Fl
  ipf : NDArray Fl
  chiSq : Fl
  pValue : Fl
  degeneracy : Fl
  conv : Bool

namespace QISI

/-- `index[d] = v` on an `Index` (Index.cpp:57-60). -/
def writeIndex (d : Nat) (v : Int) (idx : List Int) : Out (List Int) :=
  if d < idx.length then .ok (idx.set d v) else .ub .oob

/-- `index[d]` on an `Index` (Index.cpp:51-54). -/
def readIndex (d : Nat) (idx : List Int) : Out Int :=
  match idx[d]? with
  | none => .ub .oob
  | some v => .ok v

/-- QISI.cpp:36-41, 49-54: pick an index in dimension `d` from the sums over the others, store it, and take the
slice there. -/
def pickSlice (fp : FP) (d : Nat) (p : NDArray Fl) (r : List U32) (idx : List Int) :
    Out (NDArray Fl × List Int) := do
  let m ← reduce1 (numFl fp) p d
  let u ← QIS.readSeq r d
  let i ← pick fp (numFl fp) m (variate fp u)
  let idx ← writeIndex d i idx
  let v ← readIndex d idx
  let sliced ← slice1 p d v
  pure (sliced, idx)

/-- QISI.cpp:27-61, `getIndex`.  The first argument is `p.dim() - 2` (0 if that is negative), which decreases by one
in the recursive call because a slice has one dimension fewer. -/
def getIndex (fp : FP) (r : List U32) : Nat → NDArray Fl → List Int → Out (List Int)
  | 0, p, idx => do
    let t ← pickSlice fp 1 p r idx
    let r0 ← t.1.readAll
    let u ← QIS.readSeq r 0
    let i ← pick fp (numFl fp) r0 (variate fp u)
    writeIndex 0 i t.2
  | k + 1, p, idx => do
    let t ← pickSlice fp (k + 2) p r idx
    getIndex fp r k t.1 t.2

/-- QISI.cpp:66-74, constructor.  `skips` (`int64_t`) is converted to `uint32_t`. -/
def new (fp : FP) (indices : List (List Int)) (marginals : List (NDArray Int)) (skips : Int) : Out QISI := do
  let m ← Micro.new fp (numInt fp) indices marginals
  let sobol ← Sobol.new m.dim 0
  let sobol ← sobol.skip (skips % 2 ^ 32).toNat
  pure { micro := m, sobol := sobol, expected := NDArray.empty, ipf := NDArray.empty, chiSq := .nan, pValue := .nan,
         degeneracy := .nan, conv := false }

/-- QISI.cpp:150-156, `recomputeIPF`.  `dbg` is whether assertions are compiled in. -/
def recomputeIPF (dbg : Bool) (fp : FP) (seed : NDArray Fl) (x : QISI) : Out QISI := do
  let f ← IPF.run dbg fp (numInt fp) x.micro.indices x.micro.marginals seed
  let p ← NDArray.copy f.micro.array x.ipf
  pure { x with ipf := p }

/-- QISI.cpp:107-131: the state of the loop over the population: the object, the generator and the index. -/
structure Loop where
  obj : QISI
  gen : Sobol
  idx : List Int

/-- QISI.cpp:115-123: count the individual at `idx` and take it out of the marginals. -/
def place (maps : List MappedIndex) (idx : List Int) (x : QISI) : Out QISI := do
  let a ← x.micro.array.modify idx (fun n => n + 1)
  let d ← QIS.decrement idx maps x.micro.marginals x.conv
  pure { x with micro := { x.micro with marginals := d.1, array := a }, conv := d.2 }

/-- QISI.cpp:129-131: take the individual out of the fitted population, and fit again if that leaves the cell
negative. -/
def takeOut (dbg : Bool) (fp : FP) (seed : NDArray Fl) (idx : List Int) (x : QISI) : Out QISI := do
  let p ← x.ipf.modify idx (fun v => fp.sub v (.fin 1))
  let v ← p.get idx
  if FP.lt v (.fin 0) then recomputeIPF dbg fp seed { x with ipf := p } else pure { x with ipf := p }

/-- QISI.cpp:108-131: the body of the loop over the population. -/
def individual (dbg : Bool) (fp : FP) (seed : NDArray Fl) (maps : List MappedIndex) (t : Loop) : Out Loop := do
  let p ← t.gen.next
  match p.2 with
  | .error e => .thrown e
  | .ok seq => do
    let idx ← getIndex fp seq (t.obj.ipf.sizes.length - 2) t.obj.ipf t.idx
    let x ← place maps idx t.obj
    let x ← takeOut dbg fp seed idx x
    pure ⟨x, p.1, idx⟩

/-- QISI.cpp:106-132: the loop over the population, with the number of individuals left. -/
def individuals (dbg : Bool) (fp : FP) (seed : NDArray Fl) (maps : List MappedIndex) : Nat → Loop → Out Loop
  | 0, t => .ok t
  | n + 1, t => do
    let t ← individual dbg fp seed maps t
    individuals dbg fp seed maps n t

/-- QISI.cpp:93-98, 102: the first fit, kept as the expectation, and the cleared population. -/
def begin (dbg : Bool) (fp : FP) (seed : NDArray Fl) (x : QISI) : Out QISI := do
  let p ← x.ipf.resize x.micro.array.sizes
  let e ← x.expected.resize x.micro.array.sizes
  let x ← recomputeIPF dbg fp seed { x with ipf := p, expected := e }
  let e ← NDArray.copy x.ipf x.expected
  let a ← x.micro.array.assign 0
  pure { x with micro := { x.micro with array := a }, expected := e, conv := true }

/-- QISI.cpp:133-137: the statistics. -/
def stats (fp : FP) (lm : Libm) (x : QISI) : Out QISI := do
  let c ← HL.chiSq fp x.micro.array x.expected
  let g ← HL.degeneracy fp lm x.micro.array
  pure { x with chiSq := c, pValue := tablePValue fp lm x.micro.array.sizes c, degeneracy := g }

/-- QISI.cpp:88-91: reset the member `m_sobolSeq` on request. -/
def resetIf (reset : Bool) (g : Sobol) : Out Sobol := if reset then g.reset 0 else pure g

/-- QISI.cpp:76-140, `solve`.  The result is `micro.array` of the object afterwards.  The generator used is the local
`sobol_seq` of line 104, not the member `m_sobolSeq`. -/
def solve (dbg : Bool) (fp : FP) (lm : Libm) (x : QISI) (seed : NDArray Fl) (reset : Bool) : Out QISI := do
  IPF.checkSeed seed.sizes x.micro.array.sizes
  let sobol ← resetIf reset x.sobol
  let x ← begin dbg fp seed { x with sobol := sobol }
  let main ← Index.new x.micro.array.sizes
  let maps ← Micro.mappings main x.micro.indices
  let gen ← Sobol.new x.micro.dim 0
  let t ← individuals dbg fp seed maps x.micro.population.toNat ⟨x, gen, main.idx⟩
  stats fp lm t.obj

/-- module.cpp:242-273, `hl::qisi`, after the conversion of its arguments: construct, then solve once.  The caller
gets `micro.array`, `expected`, `conv`, `micro.population`, `chiSq`, `pValue` and `degeneracy`. -/
def run (dbg : Bool) (fp : FP) (lm : Libm) (indices : List (List Int)) (marginals : List (NDArray Int))
    (seed : NDArray Fl) (skips : Int) : Out QISI := do
  let x ← new fp indices marginals skips
  solve dbg fp lm x seed false

end QISI

end HL

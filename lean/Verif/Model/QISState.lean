import Verif.Model.QISI

/-
Model of src/QIS.cpp as compiled with USE_STATE_SAMPLING: sampling from the array of state values.
-/

namespace HL

namespace QISState

/-- QIS.cpp:346-356, `getFixed`: the entries of `position` at the dimensions of one marginal. -/
def getFixed (position : List Int) : List Int → Out (List (Int × Int))
  | [] => .ok []
  | d :: ds => do
    let v ← if d < 0 then .ub .oob else QISI.readIndex d.toNat position
    let r ← getFixed position ds
    pure ((d, v) :: r)

/-- QIS.cpp:370-373: multiply the states at the fixed entries by `c`. -/
def rescale (fp : FP) (sizes : List Nat) (fixed : List (Int × Int)) (c : Fl) (a : NDArray Fl) : Out (NDArray Fl) := do
  let x ← FixedIndex.new sizes fixed
  forFixed x (fun (a : NDArray Fl) (x : FixedIndex) => a.modify x.full (fun y => fp.mul y c)) a

/-- QIS.cpp:358-375, `updateStateValues`, over the remaining marginals. -/
def updateStateValues (fp : FP) (sizes : List Nat) (position : List Int) :
    List (List Int) → List MappedIndex → List (NDArray Int) → NDArray Fl → Out (NDArray Fl)
  | _, _, [], a => .ok a
  | i :: is, m :: ms, g :: gs, a => do
    let v ← g.get (m.vals position)
    let w ← g.get (m.vals position)
    let fixed ← getFixed position i
    let a ← rescale fp sizes fixed (fp.div (fp.ofInt v) (fp.ofInt (1 + w))) a
    updateStateValues fp sizes position is ms gs a
  | _, _, _ :: _, _ => .ub .oob

/-- QIS.cpp:213-235: the body of the loop over the population.  `recursive_pick` (29-47), called
with the last dimension, does what `getIndex` of QISI.cpp does, whose model is used.  `idx` is the main index. -/
def individual (fp : FP) (maps : List MappedIndex) (x : QIS) (idx : List Int) : Out (QIS × List Int) := do
  let p ← x.sobol.next
  match p.2 with
  | .error e => .thrown e
  | .ok seq => do
    let idx ← QISI.getIndex fp seq (x.micro.dim - 2) x.stateValues idx
    let a ← x.micro.array.modify idx (fun n => n + 1)
    let d ← QIS.decrement idx maps x.micro.marginals x.conv
    let sv ← updateStateValues fp a.sizes idx x.micro.indices maps d.1 x.stateValues
    pure ({ x with micro := { x.micro with marginals := d.1, array := a }, sobol := p.1, conv := d.2, stateValues := sv }, idx)

/-- QIS.cpp:211-236: the loop over the population, with the number of individuals left. -/
def individuals (fp : FP) (maps : List MappedIndex) : Nat → QIS → List Int → Out (QIS × List Int)
  | 0, x, idx => .ok (x, idx)
  | n + 1, x, idx => do
    let t ← individual fp maps x idx
    individuals fp maps n t.1 t.2

/-- QIS.cpp:179-188, 191-244, `solve` and `solve_p`. -/
def solve (fp : FP) (lm : Libm) (x : QIS) (reset : Bool) : Out QIS := do
  let x ← QIS.begin reset x
  let main ← Index.new x.micro.array.sizes
  let maps ← Micro.mappings main x.micro.indices
  let t ← individuals fp maps x.micro.population.toNat x main.idx
  QIS.stats fp lm t.1

/-- module.cpp:208-240, `hl::qis`, with the library compiled with USE_STATE_SAMPLING. -/
def run (fp : FP) (lm : Libm) (indices : List (List Int)) (marginals : List (NDArray Int)) (skips : Int) : Out QIS := do
  let x ← QIS.new fp indices marginals skips
  solve fp lm x false

end QISState

end HL

import Verif.Model.PyFlatten
import Verif.Model.IPF
import Verif.Model.Integerise

/-
The Python functions (module.cpp) with their arguments as they come from Python: numpy arrays with a memory layout, lists of
objects some of which are converted to arrays on the way.
-/

namespace HL
variable {α : Type}

/-- A numpy array as the buffer protocol describes it: the memory that belongs to it (`buffer`, in elements), where in it the
first element is (`start`), the shape, and for each dimension the distance in elements between neighbours (`strides`, negative
for a reversed view and 0 for a broadcast one). -/
structure NpArray (α : Type) where
  shape : List Nat
  strides : List Int
  start : Nat
  buffer : List α

namespace NpArray

/-- module.cpp:38-48,64-79: the memory from `cbegin(np)` to `cend(np)`: as many elements as the array has, from the first one
on, whatever the strides; less if the buffer ends before. -/
def block (np : NpArray α) : List α := (np.buffer.drop np.start).take (prodSizes np.shape)

/-- Reading all of `[cbegin(np), cend(np))`. -/
def readBlock (np : NpArray α) : Out (List α) :=
  if np.block.length = prodSizes np.shape then .ok np.block else .ub .oob

/-- module.cpp:51-59, `toVector`. -/
def toVector (np : NpArray α) : Out (List α) :=
  if np.shape.length ≠ 1 then .thrown .notVector else np.readBlock

/-- module.cpp:61-71, `toNDArray`: a copy. -/
def toNDArray (np : NpArray α) : Out (NDArray α) := do
  let tmp ← NDArray.new np.shape
  let xs ← np.readBlock
  tmp.copyIn xs

/-- module.cpp:73-78, `asNDArray`: an `NDArray` that uses the memory of the array.  (Memory of the buffer beyond the last
element that would be there if the array was contiguous is left out: reaching it is an error as well.) -/
def asNDArray (np : NpArray α) : Out (NDArray α) := NDArray.wrap np.shape (np.block.map some)

/-- What `asNDArray` leaves behind when the numpy array is destroyed: an `NDArray` of the same sizes with a pointer to memory
that is not there any more.  Reaching an element is the undefined behaviour `oob`. -/
def dangling (np : NpArray α) : Out (NDArray α) := NDArray.wrap np.shape []

end NpArray

/-- An element of a list passed from Python, at `list[i].cast<py::array_t<T>>()` (module.cpp:189-190,221-222,255-256). -/
inductive PyObj (α : Type)
  /-- a numpy array of the right type: the cast gives another reference to it -/
  | array (a : NpArray α)
  /-- anything else, a numpy array of another type or a nested list: the cast makes a new numpy array, `a`, which is destroyed
  at the end of the scope -/
  | other (a : NpArray α)

/-- The array the cast gives. -/
def PyObj.cast : PyObj α → NpArray α
  | .array a => a
  | .other a => a

/-- module.cpp:88-108, `flatten`. -/
def pyFlatten (np : NpArray Int) : Out (List (List Int)) := do
  let a ← np.asNDArray
  flatten a

/-- module.cpp:110-130, `integerise1d`. -/
def pyIntegerise1d (fp : FP) (np : NpArray Fl) (pop : Int) : Out (List Int × Fl) :=
  if pop < 0 then .thrown .negativePop
  else do
    let v ← np.toVector
    Integerise.oneD fp v pop

/-- module.cpp:164-174, `integerise`. -/
def pyIntegerise (dbg : Bool) (fp : FP) (lm : Libm) (np : NpArray Fl) : Out Integerise.Result := do
  let seed ← np.asNDArray
  Integerise.run dbg fp lm seed

/-- module.cpp:187-193: one round of the loop of `ipf`.  The marginal refers to the memory of `ma`, which is destroyed at the
end of the round unless the list has it too. -/
def ipfArgs (i : PyObj Int) (m : PyObj Fl) : Out (List Int × NDArray Fl) := do
  let ix ← i.cast.toVector
  let a ← match m with
    | .array np => np.asNDArray
    | .other np => np.dangling
  pure (ix, a)

/-- module.cpp:176-205, `ipf`.  `const py::array_t<double>& seed` is converted for the whole call if need be. -/
def pyIpf (dbg : Bool) (fp : FP) (seed : PyObj Fl) (ilist : List (PyObj Int)) (mlist : List (PyObj Fl)) : Out (IPF Fl) :=
  if ilist.length ≠ mlist.length then .thrown .listsDiffer
  else do
    let args ← (ilist.zip mlist).mapM (fun p => ipfArgs p.1 p.2)
    let x ← IPF.new fp (numFl fp) (args.map Prod.fst) (args.map Prod.snd)
    let sd ← seed.cast.asNDArray
    IPF.solve dbg fp (numFl fp) x sd

/-- module.cpp:219-225,253-259: one round of the loop of `qis` and `qisi`. -/
def qisArgs (i m : PyObj Int) : Out (List Int × NDArray Int) := do
  let ix ← i.cast.toVector
  let a ← m.cast.toNDArray
  pure (ix, a)

/-- module.cpp:208-240, `qis`. -/
def pyQis (fp : FP) (lm : Libm) (ilist mlist : List (PyObj Int)) (skips : Int) : Out QIS :=
  if ilist.length ≠ mlist.length then .thrown .listsDiffer
  else do
    let args ← (ilist.zip mlist).mapM (fun p => qisArgs p.1 p.2)
    QIS.run fp lm (args.map Prod.fst) (args.map Prod.snd) skips

/-- module.cpp:242-273, `qisi`. -/
def pyQisi (dbg : Bool) (fp : FP) (lm : Libm) (seed : PyObj Fl) (ilist mlist : List (PyObj Int)) (skips : Int) : Out QISI :=
  if ilist.length ≠ mlist.length then .thrown .listsDiffer
  else do
    let args ← (ilist.zip mlist).mapM (fun p => qisArgs p.1 p.2)
    let x ← QISI.new fp (args.map Prod.fst) (args.map Prod.snd) skips
    let sd ← seed.cast.asNDArray
    QISI.solve dbg fp lm x sd false

end HL

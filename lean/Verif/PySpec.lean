import Verif.Model.PyApi
import Verif.Spec

/-
What a numpy array means to a Python programmer.
-/

namespace HL
variable {α : Type}

/-- The distance from the first element of an array of the given strides to the one at index `v`. -/
def dot : List Int → List Int → Int
  | t :: ts, i :: is => t * i + dot ts is
  | _, _ => 0

/-- The strides of an array stored row by row. -/
def rowStrides : List Nat → List Int
  | [] => []
  | _ :: s => (s.prod : Int) :: rowStrides s

/-- The element at index `v`. -/
def NpArray.elem (np : NpArray α) (v : List Int) : Option α :=
  if 0 ≤ np.start + dot np.strides v then np.buffer[(np.start + dot np.strides v).toNat]? else none

/-- `np` has shape `s` and elements `g`. -/
structure NpArray.Holds (np : NpArray α) (s : List Nat) (g : List Int → α) : Prop where
  shape : np.shape = s
  elems : ∀ v, InRange s v → np.elem v = some (g v)

/-- The elements are stored row by row without gaps (numpy's `C_CONTIGUOUS`). -/
def NpArray.CContig (np : NpArray α) : Prop := ∀ v, InRange np.shape v → dot np.strides v = dot (rowStrides np.shape) v

/-- The elements are stored column by column without gaps (numpy's `F_CONTIGUOUS`). -/
def NpArray.FContig (np : NpArray α) : Prop := ∀ v, InRange np.shape v → dot np.strides v = colRank np.shape v

/-- Equal shapes and equal elements: what `numpy.array_equal` says. -/
def NpArray.Same (np np' : NpArray α) : Prop := ∃ s g, GoodShape s ∧ np.Holds s g ∧ np'.Holds s g

end HL

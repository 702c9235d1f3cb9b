import Verif.Model.Utils

/-
`humanleague.flatten` (module.cpp).
-/

namespace HL

/-- module.cpp:92-96, `pop += array[i]` in `size_t` arithmetic: the total modulo 2^64. -/
def flattenPop (a : NDArray Int) : Out Nat := do
  let p ← forIndex a.sizes (fun (p : Int) idx => do
    let v ← a.get idx
    pure ((p + v) % 2 ^ 64)) 0
  pure p.toNat

/-- module.cpp:88-108, `flatten`: the columns of the table, as returned to Python.  (Simplified: the
array is the one `asNDArray` sees, i.e. C-contiguous; the copy into Python lists is the identity.) -/
def flatten (a : NDArray Int) : Out (List (List Int)) := do
  let pop ← flattenPop a
  listify pop a 0

end HL

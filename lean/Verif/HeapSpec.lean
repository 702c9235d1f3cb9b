import Verif.Model.Heap
import Verif.Spec

/-
Vocabulary for statements about the ownership of array storage.
-/

namespace HL.Heap

/-- Array `i` exists and is responsible for freeing block `p`. -/
def Owns (s : St) (i p : Nat) : Prop :=
  ∃ a, s.objs[i]? = some a ∧ a.alive = true ∧ a.owned = true ∧ a.data = some p

/-- Block `p` is allocated. -/
def Live (s : St) (p : Nat) : Prop := ∃ b, s.heap[p]? = some b ∧ b.live = true

/-- What the caller may do, in state `s`.  Sizes are positive and there is at least one.  Elements are reached with an index
inside the sizes of an array that has sizes (it is not default-constructed and has not been moved from); if the array does not
own its storage the caller has kept that storage allocated, and it is large enough.  The caller frees an allocated block that
no array owns, once.  Allocations made by `resize` succeed. -/
def Allowed (s : St) : Op → Prop
  | .new sizes _ => GoodShape sizes
  | .wrap sizes _ => GoodShape sizes
  | .resize _ sizes ok => GoodShape sizes ∧ ok = true
  | .access i idx => ∀ a, s.objs[i]? = some a → a.alive = true →
      a.sizes ≠ [] ∧ InRange a.sizes idx ∧
      (a.owned = false → ∃ p b, a.data = some p ∧ s.heap[p]? = some b ∧ b.live = true ∧ prodSizes a.sizes ≤ b.size)
  | .callerDelete p => Live s p ∧ ∀ i, ¬ Owns s i p
  | _ => True

/-- A program each of whose operations is allowed when it is reached. -/
def AllowedRun (s : St) : List Op → Prop
  | [] => True
  | op :: ops => Allowed s op ∧ ∀ s' e, step s op = .ok (s', e) → AllowedRun s' ops

/-- The blocks the caller is responsible for after a program: those it allocated, and those it took over by `release`. -/
def callers (s : St) : List Op → List Nat
  | [] => []
  | op :: ops =>
    (match op with
     | .callerNew _ => [s.heap.length]
     | .release i => match s.objs[i]? with
       | some a => a.data.toList
       | none => []
     | _ => []) ++
    (match step s op with
     | .ok (s', _) => callers s' ops
     | _ => [])

end HL.Heap

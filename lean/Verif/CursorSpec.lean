import Verif.Model.Index
import Verif.Spec

/-
Histories of an index object, for C121.
-/

namespace HL

/-- What a user of an index object can do to it. -/
inductive CursorOp where
  | next
  | reset
  deriving DecidableEq, Repr

/-- How many times the index has been advanced since it was made or last reset. -/
def advanced : List CursorOp → Nat
  | [] => 0
  | ops@(_ :: _) => (ops.reverse.takeWhile (· = .next)).length

/-- An `Index` after a history of `++` and `reset` (Index.cpp:19-31, 62-66). -/
def indexAfter (x : Index) (ops : List CursorOp) : Index :=
  ops.foldl (fun x op => match op with | .next => x.incr | .reset => x.reset) x

/-- A `TransposedIndex` after a history of `++` and the inherited `reset` (Index.cpp:62-66, 78-90). -/
def transposedAfter (x : Index) (ops : List CursorOp) : Index :=
  ops.foldl (fun x op => match op with | .next => TransposedIndex.incr x | .reset => x.reset) x

/-- A `MappedIndex` and the index it moves after `n` times `++` (Index.cpp:106-118). -/
def mappedAfter (m : MappedIndex) (idx : List Int) : Nat → MappedIndex × List Int
  | 0 => (m, idx)
  | n + 1 => let t := mappedAfter m idx n; t.1.incr t.2

/-- A `FixedIndex` after `n` times `++` (Index.cpp:171-183). -/
def fixedAfter (x : FixedIndex) : Nat → FixedIndex
  | 0 => x
  | n + 1 => (fixedAfter x n).incr

end HL

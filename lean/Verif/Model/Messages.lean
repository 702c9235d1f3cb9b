import Verif.Model.Integerise
import Verif.Model.RApi
import Verif.Model.Sobol
import Verif.Model.Log

/-
The exception messages with operands outside src/Microsynthesis.h: seeds of the wrong shape, sums that are not whole numbers,
dimensions of Sobol sequences and of reductions.  Each function is the check of the same name in the other models, keeping the
operands of its `throw` expression.  That the models agree is a theorem (`C129_agrees`).
-/

namespace HL

namespace Log

/-- the last six decimal digits of `n`, with leading zeros -/
def sixDigits (n : Nat) : List Char := [n / 100000 % 10, n / 10000 % 10, n / 1000 % 10, n / 100 % 10, n / 10 % 10, n % 10].map Nat.digitChar

/-- Log.h:9-13, `to_string_impl` of a finite double: `std::to_string` prints with `"%f"`, that is, rounded to six decimals
(ties to even, as glibc does).  A negative zero, which the model does not have, would be printed with its sign. -/
def fixedText (q : ℚ) : List Char :=
  (if q < 0 then ['-'] else []) ++ natText ((FP.rne (|q| * 10 ^ 6)).toNat / 10 ^ 6) ++
    '.' :: sixDigits ((FP.rne (|q| * 10 ^ 6)).toNat % 10 ^ 6)

/-- `std::to_string` of any double. -/
def flText : Fl → List Char
  | .fin q => fixedText q
  | .pinf => "inf".toList
  | .ninf => "-inf".toList
  | .nan => "nan".toList

end Log

/-- The `throw` expressions with their operands. -/
inductive Complaint
  | seedDims (seed problem : Nat)             -- IPF.h:41, QISI.cpp:81
  | seedSizes (seed problem : List Nat)       -- IPF.h:45, QISI.cpp:85
  | notInteger (x tol : Fl)                   -- Integerise.cpp:17
  | sobolDim (dim : Nat)                      -- Sobol.cpp:13
  | reduceDim (orient dim : Nat)              -- NDArrayUtils.h:122-124
  | seedMismatchR (i : Nat)                   -- rcpp_api.cpp:98

namespace Complaint
open Log

/-- The kind of exception in the other models. -/
def exn : Complaint → Exn
  | seedDims .. => .seedDims
  | seedSizes .. => .seedSizes
  | notInteger .. => .notInteger
  | sobolDim .. => .sobolDim
  | reduceDim .. => .reduceDim
  | seedMismatchR .. => .seedMismatchR

/-- The message built by the `throw` expression. -/
def text : Complaint → List Char
  | seedDims a b => format "seed dimensions %% is inconsistent with that implied by marginals (%%)".toList [natText a, natText b]
  | seedSizes a b => format "seed dimensions %% are inconsistent with that implied by marginals (%%)".toList
      [vecText (a.map natText), vecText (b.map natText)]
  | notInteger x t => format "Marginal or total value %% is not an integer (within tolerance %%)".toList [flText x, flText t]
  | sobolDim d => format "Dim %% is not in valid range [1,1111]".toList [natText d]
  | reduceDim o d => "reduce dimension ".toList ++ natText o ++ " greater than array dimension ".toList ++ natText d
  | seedMismatchR i => "mismatch between seed dimension ".toList ++ natText (i + 1) ++ " and marginal".toList

/-- The outcome, with the operands forgotten. -/
def outcome {α : Type} (x : Out (Except Complaint α)) : Out α :=
  Out.bind x (fun e => match e with
    | .ok a => .ok a
    | .error r => .thrown r.exn)

/-- IPF.h:43-46, QISI.cpp:82-86: the loop over the dimensions, `a` and `b` being the sizes from dimension `d` on. -/
def seedLoop (seed sizes : List Nat) : List Nat → List Nat → Except Complaint Unit
  | n :: a, m :: b => if n ≠ m then .error (.seedSizes seed sizes) else seedLoop seed sizes a b
  | _, _ => .ok ()

/-- IPF.h:40-46, QISI.cpp:80-86: the shape of the seed. -/
def checkSeed (seed sizes : List Nat) : Out (Except Complaint Unit) :=
  if seed.length ≠ sizes.length then .ok (.error (.seedDims seed.length sizes.length))
  else .ok (seedLoop seed sizes seed sizes)

/-- Integerise.cpp:14-19, `checked_round`. -/
def checkedRound (fp : FP) (x : Fl) : Out (Except Complaint Int) :=
  if FP.lt (Integerise.tol4 fp) (FP.abs (fp.sub x (FP.round x))) then .ok (.error (.notInteger x (Integerise.tol4 fp)))
  else Out.bind (FP.toInt64 (FP.round x)) (fun z => .ok (.ok z))

/-- Sobol.cpp:9-19, the constructor. -/
def newSobol (dim nSkip : Nat) : Out (Except Complaint Sobol) :=
  if 2 ^ 61 ≤ dim then .thrown .lengthError
  else if dim < 1 ∨ 1111 < dim then .ok (.error (.sobolDim dim))
  else Out.bind (sobolCreate dim) (fun c =>
    match c with
    | none => .ub .nullDeref
    | some s =>
      let x : Sobol := { s := s, dim := dim, buf := List.replicate dim 0, pos := dim }
      if nSkip > 0 then Out.bind (x.skip nSkip) (fun y => .ok (.ok y)) else .ok (.ok x))

/-- NDArrayUtils.h:116-136, `reduce` to 1-d sums. -/
def reduce1 {α : Type} (N : Num α) (a : NDArray α) (orient : Nat) : Out (Except Complaint (List α)) :=
  if ¬ orient < a.dim then .ok (.error (.reduceDim orient a.dim))
  else Out.bind (forIndex a.sizes (fun sums idx => do
      let x ← a.get idx
      vecModify sums (idx.getD orient 0) (fun s => N.add s x))
      (List.replicate (a.sizes.getD orient 0) N.zero)) (fun v => .ok (.ok v))

/-- rcpp_api.cpp:95-99, from dimension `i` (counted from 0) on. -/
def checkDimsR (i : Nat) : List Nat → List Nat → Out (Except Complaint Unit)
  | [], _ => .ok (.ok ())
  | _ :: _, [] => .ub .oob
  | n :: s, m :: t => if n ≠ m then .ok (.error (.seedMismatchR i)) else checkDimsR (i + 1) s t

end Complaint

end HL

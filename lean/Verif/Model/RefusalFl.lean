import Verif.Model.Refusal
import Verif.Model.Messages

/-
The exception messages of src/Microsynthesis.h for `double` marginals (`ipf`).  The `throw` expressions are those of
`Model/Refusal.lean`; the operands of two of them are doubles.  That the model agrees with `Micro.new` is a theorem (`C130_agrees`).
-/

namespace HL

/-- The `throw` expressions of the constructor for `double` marginals with their operands. -/
inductive RefusalFl
  | counts (r : Refusal)                               -- all others, whose operands are whole numbers
  | negative (k : Nat) (min : Fl)                      -- Microsynthesis.h:63
  | partialSum (d i : Nat) (msi ms0 : List Fl)         -- Microsynthesis.h:235

namespace RefusalFl
open Log

/-- The kind of exception in `Micro.new`. -/
def exn : RefusalFl → Exn
  | counts r => r.exn
  | negative .. => .negativeMarginal
  | partialSum .. => .partialSum

/-- The message built by the `throw` expression. -/
def text : RefusalFl → List Char
  | counts r => r.text
  | negative k m => format "negative value in marginal %%: %%".toList [natText k, flText m]
  | partialSum d i msi ms0 => format "marginal partial sum mismatch in dimension %% index %%: %% vs %%".toList
      [natText d, natText i, vecText (msi.map flText), vecText (ms0.map flText)]

/-- A computation whose refusals have whole numbers as operands. -/
def ofRef {α : Type} (x : Ref α) : Out (Except RefusalFl α) :=
  Out.bind x (fun e => match e with
    | .ok a => .ok (.ok a)
    | .error r => .ok (.error (.counts r)))

/-- The outcome, with the operands forgotten. -/
def outcome {α : Type} (x : Out (Except RefusalFl α)) : Out α :=
  Out.bind x (fun e => match e with
    | .ok a => .ok a
    | .error r => .thrown r.exn)

end RefusalFl

namespace Micro
open Ref RefusalFl

/-- Microsynthesis.h:60-64, from marginal `k` on. -/
def checkNonnegFlR (fp : FP) (k : Nat) : List (NDArray Fl) → Out (Except RefusalFl Unit)
  | [] => .ok (.ok ())
  | a :: as => andThen (lift (minArr (numFl fp) a)) (fun x =>
    if FP.lt x (.fin 0) then refuse (.negative k x) else checkNonnegFlR fp (k + 1) as)

/-- Microsynthesis.h:215-220, from marginal `i` on. -/
def checkSumsFlR (fp : FP) (pop : Int) (i : Nat) : List (NDArray Fl) → Out (Except RefusalFl Unit)
  | [] => .ok (.ok ())
  | a :: as => andThen (lift (roundedSum fp (numFl fp) a)) (fun t =>
    if t ≠ pop then refuse (.counts (.marginalSum i t pop)) else checkSumsFlR fp pop (i + 1) as)

/-- Microsynthesis.h:231-236, from the `i`-th place of dimension `d` on. -/
def checkPartialsFlR (fp : FP) (ms : List (NDArray Fl)) (ms0 : List Fl) (d i : Nat) :
    List (Nat × Nat) → Out (Except RefusalFl Unit)
  | [] => .ok (.ok ())
  | p :: ps => andThen (lift (partialSum (numFl fp) ms p)) (fun msi =>
    if (numFl fp).allclose msi ms0 then checkPartialsFlR fp ms ms0 d (i + 1) ps else refuse (.partialSum d i msi ms0))

/-- Microsynthesis.h:223-237, from dimension `d` on. -/
def checkDimsFlR (fp : FP) (ms : List (NDArray Fl)) (d : Nat) : List (List (Nat × Nat)) → Out (Except RefusalFl Unit)
  | [] => .ok (.ok ())
  | [] :: rest => checkDimsFlR fp ms (d + 1) rest
  | [_] :: rest => checkDimsFlR fp ms (d + 1) rest
  | (p :: q :: ps) :: rest =>
    andThen (lift (partialSum (numFl fp) ms p)) (fun ms0 =>
    andThen (checkPartialsFlR fp ms ms0 d 1 (q :: ps)) (fun _ => checkDimsFlR fp ms (d + 1) rest))

/-- Microsynthesis.h:202-238, `createMappings`: the part after the lookup table has been filled. -/
def checkTotalsFlR (fp : FP) (marginals : List (NDArray Fl)) (lookup : List (List (Nat × Nat))) : Out (Except RefusalFl Int) :=
  match marginals with
  | [] => .ub .oob
  | a :: rest =>
    andThen (lift (roundedSum fp (numFl fp) a)) (fun pop =>
    andThen (checkSumsFlR fp pop 1 rest) (fun _ =>
    andThen (checkDimsFlR fp marginals 0 lookup) (fun _ => .ok (.ok pop))))

/-- Microsynthesis.h:30-111, the constructor with the operands of its exceptions. -/
def newFlR {β : Type} (fp : FP) (indices : List (List Int)) (marginals : List (NDArray Fl)) : Out (Except RefusalFl (Micro β Fl)) :=
  if indices.length ≠ marginals.length ∨ indices.length < 2 then refuse (.counts (.listSize indices.length marginals.length))
  else
    andThen (ofRef (enterAllR 0 [] indices marginals)) (fun dimSizes =>
    if dimSizes.length < 2 then refuse (.counts .tooFewDims)
    else
      andThen (checkNonnegFlR fp 0 marginals) (fun _ =>
      andThen (ofRef (collectSizesR dimSizes dimSizes.length 0)) (fun sizes =>
      andThen (lift (lookupAll (List.replicate dimSizes.length []) 0 indices)) (fun lookup =>
      andThen (checkTotalsFlR fp marginals lookup) (fun pop =>
      andThen (lift (NDArray.new sizes)) (fun array =>
        .ok (.ok { dim := dimSizes.length, sizes := sizes, indices := indices, marginals := marginals,
                   population := pop, dimLookup := lookup, array := array })))))))

end Micro

end HL

import Verif.Model.Microsynthesis
import Verif.Model.Log

/-
The exception messages of src/Microsynthesis.h, for integer marginals.  `Micro.newR` is the constructor again, keeping
the operands of each `throw` expression, which `Micro.new` drops; `Refusal.text` is the text the expression builds.
That the two models agree is a theorem (`C123_agrees`).
-/

namespace HL

/-- The `throw` expressions of the constructor with their operands. -/
inductive Refusal
  | listSize (indices marginals : Nat)                 -- Microsynthesis.h:35
  | indexDim (index marginal : Nat)                    -- Microsynthesis.h:42
  | redefined (k : Nat) (d : Int) (old new : Nat)      -- Microsynthesis.h:52
  | tooFewDims                                         -- Microsynthesis.h:57
  | negative (k : Nat) (min : Int)                     -- Microsynthesis.h:63
  | undefinedDim (k : Nat)                             -- Microsynthesis.h:77
  | marginalSum (i : Nat) (sum pop : Int)              -- Microsynthesis.h:219
  | partialSum (d i : Nat) (msi ms0 : List Int)        -- Microsynthesis.h:235
  deriving DecidableEq, Repr

namespace Refusal
open Log

/-- The kind of exception in `Micro.new`. -/
def exn : Refusal → Exn
  | listSize .. => .listSize
  | indexDim .. => .indexDimMismatch
  | redefined .. => .sizeRedefined
  | tooFewDims => .tooFewDims
  | negative .. => .negativeMarginal
  | undefinedDim .. => .dimUndefined
  | marginalSum .. => .marginalSum
  | partialSum .. => .partialSum

/-- The message built by the `throw` expression: the string literal and its operands joined by `operator%`. -/
def text : Refusal → List Char
  | listSize a b => format "index list size %% too small or differs from marginal size %%".toList [natText a, natText b]
  | indexDim a b => format "index/marginal dimension mismatch %% vs %%".toList [natText a, natText b]
  | redefined k d old new => format "mismatch at index %%: dimension %% size %% redefined to %%".toList
      [natText k, intText d, natText old, natText new]
  | tooFewDims => "problem needs to have more than 1 dimension!".toList
  | negative k m => format "negative value in marginal %%: %%".toList [natText k, intText m]
  | undefinedDim k => format "dimension %% size not defined".toList [natText k]
  | marginalSum i t pop => format "marginal sum mismatch at index %%: %% vs %%".toList [natText i, intText t, intText pop]
  | partialSum d i msi ms0 => format "marginal partial sum mismatch in dimension %% index %%: %% vs %%".toList
      [natText d, natText i, vecText (msi.map intText), vecText (ms0.map intText)]

end Refusal

/-- A computation that may also stop with a refusal. -/
abbrev Ref (α : Type) := Out (Except Refusal α)

namespace Ref
variable {ε α β : Type}

/-- Sequencing: a refusal ends the computation. -/
def andThen (x : Out (Except ε α)) (f : α → Out (Except ε β)) : Out (Except ε β) :=
  Out.bind x (fun e => match e with
    | .ok a => f a
    | .error r => .ok (.error r))

/-- A step that raises no refusal of its own. -/
def lift (x : Out α) : Out (Except ε α) := Out.bind x (fun a => .ok (.ok a))

/-- `throw`. -/
def refuse (r : ε) : Out (Except ε α) := .ok (.error r)

/-- The outcome, with the operands forgotten. -/
def outcome (x : Ref α) : Out α :=
  Out.bind x (fun e => match e with
    | .ok a => .ok a
    | .error r => .thrown r.exn)

end Ref

namespace Micro
open Ref

/-- Microsynthesis.h:48-52: `enterDim` for marginal `k`. -/
def enterDimR (k : Nat) (m : List (Int × Nat)) (d : Int) (n : Nat) : Ref (List (Int × Nat)) :=
  match m.lookup d with
  | none => .ok (.ok (m ++ [(d, n)]))
  | some n' => if n' ≠ n then refuse (.redefined k d n' n) else .ok (.ok m)

/-- Microsynthesis.h:43-53. -/
def enterDimsR (k : Nat) (m : List (Int × Nat)) : List Int → List Nat → Ref (List (Int × Nat))
  | d :: ds, n :: ns => andThen (enterDimR k m d n) (fun m => enterDimsR k m ds ns)
  | _, _ => .ok (.ok m)

/-- Microsynthesis.h:39-54, from marginal `k` on. -/
def enterAllR {α : Type} (k : Nat) (m : List (Int × Nat)) : List (List Int) → List (NDArray α) → Ref (List (Int × Nat))
  | i :: is, a :: as =>
    if i.length ≠ a.dim then refuse (.indexDim i.length a.dim)
    else andThen (enterDimsR k m i a.sizes) (fun m => enterAllR (k + 1) m is as)
  | _, _ => .ok (.ok m)

/-- Microsynthesis.h:60-64, from marginal `k` on.  The second evaluation of `min`, for the message, gives the same
value. -/
def checkNonnegR (fp : FP) (k : Nat) : List (NDArray Int) → Ref Unit
  | [] => .ok (.ok ())
  | a :: as => andThen (lift (minArr (numInt fp) a)) (fun x =>
    if x < 0 then refuse (.negative k x) else checkNonnegR fp (k + 1) as)

/-- Microsynthesis.h:73-79. -/
def collectSizesR (m : List (Int × Nat)) : Nat → Nat → Ref (List Nat)
  | 0, _ => .ok (.ok [])
  | n + 1, k =>
    match m.lookup (k : Int) with
    | none => refuse (.undefinedDim k)
    | some s => andThen (collectSizesR m n (k + 1)) (fun r => .ok (.ok (s :: r)))

/-- Microsynthesis.h:215-220, from marginal `i` on. -/
def checkSumsR (fp : FP) (pop : Int) (i : Nat) : List (NDArray Int) → Ref Unit
  | [] => .ok (.ok ())
  | a :: as => andThen (lift (roundedSum fp (numInt fp) a)) (fun t =>
    if t ≠ pop then refuse (.marginalSum i t pop) else checkSumsR fp pop (i + 1) as)

/-- Microsynthesis.h:231-236, from the `i`-th place of dimension `d` on. -/
def checkPartialsR (fp : FP) (ms : List (NDArray Int)) (ms0 : List Int) (d i : Nat) : List (Nat × Nat) → Ref Unit
  | [] => .ok (.ok ())
  | p :: ps => andThen (lift (partialSum (numInt fp) ms p)) (fun msi =>
    if msi = ms0 then checkPartialsR fp ms ms0 d (i + 1) ps else refuse (.partialSum d i msi ms0))

/-- Microsynthesis.h:223-237, from dimension `d` on. -/
def checkDimsR (fp : FP) (ms : List (NDArray Int)) (d : Nat) : List (List (Nat × Nat)) → Ref Unit
  | [] => .ok (.ok ())
  | [] :: rest => checkDimsR fp ms (d + 1) rest
  | [_] :: rest => checkDimsR fp ms (d + 1) rest
  | (p :: q :: ps) :: rest =>
    andThen (lift (partialSum (numInt fp) ms p)) (fun ms0 =>
    andThen (checkPartialsR fp ms ms0 d 1 (q :: ps)) (fun _ => checkDimsR fp ms (d + 1) rest))

/-- Microsynthesis.h:202-238, `createMappings`: the part after the lookup table has been filled. -/
def checkTotalsR (fp : FP) (marginals : List (NDArray Int)) (lookup : List (List (Nat × Nat))) : Ref Int :=
  match marginals with
  | [] => .ub .oob
  | a :: rest =>
    andThen (lift (roundedSum fp (numInt fp) a)) (fun pop =>
    andThen (checkSumsR fp pop 1 rest) (fun _ =>
    andThen (checkDimsR fp marginals 0 lookup) (fun _ => .ok (.ok pop))))

/-- Microsynthesis.h:30-111, the constructor with the operands of its exceptions. -/
def newR {β : Type} (fp : FP) (indices : List (List Int)) (marginals : List (NDArray Int)) : Ref (Micro β Int) :=
  if indices.length ≠ marginals.length ∨ indices.length < 2 then refuse (.listSize indices.length marginals.length)
  else
    andThen (enterAllR 0 [] indices marginals) (fun dimSizes =>
    if dimSizes.length < 2 then refuse .tooFewDims
    else
      andThen (checkNonnegR fp 0 marginals) (fun _ =>
      andThen (collectSizesR dimSizes dimSizes.length 0) (fun sizes =>
      andThen (lift (lookupAll (List.replicate dimSizes.length []) 0 indices)) (fun lookup =>
      andThen (checkTotalsR fp marginals lookup) (fun pop =>
      andThen (lift (NDArray.new sizes)) (fun array =>
        .ok (.ok { dim := dimSizes.length, sizes := sizes, indices := indices, marginals := marginals,
                   population := pop, dimLookup := lookup, array := array })))))))

end Micro

end HL

import Verif.Model.SobolMem

/-
Vocabulary for statements about Sobol generators in memory: the same programs on generators that are plain values, and what
the memory holds.
-/

namespace HL.SMem

/-- One operation on generators as values (`Model/Sobol.lean`): no memory, nothing to go wrong with it. -/
def vstep (xs : List (Option Sobol)) : Op → Out (List (Option Sobol) × Res)
  | .make dim nSkip _ =>
    match Sobol.new dim nSkip with
    | .ok x => .ok (xs ++ [some x], .done)
    | .thrown e => .ok (xs ++ [none], .error e)
    | .ub u => .ub u
    | .diverges => .diverges
  | .next i =>
    match xs[i]? with
    | some (some x) => do
      let (x, r) ← x.next
      pure (xs.set i (some x), match r with | .ok p => .point p | .error e => .error e)
    | _ => .ok (xs, .done)
  | .call i =>
    match xs[i]? with
    | some (some x) => do
      let (x, r) ← x.call
      pure (xs.set i (some x), match r with | .ok v => .value v | .error e => .error e)
    | _ => .ok (xs, .done)
  | .skip i n =>
    match xs[i]? with
    | some (some x) => do
      let x ← x.skip n
      pure (xs.set i (some x), .done)
    | _ => .ok (xs, .done)
  | .reset i n _ =>
    match xs[i]? with
    | some (some x) => do
      let x ← x.reset n
      pure (xs.set i (some x), .done)
    | _ => .ok (xs, .done)
  | .destroy i =>
    match xs[i]? with
    | some (some _) => .ok (xs.set i none, .done)
    | _ => .ok (xs, .done)

/-- A program on generators as values, with what it sees. -/
def vrun (xs : List (Option Sobol)) : List Op → Out (List (Option Sobol) × List Res)
  | [] => .ok (xs, [])
  | op :: ops => do
    let (xs, r) ← vstep xs op
    let (xs, rs) ← vrun xs ops
    pure (xs, r :: rs)

/-- The allocations the operation makes succeed. -/
def Succeeds : Op → Prop
  | .make _ _ ok => ∀ k < 4, ok k = true
  | .reset _ _ ok => ∀ k < 4, ok k = true
  | _ => True

/-- The operation asks to skip more than 2^31 points, which never ends (C15). -/
def SkipsTooFar : Op → Prop
  | .make _ n _ => 2 ^ 31 < n
  | .reset _ n _ => 2 ^ 31 < n
  | .skip _ n => 2 ^ 31 < n
  | _ => False

/-- How many blocks are allocated. -/
def allocated (h : Mem) : Nat := ((List.range h.length).filter (fun k => h[k]?.any (·.live))).length

/-- How many generators exist that have their memory (an allocation that failed leaves one without). -/
def existing (objs : List (Option Obj)) : Nat := (objs.filter (fun o => o.any (fun x => x.s.isSome))).length

/-- The next operation draws from a generator that has no memory because an allocation failed. -/
def DrawsFromNull (st : St) : Op → Prop
  | .next i => ∃ x, st.objs[i]? = some (some x) ∧ x.s = none
  | .call i => ∃ x, st.objs[i]? = some (some x) ∧ x.s = none
  | _ => False

end HL.SMem

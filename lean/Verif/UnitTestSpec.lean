import Verif.Model.UnitTest

/-!
What the checks of the self-test are supposed to mean: every condition is evaluated once, and the verdict is whether it holds.
-/

namespace HL.UnitTest
variable {σ : Type}

/-- What a statement of a test function contributes: nothing, or a verdict with the place of the check. -/
inductive Verdict
  | none
  | passed (loc : String)
  | failed (loc : String)
  deriving DecidableEq, Repr

/-- One statement, with everything evaluated once. -/
def once (s : σ) : Stmt σ → Except Exn (Verdict × σ)
  | .act f => (f s).map (fun s' => (.none, s'))
  | .check _ loc cond => (cond s).map (fun r => (if r.1 then .passed loc else .failed loc, r.2))
  | .checkEqual _ _ loc cond0 cond1 =>
    match cond0 s with
    | .error e => .error e
    | .ok (v0, s1) => (cond1 s1).map (fun r => (if v0 = r.1 then .passed loc else .failed loc, r.2))
  | .checkThrows _ _ loc expr isExcept =>
    .ok (match (expr s).2 with
      | some e => if isExcept e then .passed loc else .failed loc
      | Option.none => .failed loc, (expr s).1)
  | .unexpected _ loc => .ok (.failed loc, s)
  | .unhandled loc => .ok (.failed loc, s)

/-- All statements: the verdicts in order, and whether the end was reached. -/
def verdicts (s : σ) : List (Stmt σ) → List Verdict × Bool
  | [] => ([], true)
  | t :: ts =>
    match once s t with
    | .error _ => ([], false)
    | .ok (v, s') => (v :: (verdicts s' ts).1, (verdicts s' ts).2)

/-- The verdict is that a check failed. -/
def Verdict.isFailed : Verdict → Bool
  | .failed _ => true
  | _ => false

/-- The verdict is one of a check. -/
def Verdict.isCheck : Verdict → Bool
  | .none => false
  | _ => true

/-- The places of the checks that fail, in order. -/
def failures (vs : List Verdict) : List String :=
  vs.filterMap (fun v => match v with
    | .failed loc => some loc
    | _ => Option.none)

/-- Evaluating the operands of the equality checks changes nothing. -/
def Stmt.Pure : Stmt σ → Prop
  | .checkEqual _ _ _ cond0 cond1 =>
    ∀ s, (∀ v s', cond0 s = .ok (v, s') → s' = s) ∧ (∀ v s', cond1 s = .ok (v, s') → s' = s)
  | _ => True

end HL.UnitTest

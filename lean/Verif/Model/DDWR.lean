import Verif.Model.Sobol
import Verif.Float

/-
Model of src/DDWR.h.  `discrete_distribution_without_replacement` is modelled for `uint32_t`, the type it is used with
(TestSobol.cpp:39), with its wrap-around arithmetic; `discrete_distribution_with_replacement` for `uint32_t` and `double`.
-/

namespace HL

/-- Conversion of a `double` to `uint32_t`: the value is truncated, undefined unless that fits. -/
def FP.toU32 : Fl → Out U32
  | .fin q => if 0 ≤ FP.truncQ q ∧ FP.truncQ q < 2 ^ 32 then .ok (BitVec.ofNat 32 (FP.truncQ q).toNat) else .ub .badCast
  | _ => .ub .badCast

/-- DDWR.h:41,94,120: `double(r)/(1ull<<32)`. -/
def unitOf (fp : FP) (r : U32) : Fl := fp.div (fp.ofInt r.toNat) (fp.ofInt (2 ^ 32))

/-- The operations the samplers use on a value type. -/
structure Weight (α : Type) where
  zero : α
  add : α → α → α
  toFl : α → Fl
  ofFl : Fl → Out α

/-- `uint32_t` -/
def weightU32 (fp : FP) : Weight U32 := ⟨0, (· + ·), fun x => fp.ofInt x.toNat, FP.toU32⟩

/-- `double` -/
def weightFl (fp : FP) : Weight Fl := ⟨.fin 0, fp.add, id, .ok⟩

/-! ### with replacement -/

/-- DDWR.h:59-60, the data members. -/
structure WithRep (α : Type) where
  freq : List α
  sum : α

namespace WithRep
variable {α : Type}

/-- DDWR.h:24-29, constructor. -/
def new (W : Weight α) (freq : List α) : WithRep α := ⟨freq, freq.foldl W.add W.zero⟩

/-- DDWR.h:45-49, the loop: the frequencies not read yet, `p`, `s` and `idx`.  Reading past the last frequency is
undefined. -/
def walk (W : Weight α) (p : Fl) : List α → α → Nat → Out Nat
  | [], s, idx => if FP.le (W.toFl s) p then .ub .oob else .ok idx
  | f :: rest, s, idx => if FP.le (W.toFl s) p then walk W p rest (W.add s f) (idx + 1) else .ok idx

/-- DDWR.h:38-51, `operator()(random_type r)`. -/
def sample (fp : FP) (W : Weight α) (d : WithRep α) (r : U32) : Out Nat := do
  let t ← W.ofFl (fp.mul (unitOf fp r) (W.toFl d.sum))
  match d.freq with
  | [] => .ub .oob
  | f :: rest => walk W (W.toFl t) rest f 0

end WithRep

/-! ### without replacement -/

/-- DDWR.h:148-149, the data members, for `uint32_t`. -/
structure WithoutRep where
  freq : List U32
  sum : U32
  deriving DecidableEq

namespace WithoutRep

/-- DDWR.h:74-79, constructor (`std::accumulate` with an `int`, which ends up the sum modulo 2^32). -/
def new (freq : List U32) : WithoutRep := ⟨freq, freq.foldl (· + ·) 0⟩

/-- DDWR.h:94,120: `(uint32_t)(double(r)/(1ull<<32) * sum)`. -/
def scale (fp : FP) (r sum : U32) : Out U32 := FP.toU32 (fp.mul (unitOf fp r) (fp.ofInt sum.toNat))

/-- DDWR.h:98-102, the loop: the frequencies not read yet, `r`, `s` and `idx`. -/
def walk (r : U32) : List U32 → U32 → Nat → Out Nat
  | [], s, idx => if s ≤ r then .ub .oob else .ok idx
  | f :: rest, s, idx => if s ≤ r then walk r rest (s + f) (idx + 1) else .ok idx

/-- DDWR.h:103-104, 132-133: remove one from state `idx`. -/
def take (d : WithoutRep) (idx : Nat) : WithoutRep := ⟨d.freq.set idx (d.freq.getD idx 0 - 1), d.sum - 1⟩

/-- DDWR.h:88-106, `operator()(result_type r)`. -/
def sample (fp : FP) (d : WithoutRep) (r : U32) : Out (Nat × WithoutRep) :=
  if d.sum = 0 then .thrown .depleted
  else do
    let r ← scale fp r d.sum
    match d.freq with
    | [] => .ub .oob
    | f :: rest => do
      let idx ← walk r rest f 0
      pure (idx, d.take idx)

/-- DDWR.h:124-131, the loop of `constrainedSample`; `none` is `invalid_state`.  The next frequency is read before the
position is compared with the first forbidden state. -/
def walkTo (limit : Nat) (r : U32) : List U32 → U32 → Nat → Out (Option Nat)
  | [], s, idx => if s ≤ r then .ub .oob else .ok (some idx)
  | f :: rest, s, idx =>
    if s ≤ r then
      if limit ≤ idx + 1 then .ok none else walkTo limit r rest (s + f) (idx + 1)
    else .ok (some idx)

/-- DDWR.h:110-135, `constrainedSample`. -/
def constrainedSample (fp : FP) (d : WithoutRep) (r : U32) (firstForbidden : Nat) : Out (Option Nat × WithoutRep) :=
  if d.sum = 0 then .thrown .depleted
  else do
    let limit := min d.freq.length firstForbidden
    let r ← scale fp r ((d.freq.take limit).foldl (· + ·) 0)
    match d.freq with
    | [] => .ub .oob
    | f :: rest => do
      match ← walkTo limit r rest f 0 with
      | none => pure (none, d)
      | some idx => pure (some idx, d.take idx)

/-- DDWR.h:136-139, `empty`. -/
def isEmpty (d : WithoutRep) : Bool := d.sum == 0

/-- DDWR.h:141-145, assignment through the non-const `operator[]`: the total is not updated. -/
def assign (d : WithoutRep) (i : Nat) (x : U32) : Out WithoutRep :=
  if i < d.freq.length then .ok { d with freq := d.freq.set i x } else .ub .oob

/-- Draw once for each random number. -/
def draws (fp : FP) (d : WithoutRep) : List U32 → Out (List Nat × WithoutRep)
  | [] => .ok ([], d)
  | r :: rs => do
    let t ← d.sample fp r
    let u ← draws fp t.2 rs
    pure (t.1 :: u.1, u.2)

end WithoutRep

end HL

import Verif.Base
import Verif.Float

/-!
The self-test: UnitTester.h, UnitTester.cpp, Global.h, `unitTest` (rcpp_api.cpp:508-518) and `_unittest` (module.cpp:276-286).
-/

namespace HL.UnitTest

/-- UnitTester.h:10-20, `Logger`. -/
structure Logger where
  testsRun : Nat
  testsFailed : Nat
  errors : List String
  deriving DecidableEq, Repr

/-- What the test functions execute (TestIndex.cpp, TestSlice.cpp, TestReduce.cpp, TestSobol.cpp, TestStatFuncs.cpp,
TestNDArray.cpp): `σ` is the values of their variables.  Loops are unrolled: a test function is the sequence of statements it
executes when no check fails.  `loc` is `__FILE__:__LINE__`, `text` the stringised argument. -/
inductive Stmt (σ : Type)
  /-- anything but a check; it may throw -/
  | act (f : σ → Except Exn σ)
  /-- `CHECK(cond)` -/
  | check (text loc : String) (cond : σ → Except Exn (Bool × σ))
  /-- `CHECK_EQUAL(cond0, cond1)`, for operands that are integers (as all operands in the tests are) -/
  | checkEqual (text0 text1 loc : String) (cond0 cond1 : σ → Except Exn (Int × σ))
  /-- `CHECK_THROWS(expr, except)`: the expression leaves the variables in some state whether it throws or not -/
  | checkThrows (text except loc : String) (expr : σ → σ × Option Exn) (isExcept : Exn → Bool)
  /-- `UNEXPECTED_ERROR(msg)` -/
  | unexpected (msg loc : String)
  /-- `UNHANDLED_ERROR()` -/
  | unhandled (loc : String)

namespace Logger

/-- UnitTester.h:12, the constructor. -/
def new : Logger := ⟨0, 0, []⟩

/-- UnitTester.cpp:7-12, `Logger::reset`. -/
def reset (_ : Logger) : Logger := ⟨0, 0, []⟩

/-- UnitTester.h:28,37,48,70,76: `++testsRun`. -/
def count (l : Logger) : Logger := { l with testsRun := l.testsRun + 1 }

/-- UnitTester.h:31-33,40-43,63-65,71-72,77-78: `++testsFailed; errors.push_back(msg)`. -/
def fail (l : Logger) (msg : String) : Logger := { l with testsFailed := l.testsFailed + 1, errors := l.errors ++ [msg] }

end Logger

/-- UnitTester.cpp:17, `thresh`: 2^-1022 / 2^-52. -/
def thresh : ℚ := 1 / 2 ^ 970

/-- UnitTester.cpp:14-27, `withinTolerance`. -/
def withinTolerance (fp : FP) (x y tol : Fl) : Bool :=
  let mean := fp.mul (.fin (1 / 2)) (FP.abs (fp.add x y))
  if FP.lt mean (.fin thresh) then FP.lt (FP.abs (fp.sub x y)) (fp.mul tol mean)
  else FP.lt (fp.div (FP.abs (fp.sub x y)) mean) tol

variable {σ : Type}

/-- UnitTester.h:27-34, `CHECK`: the count goes up before the condition is evaluated. -/
def execCheck (text loc : String) (cond : σ → Except Exn (Bool × σ)) (l : Logger) (s : σ) : Logger × Except Exn σ :=
  match cond s with
  | .error e => (l.count, .error e)
  | .ok (b, s') => if b then (l.count, .ok s') else (l.count.fail (text ++ " FAILED at " ++ loc), .ok s')

/-- UnitTester.h:42: `std::to_string(cond0)` and `std::to_string(cond1)` in the message of `CHECK_EQUAL`: the operands are
evaluated a second time (in an order C++ leaves open, here left to right).  What they throw leaves the macro before the error is
recorded, but after `++testsFailed`. -/
def reevaluate (text0 text1 loc : String) (cond0 cond1 : σ → Except Exn (Int × σ)) (l : Logger) (s : σ) : Logger × Except Exn σ :=
  match cond0 s with
  | .error e => ({ l with testsFailed := l.testsFailed + 1 }, .error e)
  | .ok (v0, s1) =>
    match cond1 s1 with
    | .error e => ({ l with testsFailed := l.testsFailed + 1 }, .error e)
    | .ok (v1, s2) =>
      (l.fail (text0 ++ "==" ++ text1 ++ " [" ++ toString v0 ++ " == " ++ toString v1 ++ "] FAILED at " ++ loc), .ok s2)

/-- UnitTester.h:36-44, `CHECK_EQUAL` (the operands of `==` evaluated left to right). -/
def execCheckEqual (text0 text1 loc : String) (cond0 cond1 : σ → Except Exn (Int × σ)) (l : Logger) (s : σ) :
    Logger × Except Exn σ :=
  match cond0 s with
  | .error e => (l.count, .error e)
  | .ok (v0, s1) =>
    match cond1 s1 with
    | .error e => (l.count, .error e)
    | .ok (v1, s2) => if v0 = v1 then (l.count, .ok s2) else reevaluate text0 text1 loc cond0 cond1 l.count s2

/-- UnitTester.h:49-60: `caught`, after the expression has thrown this or not at all. -/
def caught (isExcept : Exn → Bool) : Option Exn → Bool
  | some e => isExcept e
  | none => false

/-- UnitTester.h:46-67, `CHECK_THROWS`: an exception of another type is caught too. -/
def execCheckThrows (text except loc : String) (expr : σ → σ × Option Exn) (isExcept : Exn → Bool) (l : Logger) (s : σ) :
    Logger × Except Exn σ :=
  if caught isExcept (expr s).2 then (l.count, .ok (expr s).1)
  else (l.count.fail (text ++ " did not throw expected " ++ except ++ " at " ++ loc), .ok (expr s).1)

/-- One statement: the logger and the variables afterwards, or the exception that leaves the test function. -/
def exec (l : Logger) (s : σ) : Stmt σ → Logger × Except Exn σ
  | .act f => (l, f s)
  | .check text loc cond => execCheck text loc cond l s
  | .checkEqual text0 text1 loc cond0 cond1 => execCheckEqual text0 text1 loc cond0 cond1 l s
  | .checkThrows text except loc expr isExcept => execCheckThrows text except loc expr isExcept l s
  | .unexpected msg loc => (l.count.fail ("Unexpected error " ++ msg ++ " at " ++ loc), .ok s)
  | .unhandled loc => (l.count.fail ("Unhandled error at " ++ loc), .ok s)

/-- UnitTester.cpp:41-49: the test functions, one statement after another; an exception ends the run. -/
def execAll (l : Logger) (s : σ) : List (Stmt σ) → Logger × Except Exn σ
  | [] => (l, .ok s)
  | t :: ts =>
    match exec l s t with
    | (l', .ok s') => execAll l' s' ts
    | (l', .error e) => (l', .error e)

/-- UnitTester.cpp:29-52, `run`: the logger is the object behind `Global::instance<Logger>()` (Global.h:8-18), which lives as
long as the library is loaded.  `s` is the initial values of the variables. -/
def run (tests : List (Stmt σ)) (s : σ) (l : Logger) : Logger × Except Exn Unit :=
  match execAll l.reset s tests with
  | (l', .ok _) => (l', .ok ())
  | (l', .error e) => (l', .error e)

/-- rcpp_api.cpp:508-518, module.cpp:276-286: the list the caller gets. -/
structure Report where
  nTests : Nat
  nFails : Nat
  errors : List String
  deriving DecidableEq, Repr

/-- rcpp_api.cpp:508-518 `unitTest`, module.cpp:276-286 `_unittest`: the state of the library afterwards, and the report, or the
exception. -/
def unitTest (tests : List (Stmt σ)) (s : σ) (l : Logger) : Logger × Except Exn Report :=
  match run tests s l with
  | (l', .ok ()) => (l', .ok ⟨l'.testsRun, l'.testsFailed, l'.errors⟩)
  | (l', .error e) => (l', .error e)

/-- `n` calls one after another, with whatever tests; the last report is not included. -/
def session (l : Logger) : List (List (Stmt σ) × σ) → Logger
  | [] => l
  | c :: cs => session (unitTest c.1 c.2 l).1 cs

end HL.UnitTest

import Verif.Model.PyApi
import Verif.Model.RExtra
import Verif.Model.RApi
import Verif.Model.Normal
import Verif.Model.DDWR

/-!
Help for `Verif/Conform`: running the model on the inputs of the project's own tests and comparing the outcome with what those
tests expect.  The checks are `#guard`s: they are evaluated, not proved, and nothing in the rest of the development uses them.
They are evidence that the model computes what the code computes, no more.

Arithmetic is `FP.ieee`; `sqrt`, `log`, `exp` are Lean's `Float` functions (the C library's), `lgamma` and `erf` are series
written out here, good to about 13 digits.
-/

namespace HL.Conform

/-- The nearest `Float`. -/
def toFloat : Fl → Float
  | .fin q => Float.ofInt q.num / Float.ofInt q.den
  | .pinf => 1.0 / 0.0
  | .ninf => -1.0 / 0.0
  | .nan => 0.0 / 0.0

/-- The value of a `Float`. -/
def ofFloat (x : Float) : Fl :=
  if x.isNaN then .nan
  else if x.isInf then (if x > 0 then .pinf else .ninf)
  else
    let (m, e) := x.frExp
    .fin (((m * 2.0 ^ 53).toInt64.toInt : ℚ) * (2 : ℚ) ^ ((e : Int) - 53))

def onFloat (f : Float → Float) (x : Fl) : Fl := ofFloat (f (toFloat x))

/-- Stirling's series after moving the argument up to at least 15. -/
def lgammaFloat (x : Float) : Float := Id.run do
  let mut y := x
  let mut s := 0.0
  for _ in [0:15] do
    if y < 15.0 then
      s := s + Float.log y
      y := y + 1.0
  let i := 1.0 / y
  let i2 := i * i
  return (y - 0.5) * Float.log y - y + 0.91893853320467274178 +
    i * (1.0 / 12.0 - i2 * (1.0 / 360.0 - i2 * (1.0 / 1260.0 - i2 * (1.0 / 1680.0)))) - s

/-- The Maclaurin series of `erf`, up to where it cancels too much; ±1 beyond. -/
def erfFloat (x : Float) : Float := Id.run do
  if x > 5.9 then return 1.0
  if x < -5.9 then return -1.0
  let mut t := x
  let mut s := x
  for k in [1:200] do
    t := t * (-(x * x)) / k.toFloat
    s := s + t / (2 * k + 1).toFloat
  return s * 1.12837916709551257390

def fp : FP := FP.ieee (onFloat Float.sqrt)

def lm : Libm where
  lgamma := onFloat lgammaFloat
  tgamma := onFloat (fun x => Float.exp (lgammaFloat x))
  log := onFloat Float.log
  exp := onFloat Float.exp
  erf := onFloat erfFloat

/-- A decimal literal. -/
def dec (q : ℚ) : Fl := fp.rnd q

/-- The run ends normally with a value that satisfies `p`. -/
def okAnd {α : Type} (x : Out α) (p : α → Bool) : Bool :=
  match x with
  | .ok a => p a
  | _ => false

/-- The run ends with the exception `e`. -/
def throws {α : Type} (x : Out α) (e : Exn) : Bool :=
  match x with
  | .thrown e' => e' = e
  | _ => false

/-- The run ends with some exception. -/
def raises {α : Type} (x : Out α) : Bool :=
  match x with
  | .thrown _ => true
  | _ => false

/-- The run has undefined behaviour. -/
def undefined {α : Type} (x : Out α) : Bool :=
  match x with
  | .ub _ => true
  | _ => false

def lt (x : Fl) (q : ℚ) : Bool := FP.lt x (dec q)
def gt (x : Fl) (q : ℚ) : Bool := FP.lt (dec q) x

/-- `x` is within `tol` of `y`. -/
def near (tol : ℚ) (x y : Fl) : Bool := FP.lt (FP.abs (fp.sub x y)) (.fin tol)

def nearAll (tol : ℚ) (xs ys : List Fl) : Bool := xs.length == ys.length && (xs.zip ys).all (fun p => near tol p.1 p.2)

/-- A numpy array in C order. -/
def np {α : Type} (shape : List Nat) (xs : List α) : NpArray α :=
  ⟨shape, (List.range shape.length).map (fun k => (prodSizes (shape.drop (k + 1)) : Int)), 0, xs⟩

def npF (shape : List Nat) (xs : List ℚ) : PyObj Fl := .array (np shape (xs.map dec))
def npI (shape : List Nat) (xs : List Int) : PyObj Int := .array (np shape xs)

/-- A numpy array of integers where one of doubles is wanted, or a nested list: the cast makes a temporary. -/
def castF (shape : List Nat) (xs : List ℚ) : PyObj Fl := .other (np shape (xs.map dec))

def ones (shape : List Nat) : PyObj Fl := npF shape (List.replicate (prodSizes shape) 1)

def idx (l : List (List Int)) : List (PyObj Int) := l.map (fun x => .array (np [x.length] x))

/-- The elements of an array, all of them initialised. -/
def elems {α : Type} (a : NDArray α) : List α := a.data.filterMap id

/-- `np.sum` over all dimensions but `d`. -/
def sums (a : NDArray Int) (d : Nat) : List Int := match reduce1 (numInt fp) a d with | .ok v => v | _ => []
def sumsF (a : NDArray Fl) (d : Nat) : List Fl := match reduce1 (numFl fp) a d with | .ok v => v | _ => []
def sumsM (a : NDArray Int) (ds : List Int) : List Int := match reduceM true (numInt fp) a ds with | .ok v => elems v | _ => []

/-- An R vector. -/
def rv {α : Type} (xs : List α) : RArray α := ⟨xs, none⟩

/-- An R array, given in R's order. -/
def ra {α : Type} (dims : List Nat) (xs : List α) : RArray α := ⟨xs, some dims⟩

def rvF (xs : List ℚ) : RArray Fl := rv (xs.map dec)
def raF (dims : List Nat) (xs : List ℚ) : RArray Fl := ra dims (xs.map dec)

/-- `array(rep(x, prod(dims)), dims)`. -/
def rep (dims : List Nat) (x : ℚ) : RArray Fl := raF dims (List.replicate (prodSizes dims) x)
def repI (dims : List Nat) (x : Int) : RArray Int := ra dims (List.replicate (prodSizes dims) x)

/-- The coordinates of the `k`th element of an R array (first index fastest), counted from 0. -/
def rCoords : List Nat → Nat → List Nat
  | [], _ => []
  | n :: s, k => k % n :: rCoords s (k / n)

/-- `apply(a, ds, sum)`, as a list in R's order; `ds` counted from 1. -/
def applySum {α : Type} (add : α → α → α) (zero : α) (a : RArray α) (ds : List Nat) : List α :=
  let s := a.sizes
  let t := ds.map (fun d => s.getD (d - 1) 0)
  (List.range (prodSizes t)).map (fun j =>
    (((List.range a.data.length).zip a.data).filter (fun p =>
      ds.map (fun d => (rCoords s p.1).getD (d - 1) 0) = rCoords t j)).foldl (fun acc p => add acc p.2) zero)

def applyI (a : RArray Int) (ds : List Nat) : List Int := applySum (· + ·) 0 a ds
def applyF (a : RArray Fl) (ds : List Nat) : List Fl := applySum fp.add (.fin 0) a ds

end HL.Conform

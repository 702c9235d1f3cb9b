import Verif.Model.Utils

/-
Model of src/StatFuncs.h and src/StatFuncs.cpp.  The functions of the C mathematics library are
uninterpreted parameters.
-/

namespace HL

/-- The functions of `<cmath>` the code calls. -/
structure Libm where
  lgamma : Fl → Fl
  tgamma : Fl → Fl
  log : Fl → Fl
  exp : Fl → Fl
  erf : Fl → Fl

/-- StatFuncs.h:35-45, `chiSq`, for an integer sample and a floating reference. -/
def chiSq (fp : FP) (sample : NDArray Int) (reference : NDArray Fl) : Out Fl :=
  forIndex sample.sizes (fun c idx => do
    let x ← sample.get idx
    let m ← reference.get idx
    let d := fp.sub (fp.ofInt x) m
    pure (fp.add c (fp.div (fp.mul d d) m))) (.fin 0)

/-- StatFuncs.cpp:343-351, `dof` (overflow of `int64_t` is not modelled). -/
def dof : List Nat → Int
  | [] => 1
  | n :: s => ((n : Int) - 1) * dof s

/-- StatFuncs.h:47-51, `factorial` of an `int64_t`. -/
def factorial (fp : FP) (lm : Libm) (x : Int) : Fl := lm.tgamma (fp.ofInt (x + 1))

/-- StatFuncs.cpp:354-363, `degeneracy`. -/
def degeneracy (fp : FP) (lm : Libm) (a : NDArray Int) : Out Fl := do
  let r ← forIndex a.sizes (fun (t : Fl × Fl) idx => do
    let x ← a.get idx
    pure (fp.mul t.1 (fp.div t.2 (factorial fp lm (x + 1))), fp.sub t.2 (.fin 1)))
    (.fin 1, fp.ofInt a.storageSize)
  pure r.1

namespace Gamain

/-- StatFuncs.cpp:65 -/
def maxIters : Nat := 10000

/-- StatFuncs.cpp:68, `1.0E-08` -/
def acu (fp : FP) : Fl := fp.rnd (1 / 10 ^ 8)

/-- StatFuncs.cpp:76, `1.0E+37` -/
def oflo (fp : FP) : Fl := fp.rnd (10 ^ 37)

/-- StatFuncs.cpp:80, `log(1.0E-37)` -/
def loguflo (fp : FP) (lm : Libm) : Fl := lm.log (fp.rnd (1 / 10 ^ 37))

/-- StatFuncs.cpp:126-136, the series with at most the given number of iterations: `gin` and whether the
loop was left by `break`. -/
def series (fp : FP) (x : Fl) : Nat → (rn term gin : Fl) → Fl × Bool
  | 0, _, _, gin => (gin, false)
  | k + 1, rn, term, gin =>
    let rn := fp.add rn (.fin 1)
    let term := fp.div (fp.mul term x) rn
    let gin := fp.add gin term
    if FP.le term (acu fp) then (gin, true) else series fp x k rn term gin

/-- The variables of the loop of StatFuncs.cpp:158-202 (`p0` … `p3` are `pn[0]` … `pn[3]`). -/
structure Frac where
  a : Fl
  b : Fl
  term : Fl
  gin : Fl
  p0 : Fl
  p1 : Fl
  p2 : Fl
  p3 : Fl

/-- StatFuncs.cpp:190-201: shift `pn`, dividing by `oflo` when large. -/
def shiftPn (fp : FP) (s : Frac) (gin p4 p5 : Fl) : Frac :=
  if FP.le (oflo fp) (FP.abs p4) then
    ⟨s.a, s.b, s.term, gin, fp.div s.p2 (oflo fp), fp.div s.p3 (oflo fp), fp.div p4 (oflo fp), fp.div p5 (oflo fp)⟩
  else ⟨s.a, s.b, s.term, gin, s.p2, s.p3, p4, p5⟩

/-- StatFuncs.cpp:160-162: the counters at the start of an iteration. -/
def nextFrac (fp : FP) (s : Frac) : Frac :=
  { s with a := fp.add s.a (.fin 1), b := fp.add s.b (.fin 2), term := fp.add s.term (.fin 1) }

/-- StatFuncs.cpp:163-167: `b * pn[i+2] - a * term * pn[i]`. -/
def newPn (fp : FP) (s : Frac) (hi lo : Fl) : Fl := fp.sub (fp.mul s.b hi) (fp.mul (fp.mul s.a s.term) lo)

/-- StatFuncs.cpp:158-202, the continued fraction with at most the given number of iterations: the value on
`break`, `none` when the iterations run out. -/
def fraction (fp : FP) (factor : Fl) : Nat → Frac → Option Fl
  | 0, _ => none
  | k + 1, s =>
    let s := nextFrac fp s
    let p4 := newPn fp s s.p2 s.p0
    let p5 := newPn fp s s.p3 s.p1
    if !(FP.feq p5 (.fin 0)) then
      let rn := fp.div p4 p5
      let dif := FP.abs (fp.sub s.gin rn)
      if FP.le dif (acu fp) && FP.le dif (fp.mul (acu fp) rn) then
        some (fp.sub (.fin 1) (fp.mul factor s.gin))
      else fraction fp factor k (shiftPn fp s rn p4 p5)
    else fraction fp factor k (shiftPn fp s s.gin p4 p5)

/-- StatFuncs.cpp:147-156: the start of the continued fraction. -/
def fracStart (fp : FP) (x p : Fl) : Frac :=
  let a := fp.sub (.fin 1) p
  let b := fp.add (fp.add a x) (.fin 1)
  let p2 := fp.add x (.fin 1)
  let p3 := fp.mul x b
  ⟨a, b, .fin 0, fp.div p2 p3, .fin 1, x, p2, p3⟩

end Gamain

open Gamain in
/-- StatFuncs.cpp:63-207, `gamain`: the value and the error flag. -/
def gamain (fp : FP) (lm : Libm) (x p : Fl) : Fl × Nat :=
  if FP.le p (.fin 0) then (.fin 0, 1)
  else if FP.lt x (.fin 0) then (.fin 0, 2)
  else if FP.feq x (.fin 0) then (.fin 0, 0)
  else
    let arg := fp.sub (fp.sub (fp.mul p (lm.log x)) x) (lm.lgamma p)
    if FP.lt arg (loguflo fp lm) then (.fin 0, 3)
    else
      let factor := lm.exp arg
      if FP.le x (.fin 1) || FP.lt x p then
        let r := series fp x maxIters p (.fin 1) (.fin 1)
        (fp.div (fp.mul r.1 factor) p, if r.2 then 0 else 5)
      else match fraction fp factor maxIters (fracStart fp x p) with
        | some v => (v, 0)
        | none => (.fin 0, 6)

/-- StatFuncs.cpp:334-341, `pValue`; `df` is a `uint32_t`. -/
def pValue (fp : FP) (lm : Libm) (df : Nat) (x : Fl) : Fl × Bool :=
  let r := gamain fp lm (fp.div x (.fin 2)) (fp.mul (fp.ofInt df) (.fin (1 / 2)))
  (fp.sub (.fin 1) r.1, decide (r.2 = 0))

/-- QIS.cpp:315, QISI.cpp:135: `::pValue(dof(m_array.sizes()), m_chiSq).first`; the degrees of freedom
(`int64_t`) are converted to `uint32_t`. -/
def tablePValue (fp : FP) (lm : Libm) (sizes : List Nat) (x : Fl) : Fl :=
  (pValue fp lm (dof sizes % 2 ^ 32).toNat x).1

end HL

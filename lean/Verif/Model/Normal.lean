import Verif.Model.StatFuncs

/-
Model of StatFuncs.cpp:209-332: the normal distribution functions and `Cholesky`.  `log`, `exp`, `erf`
and `sqrt` are parameters, and so is the constant π, which the code computes with `atan`.
-/

namespace HL
namespace Normal

/-- A decimal literal with the digits of `m` and `k` decimals, rounded to `double`
(StatFuncs.cpp:214-240). -/
def lit (fp : FP) (m : ℤ) (k : Nat) : Fl := fp.rnd ((m : ℚ) / 10 ^ k)

/-- StatFuncs.cpp:209, `sqrt_2` -/
def sqrt2 (fp : FP) : Fl := fp.sqrt (.fin 2)

/-- StatFuncs.cpp:210, `rsqrt_2` -/
def rsqrt2 (fp : FP) : Fl := fp.div (.fin 1) (fp.sqrt (.fin 2))

/-- StatFuncs.cpp:211, `sqrt_pi`, of `atan(1.0)`. -/
def sqrtPi (fp : FP) (atan1 : Fl) : Fl := fp.sqrt (fp.mul atan1 (.fin 4))

/-- StatFuncs.cpp:214-219 -/
def as (fp : FP) : List Fl :=
  [lit fp (-3969683028665376) 14, lit fp 2209460984245205 13, lit fp (-2759285104469687) 13,
   lit fp 1383577518672690 13, lit fp (-3066479806614716) 14, lit fp 2506628277459239 15]

/-- StatFuncs.cpp:221-225, followed by the constant term 1.0 of line 300 -/
def bs (fp : FP) : List Fl :=
  [lit fp (-5447609879822406) 14, lit fp 1615858368580409 13, lit fp (-1556989798598866) 13,
   lit fp 6680131188771972 14, lit fp (-1328068155288572) 14, .fin 1]

/-- StatFuncs.cpp:227-232 -/
def cs (fp : FP) : List Fl :=
  [lit fp (-7784894002430293) 18, lit fp (-3223964580411365) 16, lit fp (-2400758277161838) 15,
   lit fp (-2549732539343734) 15, lit fp 4374664141464968 15, lit fp 2938163982698783 15]

/-- StatFuncs.cpp:234-237, followed by the constant term 1.0 of lines 269 and 276 -/
def ds (fp : FP) : List Fl :=
  [lit fp 7784695709041462 18, lit fp 3224671290700398 16, lit fp 2445134137142996 15,
   lit fp 3754408661907416 15, .fin 1]

/-- `((k₁*z+k₂)*z+k₃)*z+…`, the way the polynomials of StatFuncs.cpp:268-300 are written out. -/
def horner (fp : FP) : List Fl → Fl → Fl
  | [], _ => .fin 0
  | k :: ks, z => ks.foldl (fun acc c => fp.add (fp.mul acc z) c) k

/-- StatFuncs.cpp:240, `x_low_` -/
def xLow (fp : FP) : Fl := lit fp 2425 5

/-- StatFuncs.cpp:241, `x_high_` -/
def xHigh (fp : FP) : Fl := fp.sub (.fin 1) (xLow fp)

/-- `std::numeric_limits<double>::epsilon()` -/
def eps : ℚ := 1 / 2 ^ 52

/-- StatFuncs.cpp:244-280, `tail_value`. -/
def tailValue (fp : FP) (lm : Libm) (x : Fl) : Out Fl :=
  if FP.le x (.fin 0) || FP.le (.fin 1) x then
    if FP.lt (FP.abs (fp.sub x (.fin 1))) (fp.mul (.fin 4) (.fin eps)) then .ok (.fin dblMax)
    else if FP.lt (FP.abs x) (.fin eps) then .ok (.fin (-dblMax))
    else .thrown .invCumNormDomain
  else if FP.lt x (xLow fp) then
    let z := fp.sqrt (fp.mul (.fin (-2)) (lm.log x))
    .ok (fp.div (horner fp (cs fp) z) (horner fp (ds fp) z))
  else
    let z := fp.sqrt (fp.mul (.fin (-2)) (lm.log (fp.sub (.fin 1) x)))
    .ok (fp.div (FP.neg (horner fp (cs fp) z)) (horner fp (ds fp) z))

/-- StatFuncs.cpp:285-288, `cumNorm`. -/
def cumNorm (fp : FP) (lm : Libm) (x : Fl) : Fl :=
  fp.mul (.fin (1 / 2)) (fp.add (lm.erf (fp.mul x (rsqrt2 fp))) (.fin 1))

/-- StatFuncs.cpp:293-301, the rational approximation `invCumNorm` starts from. -/
def approx (fp : FP) (lm : Libm) (x : Fl) : Out Fl :=
  if FP.lt x (xLow fp) || FP.lt (xHigh fp) x then tailValue fp lm x
  else
    let z := fp.sub x (.fin (1 / 2))
    let r := fp.mul z z
    .ok (fp.div (fp.mul (horner fp (as fp) r) z) (horner fp (bs fp) r))

/-- StatFuncs.cpp:307-310, one step of Halley's method from `z`. -/
def refine (fp : FP) (lm : Libm) (atan1 : Fl) (x z : Fl) : Fl :=
  let r := fp.mul (fp.mul (fp.mul (fp.sub (cumNorm fp lm z) x) (sqrt2 fp)) (sqrtPi fp atan1))
    (lm.exp (fp.mul (fp.mul (.fin (1 / 2)) z) z))
  fp.sub z (fp.div r (fp.add (.fin 1) (fp.mul (fp.mul (.fin (1 / 2)) z) r)))

/-- StatFuncs.cpp:291-313, `invCumNorm`. -/
def invCumNorm (fp : FP) (lm : Libm) (atan1 : Fl) (x : Fl) : Out Fl := do
  let z ← approx fp lm x
  pure (refine fp lm atan1 x z)

/-- Conversion of a `double` to `uint32_t`: undefined when the truncated value does not fit. -/
def toUint32 : Fl → Out Nat
  | .fin q => if 0 ≤ FP.truncQ q ∧ FP.truncQ q < 2 ^ 32 then .ok (FP.truncQ q).toNat else .ub .badCast
  | _ => .ub .badCast

/-- StatFuncs.h:30-31, the two elements of the factorisation. -/
structure Cholesky where
  m0 : Fl
  m1 : Fl

/-- StatFuncs.cpp:315-321, the constructor of `Cholesky`. -/
def Cholesky.new (fp : FP) (rho : Fl) : Out Cholesky :=
  if FP.lt (.fin 1) (FP.abs rho) then .thrown .correlationRange
  else .ok ⟨rho, fp.sqrt (fp.sub (.fin 1) (fp.mul rho rho))⟩

/-- StatFuncs.cpp:325, `scale` -/
def scale : ℚ := 1 / 2 ^ 32

/-- StatFuncs.cpp:323-332, `Cholesky::operator()`, for a vector of `uint32_t` (reading past its end is
undefined).  The conversions to `uint32_t` happen when `pair<double, double>` is converted to the
return type. -/
def Cholesky.run (fp : FP) (lm : Libm) (atan1 : Fl) (c : Cholesky) (u : List Nat) : Out (Nat × Nat) :=
  match u with
  | u0 :: u1 :: _ => do
    let n0 ← invCumNorm fp lm atan1 (fp.mul (fp.ofInt u0) (.fin scale))
    let n1 ← invCumNorm fp lm atan1 (fp.mul (fp.ofInt u1) (.fin scale))
    let w0 ← toUint32 (fp.div (cumNorm fp lm n0) (.fin scale))
    let w1 ← toUint32 (fp.div (cumNorm fp lm (fp.add (fp.mul n0 c.m0) (fp.mul n1 c.m1))) (.fin scale))
    pure (w0, w1)
  | _ => .ub .oob

end Normal
end HL

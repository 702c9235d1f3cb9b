import Verif.Model.QISI

/-
Model of src/Integerise.h and src/Integerise.cpp, and of the functions of src/module.cpp and src/rcpp_api.cpp that call
them.
-/

namespace HL

/-- A result of 32-bit `int` arithmetic: undefined outside the range. -/
def int32 (z : Int) : Out Int := if -2 ^ 31 ≤ z ∧ z < 2 ^ 31 then .ok z else .ub .overflow

namespace Integerise

/-- Integerise.cpp:14, the default tolerance `1e-4`. -/
def tol4 (fp : FP) : Fl := fp.rnd (1 / 10 ^ 4)

/-- Integerise.cpp:14-19, `checked_round`. -/
def checkedRound (fp : FP) (x : Fl) : Out Int :=
  if FP.lt (tol4 fp) (FP.abs (fp.sub x (FP.round x))) then .thrown .notInteger else FP.toInt64 (FP.round x)

/-- Integerise.cpp:31-32: the truncated value and what is left of it. -/
def start (fp : FP) (pop : Int) (x : Fl) : Out (Int × Fl) := do
  let f ← FP.toInt32 (fp.mul x (fp.ofInt pop))
  pure (f, fp.sub (fp.mul x (fp.ofInt pop)) (fp.ofInt f))

/-- Integerise.cpp:35: `std::accumulate(f.begin(), f.end(), 0)`, in `int`. -/
def total (f : List Int) : Out Int := f.foldlM (fun a x => int32 (a + x)) 0

/-- `std::max_element` (Integerise.cpp:38) on the rest of a range: `k` is the position of `x`, the first of the
largest elements so far, and `i` the position of the rest. -/
def maxFrom : List Fl → (i k : Nat) → (x : Fl) → Nat
  | [], _, k, _ => k
  | y :: ys, i, k, x => if FP.lt x y then maxFrom ys (i + 1) i y else maxFrom ys (i + 1) k x

/-- Integerise.cpp:38, `std::distance(r.begin(), max_element(r.begin(), r.end()))`. -/
def maxElement : List Fl → Nat
  | [] => 0
  | x :: xs => maxFrom xs 1 0 x

/-- Integerise.cpp:35-41: the state of the loop: the frequencies, what is left of the exact values, and the sum of the
frequencies evaluated for the loop condition. -/
structure St where
  f : List Int
  r : List Fl
  sum : Int

/-- Integerise.cpp:37-40 and the evaluation of the condition that follows. -/
def bump (fp : FP) (t : St) : Out St :=
  match t.f[maxElement t.r]?, t.r[maxElement t.r]? with
  | some k, some x => do
    let k' ← int32 (k + 1)
    let f := t.f.set (maxElement t.r) k'
    let s ← total f
    pure ⟨f, t.r.set (maxElement t.r) (fp.sub x (.fin 1)), s⟩
  | _, _ => .ub .oob

/-- Integerise.cpp:43-48 -/
def rmse (fp : FP) (r : List Fl) : Fl :=
  fp.sqrt (fp.div (r.foldl (fun a x => fp.add a (fp.mul x x)) (.fin 0)) (fp.ofInt r.length))

/-- Integerise.cpp:23-51, `integeriseMarginalDistribution`: the frequencies and the `rmse`. -/
def marginal (fp : FP) (p : List Fl) (pop : Int) : Out (List Int × Fl) := do
  let st ← p.mapM (start fp pop)
  let f := st.map Prod.fst
  let s ← total f
  let t ← loop (fun t : St => decide (t.sum < pop)) (bump fp) ⟨f, st.map Prod.snd, s⟩
  pure (t.f, rmse fp t.r)

/-- module.cpp:110-130, `integerise1d`, after the conversion of its argument to a vector.  `pop` is an `int`. -/
def oneD (fp : FP) (frac : List Fl) (pop : Int) : Out (List Int × Fl) :=
  if pop < 0 then .thrown .negativePop
  else marginal fp (frac.map (fun x => fp.div x (sumVec (numFl fp) frac))) pop

/-- rcpp_api.cpp:430, `1000 * std::numeric_limits<double>::epsilon()` -/
def unityTol : Fl := .fin (1000 / 2 ^ 52)

/-- rcpp_api.cpp:420-441, `prob2IntFreq`. -/
def prob2IntFreq (fp : FP) (p : List Fl) (pop : Int) : Out (List Int × Fl) :=
  if pop < 0 then .thrown .negativePop
  else if FP.lt unityTol (FP.abs (p.foldl fp.add (.fin (-1)))) then .thrown .notUnity
  else marginal fp p pop

/-- Integerise.h:35-41, the members of `Integeriser` a caller can see. -/
structure Result where
  result : NDArray Int
  conv : Bool
  rmse : Fl

/-- Integerise.cpp:60-73: the case of a one-dimensional array. -/
def vector (fp : FP) (seed : NDArray Fl) : Out Result := do
  let p ← reduce1 (numFl fp) seed 0
  let s ← sumArr (numFl fp) seed
  let pop ← FP.toInt32 s
  let t ← marginal fp (p.map (fun x => fp.div x (fp.ofInt pop))) pop
  let a ← NDArray.empty.resize [t.1.length]
  let a ← a.copyIn t.1
  pure ⟨a, true, t.2⟩

/-- Integerise.cpp:80-87: the rounded 1-d sums in dimension `d`. -/
def marginalOf (fp : FP) (seed : NDArray Fl) (d : Nat) : Out (NDArray Int) := do
  let mf ← reduce1 (numFl fp) seed d
  let m ← NDArray.empty.resize [mf.length]
  let v ← mf.mapM (checkedRound fp)
  m.copyIn v

/-- Integerise.cpp:95-99: the sum of squares of the differences between the result and the seed. -/
def sqErr (fp : FP) (a : NDArray Int) (seed : NDArray Fl) : Out Fl :=
  forIndex a.sizes (fun acc idx => do
    let x ← a.get idx
    let y ← seed.get idx
    pure (fp.add acc (fp.mul (fp.sub (fp.ofInt x) y) (fp.sub (fp.ofInt x) y)))) (.fin 0)

/-- Integerise.cpp:75-100: the case of an array with two or more dimensions (or none). -/
def array (dbg : Bool) (fp : FP) (lm : Libm) (seed : NDArray Fl) : Out Result := do
  let ms ← (List.range seed.dim).mapM (marginalOf fp seed)
  let x ← QISI.run dbg fp lm ((List.range seed.dim).map (fun d : Nat => [(d : Int)])) ms seed 0
  let a ← NDArray.copy x.micro.array NDArray.empty
  let e ← sqErr fp a seed
  pure ⟨a, x.conv, fp.sqrt (fp.div e (fp.ofInt a.storageSize))⟩

/-- Integerise.cpp:53-101, the constructor of `Integeriser` (module.cpp:164-174 `integerise` and rcpp_api.cpp:380-407
`integerise` construct one and return its members). -/
def run (dbg : Bool) (fp : FP) (lm : Libm) (seed : NDArray Fl) : Out Result := do
  let s ← sumArr (numFl fp) seed
  let _ ← checkedRound fp s
  if seed.dim = 1 then vector fp seed else array dbg fp lm seed

end Integerise

end HL

import Verif.Conform.Basic

/-!
The expectations of the C++ unit tests (src/Test*.cpp), checked by evaluation on the model (see `Conform.Basic`).
-/

namespace HL.Conform

def arr (s : List Nat) (v : List Int) : Out (NDArray Int) := NDArray.wrap s (v.map some)

def values2 : List Int := [0, 1, 2, 10, 11, 12]
def values3 : List Int :=
  [0, 1, 2, 3, 4, 10, 11, 12, 13, 14, 20, 21, 22, 23, 24, 100, 101, 102, 103, 104, 110, 111, 112, 113, 114, 120, 121, 122, 123, 124]
def a2 : Out (NDArray Int) := arr [2, 3] values2
def a3 : Out (NDArray Int) := arr [2, 3, 5] values3

/-- The places visited by an iteration, with what is stored there. -/
def visit (a : Out (NDArray Int)) : Out (List (List Int × Int)) := do
  let a ← a
  forIndex a.sizes (fun l i => do let x ← a.get i; pure (l ++ [(i, x)])) []
def visitT (a : Out (NDArray Int)) : Out (List Int) := do
  let a ← a
  forTransposed a.sizes (fun l i => do let x ← a.get i; pure (l ++ [x])) []

-- TestIndex.cpp:10-25
#guard okAnd (visit a2) (fun l => l.map Prod.snd = values2 && l.all (fun p => p.2 = p.1.getD 0 0 * 10 + p.1.getD 1 0))
#guard okAnd (visit a3) (fun l => l.map Prod.snd = values3 &&
  l.all (fun p => p.2 = p.1.getD 0 0 * 100 + p.1.getD 1 0 * 10 + p.1.getD 2 0))
-- TestIndex.cpp:29-52
#guard okAnd (visitT a2) (· = [0, 10, 1, 11, 2, 12])
#guard okAnd (visitT (arr [3, 2] [0, 10, 1, 11, 2, 12])) (· = values2)
-- TestIndex.cpp:53-86
#guard okAnd (visitT a3) (· = [0, 100, 10, 110, 20, 120, 1, 101, 11, 111, 21, 121, 2, 102, 12, 112, 22, 122, 3, 103, 13, 113, 23,
  123, 4, 104, 14, 114, 24, 124])
#guard okAnd (do let v ← visitT a3; visitT (arr [5, 3, 2] v)) (· = values3)
-- TestIndex.cpp:88-122
#guard okAnd
  (do let x ← Index.new [2, 3, 5]
      let ms ← [[0], [1], [2], [0, 1], [0, 2], [1, 0], [1, 2], [2, 0], [2, 1]].mapM (fun ds => do
        let m ← MappedIndex.new x ds
        pure (ds, m))
      forIndex [2, 3, 5] (fun (ok : Bool) i =>
        .ok (ok && ms.all (fun (p : List Int × MappedIndex) => p.2.vals i = p.1.map (fun d => i.getD d.toNat 0)))) true)
  id
-- TestIndex.cpp:124-136
#guard okAnd
  (do let a ← a3
      ((List.range 3).flatMap (fun d => (List.range (a.sizes.getD d 0)).map (fun i => ((d : Int), (i : Int))))).mapM (fun s => do
        let t ← slice a [s]
        let x ← FixedIndex.new a.sizes [s]
        forFixed x (fun (ok : Bool) y => do
          let u ← a.get y.full
          let v ← t.get y.free
          pure (ok && u = v)) true))
  (fun l => l.length = 10 && l.all id)

def sl (a : Out (NDArray Int)) (f : List (Int × Int)) : Out (List Int) := do
  let a ← a
  let t ← slice a f
  let l ← visit (.ok t)
  pure (l.map Prod.snd)

-- TestSlice.cpp:10-42
#guard okAnd (sl a2 [(0, 0)]) (· = [0, 1, 2])
#guard okAnd (sl a2 [(0, 1)]) (· = [10, 11, 12])
#guard okAnd (sl a2 [(1, 0)]) (· = [0, 10])
#guard okAnd (sl a2 [(1, 1)]) (· = [1, 11])
#guard okAnd (sl a2 [(1, 2)]) (· = [2, 12])
-- TestSlice.cpp:43-93
#guard okAnd (sl a3 [(0, 0)]) (· = [0, 1, 2, 3, 4, 10, 11, 12, 13, 14, 20, 21, 22, 23, 24])
#guard okAnd (sl a3 [(0, 1)]) (· = [100, 101, 102, 103, 104, 110, 111, 112, 113, 114, 120, 121, 122, 123, 124])
#guard okAnd (sl a3 [(1, 0)]) (· = [0, 1, 2, 3, 4, 100, 101, 102, 103, 104])
#guard okAnd (sl a3 [(1, 1)]) (· = [10, 11, 12, 13, 14, 110, 111, 112, 113, 114])
#guard okAnd (sl a3 [(1, 2)]) (· = [20, 21, 22, 23, 24, 120, 121, 122, 123, 124])
#guard okAnd (sl a3 [(2, 0)]) (· = [0, 10, 20, 100, 110, 120])
#guard okAnd (sl a3 [(2, 2)]) (· = [2, 12, 22, 102, 112, 122])
#guard okAnd (sl a3 [(2, 4)]) (· = [4, 14, 24, 104, 114, 124])
-- TestSlice.cpp:95-135
#guard okAnd (sl a3 [(0, 0), (1, 0)]) (· = [0, 1, 2, 3, 4])
#guard okAnd (sl a3 [(0, 1), (1, 1)]) (· = [110, 111, 112, 113, 114])
#guard okAnd (sl a3 [(2, 3), (1, 2)]) (· = [23, 123])
#guard throws (sl a3 [(2, 3), (1, 3)]) .sliceIndex
#guard throws (sl a3 [(2, 3), (3, 2)]) .sliceDim

def red (a : Out (NDArray Int)) (d : Nat) : Out (List Int) := do
  let a ← a
  reduce1 (numInt fp) a d

-- TestReduce.cpp:8-20 and 22-41; the argument is a `size_t`, so -1 is 2^64 - 1
#guard okAnd (red a2 0) (· = [3, 33])
#guard okAnd (red a2 1) (· = [10, 12, 14])
#guard throws (red a2 2) .reduceDim
#guard okAnd (red a3 0) (· = [180, 1680])
#guard okAnd (red a3 1) (· = [520, 620, 720])
#guard okAnd (red a3 2) (· = [360, 366, 372, 378, 384])
#guard throws (red a3 (2 ^ 64 - 1)) .reduceDim
#guard throws (red a3 17) .reduceDim

def freqs : List Nat :=
  [144, 150, 3, 2, 153, 345, 13, 11, 226, 304, 24, 18, 250, 336, 14, 21, 190, 176, 15, 14, 27, 10, 2, 3, 93, 135, 2, 6, 30, 465, 11,
   28, 43, 463, 17, 76, 39, 458, 15, 88, 55, 316, 22, 50, 15, 25, 11, 17]

/-- `n` numbers of a generator. -/
def numbers : Nat → Sobol → Out (List U32)
  | 0, _ => .ok []
  | n + 1, s => do
    let r ← s.call
    match r.2 with
    | .error e => .thrown e
    | .ok v => do
      let t ← numbers n r.1
      pure (v :: t)

-- TestSobol.cpp:23-29
#guard okAnd (do let s ← Sobol.new 12 0; let s ← s.skip 12345; let a ← s.next; let t ← s.reset 12345; let b ← t.next; pure (a.2, b.2))
  (fun r => match r with | (.ok a, .ok b) => a = b | _ => false)
-- TestSobol.cpp:31-50
#guard okAnd
  (do let s ← Sobol.new 1 0
      let us ← numbers freqs.sum s
      WithoutRep.draws fp (WithoutRep.new (freqs.map (BitVec.ofNat 32))) us)
  (fun r => (List.range freqs.length).map (fun i => r.1.count i) = freqs)

/-- UnitTester.cpp:14-28, `withinTolerance`, for values that are not tiny. -/
def withinTol (x : Fl) (y tol : ℚ) : Bool :=
  FP.lt (fp.div (FP.abs (fp.sub x (dec y))) (fp.mul (dec (1/2)) (FP.abs (fp.add x (dec y))))) (dec tol)

-- TestStatFuncs.cpp:36-40
#guard Normal.cumNorm fp lm (dec (-10 ^ 100)) = .fin 0
#guard lt (Normal.cumNorm fp lm (dec (-82/10))) (1 / 2 ^ 52)
#guard Normal.cumNorm fp lm (.fin 0) = .fin (1/2)
#guard gt (Normal.cumNorm fp lm (dec (82/10))) (1 - 1 / 2 ^ 52)
#guard Normal.cumNorm fp lm (dec (10 ^ 100)) = .fin 1

def atan1 : Fl := dec (78539816339744830962 / 10 ^ 20)

-- TestStatFuncs.cpp:43
#guard okAnd (Normal.invCumNorm fp lm atan1 (.fin (1/2))) (· = .fin 0)
-- TestStatFuncs.cpp:46-49, for |x| ≤ 4.95 (the series for `erf` is not good enough beyond) and without accumulating the steps
#guard (List.range 100).all (fun k => let x : ℚ := (k * 10 - 495) / 100
  okAnd (Normal.invCumNorm fp lm atan1 (Normal.cumNorm fp lm (dec x))) (fun y => withinTol y x (1 / 10 ^ 3)))
-- TestStatFuncs.cpp:50-53, with a tolerance of 1e-10
#guard (List.range 99).all (fun k => let x : ℚ := (k + 1) / 100
  okAnd (Normal.invCumNorm fp lm atan1 (dec x)) (fun y => withinTol (Normal.cumNorm fp lm y) x (1 / 10 ^ 10)))

def chol (rho : ℚ) : Out (Nat × Nat) := do
  let c ← Normal.Cholesky.new fp (dec rho)
  c.run fp lm atan1 [1234567, 8901234]

def near1 (x y : Nat) : Bool := x ≤ y + 1 && y ≤ x + 1

-- TestStatFuncs.cpp:57-82
#guard okAnd (chol 0) (fun p => near1 p.1 1234567 && near1 p.2 8901234)
#guard okAnd (chol 1) (fun p => near1 p.1 1234567 && near1 p.2 1234567)
#guard okAnd (chol (-1)) (fun p => near1 p.1 1234567 && near1 p.2 (2 ^ 32 - 1234567))
#guard throws (Normal.Cholesky.new fp (.fin 2)) .correlationRange

def pv (df : Nat) (x : ℚ) : Fl := (pValue fp lm df (dec x)).1

-- TestStatFuncs.cpp:91-107
#guard withinTol (pv 1 1) (317311 / 10 ^ 6) (2 / 10 ^ 6)
#guard withinTol (pv 1 2) (157299 / 10 ^ 6) (2 / 10 ^ 6)
#guard withinTol (pv 1 3) (832645 / 10 ^ 7) (1 / 10 ^ 6)
#guard withinTol (pv 1 4) (455003 / 10 ^ 7) (1 / 10 ^ 6)
#guard withinTol (pv 1 5) (253473 / 10 ^ 7) (1 / 10 ^ 6)
#guard withinTol (pv 2 1) (606531 / 10 ^ 6) (1 / 10 ^ 6)
#guard withinTol (pv 2 2) (367879 / 10 ^ 6) (2 / 10 ^ 6)
#guard withinTol (pv 2 3) (22313 / 10 ^ 5) (1 / 10 ^ 6)
#guard withinTol (pv 2 4) (135335 / 10 ^ 6) (4 / 10 ^ 6)
#guard withinTol (pv 2 5) (82085 / 10 ^ 6) (1 / 10 ^ 6)
#guard withinTol (pv 3 1) (801252 / 10 ^ 6) (1 / 10 ^ 6)
#guard withinTol (pv 3 2) (572407 / 10 ^ 6) (1 / 10 ^ 6)
#guard withinTol (pv 3 3) (391625 / 10 ^ 6) (1 / 10 ^ 6)
#guard withinTol (pv 3 4) (261464 / 10 ^ 6) (1 / 10 ^ 6)
#guard withinTol (pv 3 5) (171797 / 10 ^ 6) (1 / 10 ^ 6)
#guard withinTol (pv 255 (290285192 / 10 ^ 6)) (636423 / 10 ^ 7) (1 / 10 ^ 6)

end HL.Conform

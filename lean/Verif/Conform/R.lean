import Verif.Conform.Basic

/-!
The expectations of tests/testthat/test-all.R, checked by evaluation on the model (see `Conform.Basic`).  `expect_equal`, which
has a relative tolerance of 1.5e-8, is checked with an absolute one of 1e-6 for floating-point values.
Left out, because evaluating the model on them takes too long: the 5-d and 12-d cases, the 3-d and 4-d degeneracy tests and
"msoa qiws".
-/

namespace HL.Conform
open R

def i12 : List (List Int) := [[1], [2]]
def eqF (xs : List Fl) (ys : List ℚ) : Bool := nearAll (1 / 10 ^ 6) xs (ys.map .fin)

-- test-all.R:18-20, 22-24, 28-30, 32-34, 36-38
#guard raises (qis fp lm [[1], [3]] [rv [10, 10], rv [10, 10]] 0)
#guard raises (qis fp lm [[1], [1]] [rv [10, 10], rv [10, 10]] 0)
#guard throws (qis fp lm i12 [rv [10, 10], rv [10, 11]] 0) .marginalSum
#guard throws (qis fp lm [[1]] [rv [10, 10]] 0) .listSize
#guard throws (qis fp lm i12 [rv [10, -10], rv [10, -10]] 0) .negativeMarginal
-- test-all.R:40-43
#guard throws (ipf true fp (rep [2, 2] (-1)) i12 [rvF [10, 10], rvF [10, 10]]) .negativeSeedR
#guard throws (qisi true fp lm (rep [2, 2] (-1)) i12 [rv [10, 10], rv [10, 10]] 0) .negativeSeedR
-- test-all.R:50-54
#guard throws (ipf true fp (rep [2, 5, 3] 1) [[1], [2, 3]] [rvF [15, 15], rep [3, 5] 2]) .seedMismatchR
#guard throws (qisi true fp lm (rep [2, 5, 3] 1) [[1], [2, 3]] [rv [15, 15], repI [3, 5] 2] 0) .seedMismatchR

-- test-all.R:57-69
#guard okAnd (qis fp lm i12 [rv [25, 25, 25, 25, 25], rv [25, 25, 25, 25, 25]] 0)
  (fun x => x.conv && applyI x.result [1] = [25, 25, 25, 25, 25] && gt x.pValue (99/100) &&
    okAnd (R.flatten x.result ["A", "B"]) (fun t => t.map Prod.fst = ["A", "B"] && t.all (fun c => c.2.length = 125)))

-- test-all.R:118-129
#guard okAnd
  (do let p ← qis fp lm [[1], [2], [3], [4]] [rv [52, 28, 20], rv [87, 13], rv [67, 33], rv [55, 45]] 0
      let z ← ipf true fp (rep [3, 2, 2, 2] 1) [[1], [2], [3], [4]] [rvF [52, 28, 20], rvF [87, 13], rvF [67, 33], rvF [55, 45]]
      pure (p, z))
  (fun r => nearAll (1 / 10 ^ 8) r.1.expectation.data r.2.result.data)

-- test-all.R:149-160
#guard okAnd (ipf true fp (rep [3, 2] 1) i12 [rvF [52, 28, 20], rvF [87, 13]])
  (fun t => t.conv && t.pop = 100 && eqF (applyF t.result [1]) [52, 28, 20] && eqF (applyF t.result [2]) [87, 13])
-- test-all.R:162-175
#guard okAnd (ipf true fp (raF [2, 2] [7/10, 1, 1, 1]) i12 [rvF [52, 48], rvF [87, 13]])
  (fun t => t.conv && t.pop = 100 && eqF (applyF t.result [1]) [52, 48] && eqF (applyF t.result [2]) [87, 13])
-- test-all.R:177-194
#guard okAnd (ipf true fp (rep [2, 3, 4] 1) [[1], [2], [3]] [rvF [52, 48], rvF [10, 77, 13], rvF [50, 5, 40, 5]])
  (fun t => t.conv && t.pop = 100 && eqF (applyF t.result [1]) [52, 48] && eqF (applyF t.result [2]) [10, 77, 13] &&
    eqF (applyF t.result [3]) [50, 5, 40, 5])
-- test-all.R:196-215
#guard okAnd (ipf true fp (rep [2, 3, 4, 5] 1) [[1], [2], [3], [4]]
    [rvF [52, 48], rvF [10, 77, 13], rvF [50, 5, 40, 5], rvF [20, 20, 20, 20, 20]])
  (fun t => t.conv && t.pop = 100 && eqF (applyF t.result [1]) [52, 48] && eqF (applyF t.result [2]) [10, 77, 13] &&
    eqF (applyF t.result [3]) [50, 5, 40, 5] && eqF (applyF t.result [4]) [20, 20, 20, 20, 20])
-- test-all.R:218-230
#guard okAnd (ipf true fp (rep [2, 3] 1) i12 [rvF [52, 48], rvF [67, 20, 13]])
  (fun t => t.conv && t.pop = 100 && eqF (applyF t.result [1]) [52, 48] && eqF (applyF t.result [2]) [67, 20, 13])
-- test-all.R:232-243
#guard okAnd (ipf true fp (rep [2, 2, 3] 1) [[1, 2], [3]] [raF [2, 2] [25, 26, 27, 22], rvF [67, 20, 13]])
  (fun t => t.conv && t.pop = 100 && eqF (applyF t.result [1, 2]) [25, 26, 27, 22] && eqF (applyF t.result [3]) [67, 20, 13])
-- test-all.R:245-256
#guard okAnd (ipf true fp (rep [3, 2, 4] 1) [[1, 2], [3]] [raF [3, 2] [20, 20, 11, 17, 12, 20], rvF [33, 34, 20, 13]])
  (fun t => t.conv && t.pop = 100 && eqF (applyF t.result [1, 2]) [20, 20, 11, 17, 12, 20] &&
    eqF (applyF t.result [3]) [33, 34, 20, 13])

-- test-all.R:260-276
#guard okAnd (qis fp lm i12 [rv [52, 48], rv [67, 20, 13]] 0)
  (fun t => t.conv && t.pop = 100 && applyI t.result [1] = [52, 48] && applyI t.result [2] = [67, 20, 13] &&
    lt t.chiSq (6/10) && gt t.pValue (7/10))
-- test-all.R:278-295
#guard okAnd (qis fp lm [[1, 2], [3]] [ra [2, 2] [25, 26, 27, 22], rv [67, 20, 13]] 0)
  (fun t => t.conv && t.pop = 100 && applyI t.result [1, 2] = [25, 26, 27, 22] && applyI t.result [3] = [67, 20, 13] &&
    lt t.chiSq (22/10) && gt t.pValue (3/10))
-- test-all.R:297-320
#guard okAnd
  (do let t ← qis fp lm [[1, 2], [3]] [ra [3, 2] [20, 20, 11, 17, 12, 20], rv [33, 34, 20, 13]] 0
      let x ← ipf true fp (rep [3, 2, 4] 1) [[1, 2], [3]] [raF [3, 2] [20, 20, 11, 17, 12, 20], rvF [33, 34, 20, 13]]
      pure (t, x))
  (fun r => r.1.conv && r.1.pop = 100 && applyI r.1.result [1, 2] = [20, 20, 11, 17, 12, 20] &&
    applyI r.1.result [3] = [33, 34, 20, 13] && lt r.1.chiSq 7 && gt r.1.pValue (3/10) &&
    nearAll (1 / 10 ^ 8) r.1.expectation.data r.2.result.data)

def eights : List Int := List.replicate 8 8

def within (b : Int) (r : RArray Int) (e : RArray Fl) : Bool :=
  (r.data.zip e.data).all (fun p => !FP.lt (.fin b) (FP.abs (fp.sub (fp.ofInt p.1) p.2)))

-- test-all.R:345-352
#guard okAnd (qis fp lm i12 [rv eights, rv eights] 64) (fun ms => ms.conv && within 1 ms.result ms.expectation)
-- test-all.R:379-387
#guard okAnd (qisi true fp lm (rep [8, 8] 8) i12 [rv eights, rv eights] 64)
  (fun ms => ms.conv && within 0 ms.result ms.expectation)

def listM : List Int := [101, 99, 103, 97, 200]
def listN : List Int := [105, 95, 107, 93, 109, 91]

/-- How often `1`, …, `k` are in a column. -/
def counts (k : Nat) (c : List Int) : List Int := (List.range k).map (fun i => (c.count ((i : Int) + 1) : Int))

-- test-all.R:411-437
#guard okAnd (do let ms ← qis fp lm i12 [rv listM, rv listN] 0; let t ← R.flatten ms.result ["M", "N"]; pure (ms, t))
  (fun r => r.1.conv && r.2.map Prod.fst = ["M", "N"] && r.2.map (fun c => c.2.length) = [600, 600] &&
    counts 5 (r.2.getD 0 ("", [])).2 = listM && counts 6 (r.2.getD 1 ("", [])).2 = listN)
-- test-all.R:439-468
#guard okAnd
  (do let ms ← qis fp lm [[1], [2, 3]] [rv listM, ra [3, 2] listN] 0
      let t ← R.flatten ms.result ["M", "N1", "N2"]
      pure (ms, t))
  (fun r => r.1.conv && r.2.map (fun c => c.2.length) = [600, 600, 600] && counts 5 (r.2.getD 0 ("", [])).2 = listM &&
    applyI r.1.result [2, 3] = listN &&
    (List.range 6).map (fun j => (((r.2.getD 1 ("", [])).2.zip (r.2.getD 2 ("", [])).2).count (((j % 3 : Nat) : Int) + 1, ((j / 3 : Nat) : Int) + 1) : Int)) = listN)

-- test-all.R:474-485
#guard okAnd (qisi true fp lm (rep [3, 2] 1) i12 [rv [52, 28, 20], rv [87, 13]] 0)
  (fun t => t.conv && t.pop = 100 && applyI t.result [1] = [52, 28, 20] && applyI t.result [2] = [87, 13])
-- test-all.R:487-500
#guard okAnd (qisi true fp lm (raF [2, 2] [7/10, 1, 1, 1]) i12 [rv [52, 48], rv [87, 13]] 0)
  (fun t => t.conv && t.pop = 100 && applyI t.result [1] = [52, 48] && applyI t.result [2] = [87, 13])
-- test-all.R:502-519
#guard okAnd (qisi true fp lm (rep [3, 2, 4] 1) [[1], [2], [3]] [rv [10, 77, 13], rv [52, 48], rv [50, 5, 40, 5]] 0)
  (fun t => t.conv && t.pop = 100 && applyI t.result [1] = [10, 77, 13] && applyI t.result [2] = [52, 48] &&
    applyI t.result [3] = [50, 5, 40, 5])
-- test-all.R:521-540
#guard okAnd (qisi true fp lm (rep [2, 3, 5, 4] 1) [[1], [2], [3], [4]]
    [rv [52, 48], rv [10, 77, 13], rv [20, 20, 20, 20, 20], rv [50, 5, 40, 5]] 0)
  (fun t => t.conv && t.pop = 100 && applyI t.result [1] = [52, 48] && applyI t.result [2] = [10, 77, 13] &&
    applyI t.result [3] = [20, 20, 20, 20, 20] && applyI t.result [4] = [50, 5, 40, 5])

-- test-all.R:561-578
#guard throws (integerise true fp lm (raF [2, 2] [11/10, 1, 1, 1])) .notInteger
#guard throws (integerise true fp lm (raF [2, 2] [11/10, 9/10, 1, 1])) .notInteger
#guard okAnd (integerise true fp lm (raF [2, 2] [1, 1, 1, 1])) (fun r => r.conv && r.rmse = .fin 0)
-- test-all.R:580-593
#guard okAnd
  (do let x ← ipf true fp (rep [5, 4] 1) i12 [rvF [111, 112, 113, 114, 110], rvF [136, 142, 143, 139]]
      integerise true fp lm x.result)
  (fun r => r.conv && r.result.data.sum = 560 && lt r.rmse (8772/10000))

-- test-all.R:595-627
#guard throws (Integerise.prob2IntFreq fp [dec (1/2), dec (1/2)] (-100)) .negativePop
#guard throws (Integerise.prob2IntFreq fp [dec (1/2), dec (4999/10000)] 100) .notUnity
#guard okAnd (Integerise.prob2IntFreq fp ([1/2, 2/5, 1/10].map dec) 0) (fun r => r.1 = [0, 0, 0] && r.2 = .fin 0)
#guard okAnd (Integerise.prob2IntFreq fp ([1/10, 2/10, 3/10, 4/10].map dec) 10) (fun r => r.1 = [1, 2, 3, 4] && near (1 / 10 ^ 8) r.2 (.fin 0))
#guard okAnd (Integerise.prob2IntFreq fp ([1/10, 2/10, 3/10, 4/10].map dec) 11)
  (fun r => r.1 = [1, 2, 3, 5] && near (1 / 10 ^ 8) r.2 (fp.sqrt (.fin (1/8))))
#guard okAnd (Integerise.prob2IntFreq fp ([1/5, 1/5, 1/5, 1/5, 1/5].map dec) 11)
  (fun r => r.1 = [3, 2, 2, 2, 2] && near (1 / 10 ^ 8) r.2 (.fin (2/5)))

/-- The columns of a matrix given by its rows. -/
def cols (m : List (List Fl)) (k : Nat) : List (List Fl) := (List.range k).map (fun j => m.map (fun r => r.getD j .nan))

def eqCols (xs : List (List Fl)) (ys : List (List ℚ)) : Bool := xs = ys.map (·.map .fin)

-- test-all.R:631-660
#guard okAnd (sobolSequence fp 1 10 0) (fun m => eqCols (cols m 1) [[1/2, 3/4, 1/4, 3/8, 7/8, 5/8, 1/8, 3/16, 11/16, 15/16]])
#guard okAnd (sobolSequence fp 1 10 2) (fun m => eqCols (cols m 1) [[3/4, 1/4, 3/8, 7/8, 5/8, 1/8, 3/16, 11/16, 15/16, 7/16]])
#guard okAnd (sobolSequence fp 2 5 0) (fun m => eqCols (cols m 2) [[1/2, 3/4, 1/4, 3/8, 7/8], [1/2, 1/4, 3/4, 3/8, 7/8]])
#guard okAnd (sobolSequence fp 4 3 0) (fun m => eqCols (cols m 4)
  [[1/2, 3/4, 1/4], [1/2, 1/4, 3/4], [1/2, 3/4, 1/4], [1/2, 1/4, 3/4]])
#guard okAnd (sobolSequence fp 4 3 5) (fun m => eqCols (cols m 4)
  [[7/8, 5/8, 1/8], [7/8, 1/8, 5/8], [1/8, 3/8, 7/8], [5/8, 3/8, 7/8]])

end HL.Conform

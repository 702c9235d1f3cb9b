import Verif.Conform.Basic

/-!
The expectations of tests/test_all.py and tests/test_errors.py, checked by evaluation on the model (see `Conform.Basic`).
-/

namespace HL.Conform

/-- The first `n` values of a `SobolSequence`. -/
def sobolTake : Nat → SobolGenerator → Option (List (List Fl))
  | 0, _ => some []
  | n + 1, g =>
    match g.next fp with
    | .ok (g', .ok v) => (sobolTake n g').map (v :: ·)
    | _ => none

def sobolSeq (dim skips n : Nat) : Option (List (List Fl)) :=
  match SobolGenerator.new dim skips with
  | .ok g => sobolTake n g
  | _ => none

-- test_all.py:22-27
#guard sobolSeq 3 0 3 = some [[.fin (1/2), .fin (1/2), .fin (1/2)], [.fin (3/4), .fin (1/4), .fin (3/4)], [.fin (1/4), .fin (3/4), .fin (1/4)]]
-- test_all.py:30-33
#guard throws (SobolGenerator.new 0 0) .sobolDim
#guard throws (SobolGenerator.new 100000 0) .sobolDim
-- test_all.py:42-57
#guard sobolSeq 1 1 10 = some ([3/4, 1/4, 3/8, 7/8, 5/8, 1/8, 3/16, 11/16, 15/16, 7/16].map (fun q : ℚ => [Fl.fin q]))
-- test_all.py:59-67
#guard (List.range 8).all (fun k => sobolSeq (k + 2) 10 10 = (sobolSeq (k + 2) 0 18).map (·.drop 8))

def prob : NpArray Fl := np [4] ([2/5, 3/10, 1/5, 1/10].map dec)

-- test_all.py:72-73
#guard throws (pyIntegerise1d fp prob (-1)) .negativePop
-- test_all.py:76-78
#guard okAnd (pyIntegerise1d fp prob 0) (fun r => r.1 = [0, 0, 0, 0] && r.2 = .fin 0)
-- test_all.py:81-83
#guard okAnd (pyIntegerise1d fp prob 10) (fun r => r.1 = [4, 3, 2, 1] && lt r.2 (1 / 10 ^ 15))
-- test_all.py:86-89
#guard okAnd (pyIntegerise1d fp prob 17) (fun r => r.1 = [7, 5, 3, 2] && near (1 / 10 ^ 6) r.2 (dec (273861278752583 / 10 ^ 15)))
-- test_all.py:92-94
#guard okAnd (pyIntegerise true fp lm (np [4] ([2, 3/2, 1, 1/2].map dec))) (fun r => (elems r.result).sum = 5 && r.conv)
-- test_all.py:98-104
#guard throws (pyIntegerise true fp lm (np [2, 2] ([11/10, 1, 1, 1].map dec))) .notInteger
#guard throws (pyIntegerise true fp lm (np [2, 2] ([11/10, 1, 9/10, 1].map dec))) .notInteger

-- test_all.py:107-117
#guard okAnd
  (do let x ← pyIpf true fp (ones [5, 4, 5]) (idx [[0], [1], [2]])
        [npF [5] [111, 112, 113, 114, 110], npF [4] [136, 142, 143, 139], npF [5] [111, 112, 113, 114, 110]]
      pyIntegerise true fp lm (np [5, 4, 5] (elems x.micro.array)))
  (fun r => r.conv && (elems r.result).sum = 560 && lt r.rmse (105717 / 10 ^ 5))

-- test_all.py:126-130 and 159-168
#guard okAnd (pyIpf true fp (ones [2, 2]) (idx [[0], [1]]) [npF [2] [52, 48], npF [2] [87, 13]])
  (fun x => x.conv && x.iters = 1 && x.maxError = .fin 0 && x.micro.population = 100 &&
    elems x.micro.array = [dec (4524/100), dec (676/100), dec (4176/100), dec (624/100)])
-- test_all.py:132-138
#guard okAnd (pyIpf true fp (npF [2, 2] [7/10, 1, 1, 1]) (idx [[0], [1]]) [npF [2] [52, 48], npF [2] [87, 13]])
  (fun x => x.conv && sumVec (numFl fp) (elems x.micro.array) = .fin 100 &&
    nearAll (1 / 10 ^ 5) (sumsF x.micro.array 1) [.fin 87, .fin 13] && nearAll (1 / 10 ^ 5) (sumsF x.micro.array 0) [.fin 52, .fin 48])
-- test_all.py:140-148
#guard okAnd (pyIpf true fp (ones [2, 2, 2]) (idx [[0], [1], [2]]) [npF [2] [52, 48], npF [2] [87, 13], npF [2] [55, 45]])
  (fun x => x.conv && nearAll (1 / 10 ^ 5) (sumsF x.micro.array 0) [.fin 52, .fin 48] &&
    nearAll (1 / 10 ^ 5) (sumsF x.micro.array 1) [.fin 87, .fin 13] && nearAll (1 / 10 ^ 5) (sumsF x.micro.array 2) [.fin 55, .fin 45])
-- test_all.py:170-177
#guard okAnd (pyIpf true fp (npF [2, 2] [1, 7/10, 1, 1]) (idx [[0], [1]]) [npF [2] [52, 48], npF [2] [87, 13]])
  (fun x => x.conv && x.iters < 6 && lt x.maxError (5 / 10 ^ 10) && x.micro.population = 100 &&
    nearAll (1 / 10 ^ 5) (sumsF x.micro.array 1) [.fin 87, .fin 13] && nearAll (1 / 10 ^ 5) (sumsF x.micro.array 0) [.fin 52, .fin 48])

def qis2 : Out QIS := pyQis fp lm (idx [[0], [1]]) [npI [2] [52, 48], npI [3] [10, 77, 13]] 0

-- test_all.py:206-212
#guard okAnd qis2 (fun x => x.conv && lt x.chiSq (4/100) && gt x.pValue (9/10) && x.micro.population = 100 &&
    sums x.micro.array 1 = [10, 77, 13] && sums x.micro.array 0 = [52, 48])

def qis3 : Out QIS :=
  pyQis fp lm (idx [[0], [1], [2]]) [npI [4] [52, 40, 4, 4], npI [3] [87, 10, 3], npI [5] [55, 15, 6, 12, 12]] 0

-- test_all.py:221-228
#guard okAnd qis3 (fun x => x.conv && lt x.chiSq 73 && gt x.pValue 0 && x.micro.population = 100 &&
    sums x.micro.array 0 = [52, 40, 4, 4] && sums x.micro.array 1 = [87, 10, 3] && sums x.micro.array 2 = [55, 15, 6, 12, 12])
-- test_all.py:231-243
#guard okAnd (do let x ← qis3; pyFlatten (np [4, 3, 5] (elems x.micro.array)))
  (fun t => t.length = 3 && t.all (fun c => c.length = 100) &&
    (List.range 4).map (fun i => (t.getD 0 []).count (i : Int)) = [52, 40, 4, 4] &&
    (List.range 3).map (fun i => (t.getD 1 []).count (i : Int)) = [87, 10, 3] &&
    (List.range 5).map (fun i => (t.getD 2 []).count (i : Int)) = [55, 15, 6, 12, 12])
-- test_all.py:251-259
#guard okAnd (pyQis fp lm (idx [[0], [1], [2], [3]]) [npI [2] [52, 48], npI [2] [87, 13], npI [2] [67, 33], npI [2] [55, 45]] 0)
  (fun x => x.conv && lt x.chiSq 10 && gt x.pValue (1 / 10 ^ 3) && x.micro.population = 100 &&
    sums x.micro.array 0 = [52, 48] && sums x.micro.array 1 = [87, 13] && sums x.micro.array 2 = [67, 33] &&
    sums x.micro.array 3 = [55, 45])

def mm : List Int := [10, 20, 10, 10, 10, 20, 20, 10, 10]

-- test_all.py:261-269
#guard okAnd (pyQis fp lm (idx [[0, 1], [1, 2]]) [npI [3, 3] mm, npI [3, 3] mm] 0)
  (fun x => x.conv && lt x.chiSq 10 && gt x.pValue (27/100) && x.micro.population = 120 &&
    sumsM x.micro.array [0, 1] = mm && sumsM x.micro.array [1, 2] = mm)

def d0 : PyObj Int := npI [4, 6, 4, 4] (List.replicate 384 1)
def d1 : PyObj Int := npI [4, 4, 4] (List.replicate 64 6)

-- test_all.py:279-286
#guard okAnd (pyQis fp lm (idx [[0, 1, 2, 3], [0, 4, 5]]) [d0, d1] 0) (fun x => x.conv)
#guard okAnd (pyQis fp lm (idx [[0, 4, 5], [0, 1, 2, 3]]) [d1, d0] 0) (fun x => x.conv)
#guard okAnd (pyQis fp lm (idx [[0, 1, 2], [0, 3, 4, 5]]) [d1, d0] 0) (fun x => x.conv)

-- test_all.py:290-301
#guard okAnd (pyQisi true fp lm (ones [2, 3]) (idx [[0], [1]]) [npI [2] [52, 48], npI [3] [10, 77, 13]] 0)
  (fun x => x.conv && lt x.chiSq (4/100) && gt x.pValue (9/10) && x.micro.population = 100 &&
    sums x.micro.array 1 = [10, 77, 13] && sums x.micro.array 0 = [52, 48])
-- test_all.py:303-316
#guard okAnd (pyQisi true fp lm (ones [4, 3, 5]) (idx [[0], [1], [2]])
    [npI [4] [52, 40, 4, 4], npI [3] [87, 10, 3], npI [5] [55, 15, 6, 12, 12]] 0)
  (fun x => x.conv && lt x.chiSq 70 && gt x.pValue 0 && x.micro.population = 100 &&
    sums x.micro.array 0 = [52, 40, 4, 4] && sums x.micro.array 1 = [87, 10, 3] && sums x.micro.array 2 = [55, 15, 6, 12, 12])
-- test_all.py:318-333
#guard okAnd (pyQisi true fp lm (ones [2, 2, 2, 2]) (idx [[0], [1], [2], [3]])
    [npI [2] [52, 48], npI [2] [87, 13], npI [2] [67, 33], npI [2] [55, 45]] 0)
  (fun x => x.conv && lt x.chiSq (55/10) && gt x.pValue (2/100) && x.micro.population = 100 &&
    sums x.micro.array 0 = [52, 48] && sums x.micro.array 1 = [87, 13] && sums x.micro.array 2 = [67, 33] &&
    sums x.micro.array 3 = [55, 45])

def e1 : List Int := List.replicate 6 35
def e2 : List Int := List.replicate 15 14
def e3 : List Int := List.replicate 35 6

-- test_all.py:335-359
#guard throws (pyQisi true fp lm (ones [2, 3, 7, 5]) (idx [[0, 1], [1, 2], [2, 3]]) [npI [2, 3] e1, npI [3, 5] e2, npI [5, 7] e3] 0) .seedSizes
#guard throws (pyIpf true fp (ones [2, 3, 7, 5]) (idx [[0, 1], [1, 2], [2, 3]])
  [npF [2, 3] (e1.map (↑·)), npF [3, 5] (e2.map (↑·)), npF [5, 7] (e3.map (↑·))]) .seedSizes
#guard throws (pyQisi true fp lm (ones [2, 3, 5]) (idx [[0, 1], [1, 2], [2, 3]]) [npI [2, 3] e1, npI [3, 5] e2, npI [5, 7] e3] 0) .seedDims
#guard throws (pyIpf true fp (ones [2, 3, 5]) (idx [[0, 1], [1, 2], [2, 3]])
  [npF [2, 3] (e1.map (↑·)), npF [3, 5] (e2.map (↑·)), npF [5, 7] (e3.map (↑·))]) .seedDims

-- test_errors.py:11-25: `m1` is an array of integers, so each marginal is a temporary (see C55)
#guard throws (pyIpf true fp (ones [3]) (idx [[0]]) [castF [3] [1, 2, 3]]) .listSize
#guard throws (pyIpf true fp (ones [3]) (idx [[0], [0]]) [castF [3] [1, 2, 3], castF [3] [1, 2, 3]]) .tooFewDims
#guard throws (pyIpf true fp (ones [3]) (idx [[0], [1, 2]]) [castF [3] [1, 2, 3], castF [3] [1, 2, 3]]) .indexDimMismatch
#guard throws (pyIpf true fp (ones [3, 3]) (idx [[0, 1], [1, 0]]) [npF [2, 3] [1, 1, 1, 1, 1, 1], npF [2, 3] [1, 1, 1, 1, 1, 1]]) .sizeRedefined
-- test_errors.py:27-29: the project expects the exception for a negative marginal.  It gets it with arrays of doubles, but the
-- test passes arrays of integers, and the code reads the temporaries after they are gone.
#guard throws (pyIpf true fp (ones [3, 3]) (idx [[0], [1]]) [npF [3] [1, 2, 3], npF [3] [-1, -2, -3]]) .negativeMarginal
#guard undefined (pyIpf true fp (ones [3, 3]) (idx [[0], [1]]) [castF [3] [1, 2, 3], castF [3] [-1, -2, -3]])

end HL.Conform

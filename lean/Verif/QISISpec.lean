import Verif.QISSpec
import Verif.SobolSpec
import Verif.Model.QIS
import Verif.Model.IPF

/-
How quasirandom sampling from an IPF is meant to proceed: the vocabulary of the QISI theorems.
-/

namespace HL

/-- the sums of `a` over all but the last dimension -/
def lastSumsF (fp : FP) (t : List Nat) (n : Nat) (a : List Int → Fl) : List Fl :=
  (List.range n).map (fun j : Nat => (allIdx t).foldl (fun acc v => fp.add acc (a (v ++ [(j : Int)]))) (.fin 0))

/-- the cell `v` is what the values `seq` pick from the population `a` with sizes `t`: the last dimension from the
sums over the others, then the one before it in the slice so found, down to the first -/
inductive Drawn (fp : FP) (seq : List U32) : List Nat → (List Int → Fl) → List Int → Prop
  | one (n : Nat) (a : List Int → Fl) (i : Nat) : i < n →
      pick fp (numFl fp) ((List.range n).map (fun j : Nat => a [(j : Int)])) (variate fp (seq.getD 0 0)) = .ok i →
      Drawn fp seq [n] a [(i : Int)]
  | snoc (t : List Nat) (n : Nat) (a : List Int → Fl) (i : Nat) (v : List Int) : t ≠ [] → i < n →
      pick fp (numFl fp) (lastSumsF fp t n a) (variate fp (seq.getD t.length 0)) = .ok i →
      Drawn fp seq t (fun w => a (w ++ [(i : Int)])) v → Drawn fp seq (t ++ [n]) a (v ++ [(i : Int)])

/-- the population `c` is the IPF fit of the seed `sd` to the problem `Q` -/
def Fit (fp : FP) (s : List Nat) (Q : Prob Int) (sd c : List Int → Fl) : Prop :=
  ∃ r, IPF.run false fp (numInt fp) (indicesOf Q) (marginalsOf s Q) (arr s sd) = .ok r ∧ r.micro.array = arr s c

/-- how the algorithm proceeds: after placing the individuals `hs` (latest first) the working population is `a`.
Individual number `n + 1` is drawn from it with point `n + 1` of the sequence and taken out of it; if that leaves a
negative number there, the working population is fitted anew to what is left of the marginals. -/
inductive Placed (fp : FP) (s : List Nat) (P : Prob Int) (sd : List Int → Fl) : List (List Int) → (List Int → Fl) → Prop
  | start (c : List Int → Fl) : Fit fp s P sd c → Placed fp s P sd [] c
  | keep (hs : List (List Int)) (a : List Int → Fl) (seq : List U32) (v : List Int) : Placed fp s P sd hs a →
      PointAt s.length (hs.length + 1) seq → Drawn fp seq s a v → FP.lt (fp.sub (a v) (.fin 1)) (.fin 0) = false →
      Placed fp s P sd (v :: hs) (Function.update a v (fp.sub (a v) (.fin 1)))
  | refit (hs : List (List Int)) (a : List Int → Fl) (seq : List U32) (v : List Int) (c : List Int → Fl) :
      Placed fp s P sd hs a →
      PointAt s.length (hs.length + 1) seq → Drawn fp seq s a v → FP.lt (fp.sub (a v) (.fin 1)) (.fin 0) = true →
      Fit fp s (remaining (v :: hs) P) sd c → Placed fp s P sd (v :: hs) c

/-- the algorithm performs a fit to the problem `Q`, with the result `c` -/
def FitDone (fp : FP) (s : List Nat) (P : Prob Int) (sd : List Int → Fl) (Q : Prob Int) (c : List Int → Fl) : Prop :=
  Fit fp s Q sd c ∧ (Q = P ∨ ∃ hs a seq v, Placed fp s P sd hs a ∧ PointAt s.length (hs.length + 1) seq ∧
    Drawn fp seq s a v ∧ FP.lt (fp.sub (a v) (.fin 1)) (.fin 0) = true ∧ Q = remaining (v :: hs) P)

/-- the population `b` is non-negative and meets the marginals of `Q` -/
def Meets (s : List Nat) (Q : Prob Int) (b : List Int → ℚ) : Prop :=
  (∀ v, InRange s v → 0 ≤ b v) ∧
  ∀ p ∈ Q, ∀ j, InRange (projSizes p.1 s) j → marginalSum s p.1 b j = (p.2 j : ℚ)

end HL

import Verif.Model.Refusal
import Verif.ProblemSpec

/-
What it means for a message of the constructor to be true of the caller's index lists `is` and marginals `ms` (sizes and
entries of each).
-/

namespace HL

/-- Entry `j` of index list `k` is the dimension `d`, and dimension `j` of marginal `k` has size `n`. -/
def NamedAt (is : List (List Int)) (ms : List (List Nat × (List Int → Int))) (k j : Nat) (d : Int) (n : Nat) : Prop :=
  ∃ i m, is[k]? = some i ∧ ms[k]? = some m ∧ i[j]? = some d ∧ m.1[j]? = some n

/-- Position `j'` of list `k'` comes before position `j` of list `k`. -/
def Before (k' j' k j : Nat) : Prop := k' < k ∨ (k' = k ∧ j' < j)

/-- The places (index list, position) at which dimension `d` is named, in the order of the lists. -/
def placesNamed (is : List (List Int)) (d : Int) : List (Nat × Nat) :=
  is.zipIdx.flatMap (fun i => (i.1.zipIdx.filter (fun x => x.1 = d)).map (fun x => (i.2, x.2)))

/-- The sum of the entries of a marginal. -/
def totalOf (m : List Nat × (List Int → Int)) : Int := ∑ v ∈ cells m.1, m.2 v

/-- The sums of a marginal along its dimension `j`. -/
def sumsAlong (m : List Nat × (List Int → Int)) (j : Nat) : List Int :=
  (List.range (m.1.getD j 0)).map (fun x : Nat => ∑ v ∈ (cells m.1).filter (fun v => v.getD j 0 = (x : Int)), m.2 v)

/-- The sums belonging to the place `p`. -/
def sumsAtPlace (ms : List (List Nat × (List Int → Int))) (p : Nat × Nat) : Option (List Int) :=
  ms[p.1]?.map (fun m => sumsAlong m p.2)

/-- The refusal tells the truth about the input, and about the first offence of its kind. -/
def Truthful (is : List (List Int)) (ms : List (List Nat × (List Int → Int))) : Refusal → Prop
  | .listSize a b => a = is.length ∧ b = ms.length ∧ (a ≠ b ∨ a < 2)
  | .indexDim a b => ∃ (k : Nat) (i : List Int) (m : List Nat × (List Int → Int)), is[k]? = some i ∧ ms[k]? = some m ∧ a = i.length ∧ b = m.1.length ∧ a ≠ b ∧
      ∀ k' < k, ∀ (i' : List Int) (m' : List Nat × (List Int → Int)), is[k']? = some i' → ms[k']? = some m' → i'.length = m'.1.length
  | .redefined k d old new => old ≠ new ∧ ∃ j k' j', NamedAt is ms k j d new ∧ NamedAt is ms k' j' d old ∧
      Before k' j' k j ∧ ∀ k1 j1 n1 k2 j2 n2 e, Before k1 j1 k j → Before k2 j2 k j → NamedAt is ms k1 j1 e n1 →
        NamedAt is ms k2 j2 e n2 → n1 = n2
  | .tooFewDims => ∀ d d', (∃ i ∈ is, d ∈ i) → (∃ i ∈ is, d' ∈ i) → d = d'
  | .negative k x => x < 0 ∧ ∃ m, ms[k]? = some m ∧ (∃ v, InRange m.1 v ∧ m.2 v = x) ∧ (∀ v, InRange m.1 v → x ≤ m.2 v) ∧
      ∀ k' < k, ∀ m', ms[k']? = some m' → ∀ v, InRange m'.1 v → 0 ≤ m'.2 v
  | .undefinedDim k => (∀ i ∈ is, (k : Int) ∉ i) ∧ ∀ k' < k, ∃ i ∈ is, (k' : Int) ∈ i
  | .marginalSum i t pop => t ≠ pop ∧ ms[i]?.map totalOf = some t ∧ ms[0]?.map totalOf = some pop ∧
      ∀ i' < i, ms[i']?.map totalOf = some pop
  | .partialSum d i msi ms0 => msi ≠ ms0 ∧
      (placesNamed is d)[i]?.bind (sumsAtPlace ms) = some msi ∧ (placesNamed is d)[0]?.bind (sumsAtPlace ms) = some ms0 ∧
      (∀ i' < i, (placesNamed is d)[i']?.bind (sumsAtPlace ms) = some ms0) ∧
      ∀ d' < d, ∀ p ∈ placesNamed is d', ∀ q ∈ placesNamed is d', sumsAtPlace ms p = sumsAtPlace ms q

end HL

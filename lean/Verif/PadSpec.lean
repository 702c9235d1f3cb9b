import Verif.ProblemSpec

/-
Problems with categories that nobody is in.
-/

namespace HL

/-- The entry `j` of a table over the dimensions `ds`, when category `i` of dimension `d` is called `e d i`. -/
def place (e : Nat → Nat → Nat) (ds : List Nat) (j : List Int) : List Int :=
  List.zipWith (fun d i => ((e d i.toNat : Nat) : Int)) ds j

/-- `e` places the categories of the dimensions of sizes `s` among those of sizes `s'`, in the same order. -/
structure Places (e : Nat → Nat → Nat) (s s' : List Nat) : Prop where
  length : s'.length = s.length
  mono : ∀ d < s.length, ∀ i j, i < j → j < s.getD d 0 → e d i < e d j
  bound : ∀ d < s.length, ∀ i < s.getD d 0, e d i < s'.getD d 0

instance : Zero Fl := ⟨.fin 0⟩

/-- The table `g'` of sizes `s'` (in the dimensions `ds`) is `g` with zeros in the entries that `e` places nothing in. -/
def PadOf {α : Type} [Zero α] (e : Nat → Nat → Nat) (s s' ds : List Nat) (g g' : List Int → α) : Prop :=
  (∀ j, InRange (projSizes ds s) j → g' (place e ds j) = g j) ∧
  ∀ j', InRange (projSizes ds s') j' → (∀ j, InRange (projSizes ds s) j → place e ds j ≠ j') → g' j' = 0

/-- The problem `P'` is `P` with empty categories. -/
def Padded {α : Type} [Zero α] (e : Nat → Nat → Nat) (s s' : List Nat) (P P' : Prob α) : Prop :=
  List.Forall₂ (fun p p' => p'.1 = p.1 ∧ PadOf e s s' p.1 p.2 p'.2) P P'

/-- The list `xs'` is `xs` with zeros in between: the entry `i` is at `em i`, in the same order. -/
structure PadList {α : Type} [Zero α] (em : Nat → Nat) (xs xs' : List α) : Prop where
  mono : ∀ i j, i < j → j < xs.length → em i < em j
  bound : ∀ i < xs.length, em i < xs'.length
  «at» : ∀ i < xs.length, xs'.getD (em i) 0 = xs.getD i 0
  zero : ∀ j < xs'.length, (∀ i < xs.length, em i ≠ j) → xs'.getD j 0 = 0

end HL

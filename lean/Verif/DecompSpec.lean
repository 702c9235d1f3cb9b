import Verif.ProblemSpec

/-
Problems whose marginals fit together along more than one dimension at a time.
-/

namespace HL

/-- The weight the marginal `p` gives to its cells that have the entries of `v` at the dimensions `D`. -/
def weightOn {β : Type} [AddCommMonoid β] (s : List Nat) (p : List Nat × (List Int → β)) (D : List Nat) (v : List Int) : β :=
  ∑ j ∈ (cells (projSizes p.1 s)).filter
    (fun j => ∀ a < p.1.length, p.1.getD a 0 ∈ D → j.getD a 0 = v.getD (p.1.getD a 0) 0), p.2 j

/-- The dimensions two marginals have in common. -/
def shared {β : Type} (p q : List Nat × (List Int → β)) : List Nat := p.1.filter (fun d => d ∈ q.1)

/-- Two marginals give the same weights to all the dimensions they have in common, taken together. -/
def AgreeOn {β : Type} [AddCommMonoid β] (s : List Nat) (p q : List Nat × (List Int → β)) : Prop :=
  ∀ v, InRange s v → weightOn s p (shared p q) v = weightOn s q (shared p q) v

/-- The running intersection property: no marginal names a dimension twice, and each marginal but the first has an earlier
one that names every dimension it has in common with any of those before it, and that agrees with it there. -/
def Decomposable {β : Type} [AddCommMonoid β] (s : List Nat) (P : Prob β) : Prop :=
  ∀ A p B, P = A ++ p :: B → p.1.Nodup ∧
    (A = [] ∨ ∃ q ∈ A, (∀ d ∈ p.1, (∃ r ∈ A, d ∈ r.1) → d ∈ q.1) ∧ AgreeOn s p q)

/-- The chain rule: the product, over the marginals in order, of the share of the cell among the cells of the marginal that
have the same entries at the dimensions named before (by `seen` and the marginals before it). -/
def chainAt (s : List Nat) : List Nat → Prob ℚ → List Int → ℚ
  | _, [], _ => 1
  | seen, p :: L, v => p.2 (proj p.1 v) / weightOn s p (p.1.filter (fun d => d ∈ seen)) v * chainAt s (seen ++ p.1) L v

end HL

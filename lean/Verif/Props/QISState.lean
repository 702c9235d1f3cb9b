import Verif.Proof.QISState
import Verif.Props.Decomp
import Mathlib.Algebra.Order.BigOperators.GroupWithZero.List

/-
C86: `qis` in a library compiled with USE_STATE_SAMPLING.
-/

namespace HL
variable {fp : FP}

/-- One call of `qis` on the problem `P`, in a library compiled to sample from the states. -/
def qisState (fp : FP) (lm : Libm) (s : List Nat) (P : Prob Int) (skips : Int) : Out QIS :=
  QISState.run fp lm (indicesOf P) (marginalsOf s P) skips

/-- **C86** for marginals that name no dimension twice and leave one out: whenever this variant of `qis` returns, it returns
a population that has exactly the given marginals, and says so, in exact arithmetic and in binary64, whether or not the
marginals fit together. -/
theorem C86_met_partial (hsg : fp = FP.exact ∨ ∃ sqrt, fp = FP.ieee sqrt) {lm : Libm} {s : List Nat} {P : Prob Int} {pop : Int}
    (h : ProbOK s P pop) (hpop : pop < 2 ^ 52) (hn : ∀ p ∈ P, p.1.Nodup ∧ p.1.length < s.length) {skips : Int} {x : QIS}
    (hx : qisState fp lm s P skips = .ok x) :
    x.conv = true ∧ ∃ f, x.micro.array = arr s f ∧ (∀ v, InRange s v → 0 ≤ f v) ∧ ∑ v ∈ cells s, f v = pop ∧
      ∀ p ∈ P, ∀ j, InRange (projSizes p.1 s) j → marginalSum s p.1 f j = p.2 j := by
  have hfp : fp.Good := by
    rcases hsg with rfl | ⟨sqrt, rfl⟩
    · exact FP.exact_good
    · exact FP.ieee_good sqrt
  have hs : SignOK fp := by
    rcases hsg with rfl | ⟨sqrt, rfl⟩
    · exact signOK_exact
    · exact signOK_ieee sqrt
  unfold qisState at hx
  rcases runP_cases hfp hs lm h hpop hn skips (J := fun _ _ => True) trivial (fun _ _ _ _ _ _ => trivial) with
    ⟨-, e, h1, -⟩ | ⟨-, -, h1⟩ | ⟨c, -, -, ⟨-, -, -, -, -, -, -, -, h1⟩ | ⟨-, h1⟩ | ⟨vs, x', -, h1, h2⟩⟩
  · rw [h1] at hx; cases hx
  · rw [h1] at hx; cases hx
  · rw [h1] at hx; cases hx
  · rw [h1] at hx; cases hx
  · rw [h1] at hx
    injection hx with hx
    subst hx
    refine ⟨h2.conv, _, h2.array, fun v _ => by positivity, ?_, h2.met⟩
    rw [sum_count h2.range, h2.size]
    exact Int.toNat_of_nonneg h.pop_nonneg

/-- This variant of `qis` returns, or raises: "pick failed" or that the Sobol sequence is used up, the latter only if the
skipped points and the population are more than 2^32 - 1. -/
theorem C86_outcomes (hsg : fp = FP.exact ∨ ∃ sqrt, fp = FP.ieee sqrt) (lm : Libm) {s : List Nat} {P : Prob Int} {pop : Int}
    (h : ProbOK s P pop) (hpop : pop < 2 ^ 52) (hn : ∀ p ∈ P, p.1.Nodup ∧ p.1.length < s.length) (hd : s.length ≤ 1111)
    {skips : Int} (h0 : 0 ≤ skips) (h1 : skips ≤ 2 ^ 31) :
    (∃ x, qisState fp lm s P skips = .ok x) ∨ qisState fp lm s P skips = .thrown .pickFailed ∨
      (2 ^ 31 ≤ pop ∧ qisState fp lm s P skips = .thrown .sobolExhausted) := by
  have hfp : fp.Good := by
    rcases hsg with rfl | ⟨sqrt, rfl⟩
    · exact FP.exact_good
    · exact FP.ieee_good sqrt
  have hs : SignOK fp := by
    rcases hsg with rfl | ⟨sqrt, rfl⟩
    · exact signOK_exact
    · exact signOK_ieee sqrt
  unfold qisState
  rcases runP_cases hfp hs lm h hpop hn skips (J := fun _ _ => True) trivial (fun _ _ _ _ _ _ => trivial) with
    ⟨g, -⟩ | ⟨-, g, -⟩ | ⟨c, -, hc, ⟨-, -, -, -, -, -, -, -, g⟩ | ⟨g1, g⟩ | ⟨vs, x', -, g, -⟩⟩
  · omega
  · omega
  · exact Or.inr (Or.inl g)
  · refine Or.inr (Or.inr ⟨?_, g⟩)
    rcases skipCount_cases (skips % 2 ^ 32).toNat with ⟨c', hc', hb⟩ | ⟨-, hb⟩
    · rw [hc'] at hc
      injection hc with hc
      omega
    · rw [hb] at hc; cases hc
  · exact Or.inl ⟨_, g⟩

/-- The marginals `hs` leaves have no cell left at which all of them are positive. -/
def Stuck (s : List Nat) (P : Prob Int) (hs : List (List Int)) : Prop :=
  ∀ w, InRange s w → ∃ p ∈ P, (hs.countP (fun v => proj p.1 v = proj p.1 w) : Int) = p.2 (proj p.1 w)

theorem exact_drawn {s : List Nat} {P : Prob Int} {hs : List (List Int)} {k : Int} (hok : ProbOK s (remaining hs P) k)
    {a : List Int → Fl} (ha : Agree s a (productAt (remaining hs P))) {seq : List U32} (hno : ¬ ∃ v, Drawn FP.exact seq s a v) :
    Stuck s P hs := by
  intro w hw
  by_contra hne
  push Not at hne
  have hnn : ∀ v, InRange s v → 0 ≤ productAt (remaining hs P) v := fun v hv => productAt_nonneg hok hv
  have hpos : 0 < productAt (remaining hs P) w := by
    unfold productAt
    apply List.prod_pos
    intro y hy
    obtain ⟨p, hp, rfl⟩ := List.mem_map.mp hy
    have h1 := hok.nonneg p hp _ (inRange_proj (hok.dims p hp).2 hw)
    obtain ⟨q, hq, rfl⟩ := List.mem_map.mp hp
    have := hne q hq
    simp only [] at h1 ⊢
    exact_mod_cast lt_of_le_of_ne h1 (by omega)
  have htwo := hok.two
  obtain ⟨v, hv, -⟩ := exists_drawn (seq := seq) (s.length - 1) s _ a (by omega) ha hnn
    (Finset.sum_pos' (fun v hv => hnn v (mem_cells.mp hv)) ⟨w, mem_cells.mpr hw, hpos⟩)
  exact hno ⟨v, hv⟩

/-- In exact arithmetic "pick failed" says that the individuals placed so far exceed no marginal and are fewer than the
population, but that there is no cell to place another in without exceeding one. -/
theorem C86_stuck (lm : Libm) {s : List Nat} {P : Prob Int} {pop : Int} (h : ProbOK s P pop) (hpop : pop < 2 ^ 52)
    (hn : ∀ p ∈ P, p.1.Nodup ∧ p.1.length < s.length) {skips : Int} (hx : qisState FP.exact lm s P skips = .thrown .pickFailed) :
    ∃ hs : List (List Int), (hs.length : Int) < pop ∧ (∀ v ∈ hs, InRange s v) ∧
      (∀ p ∈ P, ∀ j, InRange (projSizes p.1 s) j → (hs.countP (fun v => proj p.1 v = j) : Int) ≤ p.2 j) ∧ Stuck s P hs := by
  have e0 : remaining [] P = P := by simp [remaining]
  unfold qisState at hx
  rcases runP_cases FP.exact_good signOK_exact lm h hpop hn skips
      (J := fun hs a => Agree s a (productAt (remaining hs P)) ∧ ∀ v ∈ hs, InRange s v)
      ⟨fun v _ => by rw [stateVal_exact, e0], by simp⟩ (by
        rintro hs v a hv hpos ⟨h1, h2⟩
        refine ⟨fun w hw => shrunk_exact (s := s) hpos (h1 w hw), ?_⟩
        intro w hw
        rcases List.mem_cons.mp hw with rfl | hw
        · exact hv
        · exact h2 w hw) with
    ⟨-, e, h1, h2⟩ | ⟨-, -, h1⟩ | ⟨c, -, -, ⟨hs, a, j, seq, g1, g2, ⟨g3, g4⟩, g5, -⟩ | ⟨-, h1⟩ | ⟨vs, x', -, h1, -⟩⟩
  · rw [h1] at hx
    injection hx with hx
    rw [hx] at h2
    simp at h2
  · rw [h1] at hx; cases hx
  · refine ⟨hs, by omega, g4, ?_, exact_drawn g2 g3 g5⟩
    intro p hp j hj
    have := g2.nonneg _ (List.mem_map.mpr ⟨p, hp, rfl⟩) j hj
    simp only [] at this
    omega
  · rw [h1] at hx; cases hx
  · rw [h1] at hx; cases hx

theorem probOK_perm {s : List Nat} {P Q : Prob Int} {pop : Int} (hq : P.Perm Q) (h : ProbOK s P pop) : ProbOK s Q pop where
  lists := by rw [← hq.length_eq]; exact h.lists
  two := h.two
  pos := h.pos
  dims p hp := h.dims p (hq.mem_iff.mpr hp)
  cover d hd := by
    obtain ⟨p, hp, hdp⟩ := h.cover d hd
    exact ⟨p, hq.mem_iff.mp hp, hdp⟩
  nonneg p hp := h.nonneg p (hq.mem_iff.mpr hp)
  total p hp := h.total p (hq.mem_iff.mpr hp)
  partials p hp q hp' := h.partials p (hq.mem_iff.mpr hp) q (hq.mem_iff.mpr hp')

/-- If the marginals fit together, in whatever order they are given, this variant of `qis` returns the population (in exact
arithmetic), when the Sobol sequence is long enough. -/
theorem C86_returns (lm : Libm) {s : List Nat} {P Q : Prob Int} {pop : Int} (h : ProbOK s P pop) (hpop : pop < 2 ^ 52)
    (hn : ∀ p ∈ P, p.1.Nodup ∧ p.1.length < s.length) (hq : P.Perm Q) (ht : Decomposable s Q) (hd : s.length ≤ 1111)
    {skips : Int} (h0 : 0 ≤ skips) (h1 : skips ≤ 2 ^ 31) :
    ∃ c : Nat, (skips ≤ 2 → c = 1) ∧ (2 ≤ skips → LargestPow2Below skips.toNat c) ∧
      (c + pop ≤ 2 ^ 32 - 1 → ∃ x f, qisState FP.exact lm s P skips = .ok x ∧ x.conv = true ∧ x.micro.array = arr s f ∧
        (∀ v, InRange s v → 0 ≤ f v) ∧ ∀ p ∈ P, ∀ j, InRange (projSizes p.1 s) j → marginalSum s p.1 f j = p.2 j) ∧
      (2 ^ 32 - 1 < c + pop → qisState FP.exact lm s P skips = .thrown .sobolExhausted) := by
  have e0 : ∀ P : Prob Int, remaining [] P = P := fun P => by simp [remaining]
  unfold qisState
  rcases runP_cases FP.exact_good signOK_exact lm h hpop hn skips
      (J := fun hs a => Agree s a (productAt (remaining hs P)) ∧ Decomposable s (remaining hs Q))
      ⟨fun v _ => by rw [stateVal_exact, e0], by rw [e0]; exact ht⟩ (by
        rintro hs v a hv hpos ⟨h1, h2⟩
        refine ⟨fun w hw => shrunk_exact (s := s) hpos (h1 w hw), ?_⟩
        have := decomposable_remaining (shape_remaining (probOK_perm hq h).toProbShape hs) h2 hv
        rw [remaining_cons] at this
        exact this) with
    ⟨g, -⟩ | ⟨-, g, -⟩ | ⟨c, -, hc, ⟨hs, a, j, seq, g1, g2, ⟨g3, g4⟩, g5, -⟩ | ⟨g1, g⟩ | ⟨vs, x, g1, g, g2⟩⟩
  · omega
  · omega
  · exfalso
    have hperm : (remaining hs P).Perm (remaining hs Q) := hq.map _
    obtain ⟨v, hv, hpos⟩ := decomp_support (probOK_perm hperm g2) (by push_cast; omega) (by push_cast; omega) g4
    obtain ⟨p, hp, hz⟩ := exact_drawn g2 g3 g5 v hv
    have := hpos _ (hperm.mem_iff.mp (List.mem_map.mpr ⟨p, hp, rfl⟩))
    simp only [] at this
    omega
  all_goals
    have hk : (skips % 2 ^ 32).toNat = skips.toNat := by omega
    obtain ⟨c1, c2⟩ := skipped_spec hc
    rw [hk] at c1 c2
  · exact ⟨c, fun h => c1 (by omega), fun h => c2 (by omega), fun hn => by omega, fun _ => g⟩
  · exact ⟨c, fun h => c1 (by omega), fun h => c2 (by omega), fun _ => ⟨x, _, g, g2.conv, g2.array, fun v _ => by positivity, g2.met⟩,
      fun hn => by omega⟩

theorem bandProb_proper : ∀ p ∈ bandProb, p.1.Nodup ∧ p.1.length < [2, 2, 2, 2].length := by
  intro p hp
  simp only [bandProb, List.mem_cons, List.not_mem_nil, or_false] at hp
  rcases hp with rfl | rfl <;> simp

example (lm : Libm) : ∃ x, qisState FP.exact lm [2, 2, 2, 2] bandProb 0 = .ok x ∧ x.conv = true := by
  obtain ⟨c, hc, -, h, -⟩ := C86_returns lm bandProb_ok (by norm_num) bandProb_proper (.refl _) bandProb_decomposable (by simp) (skips := 0) le_rfl (by norm_num)
  obtain ⟨x, f, hx, hconv, -⟩ := h (by rw [hc (by norm_num)]; norm_num)
  exact ⟨x, hx, hconv⟩

/-! ### Marginals over every dimension -/

/-- **C86 fails** if a marginal names every dimension of the table, or one twice: this variant of `qis` then returns for no
population but the empty one. -/
theorem C86_negation (hfp : fp.Good) (lm : Libm) {s : List Nat} {P : Prob Int} {pop : Int} (h : ProbOK s P pop) (hpop : pop < 2 ^ 52)
    (h0 : 0 < pop) (hbad : ∃ p ∈ P, ¬ p.1.Nodup ∨ p.1.length = s.length) (skips : Int) (x : QIS) : qisState fp lm s P skips ≠ .ok x := by
  intro hx
  unfold qisState at hx
  rcases runP_eq hfp lm h hpop skips with ⟨-, e, h1, -⟩ | ⟨-, -, h1⟩ | ⟨c, x1, -, -, -, h3, -, -, h6, h7⟩
  · rw [h1] at hx; cases hx
  · rw [h1] at hx; cases hx
  · rw [h7, show pop.toNat = (pop.toNat - 1) + 1 by omega] at hx
    unfold QISState.individuals at hx
    rcases individual_drawn (fp := fp) h.toProbShape h3 h6 (idx := zerosI s.length) (by simp [zerosI]) with
      ⟨-, g⟩ | ⟨-, seq, -, ⟨-, g⟩ | ⟨v, x2, g1, -, -, -, g⟩⟩
    · rw [g] at hx; cases hx
    · rw [g] at hx; cases hx
    · rw [g] at hx
      have := updateStateValues_bad (fp := fp) h.good g1.inRange (remaining [v] P) (stateVal fp P)
        (fun p hp => ((shape_remaining h.toProbShape [v]).dims p hp).2) (by
          obtain ⟨p, hp, hb⟩ := hbad
          exact ⟨_, List.mem_map.mpr ⟨p, hp, rfl⟩, hb⟩)
      rw [indicesOf_remaining, mapsOf_remaining] at this
      cases hu : QISState.updateStateValues fp s v (indicesOf P) (mapsOf s P) (marginalsOf s (remaining [v] P)) (arr s (stateVal fp P)) with
      | ok b => exact this b hu
      | thrown e => rw [hu] at hx; cases hx
      | ub e => rw [hu] at hx; cases hx
      | diverges => rw [hu] at hx; cases hx

/-- It never ends: if no marginal names a dimension twice, one names them all, and there is a cell at which every marginal is
positive, this variant of `qis` (in exact arithmetic) never comes back from updating the states. -/
theorem C86_negation_diverges (lm : Libm) {s : List Nat} {P : Prob Int} {pop : Int} (h : ProbOK s P pop) (hpop : pop < 2 ^ 52)
    (h0 : 0 < pop) (hn : ∀ p ∈ P, p.1.Nodup) (hfull : ∃ p ∈ P, p.1.length = s.length) (hsup : ∃ v, InRange s v ∧ ∀ p ∈ P, 0 < p.2 (proj p.1 v))
    (hd : s.length ≤ 1111) (skips : Int) : qisState FP.exact lm s P skips = .diverges := by
  unfold qisState
  have e0 : remaining [] P = P := by simp [remaining]
  rcases runP_eq FP.exact_good lm h hpop skips with ⟨g, -⟩ | ⟨-, -, g⟩ | ⟨c, x1, -, -, hc, h3, -, -, h6, h7⟩
  · omega
  · exact g
  · rw [h7, show pop.toNat = (pop.toNat - 1) + 1 by omega]
    unfold QISState.individuals
    rcases individual_drawn (fp := FP.exact) h.toProbShape h3 h6 (idx := zerosI s.length) (by simp [zerosI]) with
      ⟨g, -⟩ | ⟨-, seq, -, ⟨g, -⟩ | ⟨v, x2, g1, -, -, -, g⟩⟩
    · omega
    · exfalso
      obtain ⟨v, hv, hpos⟩ := hsup
      obtain ⟨p, hp, hz⟩ := exact_drawn (hs := []) (by rw [e0]; exact h) (fun v _ => by rw [stateVal_exact, e0]) g v hv
      have := hpos p hp
      simp at hz
      omega
    · rw [g]
      have := updateStateValues_diverges (fp := FP.exact) h.good g1.inRange (remaining [v] P) (stateVal FP.exact P)
        (fun p hp => ⟨((shape_remaining h.toProbShape [v]).dims p hp).2, by
          obtain ⟨q, hq, rfl⟩ := List.mem_map.mp hp
          exact hn q hq⟩) (by
          obtain ⟨p, hp, hb⟩ := hfull
          exact ⟨_, List.mem_map.mpr ⟨p, hp, rfl⟩, hb⟩)
      rw [indicesOf_remaining, mapsOf_remaining] at this
      rw [this]
      rfl

/-- The diagonal of a 2x2 table and its axes, for which the variant that is compiled by default returns
(`C85_negation_order`). -/
example (lm : Libm) (skips : Int) : qisState FP.exact lm [2, 2] diagFirst skips = .diverges :=
  C86_negation_diverges lm diagFirst_ok (by norm_num) (by norm_num) (fun p hp => by
      simp only [diagFirst, diagonal, pairProb, List.mem_cons, List.not_mem_nil, or_false] at hp
      rcases hp with rfl | rfl | rfl <;> simp)
    ⟨diagonal, by simp [diagFirst], rfl⟩ ⟨[0, 0], by decide, fun p hp => by
      simp only [diagFirst, diagonal, pairProb, List.mem_cons, List.not_mem_nil, or_false] at hp
      rcases hp with rfl | rfl | rfl <;> simp [proj]⟩ (by simp) skips

end HL

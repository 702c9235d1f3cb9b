import Verif.Proof.QISDecomp
import Verif.Props.QISDraw

/-
C85: marginals that fit together along several dimensions.
-/

namespace HL
open QIS
variable {fp : FP}

/-- **C85** for marginals listed so that each has an earlier one that names all the dimensions it shares with those before it
and agrees with it there: `qis` returns a population that has exactly the given marginals, and says so, when the sequence of
2^32 - 1 points is long enough for the skipped points and the population; otherwise it raises. -/
theorem C85_decomposable_partial (hfp : fp.Good) (lm : Libm) {s : List Nat} {P : Prob Int} {pop : Int} (h : ProbOK s P pop)
    (hpop : pop < 2 ^ 52) (ht : Decomposable s P) (hd : s.length ≤ 1111) {skips : Int} (h0 : 0 ≤ skips)
    (h1 : skips ≤ 2 ^ 31) :
    ∃ c : Nat, (skips ≤ 2 → c = 1) ∧ (2 ≤ skips → LargestPow2Below skips.toNat c) ∧
      (c + pop ≤ 2 ^ 32 - 1 → ∃ x f, qis fp lm s P skips = .ok x ∧ x.conv = true ∧ x.micro.array = arr s f ∧
        (∀ v, InRange s v → 0 ≤ f v) ∧ ∀ p ∈ P, ∀ j, InRange (projSizes p.1 s) j → marginalSum s p.1 f j = p.2 j) ∧
      (2 ^ 32 - 1 < c + pop → qis fp lm s P skips = .thrown .sobolExhausted) := by
  rcases skipCount_cases (skips % 2 ^ 32).toNat with ⟨c, hc, -⟩ | ⟨hb, -⟩
  · have hk : (skips % 2 ^ 32).toNat = skips.toNat := by omega
    obtain ⟨c1, c2⟩ := skipped_spec hc
    rw [hk] at c1 c2
    refine ⟨c, fun h => c1 (by omega), fun h => c2 (by omega), fun hn => ?_, fun hn => run_decomp_exhausted hfp lm h hpop ht hd hc hn⟩
    obtain ⟨x, hx, hconv⟩ := run_decomp hfp lm h hpop ht hd hc hn
    obtain ⟨f, hf, hnn, -⟩ := C21_population hfp h hpop hx
    exact ⟨x, f, hx, hconv, hf, hnn, (C22_conv hfp h hpop hx hf).mp hconv⟩
  · omega

/-- The marginals that each share at most one dimension with those before them are a special case. -/
theorem C85_tree {s : List Nat} {P : Prob Int} {pop : Int} (h : ProbOK s P pop) (ht : TreeDims (P.map Prod.fst)) :
    Decomposable s P := tree_decomposable h ht

/-- If marginals as in `C85_decomposable_partial` that together name every dimension come first, `qis` returns whatever the
others are (but perhaps with `conv` false). -/
theorem C85_returns (hfp : fp.Good) (lm : Libm) {s : List Nat} {D Q : Prob Int} {pop : Int} (h : ProbOK s (D ++ Q) pop)
    (hpop : pop < 2 ^ 31) (ht : Decomposable s D) (hall : ∀ d < s.length, ∃ p ∈ D, d ∈ p.1) (hd : s.length ≤ 1111)
    {skips : Int} (h0 : 0 ≤ skips) (h1 : skips ≤ 2 ^ 31) : ∃ x, qis fp lm s (D ++ Q) skips = .ok x := by
  rcases skipCount_cases (skips % 2 ^ 32).toNat with ⟨c, hc, hb⟩ | ⟨hb, -⟩
  · by_cases hl : 2 ≤ D.length
    · exact run_prefix hfp lm h (by omega) ht hl hall hd hc (by omega)
    · match D, hl with
      | [], _ =>
        obtain ⟨p, hp, -⟩ := hall 0 (by have := h.two; omega)
        cases hp
      | [p], _ =>
        exact run_full hfp lm h (by omega) (ht [] p [] rfl).1 (fun d hd => by simpa using hall d hd) hd hc (by omega)
      | _ :: _ :: _, hl => simp at hl
  · omega

/-- **C24** for these problems: in exact arithmetic and for a positive population the expectation is proportional to the
product of the marginals, zero exactly where a marginal is zero, and sums to the population. -/
theorem C24_expectation_decomposable (lm : Libm) {s : List Nat} {P : Prob Int} {pop : Int} (h : ProbOK s P pop)
    (hpop : pop < 2 ^ 52) (h0 : 0 < pop) (ht : Decomposable s P) {skips : Int} {x : QIS}
    (hx : qis FP.exact lm s P skips = .ok x) :
    ∃ E : List Int → ℚ, x.expected = arr s (fun v => .fin (E v)) ∧
      (∃ k > 0, ∀ v, InRange s v → E v = k * productAt P v) ∧
      (∀ v, InRange s v → (E v = 0 ↔ ∃ p ∈ P, p.2 (proj p.1 v) = 0)) ∧
      ∑ v ∈ cells s, E v = pop :=
  C24_expectation_partial lm h hpop h0 (decomp_support h h0 (by omega) ht) hx

/-! ### Marginals over three dimensions with two in common -/

/-- Two marginals over three of the four dimensions of a table, with two dimensions in common. -/
def bandProb : Prob Int :=
  [([0, 1, 2], fun j => 1 + j.getD 0 0 + j.getD 1 0 * j.getD 2 0), ([3, 2, 1], fun j => 1 + j.getD 0 0 + j.getD 1 0 * j.getD 2 0)]

theorem bandProb_ok : ProbOK [2, 2, 2, 2] bandProb 14 where
  lists := by decide
  two := by decide
  pos := by decide
  dims := by simp [bandProb]
  cover := by
    intro d hd
    simp only [List.length_cons, List.length_nil] at hd
    interval_cases d <;> simp [bandProb]
  nonneg := by
    intro p hp j hj
    simp only [bandProb, List.mem_cons, List.not_mem_nil, or_false] at hp
    have h3 : ∀ d < 3, 0 ≤ j.getD d 0 := by
      intro d hd
      exact (inRange_getD hj (d := d) (by rcases hp with rfl | rfl <;> simpa [projSizes] using hd)).1
    have := h3 0 (by norm_num)
    have := mul_nonneg (h3 1 (by norm_num)) (h3 2 (by norm_num))
    rcases hp with rfl | rfl <;> · simp only []; omega
  total := by
    intro p hp
    simp only [bandProb, List.mem_cons, List.not_mem_nil, or_false] at hp
    rcases hp with rfl | rfl <;> decide
  partials := by
    intro p hp q hq a b d ha hb x hx
    simp only [bandProb, List.mem_cons, List.not_mem_nil, or_false] at hp hq
    have hlp : p.1.length = 3 := by rcases hp with rfl | rfl <;> rfl
    have hlq : q.1.length = 3 := by rcases hq with rfl | rfl <;> rfl
    have ha2 : a < 3 := by
      have := (List.getElem?_eq_some_iff.mp ha).1
      rwa [hlp] at this
    have hb2 : b < 3 := by
      have := (List.getElem?_eq_some_iff.mp hb).1
      rwa [hlq] at this
    have hx2 : x < 2 := by
      have hd : d < 4 := by
        have := List.mem_of_getElem? ha
        rcases hp with rfl | rfl <;> simp at this <;> omega
      interval_cases d <;> exact hx
    rcases hp with rfl | rfl <;> rcases hq with rfl | rfl <;> interval_cases a <;> interval_cases b <;>
      simp at ha hb <;> subst ha <;> simp at hb <;> interval_cases x <;> decide

theorem bandProb_decomposable : Decomposable [2, 2, 2, 2] bandProb := by
  intro A p B hP
  match A, hP with
  | [], hP =>
    simp only [bandProb, List.nil_append, List.cons.injEq] at hP
    obtain ⟨rfl, -⟩ := hP
    exact ⟨by decide, .inl rfl⟩
  | [q], hP =>
    simp only [bandProb, List.cons_append, List.nil_append, List.cons.injEq] at hP
    obtain ⟨rfl, rfl, -⟩ := hP
    refine ⟨by decide, .inr ⟨_, List.mem_singleton.mpr rfl, ?_, ?_⟩⟩
    · rintro d - ⟨r, hr, hdr⟩
      rw [List.mem_singleton] at hr
      subst hr
      exact hdr
    · intro v hv
      have hl := inRange_length hv
      match v, hl with
      | [v0, v1, v2, v3], _ =>
        have g1 := inRange_getD hv (d := 1) (by simp)
        have g2 := inRange_getD hv (d := 2) (by simp)
        simp at g1 g2
        have e : ∀ p : List Nat × (List Int → Int), weightOn [2, 2, 2, 2] p [2, 1] [v0, v1, v2, v3] = weightOn [2, 2, 2, 2] p [2, 1] [0, v1, v2, 0] := by
          intro p
          unfold weightOn
          congr 1
          apply Finset.filter_congr
          intro j _
          constructor
          all_goals
            intro hj a ha hm
            have := hj a ha hm
            simp only [List.mem_cons, List.not_mem_nil, or_false] at hm
            rcases hm with hm | hm <;> · rw [hm] at this ⊢; exact this
        have es : shared ([3, 2, 1], fun j : List Int => 1 + j.getD 0 0 + j.getD 1 0 * j.getD 2 0)
          ([0, 1, 2], fun j : List Int => 1 + j.getD 0 0 + j.getD 1 0 * j.getD 2 0) = [2, 1] := by simp [shared]
        rw [es, e, e]
        obtain ⟨g1, g1'⟩ := g1
        obtain ⟨g2, g2'⟩ := g2
        interval_cases v1 <;> interval_cases v2 <;> decide
  | q :: r :: A, hP => simp [bandProb] at hP

example (hfp : fp.Good) (lm : Libm) : ∃ x, qis fp lm [2, 2, 2, 2] bandProb 0 = .ok x ∧ x.conv = true := by
  obtain ⟨c, hc, -, h, -⟩ := C85_decomposable_partial hfp lm bandProb_ok (by norm_num) bandProb_decomposable (by simp) (skips := 0) le_rfl (by norm_num)
  obtain ⟨x, f, hx, hconv, -⟩ := h (by rw [hc (by norm_num)]; norm_num)
  exact ⟨x, hx, hconv⟩

/-! ### The order of the marginals -/

/-- The diagonal of a 2x2 table as a marginal over both dimensions. -/
def diagonal : List Nat × (List Int → Int) := ([0, 1], fun j => if j = [0, 0] ∨ j = [1, 1] then 1 else 0)

/-- The diagonal first, then its two axes. -/
def diagFirst : Prob Int := diagonal :: pairProb

/-- The two axes first, then the diagonal. -/
def diagLast : Prob Int := pairProb ++ [diagonal]

theorem diag_ok {P : Prob Int} (hm : ∀ p, p ∈ P ↔ p ∈ diagFirst) (hl : 2 ≤ P.length) : ProbOK [2, 2] P 2 where
  lists := hl
  two := by decide
  pos := by decide
  dims := by
    intro p hp
    rw [hm] at hp
    simp only [diagFirst, diagonal, pairProb, List.mem_cons, List.not_mem_nil, or_false] at hp
    rcases hp with rfl | rfl | rfl <;> simp
  cover := by
    intro d hd
    refine ⟨diagonal, (hm _).mpr (by simp [diagFirst]), ?_⟩
    simp only [List.length_cons, List.length_nil] at hd
    interval_cases d <;> simp [diagonal]
  nonneg := by
    intro p hp j hj
    rw [hm] at hp
    simp only [diagFirst, diagonal, pairProb, List.mem_cons, List.not_mem_nil, or_false] at hp
    rcases hp with rfl | rfl | rfl
    · simp only []; split <;> decide
    · simp
    · simp
  total := by
    intro p hp
    rw [hm] at hp
    simp only [diagFirst, diagonal, pairProb, List.mem_cons, List.not_mem_nil, or_false] at hp
    rcases hp with rfl | rfl | rfl <;> decide
  partials := by
    intro p hp q hq a b d ha hb x hx
    rw [hm] at hp hq
    simp only [diagFirst, diagonal, pairProb, List.mem_cons, List.not_mem_nil, or_false] at hp hq
    have hd : d < 2 := by
      have := List.mem_of_getElem? ha
      rcases hp with rfl | rfl | rfl <;> simp at this <;> omega
    have hx2 : x < 2 := by interval_cases d <;> exact hx
    have key : ∀ (r : List Nat × (List Int → Int)) (c : Nat), r ∈ diagFirst → r.1[c]? = some d →
        marginalSum (projSizes r.1 [2, 2]) [c] r.2 [(x : Int)] = 1 := by
      intro r c hr hc
      simp only [diagFirst, diagonal, pairProb, List.mem_cons, List.not_mem_nil, or_false] at hr
      have hcl := (List.getElem?_eq_some_iff.mp hc).1
      rcases hr with rfl | rfl | rfl
      · simp only [List.length_cons, List.length_nil] at hcl
        interval_cases c <;> interval_cases x <;> decide
      · simp only [List.length_cons, List.length_nil] at hcl
        interval_cases c; interval_cases x <;> decide
      · simp only [List.length_cons, List.length_nil] at hcl
        interval_cases c; interval_cases x <;> decide
    rw [key p a (by simpa [diagFirst, diagonal, pairProb] using hp) ha, key q b (by simpa [diagFirst, diagonal, pairProb] using hq) hb]

theorem diagFirst_ok : ProbOK [2, 2] diagFirst 2 := diag_ok (fun _ => Iff.rfl) (by decide)

theorem diagLast_ok : ProbOK [2, 2] diagLast 2 :=
  diag_ok (fun p => by simp only [diagFirst, diagLast, List.mem_append, List.mem_cons, List.not_mem_nil, or_false]; tauto) (by decide)

theorem diagFirst_decomposable : Decomposable [2, 2] diagFirst := by
  have key : ∀ (d : Nat) (f : List Int → Int), d < 2 → (f = fun _ => 1) → AgreeOn [2, 2] ([d], f) diagonal := by
    intro d f hd hf v hv
    subst hf
    have hl := inRange_length hv
    match v, hl with
    | [v0, v1], _ =>
      have g0 := inRange_getD hv (d := 0) (by simp)
      have g1 := inRange_getD hv (d := 1) (by simp)
      simp at g0 g1
      obtain ⟨g0, g0'⟩ := g0
      obtain ⟨g1, g1'⟩ := g1
      interval_cases d <;> interval_cases v0 <;> interval_cases v1 <;> decide
  intro A p B hP
  match A, hP with
  | [], hP =>
    simp only [diagFirst, List.nil_append, List.cons.injEq] at hP
    obtain ⟨rfl, -⟩ := hP
    exact ⟨by decide, .inl rfl⟩
  | [q], hP =>
    simp only [diagFirst, pairProb, List.cons_append, List.nil_append, List.cons.injEq] at hP
    obtain ⟨rfl, rfl, -⟩ := hP
    refine ⟨by decide, .inr ⟨_, List.mem_singleton.mpr rfl, ?_, key 0 _ (by norm_num) rfl⟩⟩
    intro d hd _
    simp at hd
    simp [diagonal, hd]
  | [q, r], hP =>
    simp only [diagFirst, pairProb, List.cons_append, List.nil_append, List.cons.injEq] at hP
    obtain ⟨rfl, rfl, rfl, -⟩ := hP
    refine ⟨by decide, .inr ⟨diagonal, by simp, ?_, key 1 _ (by norm_num) rfl⟩⟩
    intro d hd _
    simp at hd
    simp [diagonal, hd]
  | q :: r :: t :: A, hP => simp [diagFirst, pairProb] at hP

/-- **C85 depends on the order**: the diagonal of a 2x2 table and its two axes fit together.  With the diagonal first `qis`
finds the population; with the same marginals in the order axis, axis, diagonal it returns one that does not have them. -/
theorem C85_negation_order (hfp : fp.Good) (lm : Libm) : List.Perm diagFirst diagLast ∧
    (∃ x, qis fp lm [2, 2] diagFirst 0 = .ok x ∧ x.conv = true) ∧ ∃ x, qis fp lm [2, 2] diagLast 0 = .ok x ∧ x.conv = false := by
  refine ⟨?_, ?_, ?_⟩
  · unfold diagFirst diagLast
    exact (List.perm_append_comm (l₁ := [diagonal]) (l₂ := pairProb))
  · obtain ⟨c, hc, -, h, -⟩ := C85_decomposable_partial hfp lm diagFirst_ok (by norm_num) diagFirst_decomposable (by simp) (skips := 0) le_rfl (by norm_num)
    obtain ⟨x, f, hx, hconv, -⟩ := h (by rw [hc (by norm_num)]; norm_num)
    exact ⟨x, hx, hconv⟩
  · obtain ⟨x, hx⟩ := C85_returns hfp lm diagLast_ok (by norm_num) (C85_tree pairProb_ok pairProb_tree)
      (by intro d hd; simp only [List.length_cons, List.length_nil] at hd; interval_cases d <;> simp [pairProb]) (by simp) (skips := 0)
      le_rfl (by norm_num)
    refine ⟨x, hx, ?_⟩
    by_contra hconv
    rw [Bool.not_eq_false] at hconv
    obtain ⟨c, vs, hc, -, hl, ha, hi⟩ := C77_draws hfp diagLast_ok (by norm_num) (by simp [diagLast, pairProb, diagonal]) (skips := 0)
      le_rfl (by norm_num) hx
    have hc1 := hc (by norm_num)
    subst hc1
    have hl2 : vs.length = 2 := by omega
    obtain ⟨pt0, w0, a1, a2, a3, a4⟩ := hi 0 (by omega)
    obtain ⟨r0, r1⟩ := points12.2 a1
    have hcond : ∀ (d x : Nat) (F : List Nat), d < 2 → x < 2 → condWeight [2, 2] ([d], fun _ => 1) F [] w0 0 x = 1 := by
      intro d x F hd hx
      have e : condCells [2, 2] [d] F w0 0 x = (cells (projSizes [d] [2, 2])).filter (fun j => j.getD 0 0 = (x : Int)) := by
        unfold condCells
        apply Finset.filter_congr
        intro j _
        constructor
        · exact fun h => h.1
        · refine fun h => ⟨h, fun b hb hne => ?_⟩
          simp only [List.length_cons, List.length_nil] at hb
          omega
      unfold condWeight
      simp only []
      rw [e]
      interval_cases d <;> interval_cases x <;> decide
    simp only [List.take_zero] at a4
    have hsum : ∀ (d n : Nat) (F : List Nat), d < 2 → n ≤ 2 → ∑ x ∈ Finset.range n, condWeight [2, 2] ([d], fun _ => 1) F [] w0 0 x = n := by
      intro d n F hd hn
      rw [Finset.sum_congr rfl (fun x hx => hcond d x F hd (by have := Finset.mem_range.mp hx; omega))]
      simp
    obtain ⟨r, ⟨k, k1, k2, k3, k4⟩, -, k5⟩ := a4 [] ([0], fun _ => 1) [([1], fun _ => 1), diagonal] rfl 0 0 rfl (by simp)
    obtain ⟨t, ⟨l, l1, l2, l3, l4⟩, -, l5⟩ := a4 [([0], fun _ => 1)] ([1], fun _ => 1) [diagonal] rfl 0 1 rfl (by simp)
    simp only [List.getD_cons_zero, List.getD_cons_succ] at k2 k5 l2 l5
    rw [hsum 0 2 _ (by norm_num) le_rfl] at k5
    rw [hsum 1 2 _ (by norm_num) le_rfl] at l5
    rw [hsum 0 (k + 1) _ (by norm_num) (by omega), k5 (by norm_num), r0] at k4
    have l6 := l5 (by norm_num)
    rw [r1] at l6
    have hk1 : k = 1 := by
      interval_cases k
      · norm_num at k4
      · rfl
    have hl0 : l = 0 := by
      interval_cases l
      · rfl
      · have := l3 0 (by norm_num)
        rw [hsum 1 1 _ (by norm_num) (by norm_num), l6] at this
        norm_num at this
    have hv0 : w0 = [1, 0] := by
      have hlen := inRange_length a3
      apply ext_getD hlen
      intro d hd
      rw [hlen] at hd
      simp only [List.length_cons, List.length_nil] at hd
      interval_cases d
      · rw [k1, hk1]; rfl
      · rw [l1, hl0]; rfl
    have hmarg := (C22_conv hfp diagLast_ok (by norm_num) hx ha).mp hconv diagonal (by simp [diagLast]) [1, 0] (by decide)
    have hpos : 0 < marginalSum [2, 2] diagonal.1 (fun v => (vs.count v : Int)) [1, 0] := by
      unfold marginalSum
      apply Finset.sum_pos' (fun j _ => by positivity)
      refine ⟨[1, 0], by decide, ?_⟩
      have : w0 ∈ vs := List.mem_of_getElem? a2
      rw [hv0] at this
      exact_mod_cast List.count_pos_iff.mpr this
    rw [hmarg] at hpos
    exact absurd hpos (by decide)

end HL

import Verif.PadSpec
import Verif.Proof.ProbCheck
import Verif.Proof.QISPadRun
import Verif.Props.QIS

/-
C107: categories that nobody is in make no difference to `qis`.
-/

namespace HL
variable {fp : FP} {e : Nat → Nat → Nat} {s s' : List Nat}

/-- **C107**: if `qis` returns for a problem, then it returns for the problem with empty categories put in anywhere, with the same
population, the same `conv`, and nobody in the new categories. In any arithmetic, for any number of skips. -/
theorem C107_padded (hfp : fp.Good) {lm : Libm} (he : Places e s s') {P P' : Prob Int} {pop : Int} (h : ProbOK s P pop)
    (hpop : pop < 2 ^ 52) (hnd : ∀ p ∈ P, p.1.Nodup) (hpad : Padded e s s' P P') {skips : Int} {x : QIS}
    (hx : qis fp lm s P skips = .ok x) :
    ∃ y f f', qis fp lm s' P' skips = .ok y ∧ x.micro.array = arr s f ∧ y.micro.array = arr s' f' ∧
      PadOf e s s' (List.range s.length) f f' ∧ y.conv = x.conv :=
  run_pad hfp he h hpop hnd hpad hx

/-- **C107**: `qis` returns for a problem if and only if it returns for the problem with empty categories put in. -/
theorem C107_returns (hfp : fp.Good) {lm : Libm} (he : Places e s s') {P P' : Prob Int} {pop : Int} (h : ProbOK s P pop)
    (hpop : pop < 2 ^ 52) (hnd : ∀ p ∈ P, p.1.Nodup) (hpad : Padded e s s' P P') {skips : Int} :
    (∃ y, qis fp lm s' P' skips = .ok y) ↔ ∃ x, qis fp lm s P skips = .ok x := by
  constructor
  · rintro ⟨y, hy⟩
    exact run_unpad hfp he h hpop hnd hpad hy
  · rintro ⟨x, hx⟩
    obtain ⟨y, -, -, hy, -⟩ := run_pad hfp he h hpop hnd hpad hx
    exact ⟨y, hy⟩

/-- **C107**: whatever the new problem's population is, it is the old one's with nobody in the new categories. -/
theorem C107_same (hfp : fp.Good) {lm : Libm} (he : Places e s s') {P P' : Prob Int} {pop : Int} (h : ProbOK s P pop)
    (hpop : pop < 2 ^ 52) (hnd : ∀ p ∈ P, p.1.Nodup) (hpad : Padded e s s' P P') {skips : Int} {x y : QIS}
    (hx : qis fp lm s P skips = .ok x) (hy : qis fp lm s' P' skips = .ok y) {f f' : List Int → Int}
    (hf : x.micro.array = arr s f) (hf' : y.micro.array = arr s' f') :
    PadOf e s s' (List.range s.length) f f' ∧ y.conv = x.conv := by
  obtain ⟨y', g, g', h1, h2, h3, h4, h5⟩ := run_pad hfp he h hpop hnd hpad hx
  obtain rfl : y' = y := by
    unfold qis at hy
    rw [h1] at hy
    injection hy
  rw [hf] at h2
  rw [hf'] at h3
  have e1 := arr_inj h2
  have e2 := arr_inj h3
  have hr : projSizes (List.range s.length) s' = s' := by rw [← he.length]; exact projSizes_all s'
  refine ⟨⟨fun j hj => ?_, fun j' hj' hno => ?_⟩, h5⟩
  · have hj1 := place_inRange he (ds := List.range s.length) (by simp) hj
    rw [hr] at hj1
    rw [e2 _ hj1, h4.1 j hj]
    rw [projSizes_all] at hj
    exact (e1 j hj).symm
  · rw [e2 j' (by rwa [hr] at hj')]
    exact h4.2 j' hj' hno

/-- **C107**: putting empty categories into a problem that `qis` accepts gives a problem that it accepts. -/
theorem C107_accepted (he : Places e s s') {P P' : Prob Int} {pop : Int} (h : ProbOK s P pop) (hpad : Padded e s s' P P') :
    ProbOK s' P' pop :=
  padded_ok he h hpad

/-- five people in two categories and in two others -/
def tightProb : Prob Int := [([0], fun j => if j = [0] then 3 else 2), ([1], fun j => if j = [0] then 1 else 4)]

/-- the same with an empty category between the first two -/
def gapProb : Prob Int :=
  [([0], fun j => if j = [0] then 3 else if j = [1] then 0 else 2), ([1], fun j => if j = [0] then 1 else 4)]

/-- where the categories of `tightProb` are in `gapProb` -/
def gapAt (d i : Nat) : Nat := if d = 0 then 2 * i else i

theorem gap_places : Places gapAt [2, 2] [3, 2] := by
  refine ⟨rfl, ?_, ?_⟩
  · intro d hd i j hij hj
    unfold gapAt
    split <;> omega
  · intro d hd i hi
    simp only [List.length_cons, List.length_nil] at hd
    interval_cases d <;> simp only [gapAt, List.getD_cons_zero, List.getD_cons_succ] at hi ⊢ <;> simp <;> omega

theorem gap_padded : Padded gapAt [2, 2] [3, 2] tightProb gapProb := by
  have mem : ∀ {t : List Nat} {j : List Int}, InRange t j → j ∈ allIdx t := fun hj => mem_allIdx.mpr hj
  refine .cons ⟨rfl, ?_, ?_⟩ (.cons ⟨rfl, ?_, ?_⟩ .nil)
  · have : ∀ j ∈ allIdx (projSizes [0] [2, 2]), (if place gapAt [0] j = [0] then (3 : Int) else if place gapAt [0] j = [1] then 0 else 2) =
        if j = [0] then 3 else 2 := by decide +kernel
    exact fun j hj => this j (mem hj)
  · have : ∀ j' ∈ allIdx (projSizes [0] [3, 2]), (∀ j ∈ allIdx (projSizes [0] [2, 2]), place gapAt [0] j ≠ j') →
        (if j' = [0] then (3 : Int) else if j' = [1] then 0 else 2) = 0 := by decide +kernel
    exact fun j' hj' hno => this j' (mem hj') (fun j hj => hno j (mem_allIdx.mp hj))
  · have : ∀ j ∈ allIdx (projSizes [1] [2, 2]), (if place gapAt [1] j = [0] then (1 : Int) else 4) = if j = [0] then 1 else 4 := by
      decide +kernel
    exact fun j hj => this j (mem hj)
  · have : ∀ j' ∈ allIdx (projSizes [1] [3, 2]), (∀ j ∈ allIdx (projSizes [1] [2, 2]), place gapAt [1] j ≠ j') →
        (if j' = [0] then (1 : Int) else 4) = 0 := by decide +kernel
    exact fun j' hj' hno => this j' (mem hj') (fun j hj => hno j (mem_allIdx.mp hj))

/-- The hypotheses hold, and `qis` returns for both. -/
example (hfp : fp.Good) (lm : Libm) : ProbOK [2, 2] tightProb 5 ∧ (∀ p ∈ tightProb, p.1.Nodup) ∧ Places gapAt [2, 2] [3, 2] ∧
    Padded gapAt [2, 2] [3, 2] tightProb gapProb ∧
    ∃ x y f', qis fp lm [2, 2] tightProb 0 = .ok x ∧ qis fp lm [3, 2] gapProb 0 = .ok y ∧ y.conv = true ∧
      y.micro.array = arr [3, 2] f' ∧ f' [1, 0] = 0 ∧ f' [1, 1] = 0 := by
  have h0 : ProbOK [2, 2] tightProb 5 := ProbCheck.ok (by decide +kernel)
  have hnd : ∀ p ∈ tightProb, p.1.Nodup := by decide
  have he := gap_places
  have mem : ∀ {t : List Nat} {j : List Int}, InRange t j → j ∈ allIdx t := fun hj => mem_allIdx.mpr hj
  have hp := gap_padded
  obtain ⟨x, hx, hc⟩ := C23_tree hfp lm h0 (by norm_num) (by
    intro A ds B hAB
    match A, hAB with
    | [], hAB =>
      simp only [tightProb, List.map_cons, List.map_nil, List.nil_append, List.cons.injEq] at hAB
      obtain ⟨rfl, -⟩ := hAB
      simp
    | [a], hAB =>
      simp only [tightProb, List.map_cons, List.map_nil, List.cons_append, List.nil_append, List.cons.injEq] at hAB
      obtain ⟨rfl, rfl, -⟩ := hAB
      simp
    | a :: b :: A, hAB => simp [tightProb] at hAB) (by simp) (skips := 0) (by norm_num) (by norm_num)
  obtain ⟨y, f, f', hy, -, hf', h3, h4⟩ := C107_padded hfp he h0 (by norm_num) hnd hp hx
  have hz : ∀ b ∈ [(0 : Int), 1], f' [1, b] = 0 := by
    intro b hb
    refine h3.2 [1, b] ?_ ?_
    · simp only [List.mem_cons, List.not_mem_nil, or_false] at hb
      rcases hb with rfl | rfl <;> decide
    · intro j hj
      have : ∀ j ∈ allIdx (projSizes (List.range 2) [2, 2]), ∀ b ∈ [(0 : Int), 1], place gapAt (List.range 2) j ≠ [1, b] := by
        decide +kernel
      exact this j (mem hj) b hb
  exact ⟨h0, hnd, he, hp, x, y, f', hx, hy, by rw [h4, hc], hf', hz 0 (by simp), hz 1 (by simp)⟩

end HL

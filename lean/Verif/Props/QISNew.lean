import Verif.Proof.ProbCheck
import Verif.Proof.QISNew
import Verif.Props.QIS

/-
C106: which marginals `qis` meets whether or not it reports success.
-/

namespace HL
variable {fp : FP}

/-- **C106**: whenever `qis` returns, even with `conv` false, the result has exactly the marginal `p` if `p` names a dimension
that none of the marginals before it names. In any arithmetic, for any number of skips. -/
theorem C106_new (hfp : fp.Good) {lm : Libm} {s : List Nat} {P : Prob Int} {pop : Int} (h : ProbOK s P pop) (hpop : pop < 2 ^ 52)
    (hnd : ∀ p ∈ P, p.1.Nodup) {A B : Prob Int} {p : List Nat × (List Int → Int)} (hP : P = A ++ p :: B)
    (hd : ∃ d ∈ p.1, ∀ q ∈ A, d ∉ q.1) {skips : Int} {x : QIS} (hx : qis fp lm s P skips = .ok x) {f : List Int → Int}
    (hf : x.micro.array = arr s f) : ∀ j, InRange (projSizes p.1 s) j → marginalSum s p.1 f j = p.2 j := by
  obtain ⟨c, vs, -, -, hs⟩ := run_ok hfp h hpop hx
  have ha : x.micro.array = arr s (fun v => (vs.count v : Int)) := by rw [hs.at_.micro]
  rw [hf] at ha
  intro j hj
  rw [← met_new hfp h hpop hnd hs hP hd hj]
  unfold marginalSum
  apply Finset.sum_congr rfl
  intro v hv
  exact arr_inj ha v (mem_cells.mp (Finset.mem_filter.mp hv).1)

/-- **C106**: the result always has the first marginal. -/
theorem C106_first (hfp : fp.Good) {lm : Libm} {s : List Nat} {p : List Nat × (List Int → Int)} {Q : Prob Int} {pop : Int}
    (h : ProbOK s (p :: Q) pop) (hpop : pop < 2 ^ 52) (hnd : ∀ q ∈ p :: Q, q.1.Nodup) {skips : Int} {x : QIS}
    (hx : qis fp lm s (p :: Q) skips = .ok x) {f : List Int → Int} (hf : x.micro.array = arr s f) :
    ∀ j, InRange (projSizes p.1 s) j → marginalSum s p.1 f j = p.2 j := by
  refine C106_new hfp h hpop hnd (A := []) rfl ?_ hx hf
  obtain ⟨d, hd⟩ := List.exists_mem_of_ne_nil _ (h.dims p (by simp)).1
  exact ⟨d, hd, by simp⟩

/-- **C106**: if every marginal names a dimension that none before it names, `qis` never returns with `conv` false. -/
theorem C106_conv (hfp : fp.Good) {lm : Libm} {s : List Nat} {P : Prob Int} {pop : Int} (h : ProbOK s P pop) (hpop : pop < 2 ^ 52)
    (hnd : ∀ p ∈ P, p.1.Nodup) (hnew : ∀ A p B, P = A ++ p :: B → ∃ d ∈ p.1, ∀ q ∈ A, d ∉ q.1) {skips : Int} {x : QIS}
    (hx : qis fp lm s P skips = .ok x) : x.conv = true := by
  obtain ⟨f, hf, -⟩ := C21_population hfp h hpop hx
  rw [C22_conv hfp h hpop hx hf]
  intro p hp
  obtain ⟨A, B, hP⟩ := List.append_of_mem hp
  exact C106_new hfp h hpop hnd hP (hnew A p B hP) hx hf

/-- The hypotheses of `C106_first` and the case it is for: a problem on which `qis` returns with `conv` false. -/
example (hfp : fp.Good) (lm : Libm) : ProbOK [2, 2] crossProb 2 ∧ (∀ q ∈ crossProb, q.1.Nodup) ∧
    ∃ x f, qis fp lm [2, 2] crossProb 0 = .ok x ∧ x.conv = false ∧ x.micro.array = arr [2, 2] f ∧
      marginalSum [2, 2] [0, 1] f [0, 0] = 1 ∧ marginalSum [2, 2] [0, 1] f [0, 1] = 0 := by
  have hnd : ∀ q ∈ crossProb, q.1.Nodup := by decide
  obtain ⟨x, hx⟩ := C23_full_first hfp lm crossProb_ok (by norm_num) (by decide)
    (by intro d hd; simp only [List.length_cons, List.length_nil] at hd; interval_cases d <;> simp) (by simp) (skips := 0)
    (by norm_num) (by norm_num)
  obtain ⟨f, hf, -⟩ := C21_population hfp crossProb_ok (by norm_num) hx
  have h1 := C106_first hfp crossProb_ok (by norm_num) hnd hx hf
  refine ⟨crossProb_ok, hnd, x, f, hx, ?_, hf, ?_, ?_⟩
  · rw [Bool.eq_false_iff]
    intro hc
    have h2 := (C22_conv hfp crossProb_ok (by norm_num) hx hf).mp hc
    have h3 := h1 [0, 0] (by decide)
    have h4 := h2 _ (List.mem_cons_of_mem _ (List.mem_singleton.mpr rfl)) [0, 0] (by decide)
    simp only [crossProb] at h3 h4
    rw [h3] at h4
    revert h4
    decide
  · exact h1 [0, 0] (by decide)
  · exact h1 [0, 1] (by decide)

/-- two marginals, the second of which gives a third dimension together with both dimensions of the first -/
def deepProb : Prob Int :=
  [([0, 1], fun j => if j.getD 0 0 = j.getD 1 0 then 2 else 1),
   ([0, 1, 2], fun j => if j.getD 2 0 = 0 ∧ j.getD 0 0 ≠ j.getD 1 0 then 0 else 1)]

/-- The hypotheses of `C106_conv` hold for a problem that `C23_tree` does not cover. -/
example : ProbOK [2, 2, 2] deepProb 6 ∧ (∀ p ∈ deepProb, p.1.Nodup) ∧ ¬ TreeDims (deepProb.map Prod.fst) ∧
    ∀ A p B, deepProb = A ++ p :: B → ∃ d ∈ p.1, ∀ q ∈ A, d ∉ q.1 := by
  refine ⟨ProbCheck.ok (by decide +kernel), by decide, fun ht => ?_, ?_⟩
  · have := (ht [[0, 1]] [0, 1, 2] [] rfl).2 0 (by simp) 1 (by simp) (by simp) (by simp)
    omega
  intro A p B h
  match A, h with
  | [], h =>
    simp only [deepProb, List.nil_append, List.cons.injEq] at h
    obtain ⟨rfl, -⟩ := h
    exact ⟨0, by simp, by simp⟩
  | [a], h =>
    simp only [deepProb, List.cons_append, List.nil_append, List.cons.injEq] at h
    obtain ⟨rfl, rfl, -⟩ := h
    exact ⟨2, by simp, by simp⟩
  | a :: b :: A, h => simp [deepProb] at h

end HL

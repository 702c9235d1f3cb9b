import Verif.Proof.ProbCheck
import Verif.Proof.QISAdded
import Verif.Props.QIS

/-
Adding attributes to a `qis` problem.
-/

namespace HL
variable {fp : FP}

/-! ### C105 -/

/-- **C105**: let `A` be a problem over dimensions of sizes `s0`, and let further dimensions of sizes `s1` and further marginals
`B` (over old and new dimensions) be added after them. If `qis` returns for the larger problem, it returns for the smaller one
with the same number of skips, and the population of the smaller one is that of the larger one summed over the new dimensions.
If the larger one meets its marginals, so does the smaller one. In any arithmetic. -/
theorem C105_added (hfp : fp.Good) {lm : Libm} {s0 s1 : List Nat} {A B : Prob Int} {pop : Int} (hA : ProbOK s0 A pop)
    (h : ProbOK (s0 ++ s1) (A ++ B) pop) (hpop : pop < 2 ^ 52) {skips : Int} {x : QIS}
    (hx : qis fp lm (s0 ++ s1) (A ++ B) skips = .ok x) :
    ∃ y f, qis fp lm s0 A skips = .ok y ∧ x.micro.array = arr (s0 ++ s1) f ∧
      y.micro.array = arr s0 (fun v => ∑ w ∈ cells s1, f (v ++ w)) ∧ (x.conv = true → y.conv = true) :=
  run_added hfp hA h hpop hx

/-- **C105**: if `qis` meets the marginals of `A`, and the marginals `B` that are added each share at most one dimension with
those before them, then `qis` meets the marginals of the larger problem too, with the same number of skips. -/
theorem C105_attached (hfp : fp.Good) (lm : Libm) {s0 s1 : List Nat} {A B : Prob Int} {pop : Int} (hA : ProbOK s0 A pop)
    (h : ProbOK (s0 ++ s1) (A ++ B) pop) (hpop : pop < 2 ^ 52) (ht : Attached A B) (hd : (s0 ++ s1).length ≤ 1111) {skips : Int} :
    (∃ y, qis fp lm s0 A skips = .ok y ∧ y.conv = true) ↔ ∃ x, qis fp lm (s0 ++ s1) (A ++ B) skips = .ok x ∧ x.conv = true := by
  constructor
  · rintro ⟨y, hy, hc⟩
    exact run_attached hfp lm hA h hpop ht hd hy hc
  · rintro ⟨x, hx, hc⟩
    obtain ⟨y, f, hy, -, -, hyc⟩ := run_added hfp hA h hpop hx
    exact ⟨y, hy, hyc hc⟩

/-- a third dimension with two categories for the problem `exProb`, given as a table with dimension 1 -/
def exMore : Prob Int := [([1, 2], fun j => if j.getD 0 0 = 0 ↔ j.getD 1 0 = 0 then 1 else 0)]

theorem exMore_attached : Attached exProb exMore := by
  intro C p D h
  match C, h with
  | [], h =>
    simp only [exMore, List.nil_append, List.cons.injEq] at h
    obtain ⟨rfl, -⟩ := h
    refine ⟨by decide, ?_⟩
    have key : ∀ d ∈ ([1, 2] : List Nat), (∃ q ∈ exProb ++ [], d ∈ q.1) → d = 1 := by
      intro d hd h1
      simp only [exProb, List.append_nil, List.mem_cons, List.not_mem_nil, or_false, exists_eq_or_imp, exists_eq_left] at h1
      simp at hd
      omega
    exact fun d hd e he h1 h2 => (key d hd h1).trans (key e he h2).symm
  | [a], h => simp [exMore] at h
  | a :: b :: C, h => simp [exMore] at h

/-- The hypotheses are met by `exProb`, with and without the third dimension, for five skips. -/
example (hfp : fp.Good) (lm : Libm) : ProbOK [2, 3] exProb 3 ∧ ProbOK ([2, 3] ++ [2]) (exProb ++ exMore) 3 ∧ Attached exProb exMore ∧
    ∃ x, qis fp lm ([2, 3] ++ [2]) (exProb ++ exMore) 5 = .ok x ∧ x.conv = true := by
  have h : ProbOK ([2, 3] ++ [2]) (exProb ++ exMore) 3 := ProbCheck.ok (by decide +kernel)
  exact ⟨exProb_ok, h, exMore_attached, (C105_attached hfp lm exProb_ok h (by norm_num) exMore_attached (by simp)).mp
    (C23_tree hfp lm exProb_ok (by norm_num) exProb_tree (by simp) (by norm_num) (by norm_num))⟩

end HL

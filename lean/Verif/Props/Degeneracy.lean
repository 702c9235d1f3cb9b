import Verif.Props.Stats
import Verif.Props.QISStateStats

/-
C53, continued: the degeneracy that qis, qisi and qis with state sampling report.
-/

namespace HL

/-- What is computed instead of the documented degeneracy: the factorial of the number of cells over the product of the
factorials of the counts plus one. -/
def computedDegeneracy (s : List Nat) (f : List Int → Int) : ℚ :=
  ((cells s).card.factorial : ℚ) / ∏ v ∈ cells s, (((f v + 1).toNat.factorial : Nat) : ℚ)

theorem degeneracyVal_computed (lm : Libm) (hlm : ∀ n : Nat, lm.tgamma (.fin ((n : ℚ) + 1)) = .fin (n.factorial : ℚ)) {s : List Nat}
    {f : List Int → Int} (hf : ∀ v, InRange s v → 0 ≤ f v) : degeneracyVal FP.exact lm s f = .fin (computedDegeneracy s f) := by
  rw [degeneracy_exact lm hlm hf]
  have : (cells s).card = prodSizes s := by
    unfold cells
    rw [List.toFinset_card_of_nodup (nodup_allIdx s), length_allIdx]
  unfold computedDegeneracy
  rw [this]

/-- **C53**, `qis`: the degeneracy reported with every population is the computed one, not the documented one. -/
theorem C53_negation_qis {lm : Libm} (hlm : ∀ n : Nat, lm.tgamma (.fin ((n : ℚ) + 1)) = .fin (n.factorial : ℚ)) {s : List Nat}
    {P : Prob Int} {pop : Int} (h : ProbOK s P pop) (hpop : pop < 2 ^ 52) {skips : Int} {x : QIS}
    (hx : qis FP.exact lm s P skips = .ok x) :
    ∃ f : List Int → Int, x.micro.array = arr s f ∧ x.degeneracy = .fin (computedDegeneracy s f) := by
  obtain ⟨c, vs, -, -, hs⟩ := run_ok FP.exact_good h hpop hx
  exact ⟨_, by rw [hs.at_.micro], by rw [hs.degeneracy]; exact degeneracyVal_computed lm hlm (fun v _ => by positivity)⟩

/-- **C53**, `qisi`. -/
theorem C53_negation_qisi {lm : Libm} (hlm : ∀ n : Nat, lm.tgamma (.fin ((n : ℚ) + 1)) = .fin (n.factorial : ℚ)) {s : List Nat}
    {P : Prob Int} {pop : Int} (h : ProbOK s P pop) (hpop : pop < 2 ^ 52) (hp : ProperProb s P) {sd : List Int → Fl} {skips : Int}
    {x : QISI} (hx : qisi FP.exact lm s P sd skips = .ok x) :
    ∃ f : List Int → Int, x.micro.array = arr s f ∧ x.degeneracy = .fin (computedDegeneracy s f) := by
  obtain ⟨E, a, vs, hs⟩ := qisi_run_ok FP.exact_good h hpop hp hx
  exact ⟨_, by rw [hs.at_.micro], by rw [hs.degeneracy]; exact degeneracyVal_computed lm hlm (fun v _ => by positivity)⟩

/-- **C53**, `qis` compiled with state sampling. -/
theorem C53_negation_state {lm : Libm} (hlm : ∀ n : Nat, lm.tgamma (.fin ((n : ℚ) + 1)) = .fin (n.factorial : ℚ)) {s : List Nat}
    {P : Prob Int} {pop : Int} (h : ProbOK s P pop) (hpop : pop < 2 ^ 52) (hn : ∀ p ∈ P, p.1.Nodup ∧ p.1.length < s.length)
    {skips : Int} {x : QIS} (hx : qisState FP.exact lm s P skips = .ok x) :
    ∃ f : List Int → Int, x.micro.array = arr s f ∧ x.degeneracy = .fin (computedDegeneracy s f) := by
  obtain ⟨vs, hs⟩ := qisState_solved FP.exact_good signOK_exact h hpop hn hx
  exact ⟨_, hs.array, by rw [hs.degeneracy]; exact degeneracyVal_computed lm hlm (fun v _ => by positivity)⟩

/-- **C53**: whenever there are at least as many individuals as cells, the degeneracy computed is less than the documented
one. -/
theorem C53_negation_less {s : List Nat} (hg : GoodShape s) {f : List Int → Int}
    (hmany : ((cells s).card : Int) ≤ ∑ v ∈ cells s, f v) : computedDegeneracy s f < documentedDegeneracy s f := by
  unfold computedDegeneracy documentedDegeneracy
  have hne : (cells s).Nonempty := by
    obtain ⟨v, hv⟩ := exists_inRange hg.2
    exact ⟨v, mem_cells.mpr hv⟩
  have hfac : ∀ n : Nat, (0 : ℚ) < n.factorial := fun n => by exact_mod_cast n.factorial_pos
  have hlt : ∏ v ∈ cells s, (((f v).toNat.factorial : Nat) : ℚ) < ∏ v ∈ cells s, (((f v + 1).toNat.factorial : Nat) : ℚ) := by
    apply Finset.prod_lt_prod (fun v _ => hfac _)
    · intro v hv
      exact_mod_cast Nat.factorial_le (by omega)
    · have hs : (0 : Int) < ∑ v ∈ cells s, f v := lt_of_lt_of_le (by exact_mod_cast hne.card_pos) hmany
      obtain ⟨v, hv, hp⟩ := Finset.exists_lt_of_sum_lt (f := fun _ => (0 : Int)) (by simpa using hs)
      exact ⟨v, hv, by exact_mod_cast (Nat.factorial_lt (by omega)).mpr (by omega)⟩
  have hle : ((cells s).card.factorial : ℚ) ≤ (∑ v ∈ cells s, f v).toNat.factorial := by
    exact_mod_cast Nat.factorial_le (by omega)
  have h0 : 0 < ∏ v ∈ cells s, (((f v).toNat.factorial : Nat) : ℚ) := Finset.prod_pos fun v _ => hfac _
  calc _ < ((cells s).card.factorial : ℚ) / ∏ v ∈ cells s, (((f v).toNat.factorial : Nat) : ℚ) :=
        div_lt_div_of_pos_left (hfac _) h0 hlt
    _ ≤ _ := by gcongr

/-- The hypotheses are met: six cells, twelve individuals. -/
example : computedDegeneracy [2, 3] (fun _ => 2) < documentedDegeneracy [2, 3] (fun _ => 2) :=
  C53_negation_less ⟨by simp, by simp⟩ (by decide)

/-- a mathematics library whose gamma function is exact on integers -/
def gammaLib : Libm where
  lgamma := id
  tgamma := fun x => match x with
    | .fin q => .fin ((q - 1).num.toNat.factorial : ℚ)
    | y => y
  log := id
  exp := id
  erf := id

theorem gammaLib_exact (n : Nat) : gammaLib.tgamma (.fin ((n : ℚ) + 1)) = .fin (n.factorial : ℚ) := by
  show Fl.fin _ = Fl.fin _
  rw [add_sub_cancel_right]
  rfl

/-- The hypotheses of the statements about runs are met: 14 people, state sampling. -/
example : ∃ x f, qisState FP.exact gammaLib [2, 2, 2, 2] bandProb 0 = .ok x ∧ x.micro.array = arr [2, 2, 2, 2] f ∧
    x.degeneracy = .fin (computedDegeneracy [2, 2, 2, 2] f) := by
  obtain ⟨c, hc, -, h, -⟩ := C86_returns gammaLib bandProb_ok (by norm_num) bandProb_proper (.refl _) bandProb_decomposable (by simp) (skips := 0) le_rfl (by norm_num)
  obtain ⟨x, f, hx, -⟩ := h (by rw [hc (by norm_num)]; norm_num)
  obtain ⟨f, h1, h2⟩ := C53_negation_state gammaLib_exact bandProb_ok (by norm_num) bandProb_proper hx
  exact ⟨x, f, hx, h1, h2⟩

/-- Two people, `qis`. -/
example : ∃ x f, qis FP.exact gammaLib [2, 2] zeroProb 0 = .ok x ∧ x.micro.array = arr [2, 2] f ∧
    x.degeneracy = .fin (computedDegeneracy [2, 2] f) := by
  obtain ⟨x, hx, -⟩ := C23_tree FP.exact_good gammaLib zeroProb_ok (by norm_num) (by exact exProb_tree) (by simp) (skips := 0) (by norm_num) (by norm_num)
  obtain ⟨f, h1, h2⟩ := C53_negation_qis gammaLib_exact zeroProb_ok (by norm_num) hx
  exact ⟨x, f, hx, h1, h2⟩

/-- Six cells, `qisi`. -/
example : ∃ x f, qisi FP.exact gammaLib [2, 3] exProb (fun _ => .fin 1) 0 = .ok x ∧ x.micro.array = arr [2, 3] f ∧
    x.degeneracy = .fin (computedDegeneracy [2, 3] f) := by
  obtain ⟨x, hx, -⟩ := exProb_qisi gammaLib (skips := 0) (by norm_num) (by norm_num)
  obtain ⟨f, h1, h2⟩ := C53_negation_qisi gammaLib_exact exProb_ok (by norm_num) exProb_proper hx
  exact ⟨x, f, hx, h1, h2⟩

end HL

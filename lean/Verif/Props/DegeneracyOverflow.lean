import Verif.Props.Degeneracy
import Mathlib.Data.Nat.Choose.Multinomial

/-
C53, continued: the degeneracy reported for populations with a well-filled cell.
-/

namespace HL
variable {fp : FP}

theorem div_pinf (y : Fl) : fp.div y .pinf = .fin 0 ∨ fp.div y .pinf = .nan := by
  cases y <;> simp [FP.div]

theorem mul_zero_or_nan (hfp : fp.Good) {x : Fl} (hx : x = .fin 0 ∨ x = .nan) (y : Fl) :
    (fp.mul x y = .fin 0 ∨ fp.mul x y = .nan) ∧ (fp.mul y x = .fin 0 ∨ fp.mul y x = .nan) := by
  have h0 := rnd_zero hfp
  rcases hx with rfl | rfl <;> cases y <;> simp [FP.mul, FP.infOfSign, FP.sgn, h0]

theorem degeneracy_stays (hfp : fp.Good) (g : List Int → Fl) : ∀ (l : List (List Int)) (t : Fl × Fl), (t.1 = .fin 0 ∨ t.1 = .nan) →
    ((l.foldl (fun (t : Fl × Fl) v => (fp.mul t.1 (fp.div t.2 (g v)), fp.sub t.2 (.fin 1))) t).1 = .fin 0 ∨
      (l.foldl (fun (t : Fl × Fl) v => (fp.mul t.1 (fp.div t.2 (g v)), fp.sub t.2 (.fin 1))) t).1 = .nan)
  | [], _, h => h
  | _ :: l, _, h => degeneracy_stays hfp g l _ (mul_zero_or_nan hfp h _).1

theorem degeneracy_lost (hfp : fp.Good) (g : List Int → Fl) {v : List Int} (hg : g v = .pinf) : ∀ (l : List (List Int)) (t : Fl × Fl), v ∈ l →
    ((l.foldl (fun (t : Fl × Fl) v => (fp.mul t.1 (fp.div t.2 (g v)), fp.sub t.2 (.fin 1))) t).1 = .fin 0 ∨
      (l.foldl (fun (t : Fl × Fl) v => (fp.mul t.1 (fp.div t.2 (g v)), fp.sub t.2 (.fin 1))) t).1 = .nan)
  | w :: l, t, h => by
    rcases List.mem_cons.mp h with rfl | h
    · refine degeneracy_stays hfp g l _ ?_
      dsimp only
      rw [hg]
      exact (mul_zero_or_nan hfp (div_pinf t.2) t.1).2
    · exact degeneracy_lost hfp g hg l _ h

theorem degeneracyVal_lost (hfp : fp.Good) {lm : Libm} (hlm : ∀ n : Nat, 172 ≤ n → lm.tgamma (.fin n) = .pinf) {s : List Nat}
    {f : List Int → Int} {v : List Int} (hv : InRange s v) (h170 : 170 ≤ f v) (hf : f v < 2 ^ 52) :
    degeneracyVal fp lm s f = .fin 0 ∨ degeneracyVal fp lm s f = .nan := by
  unfold degeneracyVal
  refine degeneracy_lost hfp (fun v => factorial fp lm (f v + 1)) ?_ (allIdx s) _ (mem_allIdx.mpr hv)
  show lm.tgamma (fp.ofInt (f v + 1 + 1)) = _
  rw [ofInt_exact hfp (by rw [abs_of_nonneg (by omega)]; omega)]
  obtain ⟨n, hn⟩ := Int.eq_ofNat_of_zero_le (show 0 ≤ f v + 1 + 1 by omega)
  rw [hn]
  exact hlm n (by omega)

/-- **C53**, overflow, in any arithmetic with `FP.Good`, in particular binary64, and with a gamma function that overflows from
172 on, as that of double precision does: `qis` reports the degeneracy 0 or NaN whenever a cell of the population holds 170
individuals or more.  The documented value is at least 1 (`documentedDegeneracy_ge`). -/
theorem C53_negation_overflow (hfp : fp.Good) {lm : Libm} (hlm : ∀ n : Nat, 172 ≤ n → lm.tgamma (.fin n) = .pinf) {s : List Nat}
    {P : Prob Int} {pop : Int} (h : ProbOK s P pop) (hpop : pop < 2 ^ 52) {skips : Int} {x : QIS}
    (hx : qis fp lm s P skips = .ok x) {f : List Int → Int} (hf : x.micro.array = arr s f) {v : List Int} (hv : InRange s v)
    (h170 : 170 ≤ f v) : x.degeneracy = .fin 0 ∨ x.degeneracy = .nan := by
  obtain ⟨c, vs, -, -, hs⟩ := run_ok hfp h hpop hx
  have e : f v = (vs.count v : Int) := by
    have h1 : arr s f = arr s (fun v => (vs.count v : Int)) := by rw [← hf, hs.at_.micro]
    exact arr_inj h1 v hv
  have hc : (vs.count v : Int) < 2 ^ 52 := by
    have h1 := List.count_le_length (a := v) (l := vs)
    have h2 := hs.size
    omega
  rw [hs.degeneracy]
  exact degeneracyVal_lost hfp hlm hv (by rw [← e]; exact h170) hc

/-- **C53**, overflow, `qisi`. -/
theorem C53_negation_overflow_qisi (hfp : fp.Good) {lm : Libm} (hlm : ∀ n : Nat, 172 ≤ n → lm.tgamma (.fin n) = .pinf) {s : List Nat}
    {P : Prob Int} {pop : Int} (h : ProbOK s P pop) (hpop : pop < 2 ^ 52) (hp : ProperProb s P) {sd : List Int → Fl} {skips : Int}
    {x : QISI} (hx : qisi fp lm s P sd skips = .ok x) {f : List Int → Int} (hf : x.micro.array = arr s f) {v : List Int}
    (hv : InRange s v) (h170 : 170 ≤ f v) : x.degeneracy = .fin 0 ∨ x.degeneracy = .nan := by
  obtain ⟨E, a, vs, hs⟩ := qisi_run_ok hfp h hpop hp hx
  have e : f v = (vs.count v : Int) := by
    have h1 : arr s f = arr s (fun v => (vs.count v : Int)) := by rw [← hf, hs.at_.micro]
    exact arr_inj h1 v hv
  have hc : (vs.count v : Int) < 2 ^ 52 := by
    have h1 := List.count_le_length (a := v) (l := vs)
    have h2 := hs.size
    omega
  rw [hs.degeneracy]
  exact degeneracyVal_lost hfp hlm hv (by rw [← e]; exact h170) hc

/-- The documented value is a number of arrangements, at least 1. -/
theorem documentedDegeneracy_ge {s : List Nat} {f : List Int → Int} (hf : ∀ v, InRange s v → 0 ≤ f v) : 1 ≤ documentedDegeneracy s f := by
  unfold documentedDegeneracy
  have h0 : 0 < ∏ v ∈ cells s, (((f v).toNat.factorial : Nat) : ℚ) :=
    Finset.prod_pos fun v _ => by exact_mod_cast (f v).toNat.factorial_pos
  rw [one_le_div h0]
  have hs : (∑ v ∈ cells s, f v).toNat = ∑ v ∈ cells s, (f v).toNat := by
    have : ((∑ v ∈ cells s, (f v).toNat : Nat) : Int) = ∑ v ∈ cells s, f v := by
      push_cast
      exact Finset.sum_congr rfl fun v hv => Int.toNat_of_nonneg (hf v (mem_cells.mp hv))
    omega
  rw [hs, ← Nat.multinomial_spec]
  push_cast
  exact le_mul_of_one_le_right h0.le (by exact_mod_cast Nat.multinomial_pos _ _)

/-- everybody in the only cell -/
def crowdProb : Prob Int := [([0], fun _ => 170), ([1], fun _ => 170)]

theorem crowdProb_ok : ProbOK [1, 1] crowdProb 170 where
  lists := by decide
  two := by decide
  pos := by decide
  dims := by simp [crowdProb]
  cover := by
    intro d hd
    simp only [List.length_cons, List.length_nil] at hd
    interval_cases d <;> simp [crowdProb]
  nonneg := by
    intro p hp j hj
    simp only [crowdProb, List.mem_cons, List.not_mem_nil, or_false] at hp
    rcases hp with rfl | rfl <;> simp
  total := by
    intro p hp
    simp only [crowdProb, List.mem_cons, List.not_mem_nil, or_false] at hp
    rcases hp with rfl | rfl <;> decide
  partials := by
    intro p hp q hq a b d ha hb x _
    simp only [crowdProb, List.mem_cons, List.not_mem_nil, or_false] at hp hq
    rcases hp with rfl | rfl <;> rcases hq with rfl | rfl
    all_goals
      rw [List.getElem?_singleton] at ha hb
      split at ha <;> split at hb <;> simp_all

/-- a gamma function that overflows -/
def bigGammaLib : Libm := { gammaLib with tgamma := fun x => match x with
    | .fin q => if 172 ≤ q then .pinf else gammaLib.tgamma (.fin q)
    | y => y }

/-- The hypotheses are met: 170 people in one cell, a degeneracy of 0 or NaN, in binary64. -/
example (sqrt : Fl → Fl) : ∃ x, qis (FP.ieee sqrt) bigGammaLib [1, 1] crowdProb 0 = .ok x ∧ (x.degeneracy = .fin 0 ∨ x.degeneracy = .nan) := by
  have hfp := FP.ieee_good sqrt
  obtain ⟨x, hx, -⟩ := C23_tree hfp bigGammaLib crowdProb_ok (by norm_num) (by exact exProb_tree) (by simp) (skips := 0) (by norm_num) (by norm_num)
  obtain ⟨f, h1, -, h2, h3⟩ := C21_population hfp crowdProb_ok (by norm_num) hx
  have hc : cells [1, 1] = {[0, 0]} := by decide
  rw [h3, hc, Finset.sum_singleton] at h2
  refine ⟨x, hx, C53_negation_overflow hfp (fun n hn => ?_) crowdProb_ok (by norm_num) hx h1 (v := [0, 0]) (by decide) h2.ge⟩
  show (if (172 : ℚ) ≤ (n : ℚ) then Fl.pinf else _) = _
  rw [if_pos (by exact_mod_cast hn)]

/-- The same people, `qisi`. -/
example : ∃ x, qisi FP.exact bigGammaLib [1, 1] crowdProb (fun _ => .fin 1) 0 = .ok x ∧ (x.degeneracy = .fin 0 ∨ x.degeneracy = .nan) := by
  have hp : ProperProb [1, 1] crowdProb := by unfold ProperProb crowdProb; decide
  obtain ⟨x, hx, hcv⟩ := C44_disjoint bigGammaLib crowdProb_ok (by norm_num) (by decide) (by decide) (k := 1) (by norm_num) (skips := 0) le_rfl (by norm_num)
  obtain ⟨f, hf, hnn, -, -, hm⟩ := C41_population_conv FP.exact_good crowdProb_ok (by norm_num) hp hx
  have h2 := hm.mp hcv ([0], fun _ => 170) (by simp [crowdProb]) [0] (by decide)
  have hc : (cells [1, 1]).filter (fun v => proj [0] v = [0]) = {[0, 0]} := by decide
  unfold marginalSum at h2
  rw [hc, Finset.sum_singleton] at h2
  refine ⟨x, hx, C53_negation_overflow_qisi FP.exact_good (fun n hn => ?_) crowdProb_ok (by norm_num) hp hx hf (v := [0, 0]) (by decide) h2.ge⟩
  show (if (172 : ℚ) ≤ (n : ℚ) then Fl.pinf else _) = _
  rw [if_pos (by exact_mod_cast hn)]

end HL

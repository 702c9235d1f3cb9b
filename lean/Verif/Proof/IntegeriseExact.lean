import Verif.Proof.IntegeriseRound
import Verif.IntegeriseSpec

namespace HL
namespace Integerise

theorem sqDev_eq (pop : Int) : ∀ (p : List ℚ) (f : List Int), f.length = p.length →
    sqDev pop p f = ∑ i ∈ Finset.range p.length, ((f.getD i 0 : ℚ) - p.getD i 0 * pop) ^ 2
  | [], [], _ => by simp [sqDev]
  | [], _ :: _, h => by simp at h
  | _ :: _, [], h => by simp at h
  | x :: p, k :: f, h => by
    have ih := sqDev_eq pop p f (by simpa using h)
    unfold sqDev at ih ⊢
    rw [List.zipWith_cons_cons, List.sum_cons, List.length_cons, Finset.sum_range_succ', ih, add_comm]
    simp

/-- An integer vector whose remainders differ by at most one is optimal. -/
theorem optimal {pop : Int} {p : List ℚ} {f : List Int} (hl : f.length = p.length)
    (hd : ∀ i j, (p.getD i 0 * pop - f.getD i 0) - (p.getD j 0 * pop - f.getD j 0) ≤ (1 : ℚ)) {g : List Int}
    (hg : g.length = p.length) (hs : g.sum = f.sum) : sqDev pop p f ≤ sqDev pop p g := by
  rw [sqDev_eq pop p f hl, sqDev_eq pop p g hg]
  by_cases hn : p.length = 0
  · simp [hn]
  -- the smallest remainder, plus one half
  obtain ⟨m, hm, hmin⟩ := Finset.exists_min_image (Finset.range p.length) (fun i => p.getD i 0 * pop - (f.getD i 0 : ℚ))
    ⟨0, Finset.mem_range.mpr (by omega)⟩
  set c : ℚ := p.getD m 0 * pop - (f.getD m 0 : ℚ) + 1 / 2 with hc
  have hsum : ∑ i ∈ Finset.range p.length, ((g.getD i 0 : ℚ) - f.getD i 0) = 0 := by
    rw [Finset.sum_sub_distrib]
    have e1 : (g.sum : ℚ) = ∑ i ∈ Finset.range p.length, (g.getD i 0 : ℚ) := by
      rw [sum_getD g, hg]; push_cast; rfl
    have e2 : (f.sum : ℚ) = ∑ i ∈ Finset.range p.length, (f.getD i 0 : ℚ) := by
      rw [sum_getD f, hl]; push_cast; rfl
    rw [← e1, ← e2, hs, sub_self]
  have key : ∀ i ∈ Finset.range p.length,
      0 ≤ ((g.getD i 0 : ℚ) - p.getD i 0 * pop) ^ 2 - ((f.getD i 0 : ℚ) - p.getD i 0 * pop) ^ 2 +
        2 * c * ((g.getD i 0 : ℚ) - f.getD i 0) := by
    intro i hi
    have h1 := hmin i hi
    have h2 := hd i m
    set r : ℚ := p.getD i 0 * pop - (f.getD i 0 : ℚ) with hr
    have e : ((g.getD i 0 : ℚ) - p.getD i 0 * pop) ^ 2 - ((f.getD i 0 : ℚ) - p.getD i 0 * pop) ^ 2 +
        2 * c * ((g.getD i 0 : ℚ) - f.getD i 0) =
        (((g.getD i 0 - f.getD i 0 : Int) : ℚ)) ^ 2 - 2 * (r - c) * ((g.getD i 0 - f.getD i 0 : Int) : ℚ) := by
      push_cast; rw [hr]; ring
    rw [e]
    generalize (g.getD i 0 - f.getD i 0 : Int) = z
    have hs1 : r - c ≤ 1 / 2 := by rw [hc]; linarith
    have hs2 : -(1 / 2) ≤ r - c := by rw [hc]; linarith
    rcases lt_trichotomy z 0 with hz | hz | hz
    · have hz' : (z : ℚ) ≤ -1 := by exact_mod_cast (by omega : z ≤ -1)
      nlinarith
    · subst hz; simp
    · have hz' : (1 : ℚ) ≤ z := by exact_mod_cast hz
      nlinarith
  have := Finset.sum_nonneg key
  rw [Finset.sum_add_distrib, ← Finset.mul_sum, hsum, mul_zero, add_zero, Finset.sum_sub_distrib] at this
  linarith

theorem foldl_sq (sqrt : Fl → Fl) : ∀ (R : List ℚ) (a : ℚ),
    (R.map Fl.fin).foldl (fun acc x => (FP.exactWith sqrt).add acc ((FP.exactWith sqrt).mul x x)) (.fin a) =
      .fin (a + ∑ i ∈ Finset.range R.length, R.getD i 0 ^ 2)
  | [], a => by simp
  | x :: R, a => by
    rw [List.map_cons, List.foldl_cons]
    show (R.map Fl.fin).foldl _ (Fl.fin (a + x * x)) = _
    rw [foldl_sq sqrt R, List.length_cons, Finset.sum_range_succ']
    congr 1
    simp only [List.getD_cons_zero, List.getD_cons_succ]
    ring

/-- Everything about the exact run. -/
theorem exact_spec (sqrt : Fl → Fl) {p : List ℚ} {pop : Int} (hpop0 : 0 ≤ pop) (hpop : pop < 2 ^ 31) (hne : p ≠ [])
    (hp : ∀ x ∈ p, 0 ≤ x) (hle : pop < p.sum * pop + 1) (hlt : p.sum * pop < pop + 1) :
    ∃ f : List Int, marginal (FP.exactWith sqrt) (p.map Fl.fin) pop = .ok (f, sqrt (.fin (sqDev pop p f / p.length))) ∧
      f.length = p.length ∧ (∀ k ∈ f, 0 ≤ k) ∧ f.sum = pop ∧ (∀ i, |(f.getD i 0 : ℚ) - p.getD i 0 * pop| < 1) ∧
      (∀ g : List Int, g.length = p.length → g.sum = pop → sqDev pop p f ≤ sqDev pop p g) ∧
      (∀ i j, p.getD i 0 < p.getD j 0 → f.getD i 0 ≤ f.getD j 0) ∧
      ((∀ x ∈ p, ∃ z : ℤ, x * pop = z) → p.sum = 1 → ∀ i, (f.getD i 0 : ℚ) = p.getD i 0 * pop) := by
  obtain ⟨f, R, h1, h2, h3, h4, h5, h6, h7, h8, h9⟩ := marginal_exact sqrt hpop0 hpop hp hle hlt
  have hd : ∀ i j, (p.getD i 0 * pop - f.getD i 0) - (p.getD j 0 * pop - f.getD j 0) ≤ (1 : ℚ) := by
    intro i j; rw [← h6, ← h6]; exact h8 i j
  refine ⟨f, ?_, h2, h4, h5, ?_, fun g hg hgs => optimal h2 hd hg (by rw [hgs, h5]), ?_, h9⟩
  · show marginal ⟨Fl.fin, sqrt⟩ _ _ = _
    rw [h1]
    congr 2
    unfold rmse
    have hn : ((p.length : ℕ) : ℚ) ≠ 0 := by
      have : p.length ≠ 0 := by simpa using hne
      exact_mod_cast this
    show sqrt ((FP.exactWith sqrt).div ((R.map Fl.fin).foldl (fun acc x => (FP.exactWith sqrt).add acc ((FP.exactWith sqrt).mul x x)) (.fin 0)) (.fin (((R.map Fl.fin).length : Int) : ℚ))) = _
    rw [foldl_sq, List.length_map, h3]
    show sqrt (if (((p.length : Nat) : Int) : ℚ) = 0 then _ else Fl.fin (_ / (((p.length : Nat) : Int) : ℚ))) = _
    rw [Int.cast_natCast, if_neg hn, zero_add, sqDev_eq pop p f h2]
    congr 2
    congr 1
    apply Finset.sum_congr rfl
    intro i _
    rw [h6 i]; ring
  · intro i
    have := h7 i
    rw [h6] at this
    rw [abs_lt]
    constructor <;> linarith
  · intro i j hij
    rcases hpop0.lt_or_eq with hpos | h0
    · have h10 : (0 : ℚ) < pop := by exact_mod_cast hpos
      have h11 := hd j i
      have h12 : p.getD i 0 * (pop : ℚ) < p.getD j 0 * pop := mul_lt_mul_of_pos_right hij h10
      have h13 : (f.getD i 0 : ℚ) < f.getD j 0 + 1 := by linarith
      have : f.getD i 0 < f.getD j 0 + 1 := by exact_mod_cast h13
      omega
    · -- with `pop = 0` all frequencies are zero
      have hz : ∀ k, f.getD k 0 = 0 := by
        intro k
        have := h7 k
        rw [h6, ← h0] at this
        push_cast at this
        have h14 : -1 < -(f.getD k 0 : ℚ) ∧ -(f.getD k 0 : ℚ) < 1 := by
          constructor <;> linarith [this.1, this.2]
        have h15 : (-1 : Int) < -(f.getD k 0) ∧ -(f.getD k 0) < 1 := by exact_mod_cast h14
        omega
      rw [hz, hz]

theorem sum_div (c : ℚ) : ∀ l : List ℚ, (l.map (fun x => x / c)).sum = l.sum / c
  | [] => by simp
  | x :: l => by rw [List.map_cons, List.sum_cons, List.sum_cons, sum_div c l, add_div]

theorem sumVec_exact (sqrt : Fl → Fl) (xs : List ℚ) :
    sumVec (numFl (FP.exactWith sqrt)) (xs.map Fl.fin) = .fin xs.sum := by
  have : ∀ (l : List ℚ) (a : ℚ), (l.map Fl.fin).foldl (FP.exactWith sqrt).add (.fin a) = .fin (a + l.sum) := by
    intro l
    induction l with
    | nil => intro a; simp
    | cons x l ih =>
      intro a
      rw [List.map_cons, List.foldl_cons]
      show (l.map Fl.fin).foldl _ (Fl.fin (a + x)) = _
      rw [ih, List.sum_cons, add_assoc]
  have := this xs 0
  rw [zero_add] at this
  exact this

theorem oneD_exact (sqrt : Fl → Fl) {xs : List ℚ} (hs : xs.sum ≠ 0) {pop : Int} (h0 : 0 ≤ pop) :
    oneD (FP.exactWith sqrt) (xs.map Fl.fin) pop = marginal (FP.exactWith sqrt) ((probs xs).map Fl.fin) pop := by
  unfold oneD
  rw [if_neg (by omega), sumVec_exact]
  congr 1
  unfold probs
  rw [List.map_map, List.map_map]
  apply List.map_congr_left
  intro x _
  show (if xs.sum = 0 then _ else Fl.fin (x / xs.sum)) = _
  rw [if_neg hs]
  rfl

theorem probs_sum {xs : List ℚ} (hs : xs.sum ≠ 0) : (probs xs).sum = 1 := by
  unfold probs; rw [sum_div, div_self hs]

theorem probs_nonneg {xs : List ℚ} (hx : ∀ x ∈ xs, 0 ≤ x) : ∀ x ∈ probs xs, 0 ≤ x := by
  intro x hxm
  obtain ⟨y, hy, rfl⟩ := List.mem_map.mp hxm
  exact div_nonneg (hx y hy) (List.sum_nonneg hx)

/-- `integerise(frac, pop)` in exact arithmetic. -/
theorem oneD_spec (sqrt : Fl → Fl) {xs : List ℚ} {pop : Int} (hpop0 : 0 ≤ pop) (hpop : pop < 2 ^ 31)
    (hx : ∀ x ∈ xs, 0 ≤ x) (hs : 0 < xs.sum) :
    ∃ f : List Int, oneD (FP.exactWith sqrt) (xs.map Fl.fin) pop =
        .ok (f, sqrt (.fin (sqDev pop (probs xs) f / xs.length))) ∧
      f.length = xs.length ∧ (∀ k ∈ f, 0 ≤ k) ∧ f.sum = pop ∧ (∀ i, |(f.getD i 0 : ℚ) - (probs xs).getD i 0 * pop| < 1) ∧
      (∀ g : List Int, g.length = xs.length → g.sum = pop → sqDev pop (probs xs) f ≤ sqDev pop (probs xs) g) ∧
      (∀ i j, (probs xs).getD i 0 < (probs xs).getD j 0 → f.getD i 0 ≤ f.getD j 0) ∧
      ((∀ x ∈ probs xs, ∃ z : ℤ, x * pop = z) → ∀ i, (f.getD i 0 : ℚ) = (probs xs).getD i 0 * pop) := by
  have hl : (probs xs).length = xs.length := by unfold probs; simp
  have hne : probs xs ≠ [] := by
    intro h
    have : xs = [] := by simpa [probs] using h
    rw [this] at hs; simp at hs
  have hp1 := probs_sum hs.ne'
  obtain ⟨f, h1, h2, h3, h4, h5, h6, h7, h8⟩ := exact_spec sqrt hpop0 hpop hne (probs_nonneg hx)
    (by rw [hp1]; linarith) (by rw [hp1]; linarith)
  rw [hl] at h1 h2 h6
  exact ⟨f, by rw [oneD_exact sqrt hs.ne' hpop0]; exact h1, h2, h3, h4, h5, h6, h7, fun h => h8 h hp1⟩

/-- `prob2IntFreq` in exact arithmetic. -/
theorem prob2IntFreq_spec (sqrt : Fl → Fl) {p : List ℚ} {pop : Int} (hpop0 : 0 ≤ pop) (hpop : pop < 2 ^ 31)
    (hp : ∀ x ∈ p, 0 ≤ x) (hs : |p.sum - 1| ≤ 1000 / 2 ^ 52) :
    ∃ f : List Int, prob2IntFreq (FP.exactWith sqrt) (p.map Fl.fin) pop = .ok (f, sqrt (.fin (sqDev pop p f / p.length))) ∧
      f.length = p.length ∧ (∀ k ∈ f, 0 ≤ k) ∧ f.sum = pop ∧ (∀ i, |(f.getD i 0 : ℚ) - p.getD i 0 * pop| < 1) ∧
      (∀ g : List Int, g.length = p.length → g.sum = pop → sqDev pop p f ≤ sqDev pop p g) ∧
      (∀ i j, p.getD i 0 < p.getD j 0 → f.getD i 0 ≤ f.getD j 0) := by
  have hpq : (0 : ℚ) ≤ pop := by exact_mod_cast hpop0
  have hpq1 : (pop : ℚ) ≤ 2 ^ 31 := by exact_mod_cast hpop.le
  obtain ⟨hl, hu⟩ := abs_le.mp hs
  have hne : p ≠ [] := by
    rintro rfl
    simp at hl; norm_num at hl
  have hb : (pop : ℚ) * (1000 / 2 ^ 52) < 1 := by
    calc (pop : ℚ) * (1000 / 2 ^ 52) ≤ 2 ^ 31 * (1000 / 2 ^ 52) := by gcongr
      _ < 1 := by norm_num
  have h1 : (1 - 1000 / 2 ^ 52) * (pop : ℚ) ≤ p.sum * pop := by gcongr; linarith
  have h2 : p.sum * (pop : ℚ) ≤ (1 + 1000 / 2 ^ 52) * pop := by gcongr; linarith
  obtain ⟨f, g1, g2, g3, g4, g5, g6, g7, -⟩ := exact_spec sqrt hpop0 hpop hne hp (by linarith) (by linarith)
  refine ⟨f, ?_, g2, g3, g4, g5, g6, g7⟩
  unfold prob2IntFreq
  have e : (p.map Fl.fin).foldl (FP.exactWith sqrt).add (.fin (-1)) = .fin (-1 + p.sum) := by
    have : ∀ (l : List ℚ) (a : ℚ), (l.map Fl.fin).foldl (FP.exactWith sqrt).add (.fin a) = .fin (a + l.sum) := by
      intro l
      induction l with
      | nil => intro a; simp
      | cons x l ih =>
        intro a
        rw [List.map_cons, List.foldl_cons]
        show (l.map Fl.fin).foldl _ (Fl.fin (a + x)) = _
        rw [ih, List.sum_cons, add_assoc]
    exact this p (-1)
  rw [if_neg (by omega), e, if_neg]
  · exact g1
  · simp only [unityTol, FP.abs, FP.lt, decide_eq_true_eq, not_lt]
    rw [show -1 + p.sum = p.sum - 1 by ring]
    exact hs

end Integerise
end HL

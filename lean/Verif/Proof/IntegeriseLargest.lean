import Verif.Proof.IntegeriseVector
import Verif.Proof.IntegeriseGreedy
import Verif.Proof.Fract
import Verif.LargestSpec

/-
The frequencies `integerise(frac, pop)` returns, in closed form: the method of largest remainders.
-/

namespace HL
namespace Integerise
variable {fp : FP}

theorem ahead_total (y : Nat → ℚ) {i j : Nat} (h : i ≠ j) : Ahead y i j ∨ Ahead y j i := by
  unfold Ahead
  rcases lt_trichotomy (Int.fract (y i)) (Int.fract (y j)) with h1 | h1 | h1
  · exact .inr (.inl h1)
  · rcases Nat.lt_or_gt_of_ne h with h2 | h2
    · exact .inl (.inr ⟨h1.symm, h2⟩)
    · exact .inr (.inr ⟨h1, h2⟩)
  · exact .inl (.inl h1)

theorem ahead_asymm {y : Nat → ℚ} {i j : Nat} (h : Ahead y i j) : ¬ Ahead y j i := by
  rintro (h1 | ⟨h1, h2⟩) <;> rcases h with h3 | ⟨h3, h4⟩
  · exact absurd h1 (not_lt.mpr h3.le)
  · rw [h3] at h1; exact lt_irrefl _ h1
  · rw [h1] at h3; exact lt_irrefl _ h3
  · omega

theorem ahead_irrefl (y : Nat → ℚ) (i : Nat) : ¬ Ahead y i i := fun h => ahead_asymm h h

/-- whether `i` is one of the first `k` of `n` -/
def among (y : Nat → ℚ) (n k i : Nat) : Bool := decide (((Finset.range n).filter (fun j => Ahead y j i)).card < k)

/-- Serving `k` of them in that order serves the first `k`. -/
theorem among_iff {y : Nat → ℚ} {n k : Nat} {B : Finset Nat} (hB : B ⊆ Finset.range n) (hk : B.card = k)
    (ho : ∀ i ∈ B, ∀ j < n, j ∉ B → Ahead y i j) {i : Nat} (hi : i < n) : i ∈ B ↔ among y n k i = true := by
  unfold among
  rw [decide_eq_true_iff]
  constructor
  · intro h
    have hsub : (Finset.range n).filter (fun j => Ahead y j i) ⊆ B.erase i := by
      intro j hj
      obtain ⟨h1, h2⟩ := Finset.mem_filter.mp hj
      rw [Finset.mem_erase]
      refine ⟨fun he => ahead_irrefl y i (he ▸ h2), ?_⟩
      by_contra hn
      exact ahead_asymm h2 (ho i h j (Finset.mem_range.mp h1) hn)
    have h1 := Finset.card_le_card hsub
    have h2 : (B.erase i).card + 1 = B.card := Finset.card_erase_add_one h
    omega
  · intro h
    by_contra hn
    have hsub : B ⊆ (Finset.range n).filter (fun j => Ahead y j i) := by
      intro j hj
      exact Finset.mem_filter.mpr ⟨hB hj, ho j hj i hi hn⟩
    have := Finset.card_le_card hsub
    omega

theorem floor_sum (ys : List ℚ) : (ys.map Int.floor).sum = ∑ j ∈ Finset.range ys.length, ⌊ys.getD j 0⌋ := by
  rw [sum_getD, List.length_map]
  refine Finset.sum_congr rfl (fun i hi => ?_)
  have hi := Finset.mem_range.mp hi
  rw [List.getD_eq_getElem _ _ (by simpa using hi), List.getD_eq_getElem _ _ hi, List.getElem_map]

theorem getD_scale (p : List ℚ) (c : ℚ) (i : Nat) : (p.map (fun x => x * c)).getD i 0 = p.getD i 0 * c := by
  have := List.getD_map (n := i) p (0 : ℚ) (fun x : ℚ => x * c)
  rw [zero_mul] at this
  exact this

theorem length_largest (ys : List ℚ) (pop : Int) : (largest ys pop).length = ys.length := by simp [largest]

theorem largest_at {ys : List ℚ} {pop : Int} {i : Nat} (hi : i < ys.length) : (largest ys pop).getD i 0 = ⌊ys.getD i 0⌋ +
    if (((Finset.range ys.length).filter (fun j => Ahead (fun k => ys.getD k 0) j i)).card : Int) < pop - (ys.map Int.floor).sum then 1 else 0 := by
  rw [List.getD_eq_getElem _ _ (by rw [length_largest]; exact hi)]
  simp only [largest, List.getElem_map, List.getElem_range]

/-- The run serves those with the largest remainders first: `Y` are the products it computes. -/
theorem marginal_largest (hfp : fp.Good) (hfine : Fine fp) {p : List ℚ} {pop : Int} (hpop0 : 0 ≤ pop) (hpop : pop < 2 ^ 31)
    {Y : ℚ → ℚ} (hY : ∀ x ∈ p, fp.mul (.fin x) (fp.ofInt pop) = .fin (Y x) ∧ 0 ≤ Y x)
    (hle : pop < (p.map Y).sum + 1) (hlt : (p.map Y).sum < pop + 1) :
    ∃ E, marginal fp (p.map Fl.fin) pop = .ok (largest (p.map Y) pop, E) := by
  have hpq : (0 : ℚ) ≤ pop := by exact_mod_cast hpop0
  have hpq1 : (pop : ℚ) + 1 ≤ 2 ^ 31 := by exact_mod_cast hpop
  have hY0 : ∀ y ∈ p.map Y, 0 ≤ y := by
    intro y hy
    obtain ⟨x, hx, rfl⟩ := List.mem_map.mp hy
    exact (hY x hx).2
  have hYle : ∀ x ∈ p, Y x < pop + 1 := by
    intro x hx
    have := List.single_le_sum hY0 _ (List.mem_map_of_mem hx)
    linarith
  have hfixed : ∀ x ∈ p, fp.rnd (Y x) = .fin (Y x) := by
    intro x hx
    have h1 := (hY x hx).1
    have e1 : fp.ofInt pop = .fin (pop : ℚ) := rnd_int hfp (by rw [abs_of_nonneg hpop0]; omega)
    rw [e1] at h1
    exact hfp.idem _ _ h1
  have hrem : ∀ x ∈ p, fp.sub (.fin (Y x)) (fp.ofInt ⌊Y x⌋) = .fin (Int.fract (Y x)) := by
    intro x hx
    have f0 : 0 ≤ ⌊Y x⌋ := Int.floor_nonneg.mpr (hY x hx).2
    have f1 : ⌊Y x⌋ < 2 ^ 31 := by
      rw [Int.floor_lt]; push_cast; linarith [hYle x hx]
    have e1 : fp.ofInt ⌊Y x⌋ = .fin (⌊Y x⌋ : ℚ) := rnd_int hfp (by rw [abs_of_nonneg f0]; omega)
    rw [e1]
    show fp.rnd (Y x + -(⌊Y x⌋ : ℚ)) = _
    rw [← sub_eq_add_neg]
    exact hfine.fract _ (hfixed x hx) (hY x hx).2
  have hfl : (p.map (fun x => ⌊Y x⌋)).sum ≤ pop := by
    have h1 : ∀ l : List ℚ, ((l.map (fun x => ⌊Y x⌋)).sum : ℚ) ≤ (l.map Y).sum := by
      intro l
      induction l with
      | nil => simp
      | cons x l ih =>
        simp only [List.map_cons, List.sum_cons]
        rw [Int.cast_add]
        linarith [Int.floor_le (Y x)]
    have h2 : ((p.map (fun x => ⌊Y x⌋)).sum : ℚ) < ((pop + 1 : Int) : ℚ) := by
      rw [Int.cast_add, Int.cast_one]
      exact lt_of_le_of_lt (h1 p) hlt
    have h3 : (p.map (fun x => ⌊Y x⌋)).sum < pop + 1 := by exact_mod_cast h2
    omega
  let g : Fl → Int := fun x => match x with
    | .fin q => ⌊Y q⌋
    | _ => 0
  have hg : (p.map Fl.fin).map g = p.map (fun x => ⌊Y x⌋) := by rw [List.map_map]; rfl
  have hgd : ∀ {α : Type} (F : ℚ → α) (d : α) (i : Nat), i < p.length → (p.map F).getD i d = F (p.getD i 0) := by
    intro α F d i hi
    rw [List.getD_eq_getElem _ _ (by simpa using hi), List.getElem_map, List.getD_eq_getElem _ _ hi]
  have hmem : ∀ i < p.length, p.getD i 0 ∈ p := fun i hi => by
    rw [List.getD_eq_getElem _ _ hi]; exact List.getElem_mem _
  have hne : p.map Fl.fin ≠ [] ∨ pop = 0 := by
    by_cases h : p = []
    · right
      subst h
      have : (pop : ℚ) < 1 := by simpa using hle
      have : pop < 1 := by exact_mod_cast this
      omega
    · left; simpa using h
  set y : Nat → ℚ := fun j => (p.map Y).getD j 0 with hy
  have hyY : ∀ i < p.length, y i = Y (p.getD i 0) := fun i hi => hgd Y 0 i hi
  have hysum : (p.map Y).sum = ∑ i ∈ Finset.range p.length, y i := by
    rw [sum_getD, List.length_map]
  obtain ⟨f, r, h1, h2, h3, h4, h5, R, B, -, b1, b2, b3, b3', b4⟩ := marginal_inv fp (p := p.map Fl.fin) (g := g)
    hpop (by
      intro x hx
      obtain ⟨q, hq, rfl⟩ := List.mem_map.mp hx
      rw [(hY q hq).1]
      exact toInt32_nonneg (hY q hq).2 (by linarith [hYle q hq]))
    (by
      intro x hx
      obtain ⟨q, hq, rfl⟩ := List.mem_map.mp hx
      exact Int.floor_nonneg.mpr (hY q hq).2)
    (by rw [hg]; exact hfl) hne
    (fun f r => ∃ (R : List ℚ) (B : Finset Nat), r = R.map Fl.fin ∧ B ⊆ Finset.range p.length ∧
      (∀ i < p.length, f.getD i 0 = ⌊y i⌋ + if i ∈ B then 1 else 0) ∧
      (∀ i < p.length, i ∉ B → R.getD i 0 = Int.fract (y i)) ∧ (∀ i ∈ B, R.getD i 0 < 0) ∧
      (∀ i ∈ B, ∀ j < p.length, j ∉ B → Ahead y i j))
    (by
      refine ⟨p.map (fun x => Int.fract (Y x)), ∅, ?_, by simp, ?_, ?_, by simp, by simp⟩
      · rw [List.map_map, List.map_map]
        apply List.map_congr_left
        intro x hx
        show fp.sub (fp.mul (.fin x) (fp.ofInt pop)) (fp.ofInt ⌊Y x⌋) = .fin (Int.fract (Y x))
        rw [(hY x hx).1]
        exact hrem x hx
      · intro i hi
        rw [hg, hgd _ 0 i hi, hyY i hi]
        simp
      · intro i hi _
        rw [hgd _ 0 i hi, hyY i hi])
    (by
      rintro f r ⟨R, B, rfl, j0, j1, j2, j2', j3⟩ lf lr hf0 hfs
      rw [List.length_map] at lf
      rw [List.length_map, List.length_map] at lr
      have hRne : R ≠ [] := by
        rintro rfl
        have hp0 : p = [] := List.length_eq_zero_iff.mp (by simpa using lr.symm)
        have : f = [] := List.length_eq_zero_iff.mp (by rw [lf, hp0]; rfl)
        subst this; subst hp0
        have : (pop : ℚ) < 1 := by simpa using hle
        have : pop < 1 := by exact_mod_cast this
        simp at hfs
        omega
      have hmr := maxElement_lt (r := R.map Fl.fin) (by simpa using hRne)
      rw [List.length_map] at hmr
      obtain ⟨hmax, hfirst⟩ := maxElement_max R hRne
      set m := maxElement (R.map Fl.fin) with hm
      have hmf : m < f.length := by omega
      have hmp : m < p.length := by omega
      have hget : (R.map Fl.fin).getD m (.fin 0) = .fin (R.getD m 0) := List.getD_map (f := Fl.fin) (l := R) (d := 0)
      -- somebody has not been served
      have hex : ∃ j < p.length, j ∉ B := by
        by_contra hc
        push Not at hc
        have h1 : (f.sum : ℚ) = ∑ i ∈ Finset.range p.length, ((⌊y i⌋ : ℚ) + 1) := by
          rw [sum_getD f, lf]
          push_cast
          refine Finset.sum_congr rfl (fun i hi => ?_)
          have hi := Finset.mem_range.mp hi
          rw [j1 i hi, if_pos (hc i hi)]
          push_cast
          rfl
        have h2 : (p.map Y).sum ≤ f.sum := by
          rw [h1, hysum]
          exact Finset.sum_le_sum (fun i _ => (Int.lt_floor_add_one (y i)).le)
        have h3 : (f.sum : ℚ) + 1 ≤ pop := by exact_mod_cast hfs
        linarith
      have hmB : m ∉ B := by
        intro h
        obtain ⟨j, hj, hjB⟩ := hex
        have h1 := hmax j (by omega)
        rw [j2 j hj hjB] at h1
        have := j2' m h
        have := Int.fract_nonneg (y j)
        linarith
      have hRm := j2 m hmp hmB
      obtain ⟨c, hc, hc0⟩ := hfine.below (Int.fract (y m)) (by
          rw [hyY m hmp]
          exact hfine.fract _ (hfixed _ (hmem m hmp)) (hY _ (hmem m hmp)).2) (Int.fract_nonneg _) (Int.fract_lt_one _)
      refine ⟨R.set m c, insert m B, ?_, ?_, ?_, ?_, ?_, ?_⟩
      · rw [List.map_set, hget, hRm]
        congr 1
        show fp.rnd (Int.fract (y m) + -1) = _
        rw [← sub_eq_add_neg]
        exact hc
      · intro i hi
        rcases Finset.mem_insert.mp hi with rfl | hi
        · exact Finset.mem_range.mpr hmp
        · exact j0 hi
      · intro i hi
        by_cases h : m = i
        · subst h
          rw [getD_set_self hmf, j1 m hmp, if_neg hmB, if_pos (by simp)]
          ring
        · rw [getD_set_ne h, j1 i hi]
          simp [Ne.symm h]
      · intro i hi hiB
        rw [Finset.mem_insert, not_or] at hiB
        rw [getD_set_ne (Ne.symm hiB.1)]
        exact j2 i hi hiB.2
      · intro i hi
        by_cases h : m = i
        · subst h
          rw [getD_set_self hmr]
          exact hc0
        · rw [getD_set_ne h]
          rcases Finset.mem_insert.mp hi with hi | hi
          · exact absurd hi.symm h
          · exact j2' i hi
      · intro i hi j hj hjB
        rw [Finset.mem_insert, not_or] at hjB
        rcases Finset.mem_insert.mp hi with rfl | hi
        · have e2 := j2 j hj hjB.2
          have h1 := hmax j (by omega)
          rw [hRm, e2] at h1
          rcases lt_or_eq_of_le h1 with h1 | h1
          · exact .inl h1
          · refine .inr ⟨h1, ?_⟩
            rcases Nat.lt_or_ge j m with h2 | h2
            · have := hfirst j h2
              rw [hRm, e2, h1] at this
              exact absurd this (lt_irrefl _)
            · omega
        · exact j3 i hi j hj hjB.2)
  rw [List.length_map] at h2
  refine ⟨rmse fp r, h1.trans ?_⟩
  congr 2
  have hcard : (B.card : Int) = pop - ((p.map Y).map Int.floor).sum := by
    have : f.sum = ∑ j ∈ Finset.range p.length, ⌊y j⌋ + B.card := by
      rw [sum_getD f, h2, Finset.sum_congr rfl (fun i hi => b2 i (Finset.mem_range.mp hi)), Finset.sum_add_distrib,
        Finset.sum_ite_mem, Finset.inter_eq_right.mpr b1]
      simp
    rw [floor_sum, List.length_map]
    show (B.card : Int) = pop - ∑ j ∈ Finset.range p.length, ⌊y j⌋
    omega
  apply List.ext_getElem
  · rw [h2, length_largest, List.length_map]
  · intro i hi hi'
    have hi2 : i < p.length := by omega
    have h6 := b2 i hi2
    rw [List.getD_eq_getElem _ _ hi] at h6
    have hl := largest_at (ys := p.map Y) (pop := pop) (i := i) (by simpa using hi2)
    rw [List.getD_eq_getElem _ _ hi'] at hl
    rw [h6, hl, List.length_map, ← hcard]
    have h7 := among_iff b1 rfl b4 hi2
    unfold among at h7
    rw [decide_eq_true_iff] at h7
    simp only [Nat.cast_lt]
    show ⌊y i⌋ + _ = ⌊y i⌋ + _
    congr 1
    by_cases h : i ∈ B
    · rw [if_pos h, if_pos (h7.mp h)]
    · rw [if_neg h, if_neg (fun h' => h (h7.mpr h'))]

theorem exactWith_good (sqrt : Fl → Fl) : (FP.exactWith sqrt).Good :=
  ⟨FP.exact_good.dyadic, FP.exact_good.mono, FP.exact_good.idem, FP.exact_good.near, FP.exact_good.finite⟩

theorem marginal_is_largest (sqrt : Fl → Fl) {p : List ℚ} {pop : Int} (hpop0 : 0 ≤ pop) (hpop : pop < 2 ^ 31)
    (hp : ∀ x ∈ p, 0 ≤ x) (hle : pop < p.sum * pop + 1) (hlt : p.sum * pop < pop + 1) :
    ∃ E : Fl, marginal (FP.exactWith sqrt) (p.map Fl.fin) pop = .ok (largest (p.map (fun x => x * pop)) pop, E) := by
  have hsum : (p.map (fun x => x * (pop : ℚ))).sum = p.sum * pop := by
    have := List.sum_map_mul_right p id (pop : ℚ)
    simpa using this
  exact marginal_largest (exactWith_good sqrt) (fine_exact sqrt) hpop0 hpop
    (fun x hx => ⟨rfl, mul_nonneg (hp x hx) (by exact_mod_cast hpop0)⟩) (by rw [hsum]; exact hle) (by rw [hsum]; exact hlt)

end Integerise
end HL

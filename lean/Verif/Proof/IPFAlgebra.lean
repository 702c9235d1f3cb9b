import Verif.Proof.IPFExact
import Mathlib.Algebra.BigOperators.Fin
import Mathlib.Algebra.BigOperators.Ring.Finset
import Mathlib.Algebra.Order.BigOperators.Group.Finset
import Mathlib.Tactic.LinearCombination

namespace HL
open Micro
variable {α : Type}

/-! ### Dependence on the cells only -/

theorem marginalSum_congr {γ : Type} [AddCommMonoid γ] {s ds : List Nat} {b c : List Int → γ}
    (h : ∀ v, InRange s v → b v = c v) (j : List Int) : marginalSum s ds b j = marginalSum s ds c j := by
  unfold marginalSum
  apply Finset.sum_congr rfl
  intro v hv
  exact h v (mem_cells.mp (Finset.mem_filter.mp hv).1)

theorem qscaled_congr {s ds : List Nat} {m : List Int → ℚ} {b c : List Int → ℚ}
    (h : ∀ v, InRange s v → b v = c v) : ∀ v, InRange s v → qscaled s ds m b v = qscaled s ds m c v := by
  intro v hv
  unfold qscaled
  rw [marginalSum_congr h, h v hv]

theorem qsweep_congr {s : List Nat} : ∀ (Q : Prob ℚ) {b c : List Int → ℚ}
    (_ : ∀ v, InRange s v → b v = c v), ∀ v, InRange s v → qsweep s Q b v = qsweep s Q c v
  | [], _, _, h => h
  | q :: Q, _, _, h => qsweep_congr Q (b := qscaled s q.1 q.2 _) (c := qscaled s q.1 q.2 _) (qscaled_congr h)

theorem qmax_congr {s : List Nat} (Q : Prob ℚ) {b c : List Int → ℚ} (h : ∀ v, InRange s v → b v = c v) :
    qmax s Q b = qmax s Q c := by
  unfold qmax qdevs
  simp only [marginalSum_congr h]

theorem fsum_congr (fp : FP) {s ds : List Nat} {a a' : List Int → Fl} (h : ∀ v, InRange s v → a v = a' v)
    (j : List Int) : fsum fp s ds a j = fsum fp s ds a' j := by
  unfold fsum
  have : ∀ (l : List (List Int)) (c : Fl), (∀ v ∈ l, InRange s v) →
      l.foldl (fun acc v => fp.add acc (a v)) c = l.foldl (fun acc v => fp.add acc (a' v)) c := by
    intro l
    induction l with
    | nil => intro c _; rfl
    | cons v l ih =>
      intro c hl
      rw [List.foldl_cons, List.foldl_cons, h v (hl v (by simp))]
      exact ih _ (fun w hw => hl w (by simp [hw]))
  exact this _ _ (fun v hv => mem_allIdx.mp (List.mem_of_mem_filter hv))

theorem scaled_congr (fp : FP) (N : Num α) {s ds : List Nat} {m : List Int → α} {a a' : List Int → Fl}
    (h : ∀ v, InRange s v → a v = a' v) : ∀ v, InRange s v → scaled fp N s ds m a v = scaled fp N s ds m a' v := by
  intro v hv
  unfold scaled
  rw [fsum_congr fp h, h v hv]

theorem sweep_congr (fp : FP) (N : Num α) {s : List Nat} : ∀ (P : Prob α) {a a' : List Int → Fl}
    (_ : ∀ v, InRange s v → a v = a' v), ∀ v, InRange s v → sweep fp N s P a v = sweep fp N s P a' v
  | [], _, _, h => h
  | p :: P, _, _, h => sweep_congr fp N P (a := scaled fp N s p.1 p.2 _) (a' := scaled fp N s p.1 p.2 _)
      (scaled_congr fp N h)

theorem maxDev_congr (fp : FP) (N : Num α) {s : List Nat} (P : Prob α) {a a' : List Int → Fl}
    (h : ∀ v, InRange s v → a v = a' v) (mx : Fl) : maxDev fp N s P a mx = maxDev fp N s P a' mx := by
  unfold maxDev dev
  simp only [fsum_congr fp h]

theorem ipfState_congr (fp : FP) (N : Num α) {s : List Nat} (P : Prob α) (pop : Int) {a a' : List Int → Fl}
    (h : ∀ v, InRange s v → a v = a' v) (n : Nat) : ipfState fp N s P pop a n = ipfState fp N s P pop a' n := by
  have hd : dev fp N s a = dev fp N s a' := by
    funext p j; unfold dev; rw [fsum_congr fp h]
  unfold ipfState
  rw [maxDev_congr fp N P h, arr_congr h, hd]

/-- two solves that agree after the first sweep agree altogether -/
theorem ipf_solve_congr (fp : FP) (N : Num α) {s : List Nat} {P : Prob α} (h : ProbShape s P) (hp : ProperProb s P)
    {pop : Int} {x x' : IPF α} (hx : IPFObj s P pop x) (hx' : IPFObj s P pop x') {a a' : List Int → Fl}
    (ha : ∀ v, InRange s v → sweep fp N s P a v = sweep fp N s P a' v) :
    IPF.solve false fp N x (arr s a) = IPF.solve false fp N x' (arr s a') := by
  have hit : ∀ n, 1 ≤ n → ∀ v, InRange s v → (sweep fp N s P)^[n] a v = (sweep fp N s P)^[n] a' v := by
    intro n hn
    induction n with
    | zero => omega
    | succ n ih =>
      by_cases h0 : n = 0
      · subst h0; exact ha
      · rw [Function.iterate_succ_apply', Function.iterate_succ_apply']
        exact sweep_congr fp N P (ih (by omega))
  have hc : ∀ n, 1 ≤ n → (convAt fp N s P ((sweep fp N s P)^[n] a) ↔ convAt fp N s P ((sweep fp N s P)^[n] a')) := by
    intro n hn
    unfold convAt
    rw [maxDev_congr fp N P (hit n hn)]
  obtain ⟨n, h1, h2, h3, h4, h5⟩ := ipf_solve fp N h hp hx a
  obtain ⟨n', h1', h2', h3', h4', h5'⟩ := ipf_solve fp N h hp hx' a'
  have hn : n = n' := by
    rcases Nat.lt_trichotomy n n' with hlt | he | hlt
    · rcases h3 with h3 | h3
      · exact absurd ((hc n h1).mp h3) (h4' n h1 hlt)
      · omega
    · exact he
    · rcases h3' with h3' | h3'
      · exact absurd ((hc n' h1').mpr h3') (h4 n' h1' hlt)
      · omega
  subst hn
  rw [h5, h5', ipfState_congr fp N P pop (hit n h1)]

/-! ### Zeros and signs -/

theorem qscaled_zero {s ds : List Nat} {m b : List Int → ℚ} {v : List Int} (h : b v = 0) :
    qscaled s ds m b v = 0 := by
  unfold qscaled; rw [h]; simp

theorem qsweep_zero {s : List Nat} : ∀ (Q : Prob ℚ) {b : List Int → ℚ} {v : List Int}, b v = 0 → qsweep s Q b v = 0
  | [], _, _, h => h
  | q :: Q, b, v, h => qsweep_zero Q (b := qscaled s q.1 q.2 b) (qscaled_zero h)

theorem marginalSum_nonneg {s ds : List Nat} {b : List Int → ℚ} (h : ∀ v, InRange s v → 0 ≤ b v) (j : List Int) :
    0 ≤ marginalSum s ds b j :=
  Finset.sum_nonneg (fun v hv => h v (mem_cells.mp (Finset.mem_filter.mp hv).1))

theorem qscaled_nonneg {s ds : List Nat} (hd : ∀ d ∈ ds, d < s.length) {m b : List Int → ℚ}
    (hm : ∀ j, InRange (projSizes ds s) j → 0 ≤ m j) (h : ∀ v, InRange s v → 0 ≤ b v) :
    ∀ v, InRange s v → 0 ≤ qscaled s ds m b v := by
  intro v hv
  unfold qscaled
  split
  · exact le_rfl
  · exact mul_nonneg (h v hv) (div_nonneg (hm _ (inRange_proj hd hv)) (marginalSum_nonneg h _))

theorem qsweep_nonneg {s : List Nat} : ∀ (Q : Prob ℚ), (∀ q ∈ Q, ∀ d ∈ q.1, d < s.length) →
    (∀ q ∈ Q, ∀ j, InRange (projSizes q.1 s) j → 0 ≤ q.2 j) → ∀ {b : List Int → ℚ}, (∀ v, InRange s v → 0 ≤ b v) →
    ∀ v, InRange s v → 0 ≤ qsweep s Q b v
  | [], _, _, _, h => h
  | q :: Q, hd, hm, b, h => qsweep_nonneg Q (fun q' hq' => hd q' (by simp [hq'])) (fun q' hq' => hm q' (by simp [hq']))
      (qscaled_nonneg (hd q (by simp)) (hm q (by simp)) h)

/-! ### Factorisation -/

/-- `c` is `b` times one factor per marginal of `Q`, each depending on that marginal's dimensions only -/
def Factored (s : List Nat) (Q : Prob ℚ) (b c : List Int → ℚ) : Prop :=
  ∃ F : Fin Q.length → List Int → ℚ, ∀ v, InRange s v → c v = b v * ∏ k, F k (proj Q[k].1 v)

theorem Factored.refl (s : List Nat) (Q : Prob ℚ) (b : List Int → ℚ) : Factored s Q b b :=
  ⟨fun _ _ => 1, fun v _ => by simp⟩

theorem Factored.trans {s : List Nat} {Q : Prob ℚ} {b c d : List Int → ℚ} (h1 : Factored s Q b c)
    (h2 : Factored s Q c d) : Factored s Q b d := by
  obtain ⟨F, hF⟩ := h1
  obtain ⟨G, hG⟩ := h2
  refine ⟨fun k j => F k j * G k j, fun v hv => ?_⟩
  rw [hG v hv, hF v hv, Finset.prod_mul_distrib, mul_assoc]

theorem factored_qscaled {s : List Nat} {Q : Prob ℚ} {q : List Nat × (List Int → ℚ)} (hq : q ∈ Q)
    (b : List Int → ℚ) : Factored s Q b (qscaled s q.1 q.2 b) := by
  obtain ⟨k, hk, hke⟩ := List.mem_iff_getElem.mp hq
  let g : List Int → ℚ := fun j => if marginalSum s q.1 b j = 0 then 0 else q.2 j / marginalSum s q.1 b j
  refine ⟨fun i => if i = ⟨k, hk⟩ then g else fun _ => 1, fun v _ => ?_⟩
  rw [Finset.prod_eq_single (⟨k, hk⟩ : Fin Q.length)]
  · simp only [if_true, Fin.getElem_fin, hke, g]
    unfold qscaled
    split <;> simp
  · intro i _ hi; simp [hi]
  · simp

theorem factored_fold {s : List Nat} {Q : Prob ℚ} : ∀ (L : Prob ℚ), (∀ q ∈ L, q ∈ Q) → ∀ b : List Int → ℚ,
    Factored s Q b (qsweep s L b)
  | [], _, b => Factored.refl s Q b
  | q :: L, h, b => (factored_qscaled (h q (by simp)) b).trans (factored_fold L (fun q' hq' => h q' (by simp [hq'])) _)

theorem factored_iterate {s : List Nat} {Q : Prob ℚ} (b : List Int → ℚ) (n : Nat) :
    Factored s Q b ((qsweep s Q)^[n] b) := by
  induction n with
  | zero => exact Factored.refl s Q b
  | succ n ih =>
    rw [Function.iterate_succ_apply']
    exact ih.trans (factored_fold Q (fun _ h => h) _)

theorem proj_set_of_not_mem {ds : List Nat} {d : Nat} (h : d ∉ ds) (v : List Int) (x : Int) :
    proj ds (v.set d x) = proj ds v := by
  unfold proj
  apply List.map_congr_left
  intro e he
  have : e ≠ d := fun hc => h (hc ▸ he)
  simp [List.getD_eq_getElem?_getD, List.getElem?_set_ne (Ne.symm this)]

/-- odds ratios across two dimensions no marginal has in common -/
theorem Factored.odds {s : List Nat} {Q : Prob ℚ} {b c : List Int → ℚ} (h : Factored s Q b c) {d e : Nat}
    (hde : ∀ q ∈ Q, d ∉ q.1 ∨ e ∉ q.1) (v : List Int) (i i' j j' : Int) (hne : d ≠ e)
    (h11 : InRange s ((v.set d i).set e j)) (h12 : InRange s ((v.set d i).set e j'))
    (h21 : InRange s ((v.set d i').set e j)) (h22 : InRange s ((v.set d i').set e j')) :
    c ((v.set d i).set e j) * c ((v.set d i').set e j') * (b ((v.set d i).set e j') * b ((v.set d i').set e j)) =
    c ((v.set d i).set e j') * c ((v.set d i').set e j) * (b ((v.set d i).set e j) * b ((v.set d i').set e j')) := by
  obtain ⟨F, hF⟩ := h
  rw [hF _ h11, hF _ h12, hF _ h21, hF _ h22]
  have key : (∏ k, F k (proj Q[k].1 ((v.set d i).set e j))) * ∏ k, F k (proj Q[k].1 ((v.set d i').set e j')) =
      (∏ k, F k (proj Q[k].1 ((v.set d i).set e j'))) * ∏ k, F k (proj Q[k].1 ((v.set d i').set e j)) := by
    rw [← Finset.prod_mul_distrib, ← Finset.prod_mul_distrib]
    apply Finset.prod_congr rfl
    intro k _
    rcases hde Q[k] (List.getElem_mem _) with hk | hk
    · have e1 : ∀ x y, proj Q[k].1 ((v.set d x).set e y) = proj Q[k].1 (v.set e y) := by
        intro x y
        rw [List.set_comm _ _ hne, proj_set_of_not_mem hk]
      simp only [e1]
      ring
    · simp only [proj_set_of_not_mem hk]
  linear_combination (b ((v.set d i).set e j) * b ((v.set d i').set e j') * (b ((v.set d i).set e j') * b ((v.set d i').set e j))) * key

/-! ### Fixed points and scale -/

theorem qscaled_fixed {s ds : List Nat} {m b : List Int → ℚ} (hd : ∀ d ∈ ds, d < s.length)
    (hb : ∀ v, InRange s v → 0 ≤ b v) (hm : ∀ j, InRange (projSizes ds s) j → marginalSum s ds b j = m j) :
    ∀ v, InRange s v → qscaled s ds m b v = b v := by
  intro v hv
  unfold qscaled
  have hmj := hm _ (inRange_proj hd hv)
  split
  · rename_i h0
    have := (Finset.sum_eq_zero_iff_of_nonneg (s := (cells s).filter (fun w => proj ds w = proj ds v)) (f := b)
      (fun w hw => hb w (mem_cells.mp (Finset.mem_filter.mp hw).1))).mp h0 v
      (Finset.mem_filter.mpr ⟨mem_cells.mpr hv, rfl⟩)
    exact this.symm
  · rename_i h0
    rw [← hmj, div_self h0, mul_one]

theorem qsweep_fixed {s : List Nat} : ∀ (Q : Prob ℚ) {b : List Int → ℚ}, (∀ q ∈ Q, ∀ d ∈ q.1, d < s.length) →
    (∀ v, InRange s v → 0 ≤ b v) →
    (∀ q ∈ Q, ∀ j, InRange (projSizes q.1 s) j → marginalSum s q.1 b j = q.2 j) →
    ∀ v, InRange s v → qsweep s Q b v = b v
  | [], _, _, _, _ => fun _ _ => rfl
  | q :: Q, b, hd, hb, hm => by
    intro v hv
    have h1 := qscaled_fixed (hd q (by simp)) hb (hm q (by simp))
    show qsweep s Q (qscaled s q.1 q.2 b) v = b v
    rw [qsweep_congr Q h1 v hv]
    exact qsweep_fixed Q (fun q' hq' => hd q' (by simp [hq'])) hb (fun q' hq' => hm q' (by simp [hq'])) v hv

theorem qmax_zero {s : List Nat} {Q : Prob ℚ} (h : ProbShape s Q) {b : List Int → ℚ}
    (hm : ∀ q ∈ Q, ∀ j, InRange (projSizes q.1 s) j → marginalSum s q.1 b j = q.2 j) : qmax s Q b = 0 := by
  obtain ⟨q, hq, j, hj, he⟩ := (qmax_spec h b).2
  rw [he, hm q hq j hj]; simp

theorem marginalSum_smul {s ds : List Nat} (k : ℚ) (b : List Int → ℚ) (j : List Int) :
    marginalSum s ds (fun v => k * b v) j = k * marginalSum s ds b j := by
  unfold marginalSum; rw [Finset.mul_sum]

theorem qscaled_smul {s ds : List Nat} {m : List Int → ℚ} {k : ℚ} (hk : k ≠ 0) (b : List Int → ℚ) :
    qscaled s ds m (fun v => k * b v) = qscaled s ds m b := by
  funext v
  unfold qscaled
  rw [marginalSum_smul]
  by_cases h0 : marginalSum s ds b (proj ds v) = 0
  · simp [h0]
  · rw [if_neg (mul_ne_zero hk h0), if_neg h0]
    field_simp

theorem qsweep_smul {s : List Nat} {Q : Prob ℚ} (hQ : Q ≠ []) {k : ℚ} (hk : k ≠ 0) (b : List Int → ℚ) :
    qsweep s Q (fun v => k * b v) = qsweep s Q b := by
  cases Q with
  | nil => exact absurd rfl hQ
  | cons q Q =>
    show qsweep s Q (qscaled s q.1 q.2 _) = qsweep s Q (qscaled s q.1 q.2 b)
    rw [qscaled_smul hk]

/-! ### What convergence says, for any rounding -/

theorem fl_lt_trans {x y z : Fl} (h1 : FP.lt x y = true) (h2 : FP.lt y z = true) : FP.lt x z = true := by
  cases x <;> cases y <;> cases z <;> simp_all [FP.lt]
  exact lt_trans h1 h2

theorem stdMax_lt {m e t : Fl} (h : FP.lt (IPF.stdMax m e) t = true) :
    FP.lt m t = true ∧ (e = .nan ∨ FP.lt e t = true) := by
  unfold IPF.stdMax at h
  split at h
  · rename_i h1
    exact ⟨fl_lt_trans h1 h, Or.inr h⟩
  · rename_i h1
    refine ⟨h, ?_⟩
    cases m <;> cases e <;> cases t <;> simp_all [FP.lt]
    exact lt_of_le_of_lt h1 h

theorem foldl_stdMax_lt {γ : Type} (f : γ → Fl) {t : Fl} : ∀ (l : List γ) {m : Fl},
    FP.lt (l.foldl (fun mx v => IPF.stdMax mx (f v)) m) t = true →
    FP.lt m t = true ∧ ∀ v ∈ l, f v = .nan ∨ FP.lt (f v) t = true
  | [], _, h => ⟨h, by simp⟩
  | v :: l, m, h => by
    obtain ⟨h1, h2⟩ := foldl_stdMax_lt f l h
    obtain ⟨h3, h4⟩ := stdMax_lt h1
    refine ⟨h3, ?_⟩
    intro w hw
    rcases List.mem_cons.mp hw with rfl | hw
    · exact h4
    · exact h2 w hw

theorem maxDev_lt (fp : FP) (N : Num α) {s : List Nat} {a : List Int → Fl} {t : Fl} : ∀ (P : Prob α) {mx : Fl},
    FP.lt (maxDev fp N s P a mx) t = true → FP.lt mx t = true ∧
      ∀ p ∈ P, ∀ j, InRange (projSizes p.1 s) j →
        dev fp N s a p j = .nan ∨ FP.lt (FP.abs (dev fp N s a p j)) t = true
  | [], _, h => ⟨h, by simp⟩
  | p :: P, mx, h => by
    obtain ⟨h1, h2⟩ := maxDev_lt fp N P (mx := (allIdx (projSizes p.1 s)).foldl
      (fun mx j => IPF.stdMax mx (FP.abs (dev fp N s a p j))) mx) h
    obtain ⟨h3, h4⟩ := foldl_stdMax_lt _ _ h1
    refine ⟨h3, ?_⟩
    intro p' hp' j hj
    rcases List.mem_cons.mp hp' with rfl | hp'
    · rcases h4 j (mem_allIdx.mpr hj) with h5 | h5
      · left
        cases hd : dev fp N s a p' j <;> rw [hd] at h5 <;> simp_all [FP.abs]
      · exact Or.inr h5
    · exact h2 p' hp' j hj

/-! ### NaN and zeros, for any rounding -/

theorem add_nan_right (fp : FP) (x : Fl) : fp.add x .nan = .nan := by cases x <;> rfl
theorem add_nan_left (fp : FP) (x : Fl) : fp.add .nan x = .nan := by cases x <;> rfl
theorem mul_nan_left (fp : FP) (x : Fl) : fp.mul .nan x = .nan := by cases x <;> rfl
theorem mul_nan_right (fp : FP) (x : Fl) : fp.mul x .nan = .nan := by cases x <;> rfl
theorem div_nan_right (fp : FP) (x : Fl) : fp.div x .nan = .nan := by cases x <;> rfl

theorem foldl_add_nan (fp : FP) {γ : Type} (f : γ → Fl) : ∀ (l : List γ) (c : Fl), (c = .nan ∨ ∃ v ∈ l, f v = .nan) →
    l.foldl (fun acc v => fp.add acc (f v)) c = .nan
  | [], c, h => by simpa using h
  | v :: l, c, h => by
    rw [List.foldl_cons]
    apply foldl_add_nan
    rcases h with rfl | ⟨w, hw, hn⟩
    · exact Or.inl (add_nan_left fp _)
    · rcases List.mem_cons.mp hw with rfl | hw
      · left; rw [hn]; exact add_nan_right fp _
      · exact Or.inr ⟨w, hw, hn⟩

theorem fsum_nan (fp : FP) {s ds : List Nat} {a : List Int → Fl} {v : List Int} (hv : InRange s v) (h : a v = .nan) :
    fsum fp s ds a (proj ds v) = .nan :=
  foldl_add_nan fp a _ _ (Or.inr ⟨v, List.mem_filter.mpr ⟨mem_allIdx.mpr hv, by simp⟩, h⟩)

theorem scaled_nan (fp : FP) (N : Num α) {s ds : List Nat} {m : List Int → α} {a : List Int → Fl} {v : List Int}
    (hv : InRange s v) {w : List Int} (h : a v = .nan) (hw : proj ds w = proj ds v) :
    scaled fp N s ds m a w = .nan := by
  unfold scaled
  rw [hw, fsum_nan fp hv h]
  rw [if_neg (by simp [FP.feq]), div_nan_right, mul_nan_right]

theorem sweep_nan (fp : FP) (N : Num α) {s : List Nat} {v : List Int} (hv : InRange s v) : ∀ (P : Prob α)
    {a : List Int → Fl}, a v = .nan → sweep fp N s P a v = .nan
  | [], _, h => h
  | p :: P, a, h => sweep_nan fp N hv P (a := scaled fp N s p.1 p.2 a) (scaled_nan fp N hv h rfl)

theorem iterate_nan (fp : FP) (N : Num α) {s : List Nat} {v : List Int} (hv : InRange s v) (P : Prob α)
    {a : List Int → Fl} (h : a v = .nan) (n : Nat) : (sweep fp N s P)^[n] a v = .nan := by
  induction n with
  | zero => exact h
  | succ n ih => rw [Function.iterate_succ_apply']; exact sweep_nan fp N hv P ih

/-- a double that is zero or NaN -/
def ZeroNan (x : Fl) : Prop := x = .fin 0 ∨ x = .nan

theorem mul_zeroNan {fp : FP} (h0 : fp.rnd 0 = .fin 0) {x : Fl} (hx : ZeroNan x) (y : Fl) : ZeroNan (fp.mul x y) := by
  rcases hx with rfl | rfl
  · cases y with
    | fin q => left; show fp.rnd (0 * q) = _; rw [zero_mul, h0]
    | pinf => right; simp [FP.mul, FP.infOfSign, FP.sgn]
    | ninf => right; simp [FP.mul, FP.infOfSign, FP.sgn]
    | nan => right; rfl
  · right; exact mul_nan_left fp y

theorem scaled_zeroNan {fp : FP} (h0 : fp.rnd 0 = .fin 0) (N : Num α) {s ds : List Nat} {m : List Int → α}
    {a : List Int → Fl} {v : List Int} (h : ZeroNan (a v)) : ZeroNan (scaled fp N s ds m a v) := by
  unfold scaled
  split
  · exact Or.inl rfl
  · exact mul_zeroNan h0 h _

theorem sweep_zeroNan {fp : FP} (h0 : fp.rnd 0 = .fin 0) (N : Num α) {s : List Nat} {v : List Int} : ∀ (P : Prob α)
    {a : List Int → Fl}, ZeroNan (a v) → ZeroNan (sweep fp N s P a v)
  | [], _, h => h
  | p :: P, a, h => sweep_zeroNan h0 N P (a := scaled fp N s p.1 p.2 a) (scaled_zeroNan h0 N h)

theorem iterate_zeroNan {fp : FP} (h0 : fp.rnd 0 = .fin 0) (N : Num α) {s : List Nat} {v : List Int} (P : Prob α)
    {a : List Int → Fl} (h : ZeroNan (a v)) (n : Nat) : ZeroNan ((sweep fp N s P)^[n] a v) := by
  induction n with
  | zero => exact h
  | succ n ih => rw [Function.iterate_succ_apply']; exact sweep_zeroNan h0 N P ih

/-- a double that is not negative, or NaN -/
def NonNegNan (x : Fl) : Prop := x = .nan ∨ FP.le (.fin 0) x = true

theorem nonNegNan_cases {x : Fl} : NonNegNan x ↔ x = .nan ∨ x = .pinf ∨ ∃ q, 0 ≤ q ∧ x = .fin q := by
  cases x <;> simp [NonNegNan, FP.le]

/-- the rounding of a non-negative number is not negative -/
def RndNonneg (fp : FP) : Prop := ∀ q, 0 ≤ q → NonNegNan (fp.rnd q)

theorem add_nonNeg {fp : FP} (hr : RndNonneg fp) {x y : Fl} (hx : NonNegNan x) (hy : NonNegNan y) :
    NonNegNan (fp.add x y) := by
  rcases nonNegNan_cases.mp hx with rfl | rfl | ⟨p, hp, rfl⟩
  · left; exact add_nan_left fp _
  · rcases nonNegNan_cases.mp hy with rfl | rfl | ⟨q, hq, rfl⟩
    · left; rfl
    · right; rfl
    · right; rfl
  · rcases nonNegNan_cases.mp hy with rfl | rfl | ⟨q, hq, rfl⟩
    · left; rfl
    · right; rfl
    · exact hr _ (add_nonneg hp hq)

theorem mul_nonNeg {fp : FP} (hr : RndNonneg fp) {x y : Fl} (hx : NonNegNan x) (hy : NonNegNan y) :
    NonNegNan (fp.mul x y) := by
  have hi : ∀ z : ℚ, 0 ≤ z → NonNegNan (FP.infOfSign z) := by
    intro z hz
    unfold FP.infOfSign
    split
    · exact Or.inl rfl
    · rw [if_pos (lt_of_le_of_ne hz (Ne.symm (by assumption)))]; exact Or.inr rfl
  have hs : ∀ q : ℚ, 0 ≤ q → 0 ≤ FP.sgn (.fin q) := by
    intro q hq
    unfold FP.sgn
    simp only
    split
    · exact le_rfl
    · rw [if_pos (lt_of_le_of_ne hq (Ne.symm (by assumption)))]; norm_num
  rcases nonNegNan_cases.mp hx with rfl | rfl | ⟨p, hp, rfl⟩
  · left; exact mul_nan_left fp _
  · rcases nonNegNan_cases.mp hy with rfl | rfl | ⟨q, hq, rfl⟩
    · left; rfl
    · exact hi _ (by norm_num [FP.sgn])
    · exact hi _ (mul_nonneg (by norm_num [FP.sgn]) (hs q hq))
  · rcases nonNegNan_cases.mp hy with rfl | rfl | ⟨q, hq, rfl⟩
    · left; rfl
    · exact hi _ (mul_nonneg (hs p hp) (by norm_num [FP.sgn]))
    · exact hr _ (mul_nonneg hp hq)

theorem div_nonNeg {fp : FP} (hr : RndNonneg fp) {x y : Fl} (hx : NonNegNan x) (hy : NonNegNan y) :
    NonNegNan (fp.div x y) := by
  rcases nonNegNan_cases.mp hx with rfl | rfl | ⟨p, hp, rfl⟩
  · left; cases y <;> rfl
  · rcases nonNegNan_cases.mp hy with rfl | rfl | ⟨q, hq, rfl⟩
    · left; rfl
    · left; rfl
    · show NonNegNan (if q < 0 then FP.neg .pinf else .pinf)
      rw [if_neg (not_lt.mpr hq)]; exact Or.inr rfl
  · rcases nonNegNan_cases.mp hy with rfl | rfl | ⟨q, hq, rfl⟩
    · left; rfl
    · right; simp [FP.div, FP.le]
    · show NonNegNan (if q = 0 then FP.infOfSign p else fp.rnd (p / q))
      split
      · unfold FP.infOfSign
        split
        · exact Or.inl rfl
        · rw [if_pos (lt_of_le_of_ne hp (Ne.symm (by assumption)))]; exact Or.inr rfl
      · exact hr _ (div_nonneg hp hq)

theorem fsum_nonNeg {fp : FP} (hr : RndNonneg fp) {s ds : List Nat} {a : List Int → Fl}
    (h : ∀ v, InRange s v → NonNegNan (a v)) (j : List Int) : NonNegNan (fsum fp s ds a j) := by
  unfold fsum
  have : ∀ (l : List (List Int)) (c : Fl), (∀ v ∈ l, InRange s v) → NonNegNan c →
      NonNegNan (l.foldl (fun acc v => fp.add acc (a v)) c) := by
    intro l
    induction l with
    | nil => intro c _ hc; exact hc
    | cons v l ih =>
      intro c hl hc
      exact ih _ (fun w hw => hl w (by simp [hw])) (add_nonNeg hr hc (h v (hl v (by simp))))
  exact this _ _ (fun v hv => mem_allIdx.mp (List.mem_of_mem_filter hv)) (Or.inr (by simp [FP.le]))

theorem scaled_nonNeg {fp : FP} (hr : RndNonneg fp) (N : Num α) {s ds : List Nat} (hd : ∀ d ∈ ds, d < s.length)
    {m : List Int → α} (hm : ∀ j, InRange (projSizes ds s) j → NonNegNan (N.toFl (m j))) {a : List Int → Fl}
    (h : ∀ v, InRange s v → NonNegNan (a v)) : ∀ v, InRange s v → NonNegNan (scaled fp N s ds m a v) := by
  intro v hv
  unfold scaled
  split
  · exact Or.inr (by simp [FP.le])
  · exact mul_nonNeg hr (h v hv) (div_nonNeg hr (hm _ (inRange_proj hd hv)) (fsum_nonNeg hr h _))

theorem sweep_nonNeg {fp : FP} (hr : RndNonneg fp) (N : Num α) {s : List Nat} : ∀ (P : Prob α)
    (_ : ∀ p ∈ P, ∀ d ∈ p.1, d < s.length)
    (_ : ∀ p ∈ P, ∀ j, InRange (projSizes p.1 s) j → NonNegNan (N.toFl (p.2 j))) {a : List Int → Fl}
    (_ : ∀ v, InRange s v → NonNegNan (a v)), ∀ v, InRange s v → NonNegNan (sweep fp N s P a v)
  | [], _, _, _, h => h
  | p :: P, hd, hm, a, h => sweep_nonNeg hr N P (fun q hq => hd q (by simp [hq])) (fun q hq => hm q (by simp [hq]))
      (a := scaled fp N s p.1 p.2 a) (scaled_nonNeg hr N (hd p (by simp)) (hm p (by simp)) h)

theorem iterate_nonNeg {fp : FP} (hr : RndNonneg fp) (N : Num α) {s : List Nat} (P : Prob α)
    (hd : ∀ p ∈ P, ∀ d ∈ p.1, d < s.length)
    (hm : ∀ p ∈ P, ∀ j, InRange (projSizes p.1 s) j → NonNegNan (N.toFl (p.2 j))) {a : List Int → Fl}
    (h : ∀ v, InRange s v → NonNegNan (a v)) (n : Nat) : ∀ v, InRange s v → NonNegNan ((sweep fp N s P)^[n] a v) := by
  induction n with
  | zero => exact h
  | succ n ih => rw [Function.iterate_succ_apply']; exact sweep_nonNeg hr N P hd hm ih

end HL

import Verif.IntSpec
import Verif.Proof.QISIExact
import Verif.Proof.IPFWitness

/-
IPF and QISI with a seed of whole numbers that meets the marginals, in any arithmetic that is exact on whole numbers up to 2^53.
-/

namespace HL
open QISI
variable {fp : FP}

theorem foldl_intFl (hfp : fp.Good) {γ : Type} (g : γ → Int) : ∀ (l : List γ) (a : Int), (∀ v ∈ l, 0 ≤ g v) → 0 ≤ a →
    a + (l.map g).sum ≤ 2 ^ 53 →
    l.foldl (fun acc v => fp.add acc (.fin (g v : ℚ))) (.fin (a : ℚ)) = .fin ((a + (l.map g).sum : Int) : ℚ)
  | [], a, _, _, _ => by simp
  | v :: l, a, hn, ha, hb => by
    have h0 := hn v (by simp)
    have hl : 0 ≤ (l.map g).sum := List.sum_nonneg (by
      intro x hx
      obtain ⟨w, hw, rfl⟩ := List.mem_map.mp hx
      exact hn w (by simp [hw]))
    rw [List.map_cons, List.sum_cons] at hb
    rw [List.foldl_cons]
    have e : fp.add (.fin (a : ℚ)) (.fin (g v : ℚ)) = .fin ((a + g v : Int) : ℚ) := by
      show fp.rnd ((a : ℚ) + (g v : ℚ)) = _
      rw [← Int.cast_add]
      exact rnd_int hfp (by rw [abs_of_nonneg (by omega)]; omega)
    rw [e, foldl_intFl hfp g l (a + g v) (fun w hw => hn w (by simp [hw])) (by omega) (by omega), List.map_cons, List.sum_cons]
    congr 2
    omega

theorem sum_filter_le {s : List Nat} {g : List Int → Int} (hn : ∀ v, InRange s v → 0 ≤ g v) (p : List Int → Bool) :
    (((allIdx s).filter p).map g).sum ≤ ∑ v ∈ cells s, g v := by
  rw [← sum_allIdx]
  have : ∀ l : List (List Int), (∀ v ∈ l, 0 ≤ g v) → ((l.filter p).map g).sum ≤ (l.map g).sum := by
    intro l
    induction l with
    | nil => intro _; simp
    | cons v l ih =>
      intro h
      have h1 := ih (fun w hw => h w (by simp [hw]))
      have h2 := h v (by simp)
      rw [List.filter_cons]
      split
      · simp only [List.map_cons, List.sum_cons]; omega
      · simp only [List.map_cons, List.sum_cons]; omega
  exact this _ (fun v hv => hn v (mem_allIdx.mp hv))

theorem fsum_int (hfp : fp.Good) {s ds : List Nat} {g : List Int → Int} (hn : ∀ v, InRange s v → 0 ≤ g v)
    (hb : ∑ v ∈ cells s, g v ≤ 2 ^ 53) (j : List Int) : fsum fp s ds (intFl g) j = .fin ((marginalSum s ds g j : Int) : ℚ) := by
  have h1 := sum_filter_le hn (fun v => proj ds v = j)
  have h2 := foldl_intFl hfp g ((allIdx s).filter (fun v => proj ds v = j)) 0
    (fun v hv => hn v (mem_allIdx.mp (List.mem_filter.mp hv).1)) le_rfl (by omega)
  unfold fsum intFl
  rw [show (0 : ℚ) = ((0 : Int) : ℚ) by simp, h2, zero_add, sum_filter_allIdx]
  rfl

theorem int_marginalSum_nonneg {s ds : List Nat} {g : List Int → Int} (h : ∀ v, InRange s v → 0 ≤ g v) (j : List Int) :
    0 ≤ marginalSum s ds g j := Finset.sum_nonneg (fun v hv => h v (mem_cells.mp (Finset.mem_filter.mp hv).1))

theorem int_le_marginalSum {s : List Nat} {ds : List Nat} {b : List Int → Int} (h : ∀ v, InRange s v → 0 ≤ b v) {v : List Int}
    (hv : InRange s v) : b v ≤ marginalSum s ds b (proj ds v) := by
  unfold marginalSum
  exact Finset.single_le_sum (f := b) (fun w hw => h w (mem_cells.mp (Finset.mem_filter.mp hw).1))
    (Finset.mem_filter.mpr ⟨mem_cells.mpr hv, rfl⟩)

theorem int_marginalSum_le {s ds : List Nat} {g : List Int → Int} (h : ∀ v, InRange s v → 0 ≤ g v) (j : List Int) :
    marginalSum s ds g j ≤ ∑ v ∈ cells s, g v :=
  Finset.sum_le_sum_of_subset_of_nonneg (Finset.filter_subset _ _) (fun v hv _ => h v (mem_cells.mp hv))

variable {α : Type}

/-- the marginals of `P`, as doubles, are the sums of `g` -/
def SumsTo (fp : FP) (N : Num α) (s : List Nat) (P : Prob α) (g : List Int → Int) : Prop :=
  ∀ p ∈ P, ∀ j, InRange (projSizes p.1 s) j → N.toFl (p.2 j) = .fin ((marginalSum s p.1 g j : Int) : ℚ)

theorem scaled_int (hfp : fp.Good) (N : Num α) {s ds : List Nat} (hd : ∀ d ∈ ds, d < s.length) {m : List Int → α}
    {g : List Int → Int} (hn : ∀ v, InRange s v → 0 ≤ g v) (hb : ∑ v ∈ cells s, g v ≤ 2 ^ 53)
    (hm : ∀ j, InRange (projSizes ds s) j → N.toFl (m j) = .fin ((marginalSum s ds g j : Int) : ℚ)) {v : List Int}
    (hv : InRange s v) : scaled fp N s ds m (intFl g) v = intFl g v := by
  have hle := int_le_marginalSum (ds := ds) hn hv
  have h0 := hn v hv
  unfold scaled
  rw [fsum_int hfp hn hb, hm _ (inRange_proj hd hv)]
  by_cases hz : marginalSum s ds g (proj ds v) = 0
  · rw [if_pos (by rw [hz]; simp [FP.feq])]
    have : g v = 0 := by omega
    simp [intFl, this]
  · have hz' : ((marginalSum s ds g (proj ds v) : Int) : ℚ) ≠ 0 := by exact_mod_cast hz
    rw [if_neg (by simp [FP.feq]; exact_mod_cast hz)]
    have e1 : fp.div (.fin ((marginalSum s ds g (proj ds v) : Int) : ℚ)) (.fin ((marginalSum s ds g (proj ds v) : Int) : ℚ)) = .fin 1 := by
      show (if ((marginalSum s ds g (proj ds v) : Int) : ℚ) = 0 then _ else fp.rnd _) = _
      rw [if_neg hz', div_self hz']
      have := rnd_int hfp (t := 1) (by norm_num)
      simpa using this
    rw [e1]
    show fp.rnd ((g v : ℚ) * 1) = _
    rw [mul_one]
    have := int_marginalSum_le (ds := ds) hn (proj ds v)
    exact rnd_int hfp (by rw [abs_of_nonneg h0]; omega)

theorem sweep_int (hfp : fp.Good) (N : Num α) {s : List Nat} {g : List Int → Int} (hn : ∀ v, InRange s v → 0 ≤ g v)
    (hb : ∑ v ∈ cells s, g v ≤ 2 ^ 53) : ∀ (P : Prob α), (∀ p ∈ P, ∀ d ∈ p.1, d < s.length) → SumsTo fp N s P g →
    ∀ v, InRange s v → sweep fp N s P (intFl g) v = intFl g v
  | [], _, _, _, _ => rfl
  | p :: P, hd, hm, v, hv => by
    have ih := sweep_int hfp N hn hb P (fun q hq => hd q (by simp [hq])) (fun q hq => hm q (by simp [hq])) v hv
    unfold sweep at ih ⊢
    rw [List.foldl_cons]
    have := sweep_congr fp N P (a := scaled fp N s p.1 p.2 (intFl g)) (a' := intFl g)
      (fun w hw => scaled_int hfp N (hd p (by simp)) hn hb (hm p (by simp)) hw) v hv
    unfold sweep at this
    rw [this]
    exact ih

theorem maxDev_int (hfp : fp.Good) (N : Num α) {s : List Nat} {P : Prob α} (h : ProbShape s P) {g : List Int → Int}
    (hn : ∀ v, InRange s v → 0 ≤ g v) (hb : ∑ v ∈ cells s, g v ≤ 2 ^ 53) (hm : SumsTo fp N s P g) :
    maxDev fp N s P (intFl g) (.fin (-dblMax)) = .fin 0 := by
  have hdev : ∀ p ∈ P, ∀ j ∈ allIdx (projSizes p.1 s), FP.abs (dev fp N s (intFl g) p j) = .fin 0 := by
    intro p hp j hj
    unfold dev
    rw [fsum_int hfp hn hb, hm p hp j (mem_allIdx.mp hj)]
    show FP.abs (fp.rnd (_ + -_)) = _
    rw [add_neg_cancel, rnd_zero hfp]
    simp [FP.abs]
  have hin : ∀ (l : List (List Int)) (f : List Int → Fl) (mx : Fl), (∀ j ∈ l, f j = .fin 0) → (mx = .fin (-dblMax) ∨ mx = .fin 0) →
      (mx = .fin 0 ∨ l ≠ []) → l.foldl (fun mx j => IPF.stdMax mx (f j)) mx = .fin 0 := by
    intro l
    induction l with
    | nil =>
      intro f mx _ _ h2
      rcases h2 with h2 | h2
      · exact h2
      · exact absurd rfl h2
    | cons j l ih =>
      intro f mx hf h1 _
      rw [List.foldl_cons, hf j (by simp)]
      apply ih f _ (fun k hk => hf k (by simp [hk])) _ _
      · right
        rcases h1 with rfl | rfl
        · rw [stdMax_fin, max_eq_right (by linarith [dblMax_pos])]
        · rw [stdMax_fin, max_self]
      · left
        rcases h1 with rfl | rfl
        · rw [stdMax_fin, max_eq_right (by linarith [dblMax_pos])]
        · rw [stdMax_fin, max_self]
  have hne : ∀ p ∈ P, allIdx (projSizes p.1 s) ≠ [] := by
    intro p hp he
    obtain ⟨j, hj⟩ := exists_inRange (t := projSizes p.1 s) (fun n hn => by
      obtain ⟨d, hd, rfl⟩ := List.mem_map.mp hn
      have hlt := (h.dims p hp).2 d hd
      rw [List.getD_eq_getElem?_getD, List.getElem?_eq_getElem hlt]
      exact h.pos _ (List.getElem_mem hlt))
    have := mem_allIdx.mpr hj
    rw [he] at this
    exact absurd this (by simp)
  have hout : ∀ (L : Prob α) (mx : Fl), (∀ p ∈ L, p ∈ P) → (mx = .fin (-dblMax) ∨ mx = .fin 0) → (mx = .fin 0 ∨ L ≠ []) →
      maxDev fp N s L (intFl g) mx = .fin 0 := by
    intro L
    induction L with
    | nil =>
      intro mx _ _ h2
      rcases h2 with h2 | h2
      · exact h2
      · exact absurd rfl h2
    | cons p L ih =>
      intro mx hL h1 _
      unfold maxDev at ih ⊢
      rw [List.foldl_cons]
      rw [hin _ (fun j => FP.abs (dev fp N s (intFl g) p j)) mx (hdev p (hL p (by simp))) h1 (Or.inr (hne p (hL p (by simp))))]
      exact ih _ (fun q hq => hL q (by simp [hq])) (Or.inr rfl) (Or.inl rfl)
  refine hout P _ (fun p hp => hp) (Or.inl rfl) (Or.inr ?_)
  rintro rfl
  have := h.lists
  simp at this

/-- `ipf` leaves a seed of whole numbers that meets the marginals alone -/
theorem ipf_run_int (hfp : fp.Good) {N : Num α} (hN : MinOK N) {s : List Nat} {P : Prob α} (h : ProbShape s P)
    (hp : ProperProb s P) {g : List Int → Int}
    (hn : ∀ v, InRange s v → 0 ≤ g v) (hb : ∑ v ∈ cells s, g v ≤ 2 ^ 53) (hm : SumsTo fp N s P g) {r : IPF α}
    (hr : IPF.run false fp N (indicesOf P) (marginalsOf s P) (arr s (intFl g)) = .ok r) :
    r.conv = true ∧ r.iters = 1 ∧ r.maxError = .fin 0 ∧ r.micro.array = arr s (intFl g) := by
  have hd : ∀ p ∈ P, ∀ d ∈ p.1, d < s.length := fun p hp => (h.dims p hp).2
  obtain ⟨pop', n, -, h1, -, -, h3, rfl⟩ := ipf_run fp N hN h hp _ hr
  have hsw := sweep_int hfp N hn hb P hd hm
  have hmx : maxDev fp N s P ((sweep fp N s P)^[1] (intFl g)) (.fin (-dblMax)) = .fin 0 :=
    (maxDev_congr fp N P hsw _).trans (maxDev_int hfp N h hn hb hm)
  obtain ⟨t, ht, ht0⟩ := tol8_good hfp
  have hlt : FP.lt (.fin 0) (tol8 fp) = true := by rw [ht]; simpa [FP.lt] using ht0
  have hn1 : n = 1 := by
    by_contra hne
    apply h3 1 le_rfl (by omega)
    unfold convAt
    rw [hmx]
    exact hlt
  subst hn1
  refine ⟨?_, rfl, hmx, arr_congr hsw⟩
  show FP.lt (maxDev fp N s P ((sweep fp N s P)^[1] (intFl g)) (.fin (-dblMax))) (tol8 fp) = true
  rw [hmx]
  exact hlt

end HL

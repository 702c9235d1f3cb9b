import Verif.Proof.SumFix

/-
C101: one sweep of IPF over marginals that fit together.
-/

namespace HL

/-- the dimensions named by the marginals -/
def dimsOf (L : Prob ℚ) : List Nat := (L.map Prod.fst).flatten

theorem dimsOf_append (A B : Prob ℚ) : dimsOf (A ++ B) = dimsOf A ++ dimsOf B := by simp [dimsOf]

theorem mem_dimsOf {L : Prob ℚ} {d : Nat} : d ∈ dimsOf L ↔ ∃ r ∈ L, d ∈ r.1 := by
  simp only [dimsOf, List.mem_flatten, List.mem_map]
  constructor
  · rintro ⟨l, ⟨r, hr, rfl⟩, hd⟩; exact ⟨r, hr, hd⟩
  · rintro ⟨r, hr, hd⟩; exact ⟨_, ⟨r, hr, rfl⟩, hd⟩

theorem chainAt_append (s : List Nat) (v : List Int) : ∀ (A B : Prob ℚ) (seen : List Nat),
    chainAt s seen (A ++ B) v = chainAt s seen A v * chainAt s (seen ++ dimsOf A) B v
  | [], B, seen => by simp [chainAt, dimsOf]
  | p :: A, B, seen => by
    simp only [List.cons_append, chainAt]
    rw [chainAt_append s v A B, mul_assoc]
    congr 2
    simp [dimsOf]

/-- what holds of the table once the marginals `L` have been dealt with -/
structure Swept (s : List Nat) (L : Prob ℚ) (T : ℚ) (b : List Int → ℚ) : Prop where
  nonneg : ∀ v, InRange s v → 0 ≤ b v
  dep : DependsOn s (dimsOf L).toFinset b
  meets : ∀ r ∈ L, ∀ j, InRange (projSizes r.1 s) j → marginalSum s r.1 b j = r.2 j
  form : ∀ v, InRange s v → b v * cnt s (dimsOf L).toFinset = T * chainAt s [] L v

theorem weightOn_zero {s : List Nat} {p : List Nat × (List Int → ℚ)} (hp : ∀ d ∈ p.1, d < s.length)
    (hnn : ∀ j, InRange (projSizes p.1 s) j → 0 ≤ p.2 j) {S : List Nat} {v : List Int} (hv : InRange s v)
    (h0 : weightOn s p S v = 0) : p.2 (proj p.1 v) = 0 := by
  unfold weightOn at h0
  refine (Finset.sum_eq_zero_iff_of_nonneg (fun j hj => hnn j (mem_cells.mp (Finset.mem_filter.mp hj).1))).mp h0 _ ?_
  refine Finset.mem_filter.mpr ⟨mem_cells.mpr (inRange_proj hp hv), fun a ha _ => ?_⟩
  simp [proj, List.getD_eq_getElem?_getD, ha]

theorem weightOn_nil {s : List Nat} (p : List Nat × (List Int → ℚ)) (v : List Int) :
    weightOn s p [] v = ∑ j ∈ cells (projSizes p.1 s), p.2 j := by
  unfold weightOn
  rw [Finset.filter_true_of_mem]
  intro j _ a _ h
  cases h

/-- the scaled table meets its marginal wherever its sums allow -/
theorem qscaled_meets {s : List Nat} {p : List Nat × (List Int → ℚ)} {b : List Int → ℚ} {j : List Int}
    (h : marginalSum s p.1 b j = 0 → p.2 j = 0) : marginalSum s p.1 (qscaled s p.1 p.2 b) j = p.2 j := by
  by_cases hm : marginalSum s p.1 b j = 0
  · rw [h hm]
    refine Finset.sum_eq_zero fun w hw => ?_
    obtain ⟨-, hw⟩ := Finset.mem_filter.mp hw
    unfold qscaled
    rw [hw, if_pos hm]
  · have : marginalSum s p.1 (qscaled s p.1 p.2 b) j = marginalSum s p.1 b j * (p.2 j / marginalSum s p.1 b j) := by
      rw [marginalSum, marginalSum, Finset.sum_mul]
      refine Finset.sum_congr rfl fun w hw => ?_
      obtain ⟨-, hw⟩ := Finset.mem_filter.mp hw
      unfold qscaled
      rw [hw, if_neg hm]
      rfl
    rw [this]
    field_simp

theorem swept_start {s : List Nat} (hpos : ∀ n ∈ s, 0 < n) {p : List Nat × (List Int → ℚ)} (hp : ∀ d ∈ p.1, d < s.length)
    (hnd : p.1.Nodup) (hnn : ∀ j, InRange (projSizes p.1 s) j → 0 ≤ p.2 j) {T : ℚ} (hT : ∑ j ∈ cells (projSizes p.1 s), p.2 j = T)
    {C : ℚ} (hC : 0 < C) : Swept s [p] T (qscaled s p.1 p.2 (fun _ => C)) := by
  have hc := cnt_pos hpos p.1.toFinset
  have hm : ∀ v, InRange s v → marginalSum s p.1 (fun _ => C) (proj p.1 v) = C * cnt s p.1.toFinset := by
    intro v hv
    rw [marginalSum_eq_sumFix]
    exact sumFix_const hpos hv (fun _ _ _ => rfl)
  have hf : ∀ v, InRange s v → qscaled s p.1 p.2 (fun _ => C) v = p.2 (proj p.1 v) / cnt s p.1.toFinset := by
    intro v hv
    unfold qscaled
    rw [hm v hv, if_neg (by positivity)]
    field_simp
  have hd : dimsOf [p] = p.1 := by simp [dimsOf]
  refine ⟨?_, ?_, ?_, ?_⟩
  · intro v hv
    rw [hf v hv]
    exact div_nonneg (hnn _ (inRange_proj hp hv)) hc.le
  · intro v w hv hw ha
    rw [hd, agr_proj] at ha
    rw [hf v hv, hf w hw, ha]
  · intro r hr j hj
    rw [List.mem_singleton] at hr
    subst hr
    obtain ⟨v, hv, rfl⟩ := exists_proj hpos (loose_of_nodup hnd) hp hj
    refine qscaled_meets fun h0 => ?_
    rw [hm v hv] at h0
    exact absurd h0 (by positivity)
  · intro v hv
    rw [hf v hv, hd, div_mul_cancel₀ _ hc.ne']
    have e : p.1.filter (fun d => d ∈ ([] : List Nat)) = [] := by simp
    simp only [chainAt]
    rw [e, weightOn_nil, hT, mul_one]
    by_cases h0 : T = 0
    · have := weightOn_zero hp hnn (S := []) hv (by rw [weightOn_nil, hT, h0])
      rw [this, h0]; simp
    · field_simp

theorem swept_step {s : List Nat} (hpos : ∀ n ∈ s, 0 < n) {L : Prob ℚ} {T : ℚ} {b : List Int → ℚ} (hb : Swept s L T b)
    (hL : ∀ r ∈ L, ∀ d ∈ r.1, d < s.length)
    {p q : List Nat × (List Int → ℚ)} (hp : ∀ d ∈ p.1, d < s.length)
    (hnd : p.1.Nodup) (hnn : ∀ j, InRange (projSizes p.1 s) j → 0 ≤ p.2 j) (hq : q ∈ L)
    (hall : ∀ d ∈ p.1, (∃ r ∈ L, d ∈ r.1) → d ∈ q.1) (hag : AgreeOn s p q) : Swept s (L ++ [p]) T (qscaled s p.1 p.2 b) := by
  set D := (dimsOf L).toFinset with hD
  set P := p.1.toFinset with hP
  set S := p.1.filter (fun d => d ∈ dimsOf L) with hS
  have hSq : shared p q = S := by
    refine List.filter_congr fun d hd => ?_
    simp only [decide_eq_decide]
    exact ⟨fun h => mem_dimsOf.mpr ⟨q, hq, h⟩, fun h => hall d hd (mem_dimsOf.mp h)⟩
  have hSf : S.toFinset = P ∩ D := by
    ext d; simp [hS, hP, hD]
  have hSp : ∀ d ∈ S, d ∈ p.1 := fun d hd => (List.mem_filter.mp hd).1
  have hW : ∀ v, InRange s v → sumFix s (P ∩ D) b v = weightOn s p S v := by
    intro v hv
    have h1 := hag v hv
    rw [hSq] at h1
    have hSq' : ∀ d ∈ S, d ∈ q.1 := by
      intro d hd
      rw [← hSq] at hd
      have := (List.mem_filter.mp hd).2
      simpa using this
    rw [h1, ← hSf, sumFix_fibres (p := q) (hL q hq) hSq']
    exact weightOn_congr (p := (q.1, marginalSum s q.1 b)) (q := q) rfl (fun j hj => hb.meets q hq j hj) S v
  have cP := cnt_pos hpos P
  have cD := cnt_pos hpos D
  have cS := cnt_pos hpos (P ∩ D)
  have hm : ∀ v, InRange s v → marginalSum s p.1 b (proj p.1 v) = cnt s P * weightOn s p S v / cnt s (P ∩ D) := by
    intro v hv
    rw [marginalSum_eq_sumFix, eq_div_iff cS.ne', ← hW v hv]
    exact sumFix_drop hpos hb.dep hv
  have hform : ∀ v, InRange s v → qscaled s p.1 p.2 b v = b v * (p.2 (proj p.1 v) * cnt s (P ∩ D) / (cnt s P * weightOn s p S v)) := by
    intro v hv
    unfold qscaled
    rw [hm v hv]
    by_cases h0 : weightOn s p S v = 0
    · simp [h0]
    · rw [if_neg (by positivity)]
      field_simp
  have hWc : ∀ v w, InRange s v → InRange s w → agr (P ∩ D) v w → weightOn s p S v = weightOn s p S w := by
    intro v w hv hw h
    rw [← hW v hv, ← hW w hw, sumFix_class h]
  have hDP : (dimsOf (L ++ [p])).toFinset = D ∪ P := by
    rw [dimsOf_append]; ext d; simp [hD, hP, dimsOf]
  refine ⟨?_, ?_, ?_, ?_⟩
  · intro v hv
    rw [hform v hv, ← hW v hv]
    exact mul_nonneg (hb.nonneg v hv) (div_nonneg (mul_nonneg (hnn _ (inRange_proj hp hv)) cS.le) (mul_nonneg cP.le (sumFix_nonneg hb.nonneg v)))
  · intro v w hv hw ha
    rw [hDP] at ha
    have h1 := agr_mono (Finset.subset_union_right (s₁ := D) (s₂ := P)) ha
    rw [hform v hv, hform w hw, hb.dep v w hv hw (agr_mono Finset.subset_union_left ha), hWc v w hv hw (agr_mono Finset.inter_subset_left h1),
      agr_proj.mp h1]
  · intro r hr j hj
    rcases List.mem_append.mp hr with hr | hr
    · -- the earlier marginals are kept
      have hkeep : ∀ v, InRange s v → sumFix s D (qscaled s p.1 p.2 b) v = sumFix s D b v := by
        intro v hv
        have e1 : sumFix s D b v = b v * cnt s D := sumFix_const hpos hv (fun w hw ha => hb.dep w v hw hv (agr_symm ha))
        have e2 : sumFix s D (qscaled s p.1 p.2 b) v =
            b v * (cnt s (P ∩ D) / (cnt s P * weightOn s p S v)) * sumFix s D (fun w => p.2 (proj p.1 w)) v := by
          rw [← sumFix_mul]
          refine sumFix_congr fun w hw ha => ?_
          rw [hform w hw, hb.dep w v hw hv (agr_symm ha), hWc w v hw hv (agr_mono Finset.inter_subset_right (agr_symm ha))]
          ring
        have hg : DependsOn s P (fun w => p.2 (proj p.1 w)) := fun v w _ _ ha => by
          show p.2 _ = p.2 _
          rw [agr_proj.mp ha]
        have e3 := sumFix_drop hpos hg hv (P := D)
        rw [Finset.inter_comm, ← hSf, sumFix_lift hpos hp hnd hSp, hSf] at e3
        rw [e1, e2]
        by_cases h0 : weightOn s p S v = 0
        · have : b v = 0 := sumFix_eq_zero hb.nonneg ((hW v hv).trans h0) hv (agr_refl _ _)
          rw [this]; ring
        · have e4 : sumFix s D (fun w => p.2 (proj p.1 w)) v = cnt s D * (cnt s P * weightOn s p S v) / cnt s (P ∩ D) := by
            rw [eq_div_iff cS.ne']; exact e3
          rw [e4]
          field_simp
      have hrD : r.1.toFinset ⊆ D := by
        intro d hd
        rw [hD, List.mem_toFinset]
        exact mem_dimsOf.mpr ⟨r, hr, List.mem_toFinset.mp hd⟩
      by_cases hex : ∃ v, InRange s v ∧ proj r.1 v = j
      · obtain ⟨v, hv, rfl⟩ := hex
        rw [← hb.meets r hr _ hj, marginalSum_eq_sumFix, marginalSum_eq_sumFix]
        have t1 := sumFix_tower hpos hrD (qscaled s p.1 p.2 b) v
        have t2 := sumFix_tower hpos hrD b v
        rw [sumFix_congr (fun w hw _ => hkeep w hw), t2] at t1
        exact (mul_left_cancel₀ cD.ne' t1).symm
      · have hz : ∀ f : List Int → ℚ, marginalSum s r.1 f j = 0 := by
          intro f
          refine Finset.sum_eq_zero fun w hw => ?_
          obtain ⟨hw, hj⟩ := Finset.mem_filter.mp hw
          exact absurd ⟨w, mem_cells.mp hw, hj⟩ hex
        rw [← hb.meets r hr j hj, hz, hz]
    · rw [List.mem_singleton] at hr
      subst hr
      obtain ⟨v, hv, rfl⟩ := exists_proj hpos (loose_of_nodup hnd) hp hj
      refine qscaled_meets fun h0 => ?_
      rw [hm v hv] at h0
      have : weightOn s r S v = 0 := by
        by_contra hne
        exact absurd h0 (by positivity)
      exact weightOn_zero hp hnn hv this
  · intro v hv
    rw [hDP, hform v hv, chainAt_append]
    simp only [List.nil_append, chainAt, mul_one]
    rw [← hS, ← mul_assoc T, ← hb.form v hv, ← hD]
    have hu := cnt_union hpos P D
    by_cases h0 : weightOn s p S v = 0
    · rw [h0]; simp
    · have e : cnt s (D ∪ P) = cnt s P * cnt s D / cnt s (P ∩ D) := by rw [eq_div_iff cS.ne']; exact hu
      rw [e]
      field_simp

theorem swept_all {s : List Nat} (hpos : ∀ n ∈ s, 0 < n) {Q : Prob ℚ} (hd : ∀ r ∈ Q, ∀ d ∈ r.1, d < s.length)
    (hnn : ∀ p ∈ Q, ∀ j, InRange (projSizes p.1 s) j → 0 ≤ p.2 j) (ht : Decomposable s Q) {T : ℚ} :
    ∀ (L2 L1 : Prob ℚ), Q = L1 ++ L2 → L1 ≠ [] → ∀ b, Swept s L1 T b → Swept s Q T (qsweep s L2 b)
  | [], L1, hQ, _, b, hb => by rw [hQ, List.append_nil]; exact hb
  | p :: L2, L1, hQ, hne, b, hb => by
    have hpQ : p ∈ Q := by rw [hQ]; simp
    obtain ⟨hnd, h | ⟨q, hq, hall, hag⟩⟩ := ht L1 p L2 hQ
    · exact absurd h hne
    · exact swept_all hpos hd hnn ht L2 (L1 ++ [p]) (by simp [hQ]) (by simp) _
        (swept_step hpos hb (fun r hr => hd r (by rw [hQ]; simp [hr])) (hd p hpQ) hnd (hnn p hpQ) hq hall hag)

theorem cnt_all {s : List Nat} (hpos : ∀ n ∈ s, 0 < n) {A : Finset ℕ} (hall : ∀ d < s.length, d ∈ A) : cnt s A = 1 := by
  have hz := inRange_zerosI hpos
  unfold cnt sumFix
  have : (cells s).filter (agr A (zerosI s.length)) = {zerosI s.length} := by
    ext w
    rw [Finset.mem_filter, Finset.mem_singleton]
    constructor
    · rintro ⟨hw, ha⟩
      have hl := inRange_length (mem_cells.mp hw)
      refine ext_getD (by rw [hl, inRange_length hz]) fun d hd => ?_
      rw [hl] at hd
      exact (ha d (hall d hd)).symm
    · rintro rfl
      exact ⟨mem_cells.mpr hz, agr_refl _ _⟩
  rw [this, Finset.sum_singleton]

/-- **C101** for one sweep -/
theorem sweep_decomp {s : List Nat} {Q : Prob ℚ} (h : ProbShape s Q) (hnn : ∀ p ∈ Q, ∀ j, InRange (projSizes p.1 s) j → 0 ≤ p.2 j)
    (ht : Decomposable s Q) {T : ℚ} (htot : ∀ p ∈ Q, ∑ j ∈ cells (projSizes p.1 s), p.2 j = T) {C : ℚ} (hC : 0 < C) :
    (∀ v, InRange s v → 0 ≤ qsweep s Q (fun _ => C) v) ∧
    (∀ r ∈ Q, ∀ j, InRange (projSizes r.1 s) j → marginalSum s r.1 (qsweep s Q (fun _ => C)) j = r.2 j) ∧
    ∀ v, InRange s v → qsweep s Q (fun _ => C) v = T * chainAt s [] Q v := by
  obtain ⟨p, L2, rfl⟩ : ∃ p L2, Q = p :: L2 := by
    cases Q with
    | nil => have := h.lists; simp at this
    | cons p L2 => exact ⟨p, L2, rfl⟩
  have hsw := swept_all h.pos (fun r hr => (h.dims r hr).2) hnn ht L2 [p] rfl (by simp) _
    (swept_start h.pos (h.dims p (by simp)).2 (ht [] p L2 rfl).1 (hnn p (by simp)) (htot p (by simp)) hC)
  refine ⟨hsw.nonneg, hsw.meets, fun v hv => ?_⟩
  have := hsw.form v hv
  rw [cnt_all h.pos, mul_one] at this
  · exact this
  · intro d hd
    rw [List.mem_toFinset, mem_dimsOf]
    exact h.cover d hd

end HL

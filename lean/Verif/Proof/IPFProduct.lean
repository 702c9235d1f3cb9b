import Verif.Proof.IPFAlgebra

namespace HL
variable {α : Type}

/-! ### Sums of products over disjoint groups of dimensions -/

/-- the product of the entries of the functions of `L` at the projections of `v` -/
def prodAt (L : Prob ℚ) (v : List Int) : ℚ := (L.map (fun q => q.2 (proj q.1 v))).prod

/-- the same with the projections laid end to end -/
def prodChunks : Prob ℚ → List Int → ℚ
  | [], _ => 1
  | q :: L, u => q.2 (u.take q.1.length) * prodChunks L (u.drop q.1.length)

theorem prodChunks_proj (v : List Int) : ∀ L : Prob ℚ, prodChunks L (proj (L.map Prod.fst).flatten v) = prodAt L v
  | [] => rfl
  | q :: L => by
    simp only [List.map_cons, List.flatten_cons, prodChunks, prodAt, List.prod_cons]
    have hl : (proj q.1 v).length = q.1.length := by simp [proj]
    have : proj (q.1 ++ (L.map Prod.fst).flatten) v = proj q.1 v ++ proj (L.map Prod.fst).flatten v := by
      simp [proj]
    rw [this, List.take_left' hl, List.drop_left' hl, prodChunks_proj v L]
    rfl

theorem sum_allIdx_append (s t : List Nat) (g : List Int → ℚ) :
    ((allIdx (s ++ t)).map g).sum = ((allIdx s).map (fun u => ((allIdx t).map (fun w => g (u ++ w))).sum)).sum := by
  rw [allIdx_append, List.map_flatMap]
  induction allIdx s with
  | nil => simp
  | cons u l ih =>
    simp only [List.map_map, Function.comp_def] at ih ⊢
    simp [List.flatMap_cons, ih]

theorem sum_list_mul (l : List (List Int)) (c : ℚ) (f : List Int → ℚ) :
    (l.map (fun w => c * f w)).sum = c * (l.map f).sum := by
  induction l with
  | nil => simp
  | cons x l ih => simp [ih, mul_add]

theorem sum_list_mul_right (l : List (List Int)) (c : ℚ) (f : List Int → ℚ) :
    (l.map (fun w => f w * c)).sum = (l.map f).sum * c := by
  induction l with
  | nil => simp
  | cons x l ih => simp [ih, add_mul]

theorem sum_prodChunks (s : List Nat) : ∀ L : Prob ℚ,
    ((allIdx (projSizes (L.map Prod.fst).flatten s)).map (prodChunks L)).sum =
      (L.map (fun q => ∑ j ∈ cells (projSizes q.1 s), q.2 j)).prod
  | [] => by simp [projSizes, allIdx, prodChunks]
  | q :: L => by
    simp only [List.map_cons, List.flatten_cons, List.prod_cons]
    have : projSizes (q.1 ++ (L.map Prod.fst).flatten) s = projSizes q.1 s ++ projSizes (L.map Prod.fst).flatten s := by
      simp [projSizes]
    rw [this, sum_allIdx_append]
    rw [← sum_prodChunks s L, ← sum_allIdx, ← sum_list_mul_right]
    congr 1
    apply List.map_congr_left
    intro u hu
    have hl : u.length = q.1.length := by
      have := inRange_length (mem_allIdx.mp hu)
      simpa [projSizes] using this
    rw [← sum_list_mul]
    congr 1
    apply List.map_congr_left
    intro w _
    simp only [prodChunks]
    rw [List.take_left' hl, List.drop_left' hl]

theorem sum_cells_proj {s D : List Nat} (hn : D.Nodup) (hlt : ∀ d ∈ D, d < s.length) (hall : ∀ d < s.length, d ∈ D)
    (F : List Int → ℚ) : ∑ v ∈ cells s, F (proj D v) = ∑ u ∈ cells (projSizes D s), F u := by
  refine Finset.sum_nbij (proj D) ?_ ?_ ?_ (fun _ _ => rfl)
  · intro v hv
    exact mem_cells.mpr (inRange_proj hlt (mem_cells.mp hv))
  · intro v hv w hw he
    have hv := mem_cells.mp (Finset.mem_coe.mp hv)
    have hw := mem_cells.mp (Finset.mem_coe.mp hw)
    apply ext_getD
    · rw [inRange_length hv, inRange_length hw]
    · intro d hd
      rw [inRange_length hv] at hd
      exact List.map_inj_left.mp he d (hall d hd)
  · intro u hu
    have hu := mem_cells.mp (Finset.mem_coe.mp hu)
    refine ⟨writeAt D u (zerosI s.length), ?_, ?_⟩
    · apply Finset.mem_coe.mpr
      rw [mem_cells, ← mem_writeAll (loose_of_nodup hn) hlt hall]
      exact List.mem_map.mpr ⟨u, mem_allIdx.mpr hu, rfl⟩
    · exact map_writeAt hn (by have := inRange_length hu; simpa [projSizes] using this.symm) (by simpa [zerosI] using hlt)

/-- a family of functions on groups of dimensions that partition the dimensions of the table -/
structure Splits (s : List Nat) (L : Prob ℚ) : Prop where
  nodup : (L.map Prod.fst).flatten.Nodup
  lt : ∀ d ∈ (L.map Prod.fst).flatten, d < s.length
  all : ∀ d < s.length, d ∈ (L.map Prod.fst).flatten

theorem Splits.congr {s : List Nat} {L L' : Prob ℚ} (h : Splits s L) (he : L'.map Prod.fst = L.map Prod.fst) :
    Splits s L' := ⟨by rw [he]; exact h.nodup, by rw [he]; exact h.lt, by rw [he]; exact h.all⟩

theorem sum_prodAt {s : List Nat} {L : Prob ℚ} (h : Splits s L) :
    ∑ v ∈ cells s, prodAt L v = (L.map (fun q => ∑ j ∈ cells (projSizes q.1 s), q.2 j)).prod := by
  rw [← sum_prodChunks, sum_allIdx, ← sum_cells_proj h.nodup h.lt h.all]
  exact Finset.sum_congr rfl (fun v _ => (prodChunks_proj v L).symm)

theorem prodAt_append (A B : Prob ℚ) (v : List Int) : prodAt (A ++ B) v = prodAt A v * prodAt B v := by
  simp [prodAt]

/-- the sum of a product over the cells with entries `j` at one of the groups -/
theorem marginalSum_prodAt {s : List Nat} {A B : Prob ℚ} {q : List Nat × (List Int → ℚ)}
    (h : Splits s (A ++ q :: B)) {j : List Int} (hj : InRange (projSizes q.1 s) j) :
    marginalSum s q.1 (prodAt (A ++ q :: B)) j =
      (A.map (fun q => ∑ j ∈ cells (projSizes q.1 s), q.2 j)).prod * q.2 j *
      (B.map (fun q => ∑ j ∈ cells (projSizes q.1 s), q.2 j)).prod := by
  have h' : Splits s (A ++ (q.1, fun u => if u = j then q.2 u else 0) :: B) := h.congr (by simp)
  have := sum_prodAt h'
  unfold marginalSum
  rw [Finset.sum_filter]
  have e : ∀ v, (if proj q.1 v = j then prodAt (A ++ q :: B) v else 0) =
      prodAt (A ++ (q.1, fun u => if u = j then q.2 u else 0) :: B) v := by
    intro v
    simp only [prodAt, List.map_append, List.map_cons, List.prod_append, List.prod_cons]
    split <;> simp
  simp only [e]
  rw [this]
  simp only [List.map_append, List.map_cons, List.prod_append, List.prod_cons]
  rw [Finset.sum_ite_eq' (cells (projSizes q.1 s)) j q.2, if_pos (mem_cells.mpr hj), mul_assoc]

theorem prod_const_map {L : Prob ℚ} {s : List Nat} {T : ℚ} (h : ∀ q ∈ L, ∑ j ∈ cells (projSizes q.1 s), q.2 j = T) :
    (L.map (fun q => ∑ j ∈ cells (projSizes q.1 s), q.2 j)).prod = T ^ L.length := by
  rw [List.map_congr_left (g := fun _ => T) h]
  simp

/-- scaling a constant table to marginals on disjoint groups of dimensions, one after the other -/
theorem qsweep_product {s : List Nat} {Q : Prob ℚ} (h : ProbShape s Q) (hs : Splits s Q) {T : ℚ} (hT : T ≠ 0)
    (htot : ∀ q ∈ Q, ∑ j ∈ cells (projSizes q.1 s), q.2 j = T) :
    ∀ (L2 L1 : Prob ℚ), Q = L1 ++ L2 → L2 ≠ [] → ∀ C : ℚ, C ≠ 0 → ∀ b : List Int → ℚ,
      (∀ v, InRange s v → b v = C * prodAt L1 v) →
      ∀ v, InRange s v → qsweep s L2 b v = prodAt Q v / T ^ (Q.length - 1)
  | [], _, _, h, _, _, _, _ => absurd rfl h
  | q :: L2, L1, hQ, _, C, hC, b, hb => by
    intro v hv
    have hqQ : q ∈ Q := by rw [hQ]; simp
    have hd := (h.dims q hqQ).2
    -- the sums before scaling do not depend on the entry
    set K : ℚ := (L2.map (fun q => ∑ j ∈ cells (projSizes q.1 s), (fun _ : List Int => (1 : ℚ)) j)).prod with hK
    have hK0 : K ≠ 0 := by
      rw [hK]
      apply List.prod_ne_zero
      intro hm
      obtain ⟨q', hq', he⟩ := List.mem_map.mp hm
      have hq'Q : q' ∈ Q := by rw [hQ]; simp [hq']
      obtain ⟨j, hj⟩ := exists_inRange (h.goodP hq'Q).2
      have : (0 : ℚ) < ∑ j ∈ cells (projSizes q'.1 s), (fun _ : List Int => (1 : ℚ)) j :=
        Finset.sum_pos (fun _ _ => by norm_num) ⟨j, mem_cells.mpr hj⟩
      rw [he] at this
      exact lt_irrefl _ this
    have hS : ∀ j, InRange (projSizes q.1 s) j → marginalSum s q.1 b j = C * (T ^ L1.length * K) := by
      intro j hj
      rw [marginalSum_congr hb, marginalSum_smul]
      congr 1
      have hs' : Splits s (L1 ++ (q.1, fun _ => (1 : ℚ)) :: L2.map (fun q => (q.1, fun _ => (1 : ℚ)))) :=
        hs.congr (by rw [hQ]; simp [Function.comp_def])
      have := marginalSum_prodAt hs' (j := j) hj
      rw [prod_const_map (T := T) (fun q hq => htot q (by rw [hQ]; simp [hq])), List.map_map] at this
      rw [mul_one] at this
      refine Eq.trans ?_ this
      apply marginalSum_congr
      intro w _
      rw [prodAt_append]
      simp [prodAt, Function.comp_def]
    have hS0 : C * (T ^ L1.length * K) ≠ 0 := mul_ne_zero hC (mul_ne_zero (pow_ne_zero _ hT) hK0)
    have hb' : ∀ w, InRange s w → qscaled s q.1 q.2 b w = C / (C * (T ^ L1.length * K)) * prodAt (L1 ++ [q]) w := by
      intro w hw
      unfold qscaled
      rw [hS _ (inRange_proj hd hw), if_neg hS0, hb w hw, prodAt_append]
      simp only [prodAt, List.map_cons, List.map_nil, List.prod_cons, List.prod_nil]
      ring
    show qsweep s L2 (qscaled s q.1 q.2 b) v = _
    by_cases hL2 : L2 = []
    · subst hL2
      show qscaled s q.1 q.2 b v = _
      rw [hb' v hv, ← hQ]
      have : K = 1 := by simp [hK]
      rw [this, mul_one]
      have hlen : Q.length - 1 = L1.length := by rw [hQ]; simp
      rw [hlen]
      have := pow_ne_zero L1.length hT
      field_simp
    · exact qsweep_product h hs hT htot L2 (L1 ++ [q]) (by rw [hQ]; simp) hL2 _ (div_ne_zero hC hS0) _ hb' v hv

theorem marginalSum_product {s : List Nat} {Q : Prob ℚ} (hs : Splits s Q) {T : ℚ} (hT : T ≠ 0)
    (htot : ∀ q ∈ Q, ∑ j ∈ cells (projSizes q.1 s), q.2 j = T) {q} (hq : q ∈ Q) {j : List Int}
    (hj : InRange (projSizes q.1 s) j) :
    marginalSum s q.1 (fun v => prodAt Q v / T ^ (Q.length - 1)) j = q.2 j := by
  obtain ⟨A, B, hQ⟩ := List.append_of_mem hq
  have h1 : marginalSum s q.1 (fun v => prodAt Q v / T ^ (Q.length - 1)) j =
      (1 / T ^ (Q.length - 1)) * marginalSum s q.1 (prodAt Q) j := by
    rw [← marginalSum_smul]
    apply marginalSum_congr
    intro v _; ring
  have hm : marginalSum s q.1 (prodAt Q) j = T ^ A.length * q.2 j * T ^ B.length := by
    rw [hQ] at hs ⊢
    rw [marginalSum_prodAt hs hj, prod_const_map (T := T) (fun q hq => htot q (by rw [hQ]; simp [hq])),
      prod_const_map (T := T) (fun q hq => htot q (by rw [hQ]; simp [hq]))]
  rw [h1, hm]
  have hlen : Q.length - 1 = A.length + B.length := by rw [hQ]; simp
  rw [hlen, pow_add]
  have := pow_ne_zero A.length hT
  have := pow_ne_zero B.length hT
  field_simp

end HL

import Verif.Proof.IPFAlgebra
import Verif.Proof.MicroRat
import Verif.DecompSpec

/-
Sums over the cells that agree with a given one on a set of dimensions.
-/

namespace HL

/-- the two cells have the same entries at the dimensions `A` -/
def agr (A : Finset ℕ) (v w : List Int) : Prop := ∀ d ∈ A, v.getD d 0 = w.getD d 0

instance (A : Finset ℕ) (v w : List Int) : Decidable (agr A v w) := by unfold agr; infer_instance

theorem agr_symm {A : Finset ℕ} {v w : List Int} (h : agr A v w) : agr A w v := fun d hd => (h d hd).symm
theorem agr_trans {A : Finset ℕ} {u v w : List Int} (h : agr A u v) (h' : agr A v w) : agr A u w := fun d hd => (h d hd).trans (h' d hd)
theorem agr_mono {A B : Finset ℕ} (hAB : A ⊆ B) {v w : List Int} (h : agr B v w) : agr A v w := fun d hd => h d (hAB hd)
theorem agr_refl (A : Finset ℕ) (v : List Int) : agr A v v := fun _ _ => rfl

/-- the sum of `f` over the cells that agree with `v` at the dimensions `A` -/
def sumFix (s : List Nat) (A : Finset ℕ) (f : List Int → ℚ) (v : List Int) : ℚ := ∑ w ∈ (cells s).filter (agr A v), f w

/-- the entries of `v` at the dimensions `A`, those of `w` elsewhere -/
def mix (s : List Nat) (A : Finset ℕ) (v w : List Int) : List Int :=
  (List.range s.length).map (fun d => if d ∈ A then v.getD d 0 else w.getD d 0)

theorem mix_getD {s : List Nat} {A : Finset ℕ} {v w : List Int} {d : Nat} (hd : d < s.length) :
    (mix s A v w).getD d 0 = if d ∈ A then v.getD d 0 else w.getD d 0 := by
  simp [mix, List.getD_eq_getElem?_getD, hd]

theorem mix_inRange {s : List Nat} {A : Finset ℕ} {v w : List Int} (hv : InRange s v) (hw : InRange s w) : InRange s (mix s A v w) := by
  rw [inRange_iff_getD]
  refine ⟨by simp [mix], fun d hd => ?_⟩
  rw [mix_getD hd]
  split
  · exact inRange_getD hv hd
  · exact inRange_getD hw hd

theorem agr_mix {s : List Nat} {A : Finset ℕ} {v w : List Int} (hv : InRange s v) (hw : InRange s w) : agr A v (mix s A v w) := by
  intro d hd
  by_cases h : d < s.length
  · rw [mix_getD h, if_pos hd]
  · have h1 : v.getD d 0 = 0 := by
      have := inRange_length hv
      simp [List.getD_eq_getElem?_getD, this, h]
    have h2 : (mix s A v w).getD d 0 = 0 := by simp [mix, List.getD_eq_getElem?_getD, h]
    rw [h1, h2]

theorem mix_mix {s : List Nat} {A : Finset ℕ} {v v' w : List Int} (hw : InRange s w) (h : agr A v w) :
    mix s A v (mix s A v' w) = w := by
  apply ext_getD
  · rw [inRange_length hw]; simp [mix]
  · intro d hd
    have hd : d < s.length := by simpa [mix] using hd
    rw [mix_getD hd]
    split
    · rename_i hA; exact h d hA
    · rename_i hA; rw [mix_getD hd, if_neg hA]

/-- the sum over one class, as a sum over another -/
theorem sumFix_move {s : List Nat} {A : Finset ℕ} {v v' : List Int} (hv : InRange s v) (hv' : InRange s v') (f : List Int → ℚ) :
    sumFix s A f v = ∑ w ∈ (cells s).filter (agr A v'), f (mix s A v w) := by
  refine Finset.sum_nbij' (mix s A v') (mix s A v) ?_ ?_ ?_ ?_ ?_
  · intro w hw
    obtain ⟨hw, -⟩ := Finset.mem_filter.mp hw
    exact Finset.mem_filter.mpr ⟨mem_cells.mpr (mix_inRange hv' (mem_cells.mp hw)), agr_mix hv' (mem_cells.mp hw)⟩
  · intro w hw
    obtain ⟨hw, -⟩ := Finset.mem_filter.mp hw
    exact Finset.mem_filter.mpr ⟨mem_cells.mpr (mix_inRange hv (mem_cells.mp hw)), agr_mix hv (mem_cells.mp hw)⟩
  · intro w hw
    obtain ⟨hw, ha⟩ := Finset.mem_filter.mp hw
    exact mix_mix (mem_cells.mp hw) ha
  · intro w hw
    obtain ⟨hw, ha⟩ := Finset.mem_filter.mp hw
    exact mix_mix (mem_cells.mp hw) ha
  · intro w hw
    obtain ⟨hw, ha⟩ := Finset.mem_filter.mp hw
    rw [mix_mix (mem_cells.mp hw) ha]

/-- the number of cells with given entries at the dimensions `A` -/
def cnt (s : List Nat) (A : Finset ℕ) : ℚ := sumFix s A (fun _ => 1) (zerosI s.length)

theorem inRange_zerosI {s : List Nat} (hpos : ∀ n ∈ s, 0 < n) : InRange s (zerosI s.length) := by
  rw [inRange_iff_getD]
  refine ⟨by simp [zerosI], fun d hd => ?_⟩
  rw [zerosI_getD]
  have := hpos _ (getD_mem (k := d) (l := s) hd)
  exact ⟨le_rfl, by exact_mod_cast this⟩

theorem sumFix_one {s : List Nat} (hpos : ∀ n ∈ s, 0 < n) {A : Finset ℕ} {v : List Int} (hv : InRange s v) :
    sumFix s A (fun _ => 1) v = cnt s A := by
  rw [sumFix_move hv (inRange_zerosI hpos)]
  rfl

theorem cnt_pos {s : List Nat} (hpos : ∀ n ∈ s, 0 < n) (A : Finset ℕ) : 0 < cnt s A :=
  Finset.sum_pos (fun _ _ => by norm_num) ⟨zerosI s.length, Finset.mem_filter.mpr ⟨mem_cells.mpr (inRange_zerosI hpos), agr_refl _ _⟩⟩

theorem sumFix_congr {s : List Nat} {A : Finset ℕ} {f g : List Int → ℚ} {v : List Int} (h : ∀ w, InRange s w → agr A v w → f w = g w) :
    sumFix s A f v = sumFix s A g v :=
  Finset.sum_congr rfl (fun w hw => h w (mem_cells.mp (Finset.mem_filter.mp hw).1) (Finset.mem_filter.mp hw).2)

theorem sumFix_mul {s : List Nat} {A : Finset ℕ} (c : ℚ) (f : List Int → ℚ) (v : List Int) :
    sumFix s A (fun w => c * f w) v = c * sumFix s A f v := by
  unfold sumFix; rw [Finset.mul_sum]

theorem sumFix_const {s : List Nat} (hpos : ∀ n ∈ s, 0 < n) {A : Finset ℕ} {v : List Int} (hv : InRange s v) {c : ℚ} {f : List Int → ℚ}
    (h : ∀ w, InRange s w → agr A v w → f w = c) : sumFix s A f v = c * cnt s A := by
  rw [sumFix_congr (g := fun _ => c * 1) (fun w hw ha => by rw [h w hw ha, mul_one]), sumFix_mul, sumFix_one hpos hv]

theorem sumFix_class {s : List Nat} {A : Finset ℕ} {f : List Int → ℚ} {v w : List Int} (h : agr A v w) : sumFix s A f v = sumFix s A f w := by
  unfold sumFix
  congr 1
  ext x
  simp only [Finset.mem_filter]
  exact and_congr_right fun _ => ⟨fun h' => agr_trans (agr_symm h) h', fun h' => agr_trans h h'⟩

theorem sumFix_nonneg {s : List Nat} {A : Finset ℕ} {f : List Int → ℚ} (h : ∀ w, InRange s w → 0 ≤ f w) (v : List Int) : 0 ≤ sumFix s A f v :=
  Finset.sum_nonneg (fun w hw => h w (mem_cells.mp (Finset.mem_filter.mp hw).1))

theorem sumFix_eq_zero {s : List Nat} {A : Finset ℕ} {f : List Int → ℚ} (h : ∀ w, InRange s w → 0 ≤ f w) {v w : List Int}
    (h0 : sumFix s A f v = 0) (hw : InRange s w) (ha : agr A v w) : f w = 0 :=
  (Finset.sum_eq_zero_iff_of_nonneg (fun w hw => h w (mem_cells.mp (Finset.mem_filter.mp hw).1))).mp h0 w
    (Finset.mem_filter.mpr ⟨mem_cells.mpr hw, ha⟩)

/-- summing in two steps -/
theorem sumFix_tower {s : List Nat} (hpos : ∀ n ∈ s, 0 < n) {A B : Finset ℕ} (hAB : A ⊆ B) (f : List Int → ℚ) (v : List Int) :
    sumFix s A (sumFix s B f) v = cnt s B * sumFix s A f v := by
  unfold sumFix
  simp only [Finset.sum_filter, Finset.mul_sum]
  calc ∑ w ∈ cells s, (if agr A v w then ∑ x ∈ cells s, (if agr B w x then f x else 0) else 0)
      = ∑ w ∈ cells s, ∑ x ∈ cells s, (if agr A v w ∧ agr B w x then f x else 0) := by
        refine Finset.sum_congr rfl fun w _ => ?_
        by_cases h : agr A v w
        · simp [h]
        · simp [h]
    _ = ∑ x ∈ cells s, ∑ w ∈ cells s, (if agr A v w ∧ agr B w x then f x else 0) := Finset.sum_comm
    _ = _ := by
        refine Finset.sum_congr rfl fun x hx => ?_
        have e : ∀ w, (agr A v w ∧ agr B w x) ↔ (agr A v x ∧ agr B x w) := fun w =>
          ⟨fun ⟨h1, h2⟩ => ⟨agr_trans h1 (agr_mono hAB h2), agr_symm h2⟩,
           fun ⟨h1, h2⟩ => ⟨agr_trans h1 (agr_mono hAB h2), agr_symm h2⟩⟩
        simp only [e]
        by_cases h : agr A v x
        · simp only [h, true_and, if_true]
          have := sumFix_one hpos (A := B) (mem_cells.mp hx)
          rw [← this]
          unfold sumFix
          rw [Finset.sum_mul, Finset.sum_filter]
          simp
        · simp [h]

/-- the value depends only on the entries at the dimensions `D` -/
def DependsOn (s : List Nat) (D : Finset ℕ) (f : List Int → ℚ) : Prop := ∀ v w, InRange s v → InRange s w → agr D v w → f v = f w

theorem sumFix_indep {s : List Nat} {P D : Finset ℕ} {f : List Int → ℚ} (hf : DependsOn s D f) {v v' : List Int}
    (hv : InRange s v) (hv' : InRange s v') (h : agr (P ∩ D) v v') : sumFix s P f v = sumFix s P f v' := by
  rw [sumFix_move hv hv']
  refine Finset.sum_congr rfl fun w hw => ?_
  obtain ⟨hw, ha⟩ := Finset.mem_filter.mp hw
  have hw := mem_cells.mp hw
  refine hf _ _ (mix_inRange hv hw) hw fun d hd => ?_
  by_cases hs : d < s.length
  · rw [mix_getD hs]
    split
    · rename_i hP
      rw [h d (Finset.mem_inter.mpr ⟨hP, hd⟩), ha d hP]
    · rfl
  · have := inRange_length hw
    simp [mix, List.getD_eq_getElem?_getD, hs, this]

/-- dimensions a function does not depend on need not be fixed -/
theorem sumFix_drop {s : List Nat} (hpos : ∀ n ∈ s, 0 < n) {P D : Finset ℕ} {f : List Int → ℚ} (hf : DependsOn s D f) {v : List Int}
    (hv : InRange s v) : sumFix s P f v * cnt s (P ∩ D) = cnt s P * sumFix s (P ∩ D) f v := by
  rw [← sumFix_tower hpos Finset.inter_subset_left]
  exact (sumFix_const hpos hv (fun w hw ha => sumFix_indep hf hw hv (agr_symm ha))).symm

theorem cnt_union {s : List Nat} (hpos : ∀ n ∈ s, 0 < n) (P D : Finset ℕ) : cnt s (D ∪ P) * cnt s (P ∩ D) = cnt s P * cnt s D := by
  have hz := inRange_zerosI hpos
  have hf : DependsOn s D (fun w => if agr D (zerosI s.length) w then 1 else 0) := by
    intro v w _ _ h
    have : agr D (zerosI s.length) v ↔ agr D (zerosI s.length) w := ⟨fun h' => agr_trans h' h, fun h' => agr_trans h' (agr_symm h)⟩
    simp only [this]
  have := sumFix_drop hpos hf hz (P := P)
  have e1 : sumFix s P (fun w => if agr D (zerosI s.length) w then 1 else 0) (zerosI s.length) = cnt s (D ∪ P) := by
    unfold cnt sumFix
    rw [Finset.sum_ite, Finset.sum_const_zero, add_zero, Finset.filter_filter]
    congr 1
    ext w
    simp only [Finset.mem_filter]
    refine and_congr_right fun _ => ⟨fun ⟨h1, h2⟩ d hd => ?_, fun h => ⟨agr_mono Finset.subset_union_right h, agr_mono Finset.subset_union_left h⟩⟩
    rcases Finset.mem_union.mp hd with hd | hd
    · exact h2 d hd
    · exact h1 d hd
  have e2 : sumFix s (P ∩ D) (fun w => if agr D (zerosI s.length) w then 1 else 0) (zerosI s.length) = cnt s D := by
    unfold cnt sumFix
    rw [Finset.sum_ite, Finset.sum_const_zero, add_zero, Finset.filter_filter]
    congr 1
    ext w
    simp only [Finset.mem_filter]
    exact and_congr_right fun _ => ⟨fun h => h.2, fun h => ⟨agr_mono Finset.inter_subset_right h, h⟩⟩
  rw [e1, e2] at this
  exact this

theorem agr_proj {ds : List Nat} {v w : List Int} : agr ds.toFinset v w ↔ proj ds w = proj ds v := by
  unfold agr proj
  rw [List.map_inj_left]
  simp only [List.mem_toFinset]
  exact ⟨fun h d hd => (h d hd).symm, fun h d hd => (h d hd).symm⟩

theorem marginalSum_eq_sumFix {s ds : List Nat} (f : List Int → ℚ) (v : List Int) :
    marginalSum s ds f (proj ds v) = sumFix s ds.toFinset f v := by
  unfold marginalSum sumFix
  congr 1
  ext w
  simp only [Finset.mem_filter, agr_proj]

/-- the cells that agree with `v` at some of the dimensions of a marginal, one cell of the marginal after the other -/
theorem sumFix_fibres {s : List Nat} {p : List Nat × (List Int → ℚ)} (hp : ∀ d ∈ p.1, d < s.length) {S : List Nat} (hS : ∀ d ∈ S, d ∈ p.1)
    (f : List Int → ℚ) (v : List Int) :
    sumFix s S.toFinset f v = weightOn s (p.1, marginalSum s p.1 f) S v := by
  unfold sumFix weightOn marginalSum
  rw [← Finset.sum_fiberwise_of_maps_to (g := proj p.1) (t := (cells (projSizes p.1 s)).filter
    (fun j => ∀ a < p.1.length, p.1.getD a 0 ∈ S → j.getD a 0 = v.getD (p.1.getD a 0) 0))]
  · refine Finset.sum_congr rfl fun j hj => ?_
    obtain ⟨-, hj⟩ := Finset.mem_filter.mp hj
    show _ = ∑ w ∈ (cells s).filter (fun w => proj p.1 w = j), f w
    refine Finset.sum_congr ?_ fun _ _ => rfl
    ext w
    simp only [Finset.mem_filter]
    constructor
    · rintro ⟨⟨h1, h2⟩, h3⟩; exact ⟨h1, h3⟩
    · rintro ⟨h1, h3⟩
      refine ⟨⟨h1, fun d hd => ?_⟩, h3⟩
      have hd := List.mem_toFinset.mp hd
      obtain ⟨a, ha, rfl⟩ := List.getElem_of_mem (hS d hd)
      have e1 : p.1.getD a 0 = p.1[a] := by simp [List.getD_eq_getElem?_getD, ha]
      have := hj a ha (by rw [e1]; exact hd)
      rw [e1] at this
      rw [← this, ← h3]
      simp [proj, List.getD_eq_getElem?_getD, ha]
  · intro w hw
    obtain ⟨hw, ha⟩ := Finset.mem_filter.mp hw
    refine Finset.mem_filter.mpr ⟨mem_cells.mpr (inRange_proj hp (mem_cells.mp hw)), fun a ha' hd => ?_⟩
    rw [ha _ (List.mem_toFinset.mpr hd)]
    simp [proj, List.getD_eq_getElem?_getD, ha']

theorem weightOn_congr {s : List Nat} {p q : List Nat × (List Int → ℚ)} (h1 : p.1 = q.1)
    (h2 : ∀ j, InRange (projSizes p.1 s) j → p.2 j = q.2 j) (S : List Nat) (v : List Int) : weightOn s p S v = weightOn s q S v := by
  obtain ⟨ds, f⟩ := p
  obtain ⟨ds', g⟩ := q
  simp only at h1
  subst h1
  unfold weightOn
  exact Finset.sum_congr rfl (fun j hj => h2 j (mem_cells.mp (Finset.mem_filter.mp hj).1))

/-- the weights of a marginal, from its values at the cells of the table -/
theorem sumFix_lift {s : List Nat} (hpos : ∀ n ∈ s, 0 < n) {p : List Nat × (List Int → ℚ)} (hp : ∀ d ∈ p.1, d < s.length) (hnd : p.1.Nodup)
    {S : List Nat} (hS : ∀ d ∈ S, d ∈ p.1) (v : List Int) :
    sumFix s S.toFinset (fun w => p.2 (proj p.1 w)) v = cnt s p.1.toFinset * weightOn s p S v := by
  rw [sumFix_fibres hp hS]
  unfold weightOn
  rw [Finset.mul_sum]
  refine Finset.sum_congr rfl fun j hj => ?_
  have hj := mem_cells.mp (Finset.mem_filter.mp hj).1
  obtain ⟨w, hw, rfl⟩ := exists_proj hpos (loose_of_nodup hnd) hp hj
  show marginalSum s p.1 _ (proj p.1 w) = _
  rw [marginalSum_eq_sumFix, mul_comm]
  exact sumFix_const hpos hw (fun x hx ha => by rw [agr_proj.mp ha])

end HL

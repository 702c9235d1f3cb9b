import Verif.Proof.Transport
import Verif.Props.IPFClosest
import Verif.FeasibleSpec

/-
Lemmas for C99: sums over sets of categories, and tables from matrices.
-/

namespace HL

section
variable {K : Type} [AddCommMonoid K] [LinearOrder K] [IsOrderedAddMonoid K]

theorem sum_marginals (s ds : List Nat) (c : List Int → K) (A : Finset (List Int)) :
    ∑ i ∈ A, marginalSum s ds c i = ∑ v ∈ (cells s).filter (fun v => proj ds v ∈ A), c v := by
  classical
  unfold marginalSum
  rw [← Finset.sum_fiberwise_of_maps_to (s := (cells s).filter (fun v => proj ds v ∈ A)) (t := A) (g := fun v => proj ds v)
    (fun v hv => (Finset.mem_filter.mp hv).2)]
  apply Finset.sum_congr rfl
  intro i hi
  apply Finset.sum_congr _ (fun _ _ => rfl)
  ext v
  simp only [Finset.mem_filter]
  constructor
  · rintro ⟨h1, rfl⟩
    exact ⟨⟨h1, hi⟩, rfl⟩
  · rintro ⟨⟨h1, -⟩, h2⟩
    exact ⟨h1, h2⟩

/-- a non-negative table that vanishes with the seed -/
theorem reach_le {s p q : List Nat} (hq : ∀ d ∈ q, d < s.length) {b : List Int → ℚ} {c : List Int → K}
    (h0 : ∀ v, InRange s v → 0 ≤ c v) (hz : ∀ v, InRange s v → b v = 0 → c v = 0) (A : Finset (List Int)) :
    ∑ i ∈ A, marginalSum s p c i ≤ ∑ j ∈ reach s p q b A, marginalSum s q c j := by
  classical
  rw [sum_marginals, sum_marginals]
  rw [← Finset.sum_filter_ne_zero ((cells s).filter (fun v => proj p v ∈ A))]
  apply Finset.sum_le_sum_of_subset_of_nonneg
  · intro v hv
    obtain ⟨h1, h2⟩ := Finset.mem_filter.mp hv
    obtain ⟨h3, h4⟩ := Finset.mem_filter.mp h1
    have hr := mem_cells.mp h3
    refine Finset.mem_filter.mpr ⟨h3, Finset.mem_filter.mpr ⟨mem_cells.mpr (inRange_proj hq hr), v, h3, ?_, h4, rfl⟩⟩
    exact fun hb => h2 (hz v hr hb)
  · intro v hv _
    exact h0 v (mem_cells.mp (Finset.mem_filter.mp hv).1)

end

theorem cell_unique {s p q : List Nat} (hc : ∀ d < s.length, d ∈ p ∨ d ∈ q) {v w : List Int} (hv : InRange s v) (hw : InRange s w)
    (h1 : proj p v = proj p w) (h2 : proj q v = proj q w) : v = w := by
  have pick : ∀ {ds : List Nat} {d : Nat}, d ∈ ds → proj ds v = proj ds w → v.getD d 0 = w.getD d 0 := by
    intro ds d hd h
    exact List.map_inj_left.mp h d hd
  apply ext_getD (by rw [inRange_length hv, inRange_length hw])
  intro d hd
  rw [inRange_length hv] at hd
  rcases hc d hd with h | h
  · exact pick h h1
  · exact pick h h2

/-- the sums of a table that comes from a matrix -/
theorem matrix_sum {s p q : List Nat} (hp : ∀ d ∈ p, d < s.length) (hq : ∀ d ∈ q, d < s.length) (hc : ∀ d < s.length, d ∈ p ∨ d ∈ q)
    {T : List Int → List Int → ℕ}
    (hT : ∀ i ∈ cells (projSizes p s), ∀ j ∈ cells (projSizes q s), T i j ≠ 0 → ∃ v ∈ cells s, proj p v = i ∧ proj q v = j) :
    (∀ i ∈ cells (projSizes p s), marginalSum s p (fun v => T (proj p v) (proj q v)) i = ∑ j ∈ cells (projSizes q s), T i j) ∧
    (∀ j ∈ cells (projSizes q s), marginalSum s q (fun v => T (proj p v) (proj q v)) j = ∑ i ∈ cells (projSizes p s), T i j) := by
  classical
  constructor
  · intro i hi
    unfold marginalSum
    refine Finset.sum_of_injOn (fun v => proj q v) ?_ ?_ ?_ ?_
    · intro v hv w hw h
      obtain ⟨h1, h2⟩ := Finset.mem_filter.mp (Finset.mem_coe.mp hv)
      obtain ⟨h3, h4⟩ := Finset.mem_filter.mp (Finset.mem_coe.mp hw)
      exact cell_unique hc (mem_cells.mp h1) (mem_cells.mp h3) (h2.trans h4.symm) h
    · intro v hv
      obtain ⟨h1, -⟩ := Finset.mem_filter.mp (Finset.mem_coe.mp hv)
      exact Finset.mem_coe.mpr (mem_cells.mpr (inRange_proj hq (mem_cells.mp h1)))
    · intro j hj hn
      by_contra hne
      obtain ⟨v, hv, h1, h2⟩ := hT i hi j hj hne
      exact hn ⟨v, Finset.mem_coe.mpr (Finset.mem_filter.mpr ⟨hv, h1⟩), h2⟩
    · intro v hv
      rw [(Finset.mem_filter.mp hv).2]
  · intro j hj
    unfold marginalSum
    refine Finset.sum_of_injOn (fun v => proj p v) ?_ ?_ ?_ ?_
    · intro v hv w hw h
      obtain ⟨h1, h2⟩ := Finset.mem_filter.mp (Finset.mem_coe.mp hv)
      obtain ⟨h3, h4⟩ := Finset.mem_filter.mp (Finset.mem_coe.mp hw)
      exact cell_unique hc (mem_cells.mp h1) (mem_cells.mp h3) h (h2.trans h4.symm)
    · intro v hv
      obtain ⟨h1, -⟩ := Finset.mem_filter.mp (Finset.mem_coe.mp hv)
      exact Finset.mem_coe.mpr (mem_cells.mpr (inRange_proj hp (mem_cells.mp h1)))
    · intro i hi hn
      by_contra hne
      obtain ⟨v, hv, h1, h2⟩ := hT i hi j hj hne
      exact hn ⟨v, Finset.mem_coe.mpr (Finset.mem_filter.mpr ⟨hv, h2⟩), h1⟩
    · intro v hv
      rw [(Finset.mem_filter.mp hv).2]

theorem natCast_marginalSum (K : Type) [AddCommMonoidWithOne K] (s ds : List Nat) (n : List Int → ℕ) (j : List Int) :
    marginalSum s ds (fun v => (n v : K)) j = ((marginalSum s ds n j : ℕ) : K) := by
  unfold marginalSum
  rw [Nat.cast_sum]

/-- a table of whole numbers -/
theorem whole_table {s : List Nat} {p q : List Nat × (List Int → ℚ)} {pop : Int} (h : RatOK s [p, q] pop) {b : List Int → ℚ}
    (hw : ∀ r ∈ [p, q], ∀ j, InRange (projSizes r.1 s) j → ∃ n : ℕ, r.2 j = n)
    (hall : ∀ A ⊆ cells (projSizes p.1 s), ∑ i ∈ A, p.2 i ≤ ∑ j ∈ reach s p.1 q.1 b A, q.2 j) :
    ∃ n : List Int → ℕ, (∀ v, InRange s v → b v = 0 → n v = 0) ∧
      ∀ r ∈ [p, q], ∀ j, InRange (projSizes r.1 s) j → ((marginalSum s r.1 n j : ℕ) : ℚ) = r.2 j := by
  classical
  have hp : ∀ d ∈ p.1, d < s.length := (h.dims p (by simp)).2
  have hq : ∀ d ∈ q.1, d < s.length := (h.dims q (by simp)).2
  have hc : ∀ d < s.length, d ∈ p.1 ∨ d ∈ q.1 := by
    intro d hd
    obtain ⟨r, hr, hrd⟩ := h.cover d hd
    simp only [List.mem_cons, List.not_mem_nil, or_false] at hr
    rcases hr with rfl | rfl
    · exact Or.inl hrd
    · exact Or.inr hrd
  have cast : ∀ r ∈ [p, q], ∀ j ∈ cells (projSizes r.1 s), (((r.2 j).num.toNat : ℕ) : ℚ) = r.2 j := by
    intro r hr j hj
    obtain ⟨n, hn⟩ := hw r hr j (mem_cells.mp hj)
    rw [hn]
    simp
  have castS : ∀ r ∈ [p, q], ∀ A ⊆ cells (projSizes r.1 s), ((∑ j ∈ A, (r.2 j).num.toNat : ℕ) : ℚ) = ∑ j ∈ A, r.2 j := by
    intro r hr A hA
    rw [Nat.cast_sum]
    exact Finset.sum_congr rfl (fun j hj => cast r hr j (hA hj))
  obtain ⟨T, h1, h2, h3⟩ := transport (cells (projSizes p.1 s)) (cells (projSizes q.1 s)) (fun i => (p.2 i).num.toNat)
    (fun j => (q.2 j).num.toNat) (fun i j => ∃ v ∈ cells s, b v ≠ 0 ∧ proj p.1 v = i ∧ proj q.1 v = j)
    (by
      have : ((∑ i ∈ cells (projSizes p.1 s), (p.2 i).num.toNat : ℕ) : ℚ) = ((∑ j ∈ cells (projSizes q.1 s), (q.2 j).num.toNat : ℕ) : ℚ) := by
        rw [castS p (by simp) _ subset_rfl, castS q (by simp) _ subset_rfl, h.total p (by simp), h.total q (by simp)]
      exact_mod_cast this)
    (by
      intro A hA
      have e : (cells (projSizes q.1 s)).filter (fun j => ∃ i ∈ A, ∃ v ∈ cells s, b v ≠ 0 ∧ proj p.1 v = i ∧ proj q.1 v = j) =
          reach s p.1 q.1 b A := by
        unfold reach
        ext j
        simp only [Finset.mem_filter]
        constructor
        · rintro ⟨h1, i, hi, v, hv, h2, rfl, h4⟩
          exact ⟨h1, v, hv, h2, hi, h4⟩
        · rintro ⟨h1, v, hv, h2, h3, h4⟩
          exact ⟨h1, _, h3, v, hv, h2, rfl, h4⟩
      rw [e]
      have := hall A hA
      rw [← castS p (by simp) A hA, ← castS q (by simp) (reach s p.1 q.1 b A) (Finset.filter_subset _ _)] at this
      exact_mod_cast this)
  obtain ⟨k1, k2⟩ := matrix_sum hp hq hc (T := T) (fun i hi j hj hne => by
    obtain ⟨v, hv, -, h4, h5⟩ := h1 i hi j hj hne
    exact ⟨v, hv, h4, h5⟩)
  refine ⟨fun v => T (proj p.1 v) (proj q.1 v), ?_, ?_⟩
  · intro v hv hb
    by_contra hne
    obtain ⟨w, hw', hbw, e1, e2⟩ := h1 _ (mem_cells.mpr (inRange_proj hp hv)) _ (mem_cells.mpr (inRange_proj hq hv)) hne
    exact hbw (cell_unique hc (mem_cells.mp hw') hv e1 e2 ▸ hb)
  · intro r hr j hj
    have hj' := mem_cells.mpr hj
    have hcast := cast r hr j hj'
    simp only [List.mem_cons, List.not_mem_nil, or_false] at hr
    rcases hr with rfl | rfl
    · rw [k1 j hj', h2 j hj']; exact hcast
    · rw [k2 j hj', h3 j hj']; exact hcast

end HL

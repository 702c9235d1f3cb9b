import Verif.Proof.ArrayLemmas

/-! The array functions `min`, `max`, `isZero` and `marginalProduct` (C81). -/

namespace HL

theorem foldl_min (L : List (List Int)) (g : List Int → Int) (m : Int) :
    L.foldl (fun m v => if decide (g v < m) then g v else m) m ≤ m ∧
    (∀ v ∈ L, L.foldl (fun m v => if decide (g v < m) then g v else m) m ≤ g v) ∧
    (L.foldl (fun m v => if decide (g v < m) then g v else m) m = m ∨
      ∃ v ∈ L, L.foldl (fun m v => if decide (g v < m) then g v else m) m = g v) := by
  induction L generalizing m with
  | nil => simp
  | cons w L ih =>
    simp only [List.foldl_cons]
    obtain ⟨h1, h2, h3⟩ := ih (if decide (g w < m) then g w else m)
    have hle : (if decide (g w < m) then g w else m) ≤ m ∧ (if decide (g w < m) then g w else m) ≤ g w := by
      by_cases h : g w < m
      · simp [h]; omega
      · simp [h]; omega
    refine ⟨h1.trans hle.1, ?_, ?_⟩
    · intro v hv
      rcases List.mem_cons.mp hv with rfl | hv
      · exact h1.trans hle.2
      · exact h2 v hv
    · rcases h3 with h3 | ⟨v, hv, h3⟩
      · by_cases h : g w < m
        · right; exact ⟨w, by simp, by rw [h3]; simp [h]⟩
        · left; rw [h3]; simp [h]
      · right; exact ⟨v, by simp [hv], h3⟩

/-- **C81** `min` of an array of 64-bit integers is its smallest entry. -/
theorem C81_min (fp : FP) {s : List Nat} (hg : GoodShape s) (g : List Int → Int)
    (hb : ∀ v, InRange s v → g v < 2 ^ 63) :
    ∃ m, minArr (numInt fp) (arr s g) = .ok m ∧ (∃ v, InRange s v ∧ g v = m) ∧ ∀ v, InRange s v → m ≤ g v := by
  refine ⟨_, minArr_eq (numInt fp) hg g, ?_⟩
  obtain ⟨h1, h2, h3⟩ := foldl_min (allIdx s) g (2 ^ 63 - 1)
  constructor
  · rcases h3 with h3 | ⟨v, hv, h3⟩
    · obtain ⟨v, hv⟩ : ∃ v, v ∈ allIdx s := by
        obtain ⟨r, hr⟩ := allIdx_head hg.2
        exact ⟨_, by rw [hr]; exact List.mem_cons_self⟩
      refine ⟨v, mem_allIdx.mp hv, ?_⟩
      have e1 := h2 v hv
      have e2 := hb v (mem_allIdx.mp hv)
      rw [h3] at e1
      show g v = List.foldl (fun m v => if decide (g v < m) then g v else m) (2 ^ 63 - 1) (allIdx s)
      rw [h3]; omega
    · exact ⟨v, mem_allIdx.mp hv, h3.symm⟩
  · intro v hv
    exact h2 v (mem_allIdx.mpr hv)

/-- **C81** (finding) `max` of an array computes its minimum, for every array: it is the largest entry only
when all entries are equal. -/
theorem C81_negation_max {α : Type} (N : Num α) (a : NDArray α) : maxArr N a = minArr N a := rfl

theorem C81_negation_max_iff (fp : FP) {s : List Nat} (hg : GoodShape s) (g : List Int → Int)
    (hb : ∀ v, InRange s v → g v < 2 ^ 63) :
    (∃ m, maxArr (numInt fp) (arr s g) = .ok m ∧ ∀ v, InRange s v → g v ≤ m) ↔
      ∀ v w, InRange s v → InRange s w → g v = g w := by
  obtain ⟨m, hm, ⟨u, hu, hum⟩, hle⟩ := C81_min fp hg g hb
  rw [C81_negation_max, hm]
  constructor
  · rintro ⟨m', h, hge⟩ v w hv hw
    injection h with h
    subst h
    have a1 := hge v hv; have a2 := hge w hw; have a3 := hle v hv; have a4 := hle w hw
    omega
  · intro h
    exact ⟨m, rfl, fun v hv => by rw [← hum, h v u hv hu]⟩

example (fp : FP) : minArr (numInt fp) (arr [2, 2] (fun v => v.getD 0 0 * 2 - v.getD 1 0)) = .ok (-1) ∧
    maxArr (numInt fp) (arr [2, 2] (fun v => v.getD 0 0 * 2 - v.getD 1 0)) = .ok (-1) := by
  rw [C81_negation_max, minArr_eq _ (by decide)]
  simp only [and_self]
  rfl

/-- **C81** `isZero` holds exactly of the vectors all of whose entries are 0. -/
theorem C81_isZero (v : List Int) : isZeroVec v = true ↔ ∀ x ∈ v, x = 0 := by
  induction v with
  | nil => simp [isZeroVec]
  | cons x v ih =>
    unfold isZeroVec
    by_cases h : x = 0
    · simp [h, ih]
    · simp [h]

theorem marginalProductFrom_eq : ∀ (m : List (List Int)) (idx : List Int) (p : Int), m.length = idx.length →
    (∀ k (h : k < m.length) (h' : k < idx.length), 0 ≤ idx[k] ∧ idx[k] < m[k].length) →
    marginalProductFrom m idx p =
      .ok (p * (List.zipWith (fun (r : List Int) (i : Int) => r.getD i.toNat 0) m idx).prod)
  | [], idx, p, _, _ => by simp [marginalProductFrom]
  | _ :: _, [], _, h, _ => by simp at h
  | r :: m, i :: idx, p, h, hk => by
    have h0 := hk 0 (by simp) (by simp)
    simp only [List.getElem_cons_zero] at h0
    have h1 : i.toNat < r.length := by omega
    unfold marginalProductFrom
    rw [dif_pos ⟨h0.1, h1⟩, marginalProductFrom_eq m idx _ (by simpa using h) (by
      intro k hk1 hk2
      have := hk (k + 1) (by simp; omega) (by simp; omega)
      simpa using this)]
    simp [List.getD_eq_getElem?_getD, h1, mul_assoc]

/-- **C81** `marginalProduct` is the product of the marginals' entries at the given position, when there is
one coordinate for each marginal and each is within its marginal. -/
theorem C81_marginalProduct (m : List (List Int)) (idx : List Int) (h : m.length = idx.length)
    (hk : ∀ k (h : k < m.length) (h' : k < idx.length), 0 ≤ idx[k] ∧ idx[k] < m[k].length) :
    marginalProduct m idx = .ok (List.zipWith (fun (r : List Int) (i : Int) => r.getD i.toNat 0) m idx).prod := by
  unfold marginalProduct
  rw [marginalProductFrom_eq m idx 1 h hk, one_mul]

example : marginalProduct [[2, 3], [5, 7, 11]] [1, 2] = .ok 33 := by decide

end HL

import Verif.Proof.Pick
import Verif.Proof.SliceLast

/-
What `recursive_sample` and `sample` do.
-/

namespace HL
open QIS

/-- The slice map sends the dimension at the end of a vector of `k + 1` to `k`, and so on down. -/
def MapOK (sm : List (Nat × Nat)) : List (Nat × U32) → Prop
  | [] => True
  | e :: rest => mapAt sm e.1 = rest.length ∧ MapOK sm rest

/-- Every dimension to sample points into the index vector. -/
def PosOK (pos : List Nat) (n : Nat) (L : List (Nat × U32)) : Prop :=
  ∀ e ∈ L, ∃ p, pos[e.1]? = some p ∧ p < n

/-- positions in the index vector of the dimensions to sample -/
def posOf (pos : List Nat) (L : List (Nat × U32)) : List Nat := L.map (fun e => pos.getD e.1 0)

variable {fp : FP}

theorem writeMapped_ok {pos : List Nat} {d p : Nat} {v : Int} {idx : List Int} (h : pos[d]? = some p)
    (hp : p < idx.length) : writeMapped pos d v idx = .ok (idx.set p v) := by
  unfold writeMapped
  rw [h]
  simp [hp]

theorem readMapped_set {pos : List Nat} {d p : Nat} {v : Int} {idx : List Int} (h : pos[d]? = some p)
    (hp : p < idx.length) : readMapped pos d (idx.set p v) = .ok v := by
  unfold readMapped
  rw [h]
  simp [hp]

/-- the sums along the last dimension -/
def lastSums (t : List Nat) (n : Nat) (h : List Int → Int) : List Int :=
  (List.range n).map (fun i : Nat => ∑ v ∈ cells t, h (v ++ [(i : Int)]))

theorem reduce1_last_int (fp : FP) {t : List Nat} {n : Nat} (hg : GoodShape (t ++ [n])) (h : List Int → Int) :
    reduce1 (numInt fp) (arr (t ++ [n]) h) t.length = .ok (lastSums t n h) := by
  rw [reduce1_last (numInt fp) hg]
  unfold lastSums
  congr 1
  apply List.map_congr_left
  intro i _
  have := foldl_add_sum (fun v => h (v ++ [(i : Int)])) (allIdx t) 0
  simp only [numInt] at *
  rw [this, zero_add, sum_allIdx]

theorem goodShape_init {t : List Nat} {n : Nat} (hg : GoodShape (t ++ [n])) (ht : t ≠ []) : GoodShape t :=
  ⟨ht, fun m hm => hg.2 m (by simp [hm])⟩

theorem rec_step {pos : List Nat} {sm : List (Nat × Nat)} {d : Nat} {u : U32} {e : Nat × U32}
    {rest : List (Nat × U32)} {t : List Nat} {n : Nat} {h : List Int → Int} {idx : List Int}
    (hg : GoodShape (t ++ [n])) (hl : t.length = (e :: rest).length) (hm : MapOK sm ((d, u) :: e :: rest))
    {p : Nat} (hp : pos[d]? = some p) (hpl : p < idx.length) :
    (pick fp (numInt fp) (lastSums t n h) (variate fp u) = .thrown .pickFailed →
      recursiveSample fp pos sm ((d, u) :: e :: rest) (arr (t ++ [n]) h) idx = .thrown .pickFailed) ∧
    ∀ i, pick fp (numInt fp) (lastSums t n h) (variate fp u) = .ok i → i < n →
      recursiveSample fp pos sm ((d, u) :: e :: rest) (arr (t ++ [n]) h) idx =
        recursiveSample fp pos sm (e :: rest) (arr t (fun v => h (v ++ [(i : Int)]))) (idx.set p i) := by
  have hmd : mapAt sm d = t.length := by rw [hl]; exact hm.1
  have ht : t ≠ [] := by rintro rfl; simp at hl
  constructor
  · intro hpk
    unfold recursiveSample
    rw [hmd, reduce1_last_int fp hg]
    simp only [Out.ok_bind]
    rw [hpk]; rfl
  · intro i hpk hi
    rw [recursiveSample.eq_3 _ _ _ _ _ _ _ _ (by simp), hmd, reduce1_last_int fp hg]
    simp only [Out.ok_bind]
    rw [hpk]
    simp only [Out.ok_bind]
    rw [writeMapped_ok hp hpl]
    simp only [Out.ok_bind]
    rw [readMapped_set hp hpl]
    simp only [Out.ok_bind]
    rw [slice_last hg ht h (by positivity) (by exact_mod_cast hi)]
    rfl

theorem rec_one {pos : List Nat} {sm : List (Nat × Nat)} {d : Nat} {u : U32} {n : Nat} {h : List Int → Int}
    {idx : List Int} {p : Nat} (hp : pos[d]? = some p) (hpl : p < idx.length) :
    (pick fp (numInt fp) (lastSums [] n h) (variate fp u) = .thrown .pickFailed →
      recursiveSample fp pos sm [(d, u)] (arr [n] h) idx = .thrown .pickFailed) ∧
    ∀ i, pick fp (numInt fp) (lastSums [] n h) (variate fp u) = .ok i →
      recursiveSample fp pos sm [(d, u)] (arr [n] h) idx = .ok (idx.set p i) := by
  have hr : (arr [n] h).readAll = .ok (lastSums [] n h) := by
    rw [readAll_eq]
    congr 1
    unfold lastSums
    have e : allIdx [n] = (List.range n).map (fun i : Nat => [(i : Int)]) := by
      simp [allIdx, List.map_eq_flatMap]
    rw [e]
    simp [allIdx, cells]
  constructor
  · intro hpk
    unfold recursiveSample
    rw [hr]
    simp only [Out.ok_bind]
    rw [hpk]; rfl
  · intro i hpk
    unfold recursiveSample
    rw [hr]
    simp only [Out.ok_bind]
    rw [hpk]
    simp only [Out.ok_bind]
    exact writeMapped_ok hp hpl

theorem exists_snoc {t : List Nat} {k : Nat} (h : t.length = k + 1) : ∃ t' n, t = t' ++ [n] ∧ t'.length = k := by
  have hne : t ≠ [] := by rintro rfl; simp at h
  refine ⟨t.dropLast, t.getLast hne, (List.dropLast_append_getLast hne).symm, ?_⟩
  simp [h]

theorem rec_cases {pos : List Nat} {sm : List (Nat × Nat)} : ∀ (L : List (Nat × U32)) (t : List Nat)
    (h : List Int → Int) (idx : List Int), L ≠ [] → t.length = L.length → GoodShape t → MapOK sm L →
    PosOK pos idx.length L →
    recursiveSample fp pos sm L (arr t h) idx = .thrown .pickFailed ∨
    ∃ j, InRange t j ∧ recursiveSample fp pos sm L (arr t h) idx = .ok (writeAt (posOf pos L) j.reverse idx)
  | [], _, _, _, hne, _, _, _, _ => absurd rfl hne
  | [(d, u)], t, h, idx, _, hl, hg, _, hpos => by
    obtain ⟨t', n, rfl, hl'⟩ := exists_snoc (k := 0) (by simpa using hl)
    have : t' = [] := List.eq_nil_of_length_eq_zero hl'
    subst this
    rw [List.nil_append] at *
    obtain ⟨p, hp, hpl⟩ := hpos (d, u) (by simp)
    obtain ⟨h1, h2⟩ := rec_one (fp := fp) (sm := sm) (u := u) (n := n) (h := h) hp hpl
    rcases pick_cases fp (numInt fp) (lastSums [] n h) (variate fp u) with hpk | ⟨i, hpk, hi⟩
    · exact Or.inl (h1 hpk)
    · right
      refine ⟨[(i : Int)], List.Forall₂.cons ⟨by positivity, ?_⟩ .nil, ?_⟩
      · simp [lastSums] at hi; exact_mod_cast hi
      · rw [h2 i hpk]
        simp [posOf, writeAt, List.getD_eq_getElem?_getD, hp]
  | (d, u) :: e :: rest, t, h, idx, _, hl, hg, hm, hpos => by
    obtain ⟨t', n, rfl, hl'⟩ := exists_snoc (k := (e :: rest).length) (by simpa using hl)
    obtain ⟨p, hp, hpl⟩ := hpos (d, u) (by simp)
    obtain ⟨h1, h2⟩ := rec_step (fp := fp) (h := h) hg hl' hm hp hpl
    rcases pick_cases fp (numInt fp) (lastSums t' n h) (variate fp u) with hpk | ⟨i, hpk, hi⟩
    · exact Or.inl (h1 hpk)
    · have hi' : i < n := by simpa [lastSums] using hi
      rw [h2 i hpk hi']
      have ht : t' ≠ [] := by rintro rfl; simp at hl'
      rcases rec_cases (e :: rest) t' (fun v => h (v ++ [(i : Int)])) (idx.set p i) (by simp) hl'
        (goodShape_init hg ht) hm.2 (by
          intro e' he'
          obtain ⟨p', hp', hl''⟩ := hpos e' (by simp [he'])
          exact ⟨p', hp', by simpa using hl''⟩) with h3 | ⟨j, hj, h3⟩
      · exact Or.inl h3
      · right
        refine ⟨j ++ [(i : Int)], inRange_snoc hj (by positivity) (by exact_mod_cast hi'), ?_⟩
        rw [h3]
        simp [posOf, writeAt, List.getD_eq_getElem?_getD, hp]

theorem lastSums_sum (t : List Nat) (n : Nat) (h : List Int → Int) :
    (lastSums t n h).sum = ∑ v ∈ cells (t ++ [n]), h v := by
  rw [sum_snoc]
  unfold lastSums
  rw [← List.sum_toFinset _ List.nodup_range, show (List.range n).toFinset = Finset.range n by ext; simp]

theorem lastSums_getD {t : List Nat} {n : Nat} {h : List Int → Int} {i : Nat} (hi : i < n) :
    (lastSums t n h).getD i 0 = ∑ v ∈ cells t, h (v ++ [(i : Int)]) := by
  simp [lastSums, List.getD_eq_getElem?_getD, hi]

theorem pick_last (hfp : fp.Good) {t : List Nat} {n : Nat} {h : List Int → Int}
    (hn : ∀ v, InRange (t ++ [n]) v → 0 ≤ h v) (hpos : 0 < ∑ v ∈ cells (t ++ [n]), h v)
    (hb : ∑ v ∈ cells (t ++ [n]), h v ≤ 2 ^ 53) (u : U32) :
    ∃ i, pick fp (numInt fp) (lastSums t n h) (variate fp u) = .ok i ∧ i < n ∧
      0 < ∑ v ∈ cells t, h (v ++ [(i : Int)]) ∧ ∑ v ∈ cells t, h (v ++ [(i : Int)]) ≤ 2 ^ 53 := by
  have hnn : ∀ i < n, ∀ v ∈ cells t, 0 ≤ h (v ++ [(i : Int)]) := by
    intro i hi v hv
    exact hn _ (inRange_snoc (mem_cells.mp hv) (by positivity) (by exact_mod_cast hi))
  have hmem : ∀ x ∈ lastSums t n h, 0 ≤ x := by
    intro x hx
    simp only [lastSums, List.mem_map, List.mem_range] at hx
    obtain ⟨i, hi, rfl⟩ := hx
    exact Finset.sum_nonneg (hnn i hi)
  obtain ⟨i, hpk, hi, hgt⟩ := pick_int_pos hfp hmem (by rw [lastSums_sum]; exact hpos)
    (by rw [lastSums_sum]; exact hb) u
  have hi' : i < n := by simpa [lastSums] using hi
  rw [lastSums_getD hi'] at hgt
  refine ⟨i, hpk, hi', hgt, le_trans ?_ hb⟩
  rw [sum_snoc]
  exact Finset.single_le_sum (f := fun i : Nat => ∑ v ∈ cells t, h (v ++ [(i : Int)]))
    (fun i hi => Finset.sum_nonneg (hnn i (by simpa using hi))) (by simpa using hi')

theorem rec_pos (hfp : fp.Good) {pos : List Nat} {sm : List (Nat × Nat)} : ∀ (L : List (Nat × U32)) (t : List Nat)
    (h : List Int → Int) (idx : List Int), L ≠ [] → t.length = L.length → GoodShape t → MapOK sm L →
    PosOK pos idx.length L → (∀ v, InRange t v → 0 ≤ h v) → 0 < ∑ v ∈ cells t, h v → ∑ v ∈ cells t, h v ≤ 2 ^ 53 →
    ∃ j, InRange t j ∧ 0 < h j ∧
      recursiveSample fp pos sm L (arr t h) idx = .ok (writeAt (posOf pos L) j.reverse idx)
  | [], _, _, _, hne, _, _, _, _, _, _, _ => absurd rfl hne
  | [(d, u)], t, h, idx, _, hl, hg, _, hpos, hn, hs, hb => by
    obtain ⟨t', n, rfl, hl'⟩ := exists_snoc (k := 0) (by simpa using hl)
    have : t' = [] := List.eq_nil_of_length_eq_zero hl'
    subst this
    obtain ⟨p, hp, hpl⟩ := hpos (d, u) (by simp)
    obtain ⟨-, h2⟩ := rec_one (fp := fp) (sm := sm) (u := u) (n := n) (h := h) hp hpl
    obtain ⟨i, hpk, hi, hgt, -⟩ := pick_last hfp hn hs hb u
    refine ⟨[(i : Int)], List.Forall₂.cons ⟨by positivity, by exact_mod_cast hi⟩ .nil, ?_, ?_⟩
    · simpa [cells, allIdx] using hgt
    · rw [List.nil_append, h2 i hpk]
      simp [posOf, writeAt, List.getD_eq_getElem?_getD, hp]
  | (d, u) :: e :: rest, t, h, idx, _, hl, hg, hm, hpos, hn, hs, hb => by
    obtain ⟨t', n, rfl, hl'⟩ := exists_snoc (k := (e :: rest).length) (by simpa using hl)
    obtain ⟨p, hp, hpl⟩ := hpos (d, u) (by simp)
    obtain ⟨-, h2⟩ := rec_step (fp := fp) (h := h) hg hl' hm hp hpl
    obtain ⟨i, hpk, hi, hgt, hle⟩ := pick_last hfp hn hs hb u
    rw [h2 i hpk hi]
    have ht : t' ≠ [] := by rintro rfl; simp at hl'
    obtain ⟨j, hj, hjp, h3⟩ := rec_pos hfp (e :: rest) t' (fun v => h (v ++ [(i : Int)])) (idx.set p i) (by simp) hl'
      (goodShape_init hg ht) hm.2 (by
        intro e' he'
        obtain ⟨p', hp', hl''⟩ := hpos e' (by simp [he'])
        exact ⟨p', hp', by simpa using hl''⟩)
      (fun v hv => hn _ (inRange_snoc hv (by positivity) (by exact_mod_cast hi))) hgt hle
    refine ⟨j ++ [(i : Int)], inRange_snoc hj (by positivity) (by exact_mod_cast hi), hjp, ?_⟩
    rw [h3]
    simp [posOf, writeAt, List.getD_eq_getElem?_getD, hp]

end HL

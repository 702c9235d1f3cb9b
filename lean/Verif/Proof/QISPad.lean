import Verif.PadSpec
import Verif.Proof.QISNew
import Verif.Proof.QISScript

/-
Empty categories do not change the draws of `qis`.
-/

namespace HL
open QIS Sobol
variable {fp : FP} {e : Nat → Nat → Nat} {s s' : List Nat}

theorem place_length {ds : List Nat} {j : List Int} (h : j.length = ds.length) : (place e ds j).length = ds.length := by
  simp [place, h]

theorem place_getD {ds : List Nat} {j : List Int} {a : Nat} (ha : a < ds.length) (h : j.length = ds.length) :
    (place e ds j).getD a 0 = (e (ds.getD a 0) (j.getD a 0).toNat : Nat) := by
  have haj : a < j.length := by omega
  simp [place, List.getD_eq_getElem?_getD, List.getElem?_zipWith, List.getElem?_eq_getElem ha, List.getElem?_eq_getElem haj]

theorem place_snoc {ds : List Nat} {d : Nat} {j : List Int} {i : Int} (h : j.length = ds.length) :
    place e (ds ++ [d]) (j ++ [i]) = place e ds j ++ [(e d i.toNat : Int)] := by
  unfold place
  rw [List.zipWith_append (by rw [h])]
  rfl

theorem inj_of (he : Places e s s') {d : Nat} (hd : d < s.length) {i j : Nat} (hi : i < s.getD d 0) (hj : j < s.getD d 0)
    (h : e d i = e d j) : i = j := by
  rcases lt_trichotomy i j with h1 | h1 | h1
  · have := he.mono d hd i j h1 hj; omega
  · exact h1
  · have := he.mono d hd j i h1 hi; omega

theorem projSizes_length (ds s : List Nat) : (projSizes ds s).length = ds.length := by simp [projSizes]

theorem projSizes_at {ds s : List Nat} {a : Nat} (ha : a < ds.length) : (projSizes ds s).getD a 0 = s.getD (ds.getD a 0) 0 :=
  projSizes_getD (by rw [List.getD_eq_getElem?_getD, List.getElem?_eq_getElem ha]; rfl)

theorem place_inRange (he : Places e s s') {ds : List Nat} (hd : ∀ d ∈ ds, d < s.length) {j : List Int}
    (hj : InRange (projSizes ds s) j) : InRange (projSizes ds s') (place e ds j) := by
  have hl : j.length = ds.length := by rw [inRange_length hj, projSizes_length]
  rw [inRange_iff_getD]
  refine ⟨by rw [place_length hl, projSizes_length], ?_⟩
  intro a ha
  rw [projSizes_length] at ha
  have h1 := inRange_getD hj (d := a) (by rw [projSizes_length]; exact ha)
  rw [projSizes_at ha] at h1 ⊢
  rw [place_getD ha hl]
  refine ⟨by positivity, ?_⟩
  have := he.bound _ (hd _ (getD_mem ha)) (j.getD a 0).toNat (by omega)
  exact_mod_cast this

theorem place_inj (he : Places e s s') {ds : List Nat} (hd : ∀ d ∈ ds, d < s.length) {j k : List Int}
    (hj : InRange (projSizes ds s) j) (hk : InRange (projSizes ds s) k) (h : place e ds j = place e ds k) : j = k := by
  have hl : j.length = ds.length := by rw [inRange_length hj, projSizes_length]
  have hl' : k.length = ds.length := by rw [inRange_length hk, projSizes_length]
  apply ext_getD (by rw [hl, hl'])
  intro a ha
  rw [hl] at ha
  have h1 := inRange_getD hj (d := a) (by rw [projSizes_length]; exact ha)
  have h2 := inRange_getD hk (d := a) (by rw [projSizes_length]; exact ha)
  rw [projSizes_at ha] at h1 h2
  have h3 : (place e ds j).getD a 0 = (place e ds k).getD a 0 := congrArg (fun l => l.getD a 0) h
  rw [place_getD ha hl, place_getD ha hl'] at h3
  have := inj_of he (hd _ (getD_mem ha)) (i := (j.getD a 0).toNat) (j := (k.getD a 0).toNat) (by omega) (by omega)
    (by exact_mod_cast h3)
  omega

theorem pad_nonneg {ds : List Nat} {g g' : List Int → Int} (h : PadOf e s s' ds g g')
    (hn : ∀ j, InRange (projSizes ds s) j → 0 ≤ g j) : ∀ j', InRange (projSizes ds s') j' → 0 ≤ g' j' := by
  intro j' hj'
  by_cases hex : ∃ j, InRange (projSizes ds s) j ∧ place e ds j = j'
  · obtain ⟨j, hj, rfl⟩ := hex
    rw [h.1 j hj]; exact hn j hj
  · push Not at hex
    rw [h.2 j' hj' hex]

theorem pad_sum (he : Places e s s') {ds : List Nat} (hd : ∀ d ∈ ds, d < s.length) {g g' : List Int → Int}
    (h : PadOf e s s' ds g g') : ∑ j ∈ cells (projSizes ds s'), g' j = ∑ j ∈ cells (projSizes ds s), g j := by
  symm
  apply Finset.sum_of_injOn (place e ds)
  · intro j hj k hk hjk
    exact place_inj he hd (mem_cells.mp hj) (mem_cells.mp hk) hjk
  · intro j hj
    exact mem_cells.mpr (place_inRange he hd (mem_cells.mp hj))
  · intro j' hj' hno
    refine h.2 j' (mem_cells.mp hj') ?_
    rintro j hj rfl
    exact hno ⟨j, mem_cells.mpr hj, rfl⟩
  · intro j hj
    exact (h.1 j (mem_cells.mp hj)).symm

theorem pad_snoc {α : Type} [Zero α] (he : Places e s s') {ds : List Nat} {d : Nat} (hd : ∀ c ∈ ds ++ [d], c < s.length) {g g' : List Int → α}
    (h : PadOf e s s' (ds ++ [d]) g g') {i : Nat} (hi : i < s.getD d 0) :
    PadOf e s s' ds (fun v => g (v ++ [(i : Int)])) (fun v => g' (v ++ [(e d i : Int)])) := by
  have hdd : d < s.length := hd d (by simp)
  have e1 : ∀ s : List Nat, projSizes (ds ++ [d]) s = projSizes ds s ++ [s.getD d 0] := by intro s; simp [projSizes]
  constructor
  · intro j hj
    have hl : j.length = ds.length := by rw [inRange_length hj, projSizes_length]
    have := h.1 (j ++ [(i : Int)]) (by rw [e1]; exact inRange_snoc hj (by positivity) (by exact_mod_cast hi))
    rw [place_snoc hl] at this
    simpa using this
  · intro j' hj' hno
    refine h.2 _ (by rw [e1]; exact inRange_snoc hj' (by positivity) (by exact_mod_cast he.bound d hdd i hi)) ?_
    intro k hk hkj
    have hkl := inRange_length hk
    rw [projSizes_length, List.length_append, List.length_singleton] at hkl
    have hne : k ≠ [] := by rintro rfl; simp at hkl
    obtain ⟨w, y, rfl⟩ : ∃ w y, k = w ++ [y] := ⟨k.dropLast, k.getLast hne, (List.dropLast_append_getLast hne).symm⟩
    have hwl : w.length = ds.length := by simpa using hkl
    rw [place_snoc hwl] at hkj
    have h1 := List.append_inj_left' hkj rfl
    rw [e1] at hk
    have hw : InRange (projSizes ds s) w := by
      have := List.forall₂_take (projSizes ds s).length hk
      rw [List.take_left' rfl, List.take_left' (by rw [hwl, projSizes_length])] at this
      exact this
    exact hno w hw h1

theorem pad_snoc_zero {α : Type} [Zero α] {ds : List Nat} {d : Nat} {g g' : List Int → α}
    (h : PadOf e s s' (ds ++ [d]) g g') {i' : Nat} (hi : i' < s'.getD d 0) (hno : ∀ i < s.getD d 0, e d i ≠ i') {v : List Int}
    (hv : InRange (projSizes ds s') v) : g' (v ++ [(i' : Int)]) = 0 := by
  have e1 : ∀ s : List Nat, projSizes (ds ++ [d]) s = projSizes ds s ++ [s.getD d 0] := by intro s; simp [projSizes]
  refine h.2 _ (by rw [e1]; exact inRange_snoc hv (by positivity) (by exact_mod_cast hi)) ?_
  intro k hk hkj
  have hkl := inRange_length hk
  rw [projSizes_length] at hkl
  have hlt : ds.length < (ds ++ [d]).length := by simp
  have h1 : (place e (ds ++ [d]) k).getD ds.length 0 = _ := congrArg (fun l => l.getD ds.length 0) hkj
  rw [place_getD hlt hkl] at h1
  have h2 := inRange_getD hk (d := ds.length) (by rw [projSizes_length]; exact hlt)
  rw [projSizes_at hlt] at h2
  have h3 : (ds ++ [d]).getD ds.length 0 = d := by simp [List.getD_eq_getElem?_getD]
  have h4 : (v ++ [(i' : Int)]).getD ds.length 0 = i' := by
    have : v.length = ds.length := by rw [inRange_length hv, projSizes_length]
    simp [List.getD_eq_getElem?_getD, ← this]
  rw [h3] at h1 h2
  rw [h4] at h1
  exact hno (k.getD ds.length 0).toNat (by omega) (by exact_mod_cast h1)

/-! ### picking among weights with zeros in between -/

theorem prefix_pad {w w' : Nat → Int} {em : Nat → Nat} {n n' : Nat} (hm : ∀ i j, i < j → j < n → em i < em j)
    (hw : ∀ i < n, w' (em i) = w i) (h0 : ∀ k < n', (∀ i < n, em i ≠ k) → w' k = 0) (hb : ∀ i < n, em i < n') {i : Nat} (hi : i < n) :
    ∑ k ∈ Finset.range (em i), w' k = ∑ k ∈ Finset.range i, w k := by
  symm
  apply Finset.sum_of_injOn em
  · intro a ha b hb hab
    have ha' : a < i := by simpa using ha
    have hb' : b < i := by simpa using hb
    rcases lt_trichotomy a b with h | h | h
    · have := hm a b h (by omega); omega
    · exact h
    · have := hm b a h (by omega); omega
  · intro a ha
    have ha' : a < i := by simpa using ha
    simpa using hm a i ha' hi
  · intro k hk hno
    have hk' : k < em i := by simpa using hk
    refine h0 k (hk'.trans (hb i hi)) ?_
    rintro a ha rfl
    apply hno
    refine ⟨a, ?_, rfl⟩
    have : a < i := by
      by_contra hc
      rcases (not_lt.mp hc).eq_or_lt with h | h
      · subst h; omega
      · have := hm i a h ha; omega
    simpa using this
  · intro a ha
    have ha' : a < i := by simpa using ha
    exact (hw a (by omega)).symm

theorem total_pad {w w' : Nat → Int} {em : Nat → Nat} {n n' : Nat} (hm : ∀ i j, i < j → j < n → em i < em j)
    (hw : ∀ i < n, w' (em i) = w i) (h0 : ∀ k < n', (∀ i < n, em i ≠ k) → w' k = 0) (hb : ∀ i < n, em i < n') :
    ∑ k ∈ Finset.range n', w' k = ∑ k ∈ Finset.range n, w k := by
  symm
  apply Finset.sum_of_injOn em
  · intro a ha b hb hab
    have ha' : a < n := by simpa using ha
    have hb' : b < n := by simpa using hb
    rcases lt_trichotomy a b with h | h | h
    · have := hm a b h (by omega); omega
    · exact h
    · have := hm b a h (by omega); omega
  · intro a ha
    have ha' : a < n := by simpa using ha
    simpa using hb a ha'
  · intro k hk hno
    refine h0 k (by simpa using hk) ?_
    rintro a ha rfl
    exact hno ⟨a, by simpa using ha, rfl⟩
  · intro a ha
    exact (hw a (by simpa using ha)).symm

theorem sum_range_map (w : Nat → Int) (n : Nat) : ((List.range n).map w).sum = ∑ k ∈ Finset.range n, w k := by
  have := take_map_range_sum w (le_refl n)
  rwa [List.take_of_length_le (by simp)] at this

/-- the level a pick has to pass, and where it stops -/
theorem pick_level (hfp : fp.Good) {w : Nat → Int} {n : Nat} (hn : ∀ i < n, 0 ≤ w i) {T : Int} (hT : ∑ k ∈ Finset.range n, w k = T)
    (h0 : 0 < T) (hb : T ≤ 2 ^ 53) {u : U32} {q : ℚ} (hq : fp.mul (variate fp u) (.fin (T : ℚ)) = .fin q) {i : Nat}
    (hp : pick fp (numInt fp) ((List.range n).map w) (variate fp u) = .ok i) :
    i < n ∧ ((∑ k ∈ Finset.range i, w k : Int) : ℚ) ≤ q ∧ q < ((∑ k ∈ Finset.range (i + 1), w k : Int) : ℚ) := by
  have hmem : ∀ x ∈ (List.range n).map w, 0 ≤ x := by
    intro x hx
    simp only [List.mem_map, List.mem_range] at hx
    obtain ⟨k, hk, rfl⟩ := hx
    exact hn k hk
  have hsum : ((List.range n).map w).sum = T := by rw [sum_range_map, hT]
  have hpre : ∀ m ≤ n, ∑ k ∈ Finset.range m, w k ≤ T := by
    intro m hm
    rw [← hT]
    exact Finset.sum_le_sum_of_subset_of_nonneg (by simpa using hm) (fun k hk _ => hn k (by simpa using hk))
  have hpre0 : ∀ m ≤ n, 0 ≤ ∑ k ∈ Finset.range m, w k := by
    intro m hm
    exact Finset.sum_nonneg (fun k hk => hn k (lt_of_lt_of_le (by simpa using hk) hm))
  unfold pick at hp
  have ht := total_int hfp ((List.range n).map w) 0 hmem le_rfl (by rw [hsum]; omega)
  simp only [Int.cast_zero, zero_add] at ht
  rw [ht, hsum, hq] at hp
  rw [← Nat.zero_add i] at hp
  obtain ⟨x, h1, h2, h3⟩ := pickLoop_spec (numInt fp) _ _ _ 0 i hp
  have hi : i < n := by
    have := (List.getElem?_eq_some_iff.mp h1).1
    simpa using this
  have e : ∀ m < n, ∀ x, ((List.range n).map w)[m]? = some x →
      (numInt fp).toFl ((numInt fp).add ((((List.range n).map w).take m).foldl (numInt fp).add (numInt fp).zero) x) =
        .fin ((∑ k ∈ Finset.range (m + 1), w k : Int) : ℚ) := by
    intro m hm x hx
    rw [List.getElem?_map, List.getElem?_range hm] at hx
    simp only [Option.map_some, Option.some.injEq] at hx
    subst hx
    rw [foldl_numInt, take_map_range_sum w (by omega)]
    show fp.ofInt (0 + _ + _) = _
    rw [zero_add, ← Finset.sum_range_succ]
    exact ofInt_exact hfp (by rw [abs_of_nonneg (hpre0 _ (by omega))]; exact (hpre _ (by omega)).trans hb)
  refine ⟨hi, ?_, ?_⟩
  · rcases Nat.eq_zero_or_pos i with h4 | h4
    · subst h4
      obtain ⟨a, ha, ha0, -⟩ := scaled_lt hfp u (t := (T : ℚ)) (le_trans (by
          rw [← zpow_zero (2 : ℚ)]
          exact zpow_le_zpow_right₀ (by norm_num) (by norm_num)) (show (1 : ℚ) ≤ T by exact_mod_cast h0))
        (le_trans (show (T : ℚ) ≤ 2 ^ 53 by exact_mod_cast hb) (pow_le_pow_right₀ (by norm_num) (by norm_num)))
      rw [ha] at hq
      injection hq with hq
      subst hq
      simpa using ha0
    · obtain ⟨y, h5, h6⟩ := h3 (i - 1) (by omega)
      rw [e (i - 1) (by omega) y h5] at h6
      rw [show i - 1 + 1 = i by omega] at h6
      simpa [FP.lt] using h6
  · rw [e i hi x h1] at h2
    simpa [FP.lt] using h2

/-- Zeros between the weights do not change what is picked. -/
theorem pick_pad (hfp : fp.Good) {w w' : Nat → Int} {em : Nat → Nat} {n n' : Nat} (hm : ∀ i j, i < j → j < n → em i < em j)
    (hw : ∀ i < n, w' (em i) = w i) (h0 : ∀ k < n', (∀ i < n, em i ≠ k) → w' k = 0) (hb : ∀ i < n, em i < n')
    (hn : ∀ i < n, 0 ≤ w i) (hT : ∑ k ∈ Finset.range n, w k ≤ 2 ^ 53) (u : U32) :
    (pick fp (numInt fp) ((List.range n).map w) (variate fp u) = .thrown .pickFailed →
      pick fp (numInt fp) ((List.range n').map w') (variate fp u) = .thrown .pickFailed) ∧
    ∀ i, pick fp (numInt fp) ((List.range n).map w) (variate fp u) = .ok i →
      pick fp (numInt fp) ((List.range n').map w') (variate fp u) = .ok (em i) := by
  have hn' : ∀ k < n', 0 ≤ w' k := by
    intro k hk
    by_cases hex : ∃ i < n, em i = k
    · obtain ⟨i, hi, rfl⟩ := hex
      rw [hw i hi]; exact hn i hi
    · push Not at hex
      rw [h0 k hk hex]
  have htot := total_pad hm hw h0 hb
  have mem : ∀ {w : Nat → Int} {n : Nat}, (∀ i < n, 0 ≤ w i) → ∀ x ∈ (List.range n).map w, 0 ≤ x := by
    intro w n hn x hx
    simp only [List.mem_map, List.mem_range] at hx
    obtain ⟨k, hk, rfl⟩ := hx
    exact hn k hk
  have hS0 : 0 ≤ ∑ k ∈ Finset.range n, w k := Finset.sum_nonneg (fun k hk => hn k (by simpa using hk))
  rcases hS0.eq_or_lt with hz | hz
  · have z : ∀ {w : Nat → Int} {n : Nat}, (∀ i < n, 0 ≤ w i) → ∑ k ∈ Finset.range n, w k = 0 → ∀ x ∈ (List.range n).map w, x = 0 := by
      intro w n hn hs x hx
      simp only [List.mem_map, List.mem_range] at hx
      obtain ⟨k, hk, rfl⟩ := hx
      exact (Finset.sum_eq_zero_iff_of_nonneg (fun k hk => hn k (by simpa using hk))).mp hs k (by simpa using hk)
    have h1 := pick_int_zero hfp (z hn hz.symm) u
    have h2 := pick_int_zero hfp (z hn' (htot.trans hz.symm)) u
    refine ⟨fun _ => h2, fun i hi => ?_⟩
    rw [h1] at hi; cases hi
  · obtain ⟨q, hq, -, -⟩ := scaled_lt hfp u (t := ((∑ k ∈ Finset.range n, w k : Int) : ℚ)) (le_trans (by
          rw [← zpow_zero (2 : ℚ)]
          exact zpow_le_zpow_right₀ (by norm_num) (by norm_num)) (show (1 : ℚ) ≤ ((∑ k ∈ Finset.range n, w k : Int) : ℚ) by exact_mod_cast hz))
        (le_trans (show ((∑ k ∈ Finset.range n, w k : Int) : ℚ) ≤ 2 ^ 53 by exact_mod_cast hT) (pow_le_pow_right₀ (by norm_num) (by norm_num)))
    have hsum : ((List.range n).map w).sum = ∑ k ∈ Finset.range n, w k := sum_range_map w n
    have hsum' : ((List.range n').map w').sum = ∑ k ∈ Finset.range n, w k := (sum_range_map w' n').trans htot
    constructor
    · intro hp
      obtain ⟨i, h1, -⟩ := pick_int_pos hfp (mem hn) (by rw [hsum]; exact hz) (by rw [hsum]; exact hT) u
      rw [h1] at hp; cases hp
    · intro i hp
      obtain ⟨k, h1, -⟩ := pick_int_pos hfp (mem hn') (by rw [hsum']; exact hz) (by rw [hsum']; exact hT) u
      rw [h1]
      obtain ⟨g1, g2, g3⟩ := pick_level hfp hn rfl hz hT hq hp
      obtain ⟨g4, g5, g6⟩ := pick_level hfp hn' htot hz hT hq h1
      have p1 := prefix_pad hm hw h0 hb g1
      have p2 : ∑ k ∈ Finset.range (em i + 1), w' k = ∑ k ∈ Finset.range (i + 1), w k := by
        rw [Finset.sum_range_succ, Finset.sum_range_succ, p1, hw i g1]
      have mono : ∀ a b, a ≤ b → b ≤ n' → ∑ k ∈ Finset.range a, w' k ≤ ∑ k ∈ Finset.range b, w' k := by
        intro a b hab hbn
        refine Finset.sum_le_sum_of_subset_of_nonneg (by simpa using hab) (fun k hk _ => hn' k ?_)
        have : k < b := by simpa using hk
        omega
      congr 1
      rcases lt_trichotomy k (em i) with h | h | h
      · exfalso
        have := mono (k + 1) (em i) h (hb i g1).le
        rw [p1] at this
        have : ((∑ k ∈ Finset.range (k + 1), w' k : Int) : ℚ) ≤ ((∑ k ∈ Finset.range i, w k : Int) : ℚ) := by exact_mod_cast this
        linarith
      · exact h
      · exfalso
        have := mono (em i + 1) k h g4.le
        rw [p2] at this
        have : ((∑ k ∈ Finset.range (i + 1), w k : Int) : ℚ) ≤ ((∑ k ∈ Finset.range k, w' k : Int) : ℚ) := by exact_mod_cast this
        linarith

/-! ### sampling -/

/-- a partly assigned index, with the categories renamed -/
def embIdx (e : Nat → Nat → Nat) (idx : List Int) : List Int :=
  idx.mapIdx (fun d i => if i < 0 then i else ((e d i.toNat : Nat) : Int))

theorem embIdx_length (idx : List Int) : (embIdx e idx).length = idx.length := by simp [embIdx]

theorem embIdx_getD {idx : List Int} {d : Nat} (hd : d < idx.length) :
    (embIdx e idx).getD d 0 = if idx.getD d 0 < 0 then idx.getD d 0 else ((e d (idx.getD d 0).toNat : Nat) : Int) := by
  simp [embIdx, List.getD_eq_getElem?_getD, List.getElem?_eq_getElem hd]

theorem embIdx_set {idx : List Int} {p i : Nat} : embIdx e (idx.set p (i : Int)) = (embIdx e idx).set p ((e p i : Nat) : Int) := by
  apply List.ext_getElem (by simp [embIdx])
  intro k h1 h2
  simp only [embIdx, List.getElem_mapIdx, List.getElem_set]
  by_cases hk : p = k
  · subst hk
    simp
  · simp [hk]

theorem embIdx_neg {idx : List Int} {d : Nat} (hd : d < idx.length) : (embIdx e idx).getD d 0 > -1 ↔ idx.getD d 0 > -1 := by
  rw [embIdx_getD hd]
  split <;> omega

theorem lastSums_map (t : List Nat) (n : Nat) (h : List Int → Int) :
    lastSums t n h = (List.range n).map (fun i : Nat => ∑ v ∈ cells t, h (v ++ [(i : Int)])) := rfl

theorem pick_last_pad (hfp : fp.Good) (he : Places e s s') {ds : List Nat} {d : Nat} (hd : ∀ c ∈ ds ++ [d], c < s.length)
    {g g' : List Int → Int} (h : PadOf e s s' (ds ++ [d]) g g') (hn : ∀ j, InRange (projSizes (ds ++ [d]) s) j → 0 ≤ g j)
    (hb : ∑ j ∈ cells (projSizes (ds ++ [d]) s), g j ≤ 2 ^ 53) (u : U32) :
    (pick fp (numInt fp) (lastSums (projSizes ds s) (s.getD d 0) g) (variate fp u) = .thrown .pickFailed →
      pick fp (numInt fp) (lastSums (projSizes ds s') (s'.getD d 0) g') (variate fp u) = .thrown .pickFailed) ∧
    ∀ i, pick fp (numInt fp) (lastSums (projSizes ds s) (s.getD d 0) g) (variate fp u) = .ok i →
      pick fp (numInt fp) (lastSums (projSizes ds s') (s'.getD d 0) g') (variate fp u) = .ok (e d i) := by
  have hdd : d < s.length := hd d (by simp)
  have e1 : projSizes (ds ++ [d]) s = projSizes ds s ++ [s.getD d 0] := by simp [projSizes]
  rw [lastSums_map, lastSums_map]
  refine pick_pad hfp (fun i j hij hj => he.mono d hdd i j hij hj) ?_ ?_ (fun i hi => he.bound d hdd i hi) ?_ ?_ u
  · intro i hi
    exact pad_sum he (fun c hc => hd c (by simp [hc])) (pad_snoc he hd h hi)
  · intro k hk hno
    exact Finset.sum_eq_zero (fun v hv => pad_snoc_zero h hk hno (mem_cells.mp hv))
  · intro i hi
    refine Finset.sum_nonneg (fun v hv => hn _ ?_)
    rw [e1]
    exact inRange_snoc (mem_cells.mp hv) (by positivity) (by exact_mod_cast hi)
  · rw [e1, sum_snoc] at hb
    exact hb

theorem projSizes_snoc (ds : List Nat) (d : Nat) (s : List Nat) : projSizes (ds ++ [d]) s = projSizes ds s ++ [s.getD d 0] := by
  simp [projSizes]

theorem rec_pad (hfp : fp.Good) (he : Places e s s') {pos : List Nat} {sm : List (Nat × Nat)} : ∀ (L : List (Nat × U32)) (ds : List Nat)
    (g g' : List Int → Int) (idx : List Int), L ≠ [] → posOf pos L = ds.reverse → GoodShape (projSizes ds s) →
    GoodShape (projSizes ds s') → MapOK sm L → PosOK pos idx.length L → (∀ c ∈ ds, c < s.length) → PadOf e s s' ds g g' →
    (∀ j, InRange (projSizes ds s) j → 0 ≤ g j) → ∑ j ∈ cells (projSizes ds s), g j ≤ 2 ^ 53 →
    (recursiveSample fp pos sm L (arr (projSizes ds s) g) idx = .thrown .pickFailed →
      recursiveSample fp pos sm L (arr (projSizes ds s') g') (embIdx e idx) = .thrown .pickFailed) ∧
    ∀ v, recursiveSample fp pos sm L (arr (projSizes ds s) g) idx = .ok v →
      recursiveSample fp pos sm L (arr (projSizes ds s') g') (embIdx e idx) = .ok (embIdx e v)
  | [], _, _, _, _, hne, _, _, _, _, _, _, _, _, _ => absurd rfl hne
  | [(d, u)], ds, g, g', idx, _, hds, _, _, _, hpos, hd, h, hn, hb => by
    obtain ⟨p, hp, hpl⟩ := hpos (d, u) (by simp)
    have hds' : ds = [] ++ [p] := by
      have := congrArg List.reverse hds
      simpa [posOf, List.getD_eq_getElem?_getD, hp] using this.symm
    subst hds'
    obtain ⟨h1, h2⟩ := rec_one (fp := fp) (sm := sm) (u := u) (n := s.getD p 0) (h := g) hp hpl
    obtain ⟨h3, h4⟩ := rec_one (fp := fp) (sm := sm) (u := u) (n := s'.getD p 0) (h := g') (idx := embIdx e idx) hp
      (by rw [embIdx_length]; exact hpl)
    obtain ⟨h5, h6⟩ := pick_last_pad hfp he hd h hn hb u
    have e1 : ∀ s : List Nat, projSizes ([] ++ [p]) s = [s.getD p 0] := by intro s; simp [projSizes]
    have e2 : ∀ s : List Nat, projSizes [] s = [] := by intro s; simp [projSizes]
    rw [e1, e1]
    rw [e2, e2] at h5 h6
    rcases pick_cases fp (numInt fp) (lastSums [] (s.getD p 0) g) (variate fp u) with hpk | ⟨i, hpk, hi⟩
    · refine ⟨fun _ => h3 (h5 hpk), fun v hv => ?_⟩
      rw [h1 hpk] at hv; cases hv
    · rw [h2 i hpk]
      refine ⟨nofun, fun v hv => ?_⟩
      injection hv with hv
      subst hv
      rw [h4 _ (h6 i hpk), embIdx_set]
  | (d, u) :: e' :: rest, ds, g, g', idx, _, hds, hg, hg', hm, hpos, hd, h, hn, hb => by
    obtain ⟨p, hp, hpl⟩ := hpos (d, u) (by simp)
    have hds' : ds = (posOf pos (e' :: rest)).reverse ++ [p] := by
      have := congrArg List.reverse hds
      rw [List.reverse_reverse] at this
      rw [← this]
      simp [posOf, List.getD_eq_getElem?_getD, hp]
    generalize hdd : (posOf pos (e' :: rest)).reverse = ds0 at hds'
    subst hds'
    have hl0 : ∀ s : List Nat, (projSizes ds0 s).length = (e' :: rest).length := by
      intro s
      rw [projSizes_length, ← hdd]
      simp [posOf]
    rw [projSizes_snoc] at hg hg'
    obtain ⟨h1, h2⟩ := rec_step (fp := fp) (h := g) hg (hl0 s) hm hp hpl
    obtain ⟨h3, h4⟩ := rec_step (fp := fp) (h := g') (idx := embIdx e idx) hg' (hl0 s') hm hp (by rw [embIdx_length]; exact hpl)
    obtain ⟨h5, h6⟩ := pick_last_pad hfp he hd h hn hb u
    rw [projSizes_snoc, projSizes_snoc]
    rcases pick_cases fp (numInt fp) (lastSums (projSizes ds0 s) (s.getD p 0) g) (variate fp u) with hpk | ⟨i, hpk, hi⟩
    · refine ⟨fun _ => h3 (h5 hpk), fun v hv => ?_⟩
      rw [h1 hpk] at hv; cases hv
    · have hi' : i < s.getD p 0 := by simpa [lastSums] using hi
      have hpd : p < s.length := hd p (by simp)
      have ht : ∀ s : List Nat, projSizes ds0 s ≠ [] := by
        intro s hc
        have := hl0 s
        rw [hc] at this
        simp at this
      rw [h2 i hpk hi', h4 _ (h6 i hpk) (he.bound p hpd i hi'), ← embIdx_set]
      have hin : ∀ v, InRange (projSizes ds0 s) v → InRange (projSizes (ds0 ++ [p]) s) (v ++ [(i : Int)]) := by
        intro v hv
        rw [projSizes_snoc]
        exact inRange_snoc hv (by positivity) (by exact_mod_cast hi')
      refine rec_pad hfp he (e' :: rest) ds0 _ _ (idx.set p i) (by simp) (by rw [← hdd, List.reverse_reverse])
        (goodShape_init hg (ht s)) (goodShape_init hg' (ht s')) hm.2 ?_ (fun c hc => hd c (by simp [hc])) (pad_snoc he hd h hi')
        (fun v hv => hn _ (hin v hv)) ?_
      · intro e'' he''
        obtain ⟨p', hp', hl''⟩ := hpos e'' (by simp [he''])
        exact ⟨p', hp', by simpa using hl''⟩
      · refine le_trans ?_ hb
        rw [projSizes_snoc, sum_snoc]
        refine Finset.single_le_sum (f := fun i : Nat => ∑ v ∈ cells (projSizes ds0 s), g (v ++ [(i : Int)])) ?_ (by simpa using hi')
        intro k hk
        refine Finset.sum_nonneg (fun v hv => hn _ ?_)
        rw [projSizes_snoc]
        exact inRange_snoc (mem_cells.mp hv) (by positivity) (by exact_mod_cast (by simpa using hk : k < s.getD p 0))

theorem freeIn_emb {ds : List Nat} {idx : List Int} (hd : ∀ d ∈ ds, d < idx.length) {l : List Nat} (hl : ∀ a ∈ l, a < ds.length) :
    freeIn ds (embIdx e idx) l = freeIn ds idx l := by
  unfold freeIn
  apply List.filter_congr
  intro a ha
  unfold isSet
  rw [decide_eq_decide.mpr (embIdx_neg (hd _ (getD_mem (hl a ha))))]

theorem fixedIn_emb {ds : List Nat} {idx : List Int} (hd : ∀ d ∈ ds, d < idx.length) {l : List Nat} (hl : ∀ a ∈ l, a < ds.length) :
    fixedIn ds (embIdx e idx) l = (fixedIn ds idx l).map (fun p => (p.1, ((e (ds.getD p.1 0) p.2.toNat : Nat) : Int))) := by
  unfold fixedIn
  rw [List.map_map]
  have : l.filter (isSet ds (embIdx e idx)) = l.filter (isSet ds idx) := by
    apply List.filter_congr
    intro a ha
    unfold isSet
    rw [decide_eq_decide.mpr (embIdx_neg (hd _ (getD_mem (hl a ha))))]
  rw [this]
  apply List.map_congr_left
  intro a ha
  obtain ⟨h1, h2⟩ := List.mem_filter.mp ha
  have h3 : idx.getD (ds.getD a 0) 0 > -1 := by simpa [isSet] using h2
  simp only [Function.comp]
  rw [embIdx_getD (hd _ (getD_mem (hl a h1))), if_neg (by omega)]

theorem partial_emb (he : Places e s s') {idx : List Int} (h : PartialIdx s idx) : PartialIdx s' (embIdx e idx) := by
  refine ⟨by rw [embIdx_length, h.1, he.length], ?_⟩
  intro d hd
  rw [he.length] at hd
  rw [embIdx_getD (by rw [h.1]; exact hd)]
  rcases h.2 d hd with h1 | ⟨h1, h2⟩
  · left
    rw [if_pos (by omega)]; exact h1
  · right
    rw [if_neg (by omega)]
    exact ⟨by positivity, by exact_mod_cast he.bound d hd _ (by omega)⟩

theorem projSizes_free (ds s : List Nat) (l : List Nat) (hl : ∀ a ∈ l, a < ds.length) :
    projSizes l (projSizes ds s) = projSizes (l.map (fun d => ds.getD d 0)) s := by
  unfold projSizes
  rw [List.map_map]
  apply List.map_congr_left
  intro a ha
  exact projSizes_at (hl a ha)

theorem proj_place {ds : List Nat} {j : List Int} (hj : j.length = ds.length) {l : List Nat} (hl : ∀ a ∈ l, a < ds.length) :
    proj l (place e ds j) = place e (l.map (fun d => ds.getD d 0)) (proj l j) := by
  apply List.ext_getElem (by simp [proj, place])
  intro k h1 h2
  have hk : k < l.length := by simpa [proj] using h1
  have h3 := hl _ (List.getElem_mem hk)
  have := place_getD (e := e) h3 hj
  simp only [proj, List.getElem_map, place, List.getElem_zipWith] at *
  exact this

theorem freeFn_pad (he : Places e s s') {ds : List Nat} (hd : ∀ d ∈ ds, d < s.length) {idx : List Int} (hp : PartialIdx s idx)
    {g g' : List Int → Int} (h : PadOf e s s' ds g g') : PadOf e s s' (freePos ds idx) (freeFn ds idx g) (freeFn ds (embIdx e idx) g') := by
  have hlen : ∀ s : List Nat, (projSizes ds s).length = ds.length := projSizes_length ds
  have hdi : ∀ d ∈ ds, d < idx.length := by rw [hp.1]; exact hd
  have hr : ∀ a ∈ List.range ds.length, a < ds.length := fun a ha => by simpa using ha
  have hfr : ∀ a ∈ freeIn ds idx (List.range ds.length), a < ds.length := fun a ha => hr a (List.mem_filter.mp ha).1
  have hok := fixedOK_in hp hd
  have hok' := fixedOK_in (partial_emb he hp) (by rw [he.length]; exact hd)
  have hfd := freeDims_fixedIn ds idx ds.length
  have hfd' := freeDims_fixedIn ds (embIdx e idx) ds.length
  rw [freeIn_emb hdi hr] at hfd'
  have hps : ∀ s : List Nat, projSizes (freePos ds idx) s = projSizes (freeIn ds idx (List.range ds.length)) (projSizes ds s) :=
    fun s => (projSizes_free ds s _ hfr).symm
  constructor
  · intro v hv
    rw [hps] at hv
    have h1 : InRange (projSizes ds s) (sliceIdx ds.length (fixedIn ds idx (List.range ds.length)) v) := by
      have := inRange_sliceIdx hok (v := v) (by rw [hlen, hfd]; exact hv)
      rwa [hlen] at this
    have hvl : v.length = (freeIn ds idx (List.range ds.length)).length := by
      rw [inRange_length hv, projSizes_length]
    have h2 : proj (freeIn ds idx (List.range ds.length)) (sliceIdx ds.length (fixedIn ds idx (List.range ds.length)) v) = v := by
      have := proj_sliceIdx (s := projSizes ds s) (fx := fixedIn ds idx (List.range ds.length)) (v := v) (by rw [hlen, hfd]; exact hvl)
      rwa [hlen, hfd] at this
    have h3 := sliceIdx_fixed hok v
    rw [hlen] at h3
    unfold freeFn
    rw [← h.1 _ h1]
    congr 1
    generalize sliceIdx ds.length (fixedIn ds idx (List.range ds.length)) v = J at *
    have hJ : J.length = ds.length := by rw [inRange_length h1, hlen]
    have h4 : place e (freePos ds idx) v = proj (freeIn ds idx (List.range ds.length)) (place e ds J) := by
      rw [proj_place hJ hfr, h2]; rfl
    have h5 := sliceIdx_proj hok' (w := place e ds J) (by rw [place_length hJ, hlen]) (by
      intro p hpm
      rw [fixedIn_emb hdi hr] at hpm
      obtain ⟨q, hq, rfl⟩ := List.mem_map.mp hpm
      have hq1 : q.1 < ds.length := by
        have := (hok.2 q hq).1
        rwa [hlen] at this
      simp only []
      rw [place_getD hq1 hJ, h3 q hq])
    rw [hlen, hfd'] at h5
    rw [h4, h5]
  · intro v' hv' hno
    rw [hps] at hv'
    unfold freeFn
    have h1 : InRange (projSizes ds s') (sliceIdx ds.length (fixedIn ds (embIdx e idx) (List.range ds.length)) v') := by
      have := inRange_sliceIdx hok' (v := v') (by rw [hlen, hfd']; exact hv')
      rwa [hlen] at this
    have hvl : v'.length = (freeIn ds idx (List.range ds.length)).length := by
      rw [inRange_length hv', projSizes_length]
    have h2 : proj (freeIn ds idx (List.range ds.length)) (sliceIdx ds.length (fixedIn ds (embIdx e idx) (List.range ds.length)) v') = v' := by
      have := proj_sliceIdx (s := projSizes ds s') (fx := fixedIn ds (embIdx e idx) (List.range ds.length)) (v := v')
        (by rw [hlen, hfd']; exact hvl)
      rwa [hlen, hfd'] at this
    refine h.2 _ h1 ?_
    intro j hj hjv
    have hjl : j.length = ds.length := by rw [inRange_length hj, hlen]
    refine hno (proj (freeIn ds idx (List.range ds.length)) j) ?_ ?_
    · rw [hps]
      exact inRange_proj (fun a ha => by rw [hlen]; exact hfr a ha) hj
    · rw [← hjv, proj_place hjl hfr] at h2
      exact h2

theorem sample_pad (hfp : fp.Good) (he : Places e s s') (hg : GoodShape s) (hg' : GoodShape s') {ds : List Nat} {idx : List Int} {seq : List U32}
    (hp : PartialIdx s idx) (hs : seq.length = s.length) (hd : ∀ d ∈ ds, d < s.length) (hne : ds ≠ []) {g g' : List Int → Int}
    (h : PadOf e s s' ds g g') (b : Bool)
    (hn : (∃ d ∈ ds, idx.getD d 0 = -1) → (∀ j, InRange (projSizes ds s) j → 0 ≤ g j) ∧ ∑ j ∈ cells (projSizes ds s), g j ≤ 2 ^ 53) :
    (sample fp (ds.map (fun d : Nat => (d : Int))) seq (arr (projSizes ds s) g) ⟨ds, projSizes ds s, b⟩ idx = .thrown .pickFailed →
      sample fp (ds.map (fun d : Nat => (d : Int))) seq (arr (projSizes ds s') g') ⟨ds, projSizes ds s', b⟩ (embIdx e idx) = .thrown .pickFailed) ∧
    ∀ v, sample fp (ds.map (fun d : Nat => (d : Int))) seq (arr (projSizes ds s) g) ⟨ds, projSizes ds s, b⟩ idx = .ok v →
      sample fp (ds.map (fun d : Nat => (d : Int))) seq (arr (projSizes ds s') g') ⟨ds, projSizes ds s', b⟩ (embIdx e idx) = .ok (embIdx e v) := by
  have hd' : ∀ d ∈ ds, d < s'.length := by rw [he.length]; exact hd
  have hp' := partial_emb he hp
  have hdi : ∀ d ∈ ds, d < idx.length := by rw [hp.1]; exact hd
  have hr : ∀ a ∈ List.range ds.length, a < ds.length := fun a ha => by simpa using ha
  have e1 := sample_eq (fp := fp) hg hp hs hd hne g b
  have e2 := sample_eq (fp := fp) hg' hp' (hs.trans he.length.symm) hd' hne g' b
  simp only [freeIn_emb hdi hr] at e1 e2
  rw [e1, e2]
  by_cases hf : freeIn ds idx (List.range ds.length) = []
  · rw [if_pos hf, if_pos hf]
    refine ⟨nofun, fun v hv => ?_⟩
    injection hv with hv
    rw [hv]
  · rw [if_neg hf, if_neg hf]
    obtain ⟨f1, f2, f3, f4, f5, f6⟩ := free_facts (seq := seq) hg hp hd hf
    have hf' : freeIn ds (embIdx e idx) (List.range ds.length) ≠ [] := by rw [freeIn_emb hdi hr]; exact hf
    have q3 := (free_facts (seq := seq) hg' hp' hd' hf').2.2.1
    rw [freeIn_emb hdi hr] at q3
    have hfr : ∀ a ∈ freeIn ds idx (List.range ds.length), a < ds.length := fun a ha => hr a (List.mem_filter.mp ha).1
    have hps : ∀ s : List Nat, projSizes (freeIn ds idx (List.range ds.length)) (projSizes ds s) = projSizes (freePos ds idx) s :=
      fun s => projSizes_free ds s _ hfr
    obtain ⟨hnn, hle⟩ := hn (by
      obtain ⟨a, ha⟩ := List.exists_mem_of_ne_nil _ hf
      obtain ⟨h1, h2⟩ := List.mem_filter.mp ha
      have h1' := hr a h1
      refine ⟨ds.getD a 0, getD_mem h1', ?_⟩
      have h3 : ¬ idx.getD (ds.getD a 0) 0 > -1 := by simpa [isSet] using h2
      rcases hp.2 _ (hd _ (getD_mem h1')) with h4 | h4
      · exact h4
      · omega)
    have hok := fixedOK_in hp hd
    have hlen := projSizes_length ds s
    have hfd := freeDims_fixedIn ds idx ds.length
    have hin : ∀ v, InRange (projSizes (freePos ds idx) s) v →
        InRange (projSizes ds s) (sliceIdx ds.length (fixedIn ds idx (List.range ds.length)) v) := by
      intro v hv
      rw [← hps] at hv
      have := inRange_sliceIdx hok (v := v) (by rw [hlen, hfd]; exact hv)
      rwa [hlen] at this
    have hinj : Set.InjOn (fun v => sliceIdx ds.length (fixedIn ds idx (List.range ds.length)) v)
        (cells (projSizes (freePos ds idx) s)) := by
      intro v hv w hw hvw
      have key : ∀ v, v ∈ cells (projSizes (freePos ds idx) s) →
          proj (freeIn ds idx (List.range ds.length)) (sliceIdx ds.length (fixedIn ds idx (List.range ds.length)) v) = v := by
        intro v hv
        have := proj_sliceIdx (s := projSizes ds s) (fx := fixedIn ds idx (List.range ds.length)) (v := v)
          (by rw [hlen, hfd]; have := inRange_length (mem_cells.mp hv); simpa [projSizes, freePos] using this)
        rwa [hlen, hfd] at this
      rw [← key v hv, ← key w hw]
      simp only [] at hvw
      rw [hvw]
    rw [hps] at f3 q3 ⊢
    rw [hps]
    refine rec_pad hfp he _ (freePos ds idx) _ _ idx f1 f6 f3 q3 f4 f5 ?_ (freeFn_pad he hd hp h) (fun v hv => hnn _ (hin v hv)) ?_
    · intro c hc
      obtain ⟨a, ha, rfl⟩ := List.mem_map.mp hc
      exact hd _ (getD_mem (hfr a ha))
    · refine le_trans ?_ hle
      unfold freeFn
      rw [← Finset.sum_image (f := g) (g := fun v => sliceIdx ds.length (fixedIn ds idx (List.range ds.length)) v) hinj]
      apply Finset.sum_le_sum_of_subset_of_nonneg
      · intro w hw
        simp only [Finset.mem_image] at hw
        obtain ⟨v, hv, rfl⟩ := hw
        exact mem_cells.mpr (hin v (mem_cells.mp hv))
      · intro w hw _
        exact hnn w (mem_cells.mp hw)

theorem sampleAll_pad (hfp : fp.Good) (he : Places e s s') (hg : GoodShape s) (hg' : GoodShape s') {seq : List U32} (hs : seq.length = s.length) :
    ∀ (Q Q' : Prob Int) (F : List Nat) (idx : List Int), Padded e s s' Q Q' → (∀ p ∈ Q, p.1 ≠ [] ∧ ∀ d ∈ p.1, d < s.length) → PartialIdx s idx →
    (∀ d ∈ F, d < s.length → 0 ≤ idx.getD d 0) →
    (∀ A p B, Q = A ++ p :: B → (∃ d ∈ p.1, d ∉ F ∧ ∀ q ∈ A, d ∉ q.1) →
      (∀ j, InRange (projSizes p.1 s) j → 0 ≤ p.2 j) ∧ ∑ j ∈ cells (projSizes p.1 s), p.2 j ≤ 2 ^ 53) →
    (sampleAll fp seq (indicesOf Q) (mapsOf s Q) (marginalsOf s Q) idx = .thrown .pickFailed →
      sampleAll fp seq (indicesOf Q') (mapsOf s' Q') (marginalsOf s' Q') (embIdx e idx) = .thrown .pickFailed) ∧
    ∀ v, sampleAll fp seq (indicesOf Q) (mapsOf s Q) (marginalsOf s Q) idx = .ok v →
      sampleAll fp seq (indicesOf Q') (mapsOf s' Q') (marginalsOf s' Q') (embIdx e idx) = .ok (embIdx e v)
  | [], Q', _, idx, hQ, _, _, _, _ => by
    cases hQ
    refine ⟨nofun, fun v hv => ?_⟩
    have : idx = v := by
      have : Out.ok idx = Out.ok v := hv
      injection this
    rw [← this]; rfl
  | p :: Q, Q', F, idx, hQ, hd, hp, hF, hn => by
    obtain ⟨p', Q'', ⟨hp1, hpad⟩, hQ'', rfl⟩ := List.forall₂_cons_left_iff.mp hQ
    have e1 : ∀ (s : List Nat) (p : List Nat × (List Int → Int)) (Q : Prob Int) (idx : List Int),
        sampleAll fp seq (indicesOf (p :: Q)) (mapsOf s (p :: Q)) (marginalsOf s (p :: Q)) idx =
        (sample fp (p.1.map (fun d : Nat => (d : Int))) seq (arr (projSizes p.1 s) p.2) ⟨p.1, projSizes p.1 s, false⟩ idx >>=
          fun idx => sampleAll fp seq (indicesOf Q) (mapsOf s Q) (marginalsOf s Q) idx) := fun _ _ _ _ => rfl
    rw [e1, e1, hp1]
    obtain ⟨hne, hdp⟩ := hd p (by simp)
    obtain ⟨h1, h2⟩ := sample_pad hfp he hg hg' hp hs hdp hne hpad false (by
      rintro ⟨d, hdm, hd1⟩
      refine hn [] p Q rfl ⟨d, hdm, ?_, by simp⟩
      intro hdF
      have := hF d hdF (hdp d hdm)
      omega)
    rcases sample_cases (fp := fp) hg hp hs hdp hne p.2 false with h3 | ⟨idx1, h3, h4⟩
    · rw [h3, h1 h3]
      exact ⟨fun _ => rfl, fun v hv => by cases hv⟩
    · rw [h3, h2 _ h3]
      simp only [Out.ok_bind]
      refine sampleAll_pad hfp he hg hg' hs Q Q'' (F ++ p.1) idx1 hQ'' (fun q hq => hd q (by simp [hq])) h4.part ?_ ?_
      · intro d hdm hdl
        rcases List.mem_append.mp hdm with h5 | h5
        · have := hF d h5 hdl
          rw [h4.keep d this]; exact this
        · exact h4.set d h5
      · rintro A q B rfl ⟨d, g1, g2, g3⟩
        refine hn (p :: A) q B rfl ⟨d, g1, fun hc => g2 (by simp [hc]), ?_⟩
        intro r hr
        rcases List.mem_cons.mp hr with rfl | hr
        · exact fun hc => g2 (by simp [hc])
        · exact g3 r hr

end HL

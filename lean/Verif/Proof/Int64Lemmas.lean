import Verif.Model.Int64
import Verif.Proof.QISLoop

/-
The checked 64-bit arithmetic agrees with unbounded integers as long as the sums over sets of cells fit.
-/

namespace HL
open Out

/-- a value of `int64_t` -/
def In64 (x : Int) : Prop := -2 ^ 63 ≤ x ∧ x < 2 ^ 63

theorem chk64_ok {x : Int} (h : In64 x) : chk64 x = .ok x := by unfold chk64; exact if_pos h

theorem chk64_ub {x : Int} (h : ¬ In64 x) : chk64 x = .ub .overflow := by unfold chk64; exact if_neg h

/-- the sum over every set of cells fits in 64 bits -/
def Fits (s : List Nat) (g : List Int → Int) : Prop := ∀ S ⊆ cells s, In64 (∑ v ∈ S, g v)

theorem foldlM_chk : ∀ (l : List Int) (a : Int), (∀ k ≤ l.length, In64 (a + (l.take k).sum)) →
    l.foldlM (fun a x => chk64 (a + x)) a = .ok (a + l.sum)
  | [], a, _ => by simp
  | x :: l, a, h => by
    rw [List.foldlM_cons]
    have h1 := h 1 (by simp)
    simp only [List.take_succ_cons, List.take_zero, List.sum_cons, List.sum_nil, add_zero] at h1
    rw [chk64_ok h1]
    simp only [ok_bind]
    rw [foldlM_chk l (a + x)]
    · simp [add_assoc]
    · intro k hk
      have := h (k + 1) (by simpa using hk)
      simpa [add_assoc] using this

theorem fits_list {s : List Nat} {g : List Int → Int} (h : Fits s g) {l : List (List Int)} (hn : l.Nodup)
    (hl : ∀ v ∈ l, v ∈ allIdx s) : In64 (l.map g).sum := by
  rw [← List.sum_toFinset _ hn]
  apply h
  intro v hv
  rw [cells, List.mem_toFinset]
  exact hl v (by simpa using hv)

theorem sumArr64_eq {fp : FP} {s : List Nat} {g : List Int → Int} (h : Fits s g) :
    sumArr64 (arr s g) = sumArr (numInt fp) (arr s g) := by
  rw [sumArr_eq]
  unfold sumArr64 sumVec64
  rw [readAll_eq]
  simp only [ok_bind]
  rw [foldlM_chk]
  · rw [show (numInt fp).zero = 0 from rfl]
    have := foldl_add_sum g (allIdx s) 0
    simp only [numInt] at *
    rw [this]
  · intro k hk
    rw [zero_add, ← List.map_take]
    exact fits_list h ((nodup_allIdx s).sublist (List.take_sublist _ _)) (fun v hv => List.mem_of_mem_take hv)

theorem foldlM_chk_over : ∀ (l : List Int) (a : Int), (∀ x ∈ l, 0 ≤ x) → 0 ≤ a → a < 2 ^ 63 → 2 ^ 63 ≤ a + l.sum →
    l.foldlM (fun a x => chk64 (a + x)) a = .ub .overflow
  | [], a, _, _, h1, h2 => by simp at h2; omega
  | x :: l, a, hn, h0, h1, h2 => by
    rw [List.foldlM_cons]
    have hx := hn x (by simp)
    by_cases hc : a + x < 2 ^ 63
    · rw [chk64_ok ⟨by omega, hc⟩]
      simp only [ok_bind]
      exact foldlM_chk_over l (a + x) (fun y hy => hn y (by simp [hy])) (by omega) hc (by
        rw [List.sum_cons] at h2; omega)
    · rw [chk64_ub (by rintro ⟨-, h⟩; exact hc h)]
      rfl

theorem sumArr64_over {s : List Nat} {g : List Int → Int} (hn : ∀ v, InRange s v → 0 ≤ g v)
    (h : 2 ^ 63 ≤ ∑ v ∈ cells s, g v) : sumArr64 (arr s g) = .ub .overflow := by
  unfold sumArr64 sumVec64
  rw [readAll_eq]
  simp only [ok_bind]
  apply foldlM_chk_over _ _ _ le_rfl (by norm_num)
  · rw [zero_add, sum_allIdx]; exact h
  · intro x hx
    obtain ⟨v, hv, rfl⟩ := List.mem_map.mp hx
    exact hn v (mem_allIdx.mp hv)

theorem fits_of_nonneg {s : List Nat} {g : List Int → Int} (hn : ∀ v, InRange s v → 0 ≤ g v)
    (h : ∑ v ∈ cells s, g v < 2 ^ 63) : Fits s g := by
  intro S hS
  have h1 : 0 ≤ ∑ v ∈ S, g v := Finset.sum_nonneg (fun v hv => hn v (mem_cells.mp (hS hv)))
  have h2 : ∑ v ∈ S, g v ≤ ∑ v ∈ cells s, g v :=
    Finset.sum_le_sum_of_subset_of_nonneg hS (fun v hv _ => hn v (mem_cells.mp hv))
  exact ⟨by omega, by omega⟩

/-- the sums along dimension `d` over the cells `pre` -/
def sumsOver (g : List Int → Int) (d n : Nat) (pre : List (List Int)) : List Int :=
  (List.range n).map (fun j : Nat => ((pre.filter (fun v => v.getD d 0 = (j : Int))).map g).sum)

theorem reduce_path {s : List Nat} {g : List Int → Int} (h : Fits s g) {d : Nat} (hd : d < s.length) :
    ∀ (l pre : List (List Int)), pre ++ l = allIdx s →
    l.foldlM (fun sums idx => do
      let x ← (arr s g).get idx
      vecModifyM sums (idx.getD d 0) (fun t => chk64 (t + x))) (sumsOver g d (s.getD d 0) pre) =
      .ok (sumsOver g d (s.getD d 0) (pre ++ l))
  | [], pre, _ => by simp
  | v :: l, pre, he => by
    rw [List.foldlM_cons]
    have hv : v ∈ allIdx s := by rw [← he]; simp
    have hr := mem_allIdx.mp hv
    have hi := inRange_getD hr hd
    rw [get_arr hr]
    simp only [ok_bind]
    have hlen : (sumsOver g d (s.getD d 0) pre).length = s.getD d 0 := by simp [sumsOver]
    have hnd : (pre ++ [v]).Nodup := by
      have : (pre ++ [v]) ++ l = allIdx s := by simpa using he
      exact (List.nodup_append.mp (this ▸ nodup_allIdx s)).1
    have hmem : ∀ w ∈ pre ++ [v], w ∈ allIdx s := by
      intro w hw
      rw [← he]
      simp only [List.mem_append, List.mem_cons, List.not_mem_nil, or_false] at hw ⊢
      tauto
    have hstep : vecModifyM (sumsOver g d (s.getD d 0) pre) (v.getD d 0) (fun t => chk64 (t + g v)) =
        .ok (sumsOver g d (s.getD d 0) (pre ++ [v])) := by
      unfold vecModifyM
      rw [dif_pos ⟨hi.1, by rw [hlen]; omega⟩]
      have hval : (sumsOver g d (s.getD d 0) pre)[(v.getD d 0).toNat]'(by rw [hlen]; omega) + g v =
          (((pre ++ [v]).filter (fun w => w.getD d 0 = v.getD d 0)).map g).sum := by
        simp only [sumsOver, List.getElem_map, List.getElem_range, List.filter_append, List.map_append,
          List.sum_append]
        rw [show (((v.getD d 0).toNat : Nat) : Int) = v.getD d 0 by omega]
        simp
      beta_reduce
      rw [hval, chk64_ok (fits_list h (hnd.filter _) (fun w hw => hmem w (List.mem_filter.mp hw).1))]
      simp only [ok_bind]
      congr 1
      apply List.ext_getElem (by simp [sumsOver])
      intro j h1 h2
      rw [List.getElem_set]
      split
      · next hj =>
        subst hj
        simp only [sumsOver, List.getElem_map, List.getElem_range]
        rw [show (((v.getD d 0).toNat : Nat) : Int) = v.getD d 0 by omega]
      · next hj =>
        simp only [sumsOver, List.getElem_map, List.getElem_range, List.filter_append]
        have : ¬ v.getD d 0 = (j : Int) := by omega
        simp only [List.filter_cons, List.filter_nil, this, decide_false]
        simp
    rw [hstep]
    simp only [ok_bind]
    rw [reduce_path h hd l (pre ++ [v]) (by simpa using he)]
    simp

theorem reduce64_eq {fp : FP} {s : List Nat} (hg : GoodShape s) {g : List Int → Int} (h : Fits s g) (d : Nat) :
    reduce64 (arr s g) d = reduce1 (numInt fp) (arr s g) d := by
  by_cases hd : d < s.length
  · rw [reduce1_eq (numInt fp) hg g hd]
    unfold reduce64
    have h1 : (arr s g).dim = s.length := rfl
    have h2 : (arr s g).sizes = s := rfl
    rw [h1, h2, if_neg (by simpa using hd), forIndex_eq hg]
    have h0 : List.replicate (s.getD d 0) (0 : Int) = sumsOver g d (s.getD d 0) [] := by
      unfold sumsOver
      simp only [List.filter_nil, List.map_nil, List.sum_nil]
      rw [map_const_replicate]; simp
    rw [h0, reduce_path h hd (allIdx s) [] rfl]
    congr 1
    unfold sumsOver
    apply List.map_congr_left
    intro j _
    have := foldl_add_sum g ((allIdx s).filter (fun v => v.getD d 0 = (j : Int))) 0
    simp only [numInt] at *
    rw [this, zero_add, List.nil_append]
  · unfold reduce64 reduce1
    have h1 : (arr s g).dim = s.length := rfl
    rw [h1, if_pos hd, if_pos hd]

theorem pickLoop64_eq {fp : FP} {r : Fl} : ∀ (l : List Int) (a : Int) (i : Nat),
    (∀ k ≤ l.length, In64 (a + (l.take k).sum)) → pickLoop64 fp r a i l = pickLoop (numInt fp) r a i l
  | [], a, i, _ => rfl
  | x :: l, a, i, h => by
    unfold pickLoop64 pickLoop
    have h1 := h 1 (by simp)
    simp only [List.take_succ_cons, List.take_zero, List.sum_cons, List.sum_nil, add_zero] at h1
    rw [chk64_ok h1]
    simp only [ok_bind]
    rw [pickLoop64_eq l (a + x) (i + 1)]
    · rfl
    · intro k hk
      have := h (k + 1) (by simpa using hk)
      simpa [add_assoc] using this

theorem pick64_eq {fp : FP} {l : List Int} (h : ∀ k ≤ l.length, In64 (l.take k).sum) (r : Fl) :
    pick64 fp l r = pick fp (numInt fp) l r :=
  pickLoop64_eq l 0 0 (fun k hk => by rw [zero_add]; exact h k hk)

theorem fits_snoc {t : List Nat} {n : Nat} {h : List Int → Int} (hf : Fits (t ++ [n]) h) {i : Nat} (hi : i < n) :
    Fits t (fun v => h (v ++ [(i : Int)])) := by
  intro S hS
  have e : ∑ v ∈ S, h (v ++ [(i : Int)]) = ∑ w ∈ S.image (· ++ [(i : Int)]), h w := by
    rw [Finset.sum_image]
    intro a _ b _ hab
    exact List.append_cancel_right hab
  rw [e]
  apply hf
  intro w hw
  obtain ⟨v, hv, rfl⟩ := Finset.mem_image.mp hw
  exact mem_cells.mpr (inRange_snoc (mem_cells.mp (hS hv)) (by positivity) (by exact_mod_cast hi))

theorem lastSums_fits {t : List Nat} {n : Nat} {h : List Int → Int} (hf : Fits (t ++ [n]) h) :
    ∀ k ≤ (lastSums t n h).length, In64 ((lastSums t n h).take k).sum := by
  intro k hk
  have hk' : k ≤ n := by simpa [lastSums] using hk
  have e : ((lastSums t n h).take k).sum = ∑ w ∈ (cells (t ++ [n])).filter (fun w => w.getD t.length 0 < (k : Int)), h w := by
    rw [Finset.sum_filter, sum_snoc]
    have e1 : (lastSums t n h).take k = (List.range k).map (fun i : Nat => ∑ v ∈ cells t, h (v ++ [(i : Int)])) := by
      unfold lastSums
      rw [← List.map_take, List.take_range, Nat.min_eq_left hk']
    rw [e1, ← List.sum_toFinset _ List.nodup_range, show (List.range k).toFinset = Finset.range k by ext; simp]
    have e2 : ∀ i : Nat, (∑ v ∈ cells t, if (v ++ [(i : Int)]).getD t.length 0 < (k : Int) then h (v ++ [(i : Int)]) else 0) =
        if i < k then ∑ v ∈ cells t, h (v ++ [(i : Int)]) else 0 := by
      intro i
      have : ∀ v ∈ cells t, (v ++ [(i : Int)]).getD t.length 0 = (i : Int) := by
        intro v hv
        rw [List.getD_append_right _ _ _ _ (by rw [inRange_length (mem_cells.mp hv)]), inRange_length (mem_cells.mp hv)]
        simp
      rw [Finset.sum_congr rfl (fun v hv => by rw [this v hv])]
      by_cases hik : i < k
      · simp [hik]
      · simp [hik]
    rw [Finset.sum_congr rfl (fun i _ => e2 i), ← Finset.sum_filter]
    congr 1
    ext i; simp; omega
  rw [e]
  exact hf _ (Finset.filter_subset _ _)

open QIS in
theorem rec64_eq {fp : FP} {pos : List Nat} {sm : List (Nat × Nat)} : ∀ (L : List (Nat × U32)) (t : List Nat)
    (h : List Int → Int) (idx : List Int), L ≠ [] → t.length = L.length → GoodShape t → MapOK sm L →
    PosOK pos idx.length L → Fits t h →
    recursiveSample64 fp pos sm L (arr t h) idx = recursiveSample fp pos sm L (arr t h) idx
  | [], _, _, _, hne, _, _, _, _, _ => absurd rfl hne
  | [(d, u)], t, h, idx, _, hl, hg, _, hpos, hf => by
    obtain ⟨t', n, rfl, hl'⟩ := exists_snoc (k := 0) (by simpa using hl)
    have : t' = [] := List.eq_nil_of_length_eq_zero hl'
    subst this
    unfold recursiveSample64 recursiveSample
    have hr : (arr ([] ++ [n]) h).readAll = .ok (lastSums [] n h) := by
      rw [readAll_eq]
      congr 1
      unfold lastSums
      have e : allIdx ([] ++ [n]) = (List.range n).map (fun i : Nat => [(i : Int)]) := by
        simp [allIdx, List.map_eq_flatMap]
      rw [e]
      simp [allIdx, cells]
    rw [hr]
    simp only [ok_bind]
    rw [pick64_eq (lastSums_fits hf)]
  | (d, u) :: e :: rest, t, h, idx, _, hl, hg, hm, hpos, hf => by
    obtain ⟨t', n, rfl, hl'⟩ := exists_snoc (k := (e :: rest).length) (by simpa using hl)
    obtain ⟨p, hp, hpl⟩ := hpos (d, u) (by simp)
    have hmd : mapAt sm d = t'.length := by rw [hl']; exact hm.1
    have ht : t' ≠ [] := by rintro rfl; simp at hl'
    rw [recursiveSample64.eq_3 _ _ _ _ _ _ _ _ (by simp), recursiveSample.eq_3 _ _ _ _ _ _ _ _ (by simp),
      hmd, reduce64_eq (fp := fp) hg hf, reduce1_last_int fp hg]
    simp only [ok_bind]
    rw [pick64_eq (lastSums_fits hf)]
    rcases pick_cases fp (numInt fp) (lastSums t' n h) (variate fp u) with hpk | ⟨i, hpk, hi⟩
    · rw [hpk]; rfl
    · have hi' : i < n := by simpa [lastSums] using hi
      rw [hpk]
      simp only [ok_bind]
      rw [writeMapped_ok hp hpl]
      simp only [ok_bind]
      rw [readMapped_set hp hpl]
      simp only [ok_bind]
      rw [show slice1 (arr (t' ++ [n]) h) (t'.length : Int) (i : Int) = _ from
        slice_last hg ht h (by positivity) (by exact_mod_cast hi')]
      simp only [ok_bind]
      exact rec64_eq (e :: rest) t' (fun v => h (v ++ [(i : Int)])) (idx.set p i) (by simp) hl'
        (goodShape_init hg ht) hm.2 (by
          intro e' he'
          obtain ⟨p', hp', hl''⟩ := hpos e' (by simp [he'])
          exact ⟨p', hp', by simpa using hl''⟩) (fits_snoc hf hi')

theorem fits_free {s ds : List Nat} {idx : List Int} (hp : PartialIdx s idx) (hd : ∀ d ∈ ds, d < s.length)
    {g : List Int → Int} (hf : Fits (projSizes ds s) g) :
    Fits (projSizes (freeIn ds idx (List.range ds.length)) (projSizes ds s)) (freeFn ds idx g) := by
  have hok := fixedOK_in hp hd
  have hfd := freeDims_fixedIn ds idx ds.length
  have hlen : (projSizes ds s).length = ds.length := by simp [projSizes]
  intro S hS
  have e : ∑ v ∈ S, freeFn ds idx g v =
      ∑ w ∈ S.image (sliceIdx ds.length (fixedIn ds idx (List.range ds.length))), g w := by
    rw [Finset.sum_image]
    · rfl
    · intro a ha b hb hab
      have ha' := mem_cells.mp (hS ha)
      have hb' := mem_cells.mp (hS hb)
      have h1 := proj_sliceIdx (s := projSizes ds s) (fx := fixedIn ds idx (List.range ds.length)) (v := a) (by
        rw [hlen, hfd]; exact inRange_length ha' |>.trans (by simp [projSizes]))
      have h2 := proj_sliceIdx (s := projSizes ds s) (fx := fixedIn ds idx (List.range ds.length)) (v := b) (by
        rw [hlen, hfd]; exact inRange_length hb' |>.trans (by simp [projSizes]))
      rw [hlen] at h1 h2
      rw [← h1, ← h2, hab]
  rw [e]
  apply hf
  intro w hw
  obtain ⟨v, hv, rfl⟩ := Finset.mem_image.mp hw
  have := inRange_sliceIdx (s := projSizes ds s) hok (v := v) (by rw [hlen, hfd]; exact mem_cells.mp (hS hv))
  rw [hlen] at this
  exact mem_cells.mpr this

open QIS in
theorem sample64_eq {fp : FP} {s ds : List Nat} {idx : List Int} {seq : List U32} (hg : GoodShape s) (hp : PartialIdx s idx)
    (hs : seq.length = s.length) (hd : ∀ d ∈ ds, d < s.length) (hne : ds ≠ []) {g : List Int → Int}
    (hf : Fits (projSizes ds s) g) (b : Bool) :
    sample64 fp (ds.map (fun d : Nat => (d : Int))) seq (arr (projSizes ds s) g) ⟨ds, projSizes ds s, b⟩ idx =
      sample fp (ds.map (fun d : Nat => (d : Int))) seq (arr (projSizes ds s) g) ⟨ds, projSizes ds s, b⟩ idx := by
  have hfree : freeIn ds idx (List.range' 0 ds.length) = freeIn ds idx (List.range ds.length) := by
    rw [← List.range_eq_range']
  unfold sample64 sample
  rw [split_eq hp.1 hs hd ds.length 0 ds ⟨[], [], []⟩ (by simp) rfl]
  simp only [ok_bind, List.nil_append, List.length_nil]
  rw [hfree]
  by_cases h : freeIn ds idx (List.range ds.length) = []
  · rw [if_pos (by simp [h]), if_pos (by simp [h])]
  · rw [if_neg (by simp [h]), if_neg (by simp [h])]
    have hgp := goodShape_projSizes hg hne hd
    have hok := fixedOK_in hp hd
    have hfd : freeDims (projSizes ds s).length (fixedIn ds idx (List.range ds.length)) =
        freeIn ds idx (List.range ds.length) := by
      rw [show (projSizes ds s).length = ds.length by simp [projSizes]]
      exact freeDims_fixedIn ds idx ds.length
    have hlen := length_freeDims hok
    rw [hfd] at hlen
    have hlt : (fixedIn ds idx (List.range ds.length)).length < (projSizes ds s).length := by
      have := List.length_pos_of_ne_nil h
      omega
    rw [← List.range_eq_range', slice_eq hgp g hok hlt, hfd]
    simp only [ok_bind]
    rw [show (projSizes ds s).length = ds.length by simp [projSizes]]
    obtain ⟨f1, f2, f3, f4, f5, f6⟩ := free_facts (seq := seq) hg hp hd h
    exact rec64_eq _ _ (freeFn ds idx g) idx f1 f2 f3 f4 f5 (fits_free hp hd hf)

open QIS in
theorem sampleAll64_eq {fp : FP} {s : List Nat} {seq : List U32} (hg : GoodShape s) (hs : seq.length = s.length) :
    ∀ (Q : Prob Int) (idx : List Int), (∀ p ∈ Q, p.1 ≠ [] ∧ ∀ d ∈ p.1, d < s.length) →
    (∀ p ∈ Q, Fits (projSizes p.1 s) p.2) → PartialIdx s idx →
    sampleAll64 fp seq (indicesOf Q) (mapsOf s Q) (marginalsOf s Q) idx =
      sampleAll fp seq (indicesOf Q) (mapsOf s Q) (marginalsOf s Q) idx
  | [], idx, _, _, _ => rfl
  | q :: Q, idx, hd, hf, hp => by
    have hq := hd q (by simp)
    have e : sampleAll fp seq (indicesOf (q :: Q)) (mapsOf s (q :: Q)) (marginalsOf s (q :: Q)) idx =
        (sample fp (q.1.map (fun d : Nat => (d : Int))) seq (arr (projSizes q.1 s) q.2) ⟨q.1, projSizes q.1 s, false⟩ idx >>=
          fun idx => sampleAll fp seq (indicesOf Q) (mapsOf s Q) (marginalsOf s Q) idx) := rfl
    have e' : sampleAll64 fp seq (indicesOf (q :: Q)) (mapsOf s (q :: Q)) (marginalsOf s (q :: Q)) idx =
        (sample64 fp (q.1.map (fun d : Nat => (d : Int))) seq (arr (projSizes q.1 s) q.2) ⟨q.1, projSizes q.1 s, false⟩ idx >>=
          fun idx => sampleAll64 fp seq (indicesOf Q) (mapsOf s Q) (marginalsOf s Q) idx) := rfl
    rw [e, e', sample64_eq hg hp hs hq.2 hq.1 (hf q (by simp)) false]
    rcases sample_cases (fp := fp) hg hp hs hq.2 hq.1 q.2 false with h | ⟨i1, h, h1⟩
    · rw [h]; rfl
    · rw [h]
      simp only [ok_bind]
      exact sampleAll64_eq hg hs Q i1 (fun p hp => hd p (by simp [hp])) (fun p hp => hf p (by simp [hp])) h1.part

end HL

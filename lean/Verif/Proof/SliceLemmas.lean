import Verif.Proof.ArrayLemmas

/-
FixedIndex and slice.
-/

namespace HL
variable {α : Type}

/-- the index with the fixed entries set and -1 elsewhere -/
def fixedBase (n : Nat) (fx : List (Nat × Int)) : List Int :=
  writeAt (fx.map Prod.fst) (fx.map Prod.snd) (List.replicate n (-1))

/-- the full index of the cell `v` of the slice -/
def sliceIdx (n : Nat) (fx : List (Nat × Int)) (v : List Int) : List Int :=
  writeAt (freeDims n fx) v (fixedBase n fx)

theorem ext_getD {l m : List Int} (h : l.length = m.length) (he : ∀ d < l.length, l.getD d 0 = m.getD d 0) :
    l = m := by
  apply List.ext_getElem h
  intro i h1 h2
  have := he i h1
  simpa [List.getD_eq_getElem?_getD, h1, h2] using this

theorem writeAt_getD_map (F : Nat → Int) : ∀ {ps : List Nat} {idx : List Int} {p : Nat}, p ∈ ps →
    p < idx.length → (writeAt ps (ps.map F) idx).getD p 0 = F p
  | [], _, _, h, _ => by simp at h
  | q :: ps, idx, p, h, hp => by
    simp only [List.map_cons, writeAt]
    by_cases hm : p ∈ ps
    · exact writeAt_getD_map F hm (by simpa using hp)
    · have : p = q := by simpa [hm] using h
      subst this
      rw [writeAt_getD_not_mem hm, getD_set_self hp]

theorem writeAt_getD_pair : ∀ {fx : List (Nat × Int)} {idx : List Int} {d : Nat} {i : Int},
    (fx.map Prod.fst).Nodup → (d, i) ∈ fx → d < idx.length →
    (writeAt (fx.map Prod.fst) (fx.map Prod.snd) idx).getD d 0 = i
  | [], _, _, _, _, h, _ => by simp at h
  | (q, x) :: fx, idx, d, i, hn, h, hd => by
    simp only [List.map_cons, writeAt]
    have hn' := List.nodup_cons.mp hn
    rcases List.mem_cons.mp h with h | h
    · injection h with h1 h2
      subst h1; subst h2
      rw [writeAt_getD_not_mem hn'.1, getD_set_self hd]
    · exact writeAt_getD_pair hn'.2 h (by simpa using hd)

@[simp] theorem length_fixedBase (n : Nat) (fx : List (Nat × Int)) : (fixedBase n fx).length = n := by
  simp [fixedBase]

@[simp] theorem length_sliceIdx (n : Nat) (fx : List (Nat × Int)) (v : List Int) :
    (sliceIdx n fx v).length = n := by
  simp [sliceIdx]

theorem freeDims_nodup (n : Nat) (fx : List (Nat × Int)) : (freeDims n fx).Nodup :=
  List.nodup_range.filter _

theorem mem_freeDims {n : Nat} {fx : List (Nat × Int)} {d : Nat} :
    d ∈ freeDims n fx ↔ d < n ∧ d ∉ fx.map Prod.fst := by
  simp [freeDims]

theorem length_freeDims {s : List Nat} {fx : List (Nat × Int)} (h : FixedOK s fx) :
    (freeDims s.length fx).length + fx.length = s.length := by
  have h1 : (List.range s.length).Perm
      ((List.range s.length).filter (fun d => d ∉ fx.map Prod.fst) ++
        (List.range s.length).filter (fun d => ¬ d ∉ fx.map Prod.fst)) := by
    have := List.filter_append_perm (fun d => decide (d ∉ fx.map Prod.fst)) (List.range s.length)
    refine this.symm.trans ?_
    simp
  have h2 := h1.length_eq
  have h3 : ((List.range s.length).filter (fun d => ¬ d ∉ fx.map Prod.fst)).length = fx.length := by
    have hp : ((List.range s.length).filter (fun d => ¬ d ∉ fx.map Prod.fst)).Perm (fx.map Prod.fst) := by
      rw [List.perm_ext_iff_of_nodup (List.nodup_range.filter _) h.nodup]
      intro d
      simp only [List.mem_filter, List.mem_range, not_not, decide_eq_true_eq]
      constructor
      · exact fun h => h.2
      · intro hd
        refine ⟨?_, hd⟩
        simp only [List.mem_map] at hd
        obtain ⟨p, hp, rfl⟩ := hd
        exact (h.range p hp).1
    simpa using hp.length_eq
  rw [List.length_append, h3] at h2
  simp only [List.length_range] at h2
  unfold freeDims
  omega

theorem setFixed_eq : ∀ {fx : List (Nat × Int)} {full : List Int}, (∀ p ∈ fx, p.1 < full.length) →
    FixedIndex.setFixed full (fx.map (fun p => ((p.1 : Int), p.2))) =
      .ok (writeAt (fx.map Prod.fst) (fx.map Prod.snd) full)
  | [], _, _ => rfl
  | (d, i) :: fx, full, h => by
    have hd := h (d, i) (by simp)
    simp only [List.map_cons, FixedIndex.setFixed]
    rw [if_pos (by simp at hd; omega)]
    simp only [Int.toNat_natCast, writeAt]
    exact setFixed_eq (fun p hp => by simpa using h p (by simp [hp]))

theorem collect_eq (sizes : List Nat) (freeDim : Nat) : ∀ (n i : Nat) (full : List Int) (fp fs : List Nat),
    i + n = full.length →
    fs.length + ((List.range' i n).filter (fun d => full.getD d 0 = -1)).length ≤ freeDim →
    FixedIndex.collect sizes freeDim n i full fp fs =
      .ok (writeAt ((List.range' i n).filter (fun d => full.getD d 0 = -1))
            (zerosI ((List.range' i n).filter (fun d => full.getD d 0 = -1)).length) full,
          fp ++ (List.range' i n).filter (fun d => full.getD d 0 = -1),
          fs ++ projSizes ((List.range' i n).filter (fun d => full.getD d 0 = -1)) sizes)
  | 0, i, full, fp, fs, _, _ => by simp [FixedIndex.collect, projSizes]
  | n + 1, i, full, fp, fs, hl, hf => by
    simp only [List.range'_succ, FixedIndex.collect]
    by_cases h : full.getD i 0 = -1
    · have hfilter : (List.range' (i + 1) n).filter (fun d => (full.set i 0).getD d 0 = -1) =
          (List.range' (i + 1) n).filter (fun d => full.getD d 0 = -1) := by
        apply List.filter_congr
        intro d hd
        have : i ≠ d := by
          have := List.mem_range'_1.mp hd; omega
        rw [getD_set_ne this]
      have hf' : fs.length + (((List.range' (i + 1) n).filter (fun d => full.getD d 0 = -1)).length + 1) ≤ freeDim := by
        have := hf
        rw [List.range'_succ, List.filter_cons_of_pos (by simpa using h), List.length_cons] at this
        exact this
      rw [if_pos h, if_pos (by omega)]
      rw [collect_eq sizes freeDim n (i + 1) (full.set i 0) _ _ (by simp; omega)
        (by rw [hfilter]; simp only [List.length_append, List.length_singleton]; omega)]
      rw [hfilter, List.filter_cons_of_pos (by simpa using h)]
      simp [zerosI, List.replicate_succ, writeAt, projSizes]
    · have hf' : fs.length + ((List.range' (i + 1) n).filter (fun d => full.getD d 0 = -1)).length ≤ freeDim := by
        have := hf
        rw [List.range'_succ, List.filter_cons_of_neg (by simpa using h)] at this
        exact this
      rw [if_neg h, collect_eq sizes freeDim n (i + 1) full _ _ (by omega) hf']
      rw [List.filter_cons_of_neg (by simpa using h)]

theorem fixedBase_getD {s : List Nat} {fx : List (Nat × Int)} (h : FixedOK s fx) {d : Nat}
    (hd : d < s.length) : (fixedBase s.length fx).getD d 0 = -1 ↔ d ∉ fx.map Prod.fst := by
  by_cases hm : d ∈ fx.map Prod.fst
  · simp only [hm, not_true, iff_false]
    simp only [List.mem_map] at hm
    obtain ⟨⟨d', i⟩, hp, rfl⟩ := hm
    unfold fixedBase
    rw [writeAt_getD_pair h.nodup hp (by simpa using hd)]
    have := (h.range _ hp).2.1
    simp at this; omega
  · simp only [hm, not_false_eq_true, iff_true]
    unfold fixedBase
    rw [writeAt_getD_not_mem hm]
    simp [List.getD_eq_getElem?_getD, hd]

theorem filter_fixedBase {s : List Nat} {fx : List (Nat × Int)} (h : FixedOK s fx) :
    (List.range' 0 s.length).filter (fun d => (fixedBase s.length fx).getD d 0 = -1) =
      freeDims s.length fx := by
  unfold freeDims
  rw [List.range_eq_range']
  apply List.filter_congr
  intro d hd
  have hd' : d < s.length := by have := List.mem_range'_1.mp hd; omega
  simp only [decide_eq_decide]
  exact fixedBase_getD h hd'

theorem fixedIndex_new {s : List Nat} {fx : List (Nat × Int)} (h : FixedOK s fx) (hs : s ≠ []) :
    FixedIndex.new s (fx.map (fun p => ((p.1 : Int), p.2))) =
      .ok { freeDim := (freeDims s.length fx).length,
            full := sliceIdx s.length fx (zerosI (freeDims s.length fx).length),
            freePos := freeDims s.length fx,
            freeSizes := projSizes (freeDims s.length fx) s, atEnd := false } := by
  have hl := length_freeDims h
  unfold FixedIndex.new
  rw [List.length_map, if_neg (by omega), if_neg hs]
  simp only []
  rw [setFixed_eq (by intro p hp; simpa using (h.range p hp).1)]
  simp only [Out.ok_bind]
  have hf := filter_fixedBase h
  have hfd : s.length - fx.length = (freeDims s.length fx).length := by omega
  have := collect_eq s (s.length - fx.length) s.length 0 (fixedBase s.length fx) [] []
    (by simp) (by rw [hf]; simp only [List.length_nil]; omega)
  rw [hf] at this
  show (FixedIndex.collect s (s.length - fx.length) s.length 0 (fixedBase s.length fx) [] [] >>= _) = _
  rw [this]
  simp [sliceIdx, hfd, projSizes]

/-- Every index of the slice is the projection of the index of its cell. -/
theorem sliceIdx_proj {s : List Nat} {fx : List (Nat × Int)} (h : FixedOK s fx) {w : List Int}
    (hw : w.length = s.length) (hfx : ∀ p ∈ fx, w.getD p.1 0 = p.2) :
    sliceIdx s.length fx (proj (freeDims s.length fx) w) = w := by
  apply ext_getD (by simp [hw])
  intro d hd
  have hd' : d < s.length := by simpa using hd
  unfold sliceIdx
  by_cases hm : d ∈ freeDims s.length fx
  · unfold proj
    rw [writeAt_getD_map (fun d => w.getD d 0) hm (by simpa using hd')]
  · rw [writeAt_getD_not_mem hm]
    have : d ∈ fx.map Prod.fst := by
      by_contra hn
      exact hm (mem_freeDims.mpr ⟨hd', hn⟩)
    simp only [List.mem_map] at this
    obtain ⟨⟨d', i⟩, hp, rfl⟩ := this
    unfold fixedBase
    rw [writeAt_getD_pair h.nodup hp (by simpa using hd')]
    exact (hfx _ hp).symm

theorem proj_sliceIdx {s : List Nat} {fx : List (Nat × Int)} {v : List Int}
    (hv : v.length = (freeDims s.length fx).length) :
    proj (freeDims s.length fx) (sliceIdx s.length fx v) = v := by
  unfold proj sliceIdx
  apply map_writeAt (freeDims_nodup _ _) hv.symm
  intro p hp
  simpa using (mem_freeDims.mp hp).1

theorem sliceIdx_fixed {s : List Nat} {fx : List (Nat × Int)} (h : FixedOK s fx) (v : List Int) :
    ∀ p ∈ fx, (sliceIdx s.length fx v).getD p.1 0 = p.2 := by
  intro p hp
  unfold sliceIdx
  have hm : p.1 ∉ freeDims s.length fx := by
    rw [mem_freeDims]
    rintro ⟨_, hn⟩
    exact hn (List.mem_map_of_mem hp)
  rw [writeAt_getD_not_mem hm]
  exact writeAt_getD_pair h.nodup (i := p.2) hp (by simpa using (h.range p hp).1)

theorem inRange_iff_getD {s : List Nat} {v : List Int} :
    InRange s v ↔ v.length = s.length ∧ ∀ d < s.length, 0 ≤ v.getD d 0 ∧ v.getD d 0 < (s.getD d 0 : Nat) := by
  constructor
  · intro h
    exact ⟨inRange_length h, fun d hd => inRange_getD h hd⟩
  · rintro ⟨hl, h⟩
    unfold InRange
    rw [List.forall₂_iff_get]
    refine ⟨hl.symm, ?_⟩
    intro i h1 h2
    have := h i h1
    simpa [List.getD_eq_getElem?_getD, h1, h2] using this

theorem getD_mem {l : List Nat} {k : Nat} (h : k < l.length) : l.getD k 0 ∈ l := by
  rw [List.getD_eq_getElem?_getD, List.getElem?_eq_getElem h]
  exact List.getElem_mem _

theorem inRange_sliceIdx {s : List Nat} {fx : List (Nat × Int)} (h : FixedOK s fx) {v : List Int}
    (hv : InRange (projSizes (freeDims s.length fx) s) v) : InRange s (sliceIdx s.length fx v) := by
  have hvl : v.length = (freeDims s.length fx).length := by
    have := inRange_length hv; simpa [projSizes] using this
  rw [inRange_iff_getD]
  refine ⟨by simp, ?_⟩
  intro d hd
  by_cases hm : d ∈ freeDims s.length fx
  · obtain ⟨k, hk, hkd⟩ := List.getElem_of_mem hm
    have hp := proj_sliceIdx (s := s) (fx := fx) hvl
    have hk2 : (proj (freeDims s.length fx) (sliceIdx s.length fx v)).getD k 0 = v.getD k 0 := by rw [hp]
    have e1 : (proj (freeDims s.length fx) (sliceIdx s.length fx v)).getD k 0 =
        (sliceIdx s.length fx v).getD d 0 := by
      unfold proj
      rw [List.getD_eq_getElem?_getD, List.getElem?_map, List.getElem?_eq_getElem hk, hkd]
      rfl
    have e2 := inRange_getD hv (d := k) (by simpa [projSizes] using hk)
    have e3 : (projSizes (freeDims s.length fx) s).getD k 0 = s.getD d 0 := by
      unfold projSizes
      rw [List.getD_eq_getElem?_getD, List.getElem?_map, List.getElem?_eq_getElem hk, hkd]
      rfl
    rw [← e1, hk2, ← e3]
    exact e2
  · have : d ∈ fx.map Prod.fst := by
      by_contra hn
      exact hm (mem_freeDims.mpr ⟨hd, hn⟩)
    simp only [List.mem_map] at this
    obtain ⟨p, hp, rfl⟩ := this
    rw [sliceIdx_fixed h v p hp]
    exact (h.range p hp).2

theorem sliceCheck_ok {s : List Nat} : ∀ {fx : List (Nat × Int)},
    (∀ p ∈ fx, p.1 < s.length ∧ 0 ≤ p.2 ∧ p.2 < (s.getD p.1 0 : Nat)) →
    sliceCheck s (fx.map (fun p => ((p.1 : Int), p.2))) = .ok ()
  | [], _ => rfl
  | (d, i) :: fx, h => by
    have h1 := h (d, i) (by simp)
    simp only [List.map_cons, sliceCheck]
    rw [if_neg (by simp at h1; omega), if_neg (by simp only [Int.toNat_natCast] ; simp only at h1; omega)]
    exact sliceCheck_ok (fun p hp => h p (by simp [hp]))

/-- `slice` returns the requested sub-array. -/
theorem slice_eq {s : List Nat} (hg : GoodShape s) (g : List Int → α) {fx : List (Nat × Int)}
    (h : FixedOK s fx) (hlt : fx.length < s.length) :
    slice (arr s g) (fx.map (fun p => ((p.1 : Int), p.2))) =
      .ok (arr (projSizes (freeDims s.length fx) s) (fun v => g (sliceIdx s.length fx v))) := by
  have hl := length_freeDims h
  have hfd : freeDims s.length fx ≠ [] := by
    intro hh; rw [hh] at hl; simp at hl; omega
  have hlts : ∀ d ∈ freeDims s.length fx, d < s.length := fun d hd => (mem_freeDims.mp hd).1
  have hgf : GoodShape (projSizes (freeDims s.length fx) s) := goodShape_projSizes hg hfd hlts
  unfold slice
  have h2 : (arr s g).sizes = s := rfl
  rw [h2, sliceCheck_ok h.range]
  simp only [Out.ok_bind]
  by_cases hnil : fx = []
  · subst hnil
    simp only [List.map_nil, if_true]
    rw [new_eq hg, readAll_eq]
    simp only [Out.ok_bind]
    rw [copyIn_eq]
    have hfree : freeDims s.length [] = List.range s.length := by simp [freeDims]
    have hps : projSizes (freeDims s.length []) s = s := by
      rw [hfree]
      unfold projSizes
      apply List.ext_getElem
      · simp
      · intro i h1 h2
        simp [List.getD_eq_getElem?_getD, h2]
    rw [hps]
    congr 1
    apply arr_congr
    intro v hv
    congr 1
    have hvl := inRange_length hv
    have hp : proj (freeDims s.length []) v = v := by
      rw [hfree]
      unfold proj
      apply List.ext_getElem
      · simp [hvl]
      · intro i h1 h2
        simp [List.getD_eq_getElem?_getD, h2]
    have := sliceIdx_proj h hvl (by simp)
    rw [hp] at this
    exact this.symm
  · have hm : fx.map (fun p => ((p.1 : Int), p.2)) ≠ [] := by simpa using hnil
    rw [if_neg hm, fixedIndex_new h hg.1]
    simp only [Out.ok_bind]
    rw [new_eq hgf]
    simp only [Out.ok_bind]
    unfold forFixed
    obtain ⟨r, hr⟩ := allIdx_head hgf.2
    set F := freeDims s.length fx with hF
    have hbl : ∀ p ∈ F, p < (fixedBase s.length fx).length := by
      intro p hp; simpa using hlts p hp
    have hloop := loop_path (s := projSizes F s) (τ := FixedIndex × NDArray α) (σ := NDArray α)
      (cond := fun t => !t.1.atEnd)
      (body := fun t => do
        let s' ← (fun (s_1 : NDArray α) (x : FixedIndex) => do
          let v ← (arr s g).get x.full
          s_1.set x.free v) t.2 t.1
        pure (t.1.incr, s'))
      (st := fun v e x => (FixedIndex.mk F.length (sliceIdx s.length fx v) F (projSizes F s) e, x))
      (f := fun (t : NDArray α) v => t.set v (g (sliceIdx s.length fx v)))
      (fun _ _ _ => rfl) (z := zerosI (projSizes F s).length) (allIdx (projSizes F s))
      (by
        intro v hv x
        have hr := mem_allIdx.mp hv
        have hvl : v.length = F.length := by
          have := inRange_length hr; simpa [projSizes] using this
        simp only [get_arr (inRange_sliceIdx h hr), Out.ok_bind]
        have e1 : (FixedIndex.mk F.length (sliceIdx s.length fx v) F (projSizes F s) false).free = v :=
          proj_sliceIdx hvl
        rw [e1]
        congr 1
        funext s'
        have e2 := mapped_incr (freeDims_nodup s.length fx) hbl
          (by simp [projSizes] : (projSizes F s).length = F.length) hfd hvl (e := false)
        have hF2 : (projSizes F s).length = F.length := by simp [projSizes]
        rw [← hF] at e2
        simp only [FixedIndex.incr, fixed_incrLoop_eq, sliceIdx, ← hF]
        rw [e2]
        simp only [Bool.false_or]
        rfl)
      (path_allIdx hgf.2) (arrO (projSizes F s) (fun _ => none))
    rw [hr, List.headD_cons] at hloop
    have hz : (projSizes F s).length = F.length := by simp [projSizes]
    rw [← hr, hz] at hloop
    rw [hloop]
    rw [foldlM_repr (R := fun S : List Int → Option α => arrO (projSizes F s) S)
      (h := fun S v => Function.update S v (some (g (sliceIdx s.length fx v))))]
    · simp only [Out.ok_bind, Out.pure_eq]
      congr 1
      apply arrO_congr
      intro v hv
      rw [foldl_set (fun v => some (g (sliceIdx s.length fx v)))]
      rw [if_pos (mem_allIdx.mpr hv)]
    · intro v hv S
      exact setO_arr (mem_allIdx.mp hv) _

end HL

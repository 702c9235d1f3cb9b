import Verif.Model.QISState
import Verif.Proof.QISDecomp
import Verif.Proof.QISIDraw

/-
State sampling in QIS.
-/

namespace HL
open QISState
variable {fp : FP}

/-- the pairs of a marginal's dimensions and the entries of `v` there -/
def fixedAt (ds : List Nat) (v : List Int) : List (Nat × Int) := ds.map (fun d => (d, v.getD d 0))

theorem fixedOK_fixedAt {s ds : List Nat} {v : List Int} (hv : InRange s v) (hn : ds.Nodup) (hd : ∀ d ∈ ds, d < s.length) :
    FixedOK s (fixedAt ds v) where
  nodup := by
    have : (fixedAt ds v).map Prod.fst = ds := by simp [fixedAt, Function.comp_def]
    rw [this]; exact hn
  range := by
    intro p hp
    obtain ⟨d, hm, rfl⟩ := List.mem_map.mp hp
    exact ⟨hd d hm, inRange_getD hv (hd d hm)⟩

theorem getFixed_eq {s : List Nat} {v : List Int} (hv : InRange s v) : ∀ {ds : List Nat}, (∀ d ∈ ds, d < s.length) →
    getFixed v (ds.map (fun d : Nat => (d : Int))) = .ok ((fixedAt ds v).map (fun p => ((p.1 : Int), p.2)))
  | [], _ => rfl
  | d :: ds, h => by
    have hd : d < v.length := by rw [inRange_length hv]; exact h d (by simp)
    have e : QISI.readIndex d v = .ok (v.getD d 0) := by
      simp [QISI.readIndex, hd, List.getD_eq_getElem?_getD]
    simp only [List.map_cons, getFixed]
    rw [if_neg (by omega), Int.toNat_natCast, e, Out.ok_bind, getFixed_eq hv (fun d hd => h d (by simp [hd]))]
    simp [fixedAt]

theorem fixedAt_iff {ds : List Nat} {v w : List Int} : (∀ p ∈ fixedAt ds v, w.getD p.1 0 = p.2) ↔ proj ds w = proj ds v := by
  simp only [fixedAt, List.mem_map, forall_exists_index, and_imp, forall_apply_eq_imp_iff₂, proj, List.map_inj_left]

/-- The states that have the fixed entries are multiplied, the others are left. -/
theorem rescale_eq {s : List Nat} (hg : GoodShape s) (a : List Int → Fl) {fx : List (Nat × Int)} (h : FixedOK s fx)
    (hlt : fx.length < s.length) (c : Fl) :
    rescale fp s (fx.map (fun p => ((p.1 : Int), p.2))) c (arr s a) =
      .ok (arr s (fun w => if ∀ p ∈ fx, w.getD p.1 0 = p.2 then fp.mul (a w) c else a w)) := by
  have hl := length_freeDims h
  have hfd : freeDims s.length fx ≠ [] := by
    intro hh; rw [hh] at hl; simp at hl; omega
  have hlts : ∀ d ∈ freeDims s.length fx, d < s.length := fun d hd => (mem_freeDims.mp hd).1
  have hgf : GoodShape (projSizes (freeDims s.length fx) s) := goodShape_projSizes hg hfd hlts
  unfold rescale
  rw [fixedIndex_new h hg.1]
  simp only [Out.ok_bind]
  unfold forFixed
  obtain ⟨r, hr⟩ := allIdx_head hgf.2
  set F := freeDims s.length fx with hF
  have hbl : ∀ p ∈ F, p < (fixedBase s.length fx).length := by
    intro p hp; simpa using hlts p hp
  have hloop := loop_path (s := projSizes F s) (τ := FixedIndex × NDArray Fl) (σ := NDArray Fl)
    (cond := fun t => !t.1.atEnd)
    (body := fun t => do
      let s' ← (fun (a : NDArray Fl) (x : FixedIndex) => a.modify x.full (fun y => fp.mul y c)) t.2 t.1
      pure (t.1.incr, s'))
    (st := fun v e x => (FixedIndex.mk F.length (sliceIdx s.length fx v) F (projSizes F s) e, x))
    (f := fun (t : NDArray Fl) v => t.modify (sliceIdx s.length fx v) (fun y => fp.mul y c))
    (fun _ _ _ => rfl) (z := zerosI (projSizes F s).length) (allIdx (projSizes F s))
    (by
      intro v hv x
      have hr := mem_allIdx.mp hv
      have hvl : v.length = F.length := by
        have := inRange_length hr; simpa [projSizes] using this
      simp only []
      congr 1
      funext s'
      have e2 := mapped_incr (freeDims_nodup s.length fx) hbl
        (by simp [projSizes] : (projSizes F s).length = F.length) hfd hvl (e := false)
      rw [← hF] at e2
      simp only [FixedIndex.incr, fixed_incrLoop_eq, sliceIdx, ← hF]
      rw [e2]
      simp only [Bool.false_or]
      rfl)
    (path_allIdx hgf.2) (arr s a)
  rw [hr, List.headD_cons] at hloop
  have hz : (projSizes F s).length = F.length := by simp [projSizes]
  rw [← hr, hz] at hloop
  rw [hloop]
  rw [foldlM_repr (R := fun S : List Int → Fl => arr s S)
    (h := fun S v => Function.update S (sliceIdx s.length fx v) (fp.mul (S (sliceIdx s.length fx v)) c))]
  · simp only [Out.ok_bind, Out.pure_eq]
    congr 1
    apply arr_congr
    intro w hw
    have hfilt : ∀ l : List (List Int), (∀ v ∈ l, v ∈ allIdx (projSizes F s)) → ∀ S : List Int → Fl,
        l.foldl (fun S v => Function.update S (sliceIdx s.length fx v) (fp.mul (S (sliceIdx s.length fx v)) c)) S =
        (l.map (sliceIdx s.length fx)).foldl (fun S v => Function.update S v (fp.mul (S v) c)) S := by
      intro l _ S
      rw [List.foldl_map]
    rw [hfilt _ (fun v hv => hv), foldl_update_all (fun _ y => fp.mul y c)]
    · have hiff : w ∈ (allIdx (projSizes F s)).map (sliceIdx s.length fx) ↔ ∀ p ∈ fx, w.getD p.1 0 = p.2 := by
        constructor
        · intro hm
          obtain ⟨v, -, rfl⟩ := List.mem_map.mp hm
          exact sliceIdx_fixed h v
        · intro hf
          refine List.mem_map.mpr ⟨proj F w, ?_, sliceIdx_proj h (inRange_length hw) hf⟩
          exact mem_allIdx.mpr (inRange_proj hlts hw)
      by_cases hf : ∀ p ∈ fx, w.getD p.1 0 = p.2
      · rw [if_pos hf, if_pos (hiff.mpr hf)]
      · rw [if_neg hf, if_neg (fun hm => hf (hiff.mp hm))]
    · refine List.Nodup.map_on ?_ (nodup_allIdx _)
      intro u hu v hv huv
      have hlen : ∀ u ∈ allIdx (projSizes F s), u.length = F.length := by
        intro u hu
        have := inRange_length (mem_allIdx.mp hu); simpa [projSizes] using this
      rw [← proj_sliceIdx (s := s) (fx := fx) (hlen u hu), huv, proj_sliceIdx (hlen v hv)]
  · intro v hv S
    exact modify_arr (inRange_sliceIdx h (mem_allIdx.mp hv)) _

/-- With every dimension fixed the loop does not end. -/
theorem rescale_diverges {s : List Nat} (hg : GoodShape s) (a : List Int → Fl) {fx : List (Nat × Int)} (h : FixedOK s fx)
    (heq : fx.length = s.length) (c : Fl) :
    rescale fp s (fx.map (fun p => ((p.1 : Int), p.2))) c (arr s a) = .diverges := by
  have hl := length_freeDims h
  have hnil : freeDims s.length fx = [] := by
    apply List.eq_nil_of_length_eq_zero; omega
  unfold rescale
  rw [fixedIndex_new h hg.1]
  simp only [Out.ok_bind, hnil]
  have hr : InRange s (sliceIdx s.length fx []) := inRange_sliceIdx h (by rw [hnil]; exact .nil)
  unfold forFixed
  rw [loop_diverges (fun t : FixedIndex × NDArray Fl => t.1.atEnd = false ∧ t.1.freeDim = 0 ∧ t.1.full = sliceIdx s.length fx [] ∧
    ∃ a, t.2 = arr s a)]
  · rfl
  · rintro ⟨x, b⟩ ⟨h1, h2, h3, b', rfl⟩
    refine ⟨by simpa using h1, ?_⟩
    simp only []
    rw [h3, modify_arr hr]
    refine ⟨_, rfl, ?_⟩
    have h2' : x.freeDim = 0 := h2
    simp only [FixedIndex.incr, h2', FixedIndex.incrLoop]
    exact ⟨h1, trivial, h3, _, rfl⟩
  · exact ⟨rfl, rfl, rfl, a, rfl⟩

/-- what the marginal `p`, after the individual at `v` has been taken out, multiplies the states by -/
def shrink (fp : FP) (p : List Nat × (List Int → Int)) (v : List Int) : Fl :=
  fp.div (fp.ofInt (p.2 (proj p.1 v))) (fp.ofInt (1 + p.2 (proj p.1 v)))

/-- the state at `w` after the individual at `v` has been taken out of the marginals, leaving `Q` -/
def shrunk (fp : FP) (v : List Int) (Q : Prob Int) (a : List Int → Fl) (w : List Int) : Fl :=
  Q.foldl (fun x p => if proj p.1 w = proj p.1 v then fp.mul x (shrink fp p v) else x) (a w)

theorem updateStateValues_eq {s : List Nat} (hg : GoodShape s) {v : List Int} (hv : InRange s v) : ∀ (Q : Prob Int) (a : List Int → Fl),
    (∀ p ∈ Q, (∀ d ∈ p.1, d < s.length) ∧ p.1.Nodup ∧ p.1.length < s.length) →
    updateStateValues fp s v (indicesOf Q) (mapsOf s Q) (marginalsOf s Q) (arr s a) = .ok (arr s (shrunk fp v Q a))
  | [], a, _ => rfl
  | q :: Q, a, hd => by
    obtain ⟨h1, h2, h3⟩ := hd q (by simp)
    have e : updateStateValues fp s v (indicesOf (q :: Q)) (mapsOf s (q :: Q)) (marginalsOf s (q :: Q)) (arr s a) =
        ((arr (projSizes q.1 s) q.2).get (proj q.1 v) >>= fun x => (arr (projSizes q.1 s) q.2).get (proj q.1 v) >>= fun y =>
          getFixed v (q.1.map (fun d : Nat => (d : Int))) >>= fun fixed =>
          rescale fp s fixed (fp.div (fp.ofInt x) (fp.ofInt (1 + y))) (arr s a) >>= fun b =>
            updateStateValues fp s v (indicesOf Q) (mapsOf s Q) (marginalsOf s Q) b) := rfl
    rw [e, get_arr (inRange_proj h1 hv), Out.ok_bind, Out.ok_bind, getFixed_eq hv h1, Out.ok_bind,
      rescale_eq hg a (fixedOK_fixedAt hv h2 h1) (by simpa [fixedAt] using h3), Out.ok_bind,
      updateStateValues_eq hg hv Q _ (fun p hp => hd p (by simp [hp]))]
    congr 1
    apply arr_congr
    intro w _
    simp only [shrunk, List.foldl_cons]
    congr 1
    by_cases hw : proj q.1 w = proj q.1 v
    · rw [if_pos hw, if_pos (fixedAt_iff.mpr hw)]; rfl
    · rw [if_neg hw, if_neg (fun h => hw (fixedAt_iff.mp h))]

theorem updateStateValues_diverges {s : List Nat} (hg : GoodShape s) {v : List Int} (hv : InRange s v) : ∀ (Q : Prob Int) (a : List Int → Fl),
    (∀ p ∈ Q, (∀ d ∈ p.1, d < s.length) ∧ p.1.Nodup) → (∃ p ∈ Q, p.1.length = s.length) →
    updateStateValues fp s v (indicesOf Q) (mapsOf s Q) (marginalsOf s Q) (arr s a) = .diverges
  | [], _, _, h => by simp at h
  | q :: Q, a, hd, hf => by
    obtain ⟨h1, h2⟩ := hd q (by simp)
    have e : updateStateValues fp s v (indicesOf (q :: Q)) (mapsOf s (q :: Q)) (marginalsOf s (q :: Q)) (arr s a) =
        ((arr (projSizes q.1 s) q.2).get (proj q.1 v) >>= fun x => (arr (projSizes q.1 s) q.2).get (proj q.1 v) >>= fun y =>
          getFixed v (q.1.map (fun d : Nat => (d : Int))) >>= fun fixed =>
          rescale fp s fixed (fp.div (fp.ofInt x) (fp.ofInt (1 + y))) (arr s a) >>= fun b =>
            updateStateValues fp s v (indicesOf Q) (mapsOf s Q) (marginalsOf s Q) b) := rfl
    rw [e, get_arr (inRange_proj h1 hv), Out.ok_bind, Out.ok_bind, getFixed_eq hv h1, Out.ok_bind]
    have hok := fixedOK_fixedAt hv h2 h1
    by_cases hq : q.1.length = s.length
    · rw [rescale_diverges hg a hok (by simpa [fixedAt] using hq)]
      rfl
    · have hle : q.1.length ≤ s.length := by
        have := (h2.subperm (l₂ := List.range s.length) (fun d hd => List.mem_range.mpr (h1 d hd))).length_le
        simpa using this
      rw [rescale_eq hg a hok (by simp only [fixedAt, List.length_map]; omega), Out.ok_bind]
      refine updateStateValues_diverges hg hv Q _ (fun p hp => hd p (by simp [hp])) ?_
      obtain ⟨p, hp, hl⟩ := hf
      rcases List.mem_cons.mp hp with rfl | hp
      · exact absurd hl hq
      · exact ⟨p, hp, hl⟩

/-- A dimension named twice leaves more free dimensions than the index has room for. -/
theorem collect_ub (sizes : List Nat) (freeDim : Nat) : ∀ (n i : Nat) (full : List Int) (ps fs : List Nat),
    fs.length ≤ freeDim → freeDim < fs.length + ((List.range' i n).filter (fun d => full.getD d 0 = -1)).length →
    FixedIndex.collect sizes freeDim n i full ps fs = .ub .oob
  | 0, i, full, ps, fs, h1, h2 => by simp at h2; omega
  | n + 1, i, full, ps, fs, h1, h2 => by
    rw [List.range'_succ] at h2
    simp only [FixedIndex.collect]
    by_cases h : full.getD i 0 = -1
    · have hfilter : (List.range' (i + 1) n).filter (fun d => (full.set i 0).getD d 0 = -1) =
          (List.range' (i + 1) n).filter (fun d => full.getD d 0 = -1) := by
        apply List.filter_congr
        intro d hd
        have : i ≠ d := by
          have := List.mem_range'_1.mp hd; omega
        rw [getD_set_ne this]
      rw [if_pos h]
      by_cases hf : fs.length < freeDim
      · rw [if_pos hf]
        rw [List.filter_cons_of_pos (by simpa using h), List.length_cons] at h2
        exact collect_ub sizes freeDim n (i + 1) _ _ _ (by simp; omega) (by
          rw [hfilter]; simp only [List.length_append, List.length_singleton]; omega)
      · rw [if_neg hf]
    · rw [if_neg h]
      rw [List.filter_cons_of_neg (by simpa using h)] at h2
      exact collect_ub sizes freeDim n (i + 1) full _ _ h1 h2

theorem rescale_repeated {s ds : List Nat} (hg : GoodShape s) (a : NDArray Fl) {v : List Int} (hd : ∀ d ∈ ds, d < s.length)
    (hn : ¬ ds.Nodup) (c : Fl) :
    rescale fp s ((fixedAt ds v).map (fun p => ((p.1 : Int), p.2))) c a = .thrown .lengthError ∨
    rescale fp s ((fixedAt ds v).map (fun p => ((p.1 : Int), p.2))) c a = .ub .oob := by
  unfold rescale FixedIndex.new
  have hlen : ((fixedAt ds v).map (fun p => ((p.1 : Int), p.2))).length = ds.length := by simp [fixedAt]
  rw [hlen]
  by_cases hl : s.length < ds.length
  · rw [if_pos hl]; exact Or.inl rfl
  · right
    rw [if_neg hl, if_neg hg.1]
    simp only []
    rw [setFixed_eq (by
      intro p hp
      obtain ⟨d, hm, rfl⟩ := List.mem_map.mp hp
      simpa using hd d hm)]
    simp only [Out.ok_bind]
    rw [collect_ub]
    · rfl
    · simp
    · have e1 : (fixedAt ds v).map Prod.fst = ds := by simp [fixedAt, Function.comp_def]
      rw [e1]
      set vals := (fixedAt ds v).map Prod.snd
      have hsub : (List.range s.length).filter (fun d => d ∉ ds) ⊆ (List.range' 0 s.length).filter
          (fun d => (writeAt ds vals (List.replicate s.length (-1))).getD d 0 = -1) := by
        intro d hm
        obtain ⟨h1, h2⟩ := List.mem_filter.mp hm
        have h1' := List.mem_range.mp h1
        refine List.mem_filter.mpr ⟨List.mem_range'_1.mpr ⟨by omega, by omega⟩, ?_⟩
        rw [writeAt_getD_not_mem (by simpa using h2)]
        simp [List.getD_eq_getElem?_getD, h1']
      have hle := ((List.nodup_range.filter (fun d => decide (d ∉ ds))).subperm hsub).length_le
      have hperm := (List.filter_append_perm (fun d => decide (d ∉ ds)) (List.range s.length)).length_eq
      rw [List.length_append, List.length_range] at hperm
      have hd2 : ((List.range s.length).filter (fun d => !decide (d ∉ ds))).length ≤ ds.dedup.length := by
        refine ((List.nodup_range.filter _).subperm ?_).length_le
        intro d hm
        have := (List.mem_filter.mp hm).2
        simp only [Bool.not_eq_true', decide_eq_false_iff_not, not_not] at this
        exact List.mem_dedup.mpr this
      have hd3 : ds.dedup.length < ds.length := by
        refine lt_of_le_of_ne (List.dedup_sublist ds).length_le ?_
        intro he
        exact hn (List.dedup_eq_self.mp ((List.dedup_sublist ds).eq_of_length he))
      simp only [List.length_nil]
      omega

/-- a marginal that names every dimension, or one twice, is never dealt with -/
theorem updateStateValues_bad {s : List Nat} (hg : GoodShape s) {v : List Int} (hv : InRange s v) : ∀ (Q : Prob Int) (a : List Int → Fl),
    (∀ p ∈ Q, ∀ d ∈ p.1, d < s.length) → (∃ p ∈ Q, ¬ p.1.Nodup ∨ p.1.length = s.length) →
    ∀ b, updateStateValues fp s v (indicesOf Q) (mapsOf s Q) (marginalsOf s Q) (arr s a) ≠ .ok b
  | [], _, _, h => by simp at h
  | q :: Q, a, hd, hf => by
    intro b
    have h1 := hd q (by simp)
    have e : updateStateValues fp s v (indicesOf (q :: Q)) (mapsOf s (q :: Q)) (marginalsOf s (q :: Q)) (arr s a) =
        ((arr (projSizes q.1 s) q.2).get (proj q.1 v) >>= fun x => (arr (projSizes q.1 s) q.2).get (proj q.1 v) >>= fun y =>
          getFixed v (q.1.map (fun d : Nat => (d : Int))) >>= fun fixed =>
          rescale fp s fixed (fp.div (fp.ofInt x) (fp.ofInt (1 + y))) (arr s a) >>= fun b =>
            updateStateValues fp s v (indicesOf Q) (mapsOf s Q) (marginalsOf s Q) b) := rfl
    rw [e, get_arr (inRange_proj h1 hv), Out.ok_bind, Out.ok_bind, getFixed_eq hv h1, Out.ok_bind]
    by_cases h2 : q.1.Nodup
    · have hok := fixedOK_fixedAt hv h2 h1
      by_cases hq : q.1.length = s.length
      · rw [rescale_diverges hg a hok (by simpa [fixedAt] using hq)]
        intro h; cases h
      · have hle : q.1.length ≤ s.length := by
          have := (h2.subperm (l₂ := List.range s.length) (fun d hd => List.mem_range.mpr (h1 d hd))).length_le
          simpa using this
        rw [rescale_eq hg a hok (by simp only [fixedAt, List.length_map]; omega), Out.ok_bind]
        refine updateStateValues_bad hg hv Q _ (fun p hp => hd p (by simp [hp])) ?_ b
        obtain ⟨p, hp, hl⟩ := hf
        rcases List.mem_cons.mp hp with rfl | hp
        · rcases hl with hl | hl
          · exact absurd h2 hl
          · exact absurd hl hq
        · exact ⟨p, hp, hl⟩
    · rcases rescale_repeated (fp := fp) hg (arr s a) (v := v) h1 h2 _ with h | h <;> rw [h] <;> intro h <;> cases h

/-! ### One individual -/

/-- Everything up to the update of the states. -/
theorem individual_drawn {s : List Nat} {P : Prob Int} (h : ProbShape s P) {pop : Int} {hs : List (List Int)} {n : Nat} {x : QIS}
    (hx : QISAt s P pop hs n x) {a : List Int → Fl} (ha : x.stateValues = arr s a) {idx : List Int} (hi : idx.length = s.length) :
    (n = 2 ^ 32 - 1 ∧ individual fp (mapsOf s P) x idx = .thrown .sobolExhausted) ∨
    n < 2 ^ 32 - 1 ∧ ∃ seq, PointAt s.length (n + 1) seq ∧
      ((¬ (∃ v, Drawn fp seq s a v) ∧ individual fp (mapsOf s P) x idx = .thrown .pickFailed) ∨
       ∃ v x1, Drawn fp seq s a v ∧ QISAt s P pop (v :: hs) (n + 1) x1 ∧ x1.expected = x.expected ∧
        x1.conv = (x.conv && decide (∀ p ∈ remaining hs P, 1 ≤ p.2 (proj p.1 v))) ∧
        individual fp (mapsOf s P) x idx = (updateStateValues fp s v (indicesOf P) (mapsOf s P)
          (marginalsOf s (remaining (v :: hs) P)) (arr s a) >>= fun sv => .ok ({ x1 with stateValues := sv }, v))) := by
  unfold individual
  by_cases hn : n = 2 ^ 32 - 1
  · subst hn
    left
    rw [next_end hx.sobol]
    exact ⟨rfl, rfl⟩
  · right
    have hlt := lt_of_le_of_ne hx.sobol.bound hn
    refine ⟨hlt, ?_⟩
    obtain ⟨sb, seq, h1, h2, h3, -, -⟩ := next_ok hx.sobol hlt
    refine ⟨seq, h3, ?_⟩
    rw [h1]
    simp only [Out.ok_bind]
    have e1 : x.micro.indices = indicesOf P := by rw [hx.micro]; rfl
    have e2 : x.micro.marginals = marginalsOf s (remaining hs P) := by rw [hx.micro]
    have e3 : x.micro.dim = s.length := by rw [hx.micro]; rfl
    have e4 : x.micro.array = arr s (fun v => (hs.count v : Int)) := by rw [hx.micro]
    have hdim : ∀ p ∈ remaining hs P, ∀ d ∈ p.1, d < s.length := fun p hp => ((shape_remaining h hs).dims p hp).2
    have htwo := h.two
    rw [e1, e2, e3, ha]
    rcases getIndex_cases (fp := fp) (seq := seq) (s.length - 2) s a idx h.good (by omega) (by rw [h3.1]) (by rw [hi]) with
      ⟨hc, hno⟩ | ⟨v, hd, hc⟩
    · left
      rw [hc]
      exact ⟨hno, rfl⟩
    · right
      have hv := hd.inRange
      rw [List.drop_eq_nil_of_le (by omega), List.append_nil] at hc
      rw [hc]
      simp only [Out.ok_bind]
      rw [e4, modify_arr hv]
      simp only [Out.ok_bind]
      have hdec := decrement_eq hv (remaining hs P) x.conv hdim
      rw [mapsOf_remaining] at hdec
      rw [hdec, remaining_cons]
      simp only [Out.ok_bind]
      let mic : Micro Int Int := { x.micro with dim := s.length, indices := indicesOf P, marginals := marginalsOf s (remaining (v :: hs) P), array := arr s (Function.update (fun v => (hs.count v : Int)) v ((hs.count v : Int) + 1)) }
      let cv : Bool := x.conv && decide (∀ p ∈ remaining hs P, 1 ≤ p.2 (proj p.1 v))
      refine ⟨v, { x with micro := mic, sobol := sb, conv := cv }, hd, ⟨?_, h2⟩, rfl, rfl, rfl⟩
      simp only [mic]
      rw [hx.micro]
      have : arr s (Function.update (fun v => (hs.count v : Int)) v ((hs.count v : Int) + 1)) = arr s (fun w => ((v :: hs).count w : Int)) := by
        apply arr_congr
        intro w _
        by_cases hw : w = v
        · subst hw; simp
        · rw [Function.update_of_ne hw]
          simp [List.count_cons, Ne.symm hw]
      rw [this]
      rfl

/-! ### What the states say of the marginals -/

/-- The states after the individuals `hs`: none is negative, and those at which a marginal is spent are zero (or not a
number). -/
structure StatesOK (s : List Nat) (P : Prob Int) (hs : List (List Int)) (a : List Int → Fl) : Prop where
  nonneg : ∀ w, InRange s w → NonNegNan (a w)
  zero : ∀ w, InRange s w → (∃ p ∈ remaining hs P, p.2 (proj p.1 w) = 0) → ZeroNan (a w)

theorem ofInt_nonNeg (h : SignOK fp) {z : Int} (hz : 0 ≤ z) : NonNegNan (fp.ofInt z) :=
  h.nonneg _ (by exact_mod_cast hz)

theorem mul_zeroNan' (h : SignOK fp) {x : Fl} (hx : NonNegNan x) : ZeroNan (fp.mul x (.fin 0)) := by
  rcases nonNegNan_cases.mp hx with rfl | rfl | ⟨q, -, rfl⟩
  · right; rfl
  · right; simp [FP.mul, FP.infOfSign, FP.sgn]
  · left
    show fp.rnd (q * 0) = _
    rw [mul_zero]; exact h.zero

/-- A product of non-negative factors, some of them left out, is not negative, and zero if a factor is. -/
theorem foldl_mul (h : SignOK fp) {β : Type} (c : β → Bool) (g : β → Fl) : ∀ (l : List β) (x : Fl), NonNegNan x →
    (∀ b ∈ l, NonNegNan (g b)) → NonNegNan (l.foldl (fun x b => if c b then fp.mul x (g b) else x) x) ∧
      (ZeroNan x ∨ (∃ b ∈ l, c b = true ∧ g b = .fin 0) → ZeroNan (l.foldl (fun x b => if c b then fp.mul x (g b) else x) x))
  | [], x, hx, _ => ⟨hx, fun h => by simpa using h⟩
  | b :: l, x, hx, hg => by
    have hb := hg b (by simp)
    have hx' : NonNegNan (if c b then fp.mul x (g b) else x) := by
      split
      · exact mul_nonNeg h.nonneg hx hb
      · exact hx
    obtain ⟨h1, h2⟩ := foldl_mul h c g l _ hx' (fun b hb => hg b (by simp [hb]))
    refine ⟨h1, fun hz => h2 ?_⟩
    rcases hz with hz | ⟨b', hb', hc, hz⟩
    · left
      split
      · exact mul_zeroNan h.zero hz _
      · exact hz
    · rcases List.mem_cons.mp hb' with rfl | hb'
      · left
        rw [if_pos hc, hz]
        exact mul_zeroNan' h hx
      · exact Or.inr ⟨b', hb', hc, hz⟩

theorem statesOK_init (h : SignOK fp) {s : List Nat} {P : Prob Int} {pop : Int} (hP : ProbOK s P pop) :
    StatesOK s P [] (stateVal fp P) := by
  have e0 : remaining [] P = P := by simp [remaining]
  have key : ∀ w, InRange s w → _ := fun w hw => foldl_mul h (fun _ => true) (fun p : List Nat × (List Int → Int) => fp.ofInt (p.2 (proj p.1 w))) P (.fin 1)
    (Or.inr (by simp [FP.le])) (fun p hp => ofInt_nonNeg h (hP.nonneg p hp _ (inRange_proj (hP.dims p hp).2 hw)))
  simp only [if_true] at key
  refine ⟨fun w hw => (key w hw).1, fun w hw hz => (key w hw).2 (Or.inr ?_)⟩
  rw [e0] at hz
  obtain ⟨p, hp, hz⟩ := hz
  refine ⟨p, hp, trivial, ?_⟩
  rw [hz]
  show fp.rnd ((0 : Int) : ℚ) = _
  rw [Int.cast_zero]; exact h.zero

/-- No marginal is spent at the cell that is drawn. -/
theorem drawn_unspent (h : SignOK fp) {s : List Nat} {P : Prob Int} {hs : List (List Int)} {a : List Int → Fl} {k : Int}
    (hok : ProbOK s (remaining hs P) k) (ha : StatesOK s P hs a) {seq : List U32} {v : List Int} (hd : Drawn fp seq s a v) :
    ∀ p ∈ remaining hs P, 0 < p.2 (proj p.1 v) := by
  intro p hp
  have hv := hd.inRange
  obtain ⟨h1, h2⟩ := drawn_ne h hd ha.nonneg
  have h3 := hok.nonneg p hp _ (inRange_proj (hok.dims p hp).2 hv)
  refine lt_of_le_of_ne h3 (fun he => ?_)
  rcases ha.zero v hv ⟨p, hp, he.symm⟩ with hz | hz
  · exact h1 hz
  · exact h2 hz

theorem statesOK_step (hfp : fp.Good) (h : SignOK fp) {s : List Nat} {P : Prob Int} {hs : List (List Int)} {a : List Int → Fl} {k : Int}
    {v : List Int} (hv : InRange s v) (hok' : ProbOK s (remaining (v :: hs) P) k) (ha : StatesOK s P hs a) :
    StatesOK s P (v :: hs) (shrunk fp v (remaining (v :: hs) P) a) := by
  have hnn : ∀ p ∈ remaining (v :: hs) P, 0 ≤ p.2 (proj p.1 v) := fun p hp => hok'.nonneg p hp _ (inRange_proj (hok'.dims p hp).2 hv)
  have key : ∀ w, InRange s w → _ := fun w hw => foldl_mul h (fun p : List Nat × (List Int → Int) => decide (proj p.1 w = proj p.1 v))
    (fun p => shrink fp p v) (remaining (v :: hs) P) (a w) (ha.nonneg w hw) (fun p hp => div_nonNeg h.nonneg (ofInt_nonNeg h (hnn p hp))
      (ofInt_nonNeg h (by have := hnn p hp; omega)))
  simp only [decide_eq_true_eq] at key
  refine ⟨fun w hw => (key w hw).1, fun w hw hz => (key w hw).2 ?_⟩
  obtain ⟨p, hp, hz⟩ := hz
  by_cases hpw : proj p.1 w = proj p.1 v
  · right
    refine ⟨p, hp, hpw, ?_⟩
    rw [hpw] at hz
    unfold shrink
    rw [hz]
    have e1 : fp.ofInt (1 + 0) = .fin 1 := by
      have := hfp.dyadic 1 0 (by norm_num) (by norm_num)
      simpa [FP.ofInt] using this
    have e0 : fp.ofInt 0 = .fin 0 := by
      show fp.rnd ((0 : Int) : ℚ) = _
      rw [Int.cast_zero]; exact h.zero
    rw [e1, e0]
    show (if (1 : ℚ) = 0 then FP.infOfSign 0 else fp.rnd (0 / 1)) = _
    rw [if_neg one_ne_zero, zero_div]; exact h.zero
  · left
    obtain ⟨q, hq, rfl⟩ := List.mem_map.mp hp
    refine ha.zero w hw ⟨(q.1, fun j => q.2 j - (hs.countP (fun v => proj q.1 v = j) : Int)), List.mem_map.mpr ⟨q, hq, rfl⟩, ?_⟩
    simp only [List.countP_cons] at hz hpw ⊢
    rw [if_neg (by simpa using Ne.symm hpw), Nat.add_zero] at hz
    exact hz

/-! ### The population -/

/-- no marginal names a dimension twice, or every dimension -/
def Proper (s : List Nat) (P : Prob Int) : Prop := ∀ p ∈ P, p.1.Nodup ∧ p.1.length < s.length

theorem proper_remaining {s : List Nat} {P : Prob Int} (h : Proper s P) (hs : List (List Int)) : Proper s (remaining hs P) := by
  intro p hp
  obtain ⟨q, hq, rfl⟩ := List.mem_map.mp hp
  exact h q hq

theorem individualP_cases (hfp : fp.Good) (h : SignOK fp) {s : List Nat} {P : Prob Int} (hP : ProbShape s P) (hpr : Proper s P) {pop : Int} {k : Nat}
    {hs : List (List Int)} {n : Nat} {x : QIS} (hx : QISAt s P pop hs n x) (hok : ProbOK s (remaining hs P) ((k + 1 : Nat) : Int))
    {a : List Int → Fl} (ha : x.stateValues = arr s a) (hst : StatesOK s P hs a) {idx : List Int} (hi : idx.length = s.length) :
    (n = 2 ^ 32 - 1 ∧ individual fp (mapsOf s P) x idx = .thrown .sobolExhausted) ∨
    (n < 2 ^ 32 - 1 ∧ (∃ seq, ¬ ∃ v, Drawn fp seq s a v) ∧ individual fp (mapsOf s P) x idx = .thrown .pickFailed) ∨
    ∃ v x', n < 2 ^ 32 - 1 ∧ InRange s v ∧ individual fp (mapsOf s P) x idx = .ok (x', v) ∧ QISAt s P pop (v :: hs) (n + 1) x' ∧
      x'.expected = x.expected ∧ x'.conv = x.conv ∧ (∀ p ∈ remaining hs P, 0 < p.2 (proj p.1 v)) ∧
      ProbOK s (remaining (v :: hs) P) k ∧
      x'.stateValues = arr s (shrunk fp v (remaining (v :: hs) P) a) ∧
      StatesOK s P (v :: hs) (shrunk fp v (remaining (v :: hs) P) a) := by
  rcases individual_drawn (fp := fp) hP hx ha hi with ⟨h1, h2⟩ | ⟨hn, seq, -, ⟨h1, h2⟩ | ⟨v, x1, h1, h2, h3, h4, h5⟩⟩
  · exact Or.inl ⟨h1, h2⟩
  · exact Or.inr (Or.inl ⟨hn, ⟨seq, h1⟩, h2⟩)
  · right; right
    have hv := h1.inRange
    have hpos := drawn_unspent h hok hst h1
    have hok' := probOK_remaining (n := (k : Int)) (by push_cast at hok; exact hok) hv hpos
    rw [remaining_cons] at hok'
    have hu := updateStateValues_eq (fp := fp) hP.good hv (remaining (v :: hs) P) a (fun p hp => ⟨(hok'.dims p hp).2, proper_remaining hpr _ p hp⟩)
    rw [indicesOf_remaining, mapsOf_remaining] at hu
    rw [hu, Out.ok_bind] at h5
    refine ⟨v, _, hn, hv, h5, ⟨h2.micro, h2.sobol⟩, h3, ?_, hpos, hok', rfl, statesOK_step hfp h hv hok' hst⟩
    show x1.conv = x.conv
    rw [h4, decide_eq_true (show ∀ p ∈ remaining hs P, 1 ≤ p.2 (proj p.1 v) from fun p hp => by have := hpos p hp; omega), Bool.and_true]

/-- The loop, with anything `J` that one individual keeps. -/
theorem individualsP_cases (hfp : fp.Good) (h : SignOK fp) {s : List Nat} {P : Prob Int} (hP : ProbShape s P) (hpr : Proper s P) {pop : Int}
    {J : List (List Int) → (List Int → Fl) → Prop}
    (hJ : ∀ hs v a, InRange s v → (∀ p ∈ remaining hs P, 0 < p.2 (proj p.1 v)) → J hs a → J (v :: hs) (shrunk fp v (remaining (v :: hs) P) a)) :
    ∀ (k : Nat) {hs : List (List Int)} {n : Nat} {x : QIS} {a : List Int → Fl} {idx : List Int},
    QISAt s P pop hs n x → ProbOK s (remaining hs P) (k : Int) → x.stateValues = arr s a → StatesOK s P hs a → J hs a → idx.length = s.length →
    (∃ hs' a' j seq, hs'.length + (j + 1) = hs.length + k ∧ ProbOK s (remaining hs' P) ((j + 1 : Nat) : Int) ∧ J hs' a' ∧
      (¬ ∃ v, Drawn fp seq s a' v) ∧ individuals fp (mapsOf s P) k x idx = .thrown .pickFailed) ∨
    (2 ^ 32 - 1 < n + k ∧ individuals fp (mapsOf s P) k x idx = .thrown .sobolExhausted) ∨
    ∃ vs x' idx', vs.length = k ∧ (∀ v ∈ vs, InRange s v) ∧ n + k ≤ 2 ^ 32 - 1 ∧ individuals fp (mapsOf s P) k x idx = .ok (x', idx') ∧
      QISAt s P pop (vs ++ hs) (n + k) x' ∧ x'.expected = x.expected ∧ x'.conv = x.conv ∧ ProbOK s (remaining (vs ++ hs) P) 0
  | 0, hs, n, x, a, idx, hx, hok, ha, hst, hj, hi =>
    Or.inr (Or.inr ⟨[], x, idx, rfl, by simp, hx.sobol.bound, rfl, hx, rfl, rfl, hok⟩)
  | k + 1, hs, n, x, a, idx, hx, hok, ha, hst, hj, hi => by
    unfold individuals
    rcases individualP_cases hfp h hP hpr hx hok ha hst hi with ⟨h1, h2⟩ | ⟨-, ⟨seq, h1⟩, h2⟩ | ⟨v, x', hn, hv, h1, h2, h3, h4, h5, h6, h7, h8⟩
    · right; left
      rw [h2]
      exact ⟨by omega, rfl⟩
    · left
      rw [h2]
      exact ⟨hs, a, k, seq, rfl, hok, hj, h1, rfl⟩
    · rw [h1]
      simp only [Out.ok_bind]
      rcases individualsP_cases hfp h hP hpr hJ k h2 h6 h7 h8 (hJ hs v a hv h5 hj) (inRange_length hv) with
        ⟨hs', a', j, seq, g1, g2, g3, g4, g5⟩ | ⟨g1, g2⟩ | ⟨vs, x2, idx', g1, g2, g3, g4, g5, g6, g7, g8⟩
      · exact Or.inl ⟨hs', a', j, seq, by rw [g1, List.length_cons]; omega, g2, g3, g4, g5⟩
      · exact Or.inr (Or.inl ⟨by omega, g2⟩)
      · refine Or.inr (Or.inr ⟨vs ++ [v], x2, idx', by simp [g1], ?_, by omega, g4, ?_, g6.trans h3, g7.trans h4, ?_⟩)
        · intro w hw
          rcases List.mem_append.mp hw with hw | hw
          · exact g2 w hw
          · rw [List.mem_singleton.mp hw]; exact hv
        · rw [List.append_assoc, show n + (k + 1) = n + 1 + k by omega]; exact g5
        · rw [List.append_assoc]; exact g8

theorem solveP_eq (lm : Libm) {s : List Nat} {P : Prob Int} (h : ProbShape s P) {pop : Int} {n : Nat} {E : List Int → Fl} {x : QIS}
    (hx : QISObj s P pop n E x) :
    ∃ x1, QISAt s P pop [] n x1 ∧ x1.expected = arr s E ∧ x1.conv = true ∧ x1.stateValues = x.stateValues ∧
      QISState.solve fp lm x false = (QISState.individuals fp (mapsOf s P) pop.toNat x1 (zerosI s.length) >>= fun t => QIS.stats fp lm t.1) := by
  obtain ⟨x1, hb, h1, h2, h3, h4⟩ := begin_ok hx false
  simp only [Bool.false_eq_true, if_false] at h1
  refine ⟨x1, h1, h2, h3, h4, ?_⟩
  unfold QISState.solve
  rw [hb]
  simp only [Out.ok_bind]
  have e1 : x1.micro.array.sizes = s := by rw [h1.micro]; rfl
  have e2 : x1.micro.indices = indicesOf P := by rw [h1.micro]; rfl
  have e3 : x1.micro.population = pop := by rw [h1.micro]; rfl
  rw [e1, e2, e3, index_new h.good.1]
  simp only [Out.ok_bind]
  have hm := mappings_ok (s := s) (P := P) (fun p hp => (h.dims p hp).2)
  rw [show (zerosI s.length) = List.replicate s.length 0 from rfl, hm]
  simp only [Out.ok_bind]
  rfl

theorem runP_eq (hfp : fp.Good) (lm : Libm) {s : List Nat} {P : Prob Int} {pop : Int} (h : ProbOK s P pop) (hpop : pop < 2 ^ 52)
    (skips : Int) :
    (1111 < s.length ∧ ∃ e, QISState.run fp lm (indicesOf P) (marginalsOf s P) skips = .thrown e ∧ (e = .sobolDim ∨ e = .lengthError)) ∨
    (s.length ≤ 1111 ∧ 2 ^ 31 < skips % 2 ^ 32 ∧ QISState.run fp lm (indicesOf P) (marginalsOf s P) skips = .diverges) ∨
    ∃ c x1, s.length ≤ 1111 ∧ skipCount (skips % 2 ^ 32).toNat = .ok c ∧ c ≤ 2 ^ 31 ∧
      QISAt s P pop [] c x1 ∧ x1.expected = arr s (expectedVal fp s P pop) ∧ x1.conv = true ∧ x1.stateValues = arr s (stateVal fp P) ∧
      QISState.run fp lm (indicesOf P) (marginalsOf s P) skips =
        (QISState.individuals fp (mapsOf s P) pop.toNat x1 (zerosI s.length) >>= fun t => QIS.stats fp lm t.1) := by
  have h2 := h.two
  by_cases hd : s.length ≤ 1111
  · right
    rcases skipCount_cases (skips % 2 ^ 32).toNat with ⟨c, hc, hc'⟩ | ⟨hc, hc'⟩
    · right
      obtain ⟨x, hx, ho, hv⟩ := qis_new_ok hfp h hpop hd hc
      rw [show min c (2 ^ 32 - 1) = c by omega] at ho
      obtain ⟨x1, g1, g2, g3, g4, g5⟩ := solveP_eq (fp := fp) lm h.toProbShape ho
      refine ⟨c, x1, hd, hc, hc', g1, g2, g3, g4.trans hv, ?_⟩
      unfold QISState.run
      rw [hx]; exact g5
    · left
      refine ⟨hd, by omega, ?_⟩
      obtain ⟨sb, hsb, ha, -⟩ := new_ok (dim := s.length) (by omega) hd
      unfold QISState.run QIS.new
      rw [micro_new_int hfp h hpop]
      simp only [Out.ok_bind]
      rw [show (mkMicro Int s P pop).dim = s.length from rfl, hsb]
      simp only [Out.ok_bind]
      unfold Sobol.skip sobolSkip
      rw [hc']
      rfl
  · left
    refine ⟨by omega, ?_⟩
    unfold QISState.run QIS.new
    rw [micro_new_int hfp h hpop]
    simp only [Out.ok_bind]
    rw [show (mkMicro Int s P pop).dim = s.length from rfl]
    unfold Sobol.new
    by_cases h61 : 2 ^ 61 ≤ s.length
    · rw [if_pos h61]; exact ⟨_, rfl, Or.inr rfl⟩
    · rw [if_neg h61, if_pos (by omega)]; exact ⟨_, rfl, Or.inl rfl⟩

/-- what is known of the object that is returned -/
structure SolvedP (fp : FP) (lm : Libm) (s : List Nat) (P : Prob Int) (pop : Int) (vs : List (List Int)) (x : QIS) : Prop where
  size : vs.length = pop.toNat
  range : ∀ v ∈ vs, InRange s v
  array : x.micro.array = arr s (fun v => (vs.count v : Int))
  conv : x.conv = true
  met : ∀ p ∈ P, ∀ j, InRange (projSizes p.1 s) j → marginalSum s p.1 (fun v => (vs.count v : Int)) j = p.2 j
  expected : x.expected = arr s (expectedVal fp s P pop)
  chiSq : x.chiSq = chiSqVal fp s (fun v => (vs.count v : Int)) (expectedVal fp s P pop)
  pValue : x.pValue = tablePValue fp lm s x.chiSq
  degeneracy : x.degeneracy = degeneracyVal fp lm s (fun v => (vs.count v : Int))

theorem runP_cases (hfp : fp.Good) (hsg : SignOK fp) (lm : Libm) {s : List Nat} {P : Prob Int} {pop : Int} (h : ProbOK s P pop) (hpop : pop < 2 ^ 52)
    (hpr : Proper s P) (skips : Int)
    {J : List (List Int) → (List Int → Fl) → Prop} (hJ0 : J [] (stateVal fp P))
    (hJ : ∀ hs v a, InRange s v → (∀ p ∈ remaining hs P, 0 < p.2 (proj p.1 v)) → J hs a → J (v :: hs) (shrunk fp v (remaining (v :: hs) P) a)) :
    (1111 < s.length ∧ ∃ e, QISState.run fp lm (indicesOf P) (marginalsOf s P) skips = .thrown e ∧ (e = .sobolDim ∨ e = .lengthError)) ∨
    (s.length ≤ 1111 ∧ 2 ^ 31 < skips % 2 ^ 32 ∧ QISState.run fp lm (indicesOf P) (marginalsOf s P) skips = .diverges) ∨
    ∃ c, s.length ≤ 1111 ∧ skipCount (skips % 2 ^ 32).toNat = .ok c ∧
      ((∃ hs' a' j seq, hs'.length + (j + 1) = pop.toNat ∧ ProbOK s (remaining hs' P) ((j + 1 : Nat) : Int) ∧ J hs' a' ∧
        (¬ ∃ v, Drawn fp seq s a' v) ∧ QISState.run fp lm (indicesOf P) (marginalsOf s P) skips = .thrown .pickFailed) ∨
      (2 ^ 32 - 1 < c + pop ∧ QISState.run fp lm (indicesOf P) (marginalsOf s P) skips = .thrown .sobolExhausted) ∨
      ∃ vs x, c + pop ≤ 2 ^ 32 - 1 ∧ QISState.run fp lm (indicesOf P) (marginalsOf s P) skips = .ok x ∧ SolvedP fp lm s P pop vs x) := by
  have h0 := h.pop_nonneg
  rcases runP_eq hfp lm h hpop skips with h1 | h1 | ⟨c, x1, h1, h2, -, h3, h4, h5, h6, h7⟩
  · exact Or.inl h1
  · exact Or.inr (Or.inl h1)
  · refine Or.inr (Or.inr ⟨c, h1, h2, ?_⟩)
    have e0 : remaining [] P = P := by simp [remaining]
    rw [h7]
    rcases individualsP_cases hfp hsg h.toProbShape hpr hJ pop.toNat (idx := zerosI s.length) h3 (by rw [e0, Int.toNat_of_nonneg h0]; exact h) h6
      (statesOK_init hsg h) hJ0 (by simp [zerosI]) with ⟨hs', a', j, seq, g1, g2, g3, g4, g5⟩ | ⟨g1, g2⟩ | ⟨vs, x2, idx', g1, g2, g3, g4, g5, g6, g7, g8⟩
    · left
      rw [g5]
      exact ⟨hs', a', j, seq, by simpa using g1, g2, g3, g4, rfl⟩
    · right; left
      rw [g2]
      exact ⟨by omega, rfl⟩
    · right; right
      rw [List.append_nil] at g5 g8
      rw [g4]
      simp only [Out.ok_bind]
      have ha : x2.micro.array = arr s (fun v => (vs.count v : Int)) := by rw [g5.micro]
      rw [stats_ok lm h.good ha (g6.trans h4)]
      have hu : Unspent P vs := by
        intro p hp v hv
        have := g8.nonneg _ (List.mem_map.mpr ⟨p, hp, rfl⟩) (proj p.1 v) (inRange_proj (h.dims p hp).2 (g2 v hv))
        simp only [] at this
        omega
      exact ⟨vs, _, by omega, rfl, g1, g2, ha, g7.trans h5, (unspent_iff h g2 g1).mp hu, g6.trans h4, rfl, rfl, rfl⟩

/-! ### Exact arithmetic -/

theorem shrunk_exact {s : List Nat} {P : Prob Int} {hs : List (List Int)} {v : List Int} (hpos : ∀ p ∈ remaining hs P, 0 < p.2 (proj p.1 v))
    {a : List Int → Fl} {w : List Int} (ha : a w = .fin (productAt (remaining hs P) w)) :
    shrunk FP.exact v (remaining (v :: hs) P) a w = .fin (productAt (remaining (v :: hs) P) w) := by
  have key : ∀ (P : Prob Int) (c : ℚ), (∀ p ∈ remaining hs P, 0 < p.2 (proj p.1 v)) →
      (remaining (v :: hs) P).foldl (fun x p => if proj p.1 w = proj p.1 v then FP.exact.mul x (shrink FP.exact p v) else x)
        (.fin (c * productAt (remaining hs P) w)) = .fin (c * productAt (remaining (v :: hs) P) w) := by
    intro P
    induction P with
    | nil => intro c _; simp [remaining, productAt]
    | cons p P ih =>
      intro c hp
      have h1 := hp _ (List.mem_map.mpr ⟨p, by simp, rfl⟩)
      simp only [] at h1
      set m : List Int → Int := fun j => p.2 j - (hs.countP (fun v => proj p.1 v = j) : Int) with hm
      have e1 : remaining hs (p :: P) = (p.1, m) :: remaining hs P := rfl
      have e2 : remaining (v :: hs) (p :: P) = (p.1, fun j => p.2 j - ((v :: hs).countP (fun v => proj p.1 v = j) : Int)) :: remaining (v :: hs) P := rfl
      have hpP : ∀ q ∈ remaining hs P, 0 < q.2 (proj q.1 v) := fun q hq => hp q (by rw [e1]; simp [hq])
      rw [e1, e2, List.foldl_cons]
      have p1 : ∀ (q : List Nat × (List Int → Int)) (Q : Prob Int), productAt (q :: Q) w = q.2 (proj q.1 w) * productAt Q w := by
        intro q Q; simp [productAt]
      rw [p1, p1]
      have hmv : (0 : ℚ) < m (proj p.1 v) := by exact_mod_cast h1
      have hnew : ∀ j, p.2 j - ((v :: hs).countP (fun v => proj p.1 v = j) : Int) = m j - if proj p.1 v = j then 1 else 0 := by
        intro j
        simp only [hm, List.countP_cons]
        by_cases hj : proj p.1 v = j
        · simp [hj]; omega
        · simp [hj]
      by_cases hw : proj p.1 w = proj p.1 v
      · rw [if_pos hw]
        have es : shrink FP.exact (p.1, fun j => p.2 j - ((v :: hs).countP (fun v => proj p.1 v = j) : Int)) v =
            .fin (((m (proj p.1 v) : ℚ) - 1) / m (proj p.1 v)) := by
          unfold shrink
          simp only [hnew, if_true]
          show (if (((1 + (m (proj p.1 v) - 1) : Int) : ℚ)) = 0 then FP.infOfSign _ else Fl.fin _) = _
          rw [if_neg (by push_cast; intro h; linarith)]
          congr 1
          push_cast
          ring
        rw [es]
        show List.foldl _ (Fl.fin (c * (_ * _) * _)) _ = _
        have := ih (c * (m (proj p.1 v) - 1)) hpP
        have e3 : c * ((m (proj p.1 w) : ℚ) * productAt (remaining hs P) w) * (((m (proj p.1 v) : ℚ) - 1) / m (proj p.1 v)) =
            c * (m (proj p.1 v) - 1) * productAt (remaining hs P) w := by
          rw [hw]
          field_simp
        simp only [] at this ⊢
        rw [e3, this]
        congr 1
        simp only [hnew, hw, if_true]
        push_cast
        ring
      · rw [if_neg hw]
        have := ih (c * m (proj p.1 w)) hpP
        rw [← mul_assoc, this]
        congr 1
        simp only [hnew]
        rw [if_neg (Ne.symm hw)]
        push_cast
        ring
  have := key P 1 hpos
  rw [one_mul, one_mul] at this
  unfold shrunk
  rw [ha]
  exact this

end HL

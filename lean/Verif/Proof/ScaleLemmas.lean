import Verif.Proof.LooseLemmas
import Verif.Model.IPF

namespace HL
open Micro
variable {α : Type}

/-! ### Enumeration of the cells by two groups of dimensions -/

theorem foldlM_flatMap' {β γ σ : Type} (l : List β) (f : β → List γ) (g : σ → γ → Out σ) (a : σ) :
    (l.flatMap f).foldlM g a = l.foldlM (fun a x => (f x).foldlM g a) a := by
  induction l generalizing a with
  | nil => rfl
  | cons x l ih =>
    rw [List.flatMap_cons, List.foldlM_append, List.foldlM_cons]
    congr 1
    funext a'
    exact ih a'

theorem allIdx_append (s t : List Nat) :
    allIdx (s ++ t) = (allIdx s).flatMap (fun u => (allIdx t).map (u ++ ·)) := by
  induction s with
  | nil => simp [allIdx]
  | cons n s ih =>
    simp only [List.cons_append, allIdx, ih]
    rw [List.flatMap_assoc]
    apply List.flatMap_congr
    intro i _
    rw [List.map_flatMap, List.flatMap_map]
    apply List.flatMap_congr
    intro u _
    rw [List.map_map]
    rfl

theorem writeAt_append : ∀ {ps : List Nat} {u : List Int} (qs : List Nat) (v idx : List Int),
    ps.length = u.length → writeAt (ps ++ qs) (u ++ v) idx = writeAt qs v (writeAt ps u idx)
  | [], [], _, _, _, _ => by simp
  | p :: ps, x :: u, qs, v, idx, h => by
    simp only [List.cons_append, writeAt]
    exact writeAt_append qs v _ (by simpa using h)

/-- If the positions `pos` are all positions of an array, writing the enumerated values at them enumerates
the cells. -/
theorem mem_writeAll {s : List Nat} {pos : List Nat} (hn : Loose s pos) (hlt : ∀ p ∈ pos, p < s.length)
    (hall : ∀ d < s.length, d ∈ pos) {v : List Int} :
    v ∈ (allIdx (projSizes pos s)).map (fun u => writeAt pos u (zerosI s.length)) ↔ InRange s v := by
  rw [List.mem_map]
  constructor
  · rintro ⟨u, hu, rfl⟩
    have hu := mem_allIdx.mp hu
    have hlen : u.length = pos.length := by simpa [projSizes] using inRange_length hu
    rw [inRange_iff_getD]
    refine ⟨by simp [zerosI], ?_⟩
    intro d hd
    obtain ⟨k, hk, hkd⟩ := List.mem_iff_getElem.mp (hall d hd)
    have hm := map_writeAt' (idx := zerosI s.length) hn hu (by simpa [zerosI] using hlt)
    have hg : (writeAt pos u (zerosI s.length)).getD d 0 = u.getD k 0 := by
      have := congrArg (fun l => l.getD k 0) hm
      rw [← this]
      simp [List.getD_eq_getElem?_getD, hk, hkd]
    rw [hg]
    have := inRange_getD hu (d := k) (by simpa [projSizes] using hk)
    rwa [show (projSizes pos s).getD k 0 = s.getD d 0 by simp [projSizes, List.getD_eq_getElem?_getD, hk, hkd]] at this
  · intro hv
    refine ⟨proj pos v, mem_allIdx.mpr (inRange_proj hlt hv), ?_⟩
    apply ext_getD
    · simp [zerosI, inRange_length hv]
    · intro d hd
      have hd' : d < s.length := by simpa [zerosI] using hd
      exact writeAt_getD_map (fun p => v.getD p 0) (hall d hd') (by simpa [zerosI] using hd')

theorem nodup_writeAll {s : List Nat} {pos : List Nat} (hn : Loose s pos) (hlt : ∀ p ∈ pos, p < s.length) :
    ((allIdx (projSizes pos s)).map (fun u => writeAt pos u (zerosI s.length))).Nodup := by
  refine List.Nodup.map_on ?_ (nodup_allIdx _)
  intro u hu w hw he
  have h1 := map_writeAt' (idx := zerosI s.length) hn (mem_allIdx.mp hu) (by simpa [zerosI] using hlt)
  have h2 := map_writeAt' (idx := zerosI s.length) hn (mem_allIdx.mp hw) (by simpa [zerosI] using hlt)
  rw [← h1, ← h2, he]

/-! ### Scaling one marginal -/

/-- dimensions not in `ds` -/
def otherDims (n : Nat) (ds : List Nat) : List Nat := (List.range n).filter (fun d => d ∉ ds)

theorem invert_eq {n : Nat} {ds : List Nat} (h : ds.length ≤ n) :
    invert n (ds.map (fun d : Nat => (d : Int))) = .ok ((otherDims n ds).map (fun d : Nat => (d : Int))) := by
  unfold invert
  rw [if_neg (by simpa using h)]
  congr 2
  unfold otherDims
  apply List.filter_congr
  intro d _
  simp

theorem length_lt_not_covering {n : Nat} {ds : List Nat} (h : ds.length < n) : otherDims n ds ≠ [] := by
  intro he
  have hsub : List.range n ⊆ ds := by
    intro d hd
    by_contra hc
    have : d ∈ otherDims n ds := List.mem_filter.mpr ⟨hd, by simpa using hc⟩
    rw [he] at this
    simp at this
  have := (List.subperm_of_subset List.nodup_range hsub).length_le
  simp at this
  omega

/-- the order in which the cells are visited -/
def visitOrder (s ds : List Nat) : List (List Int) :=
  (allIdx (projSizes (otherDims s.length ds ++ ds) s)).map
    (fun u => writeAt (otherDims s.length ds ++ ds) u (zerosI s.length))

theorem mem_otherDims {n : Nat} {ds : List Nat} {d : Nat} : d ∈ otherDims n ds ↔ d < n ∧ d ∉ ds := by
  simp [otherDims]

theorem properDims_of_nodup {s ds : List Nat} (hn : ds.Nodup) (hl : ds.length < s.length) : ProperDims s ds := by
  refine ⟨hl.le, ?_, loose_of_nodup hn⟩
  obtain ⟨d, hd⟩ := List.exists_mem_of_ne_nil _ (length_lt_not_covering hl)
  exact ⟨d, mem_otherDims.mp hd⟩

theorem pos_loose {s ds : List Nat} {n : Nat} (hn : Loose s ds) : Loose s (otherDims n ds ++ ds) := by
  unfold Loose
  rw [List.pairwise_append]
  refine ⟨loose_of_nodup (List.nodup_range.filter _), hn, ?_⟩
  intro a ha b hb hab
  subst hab
  exact absurd hb (mem_otherDims.mp ha).2

theorem mem_visitOrder {s ds : List Nat} (hn : Loose s ds) (hd : ∀ d ∈ ds, d < s.length) {v : List Int} :
    v ∈ visitOrder s ds ↔ InRange s v := by
  apply mem_writeAll (pos_loose hn)
  · intro p hp
    rcases List.mem_append.mp hp with hp | hp
    · exact (mem_otherDims.mp hp).1
    · exact hd p hp
  · intro d hd'
    rw [List.mem_append, mem_otherDims]
    by_cases h : d ∈ ds
    · exact Or.inr h
    · exact Or.inl ⟨hd', h⟩

theorem nodup_visitOrder {s ds : List Nat} (hn : Loose s ds) (hd : ∀ d ∈ ds, d < s.length) :
    (visitOrder s ds).Nodup := by
  apply nodup_writeAll (pos_loose hn)
  intro p hp
  rcases List.mem_append.mp hp with hp | hp
  · exact (mem_otherDims.mp hp).1
  · exact hd p hp

theorem zerosI_getD (n d : Nat) : (zerosI n).getD d 0 = 0 := by
  unfold zerosI
  by_cases h : d < n <;> simp [List.getD_eq_getElem?_getD, h]

theorem writeAt_zeros_of {ps : List Nat} {idx : List Int} (h : ∀ p ∈ ps, p < idx.length ∧ idx.getD p 0 = 0) :
    writeAt ps (zerosI ps.length) idx = idx := by
  have := writeAt_self (ps := ps) (idx := idx) (fun p hp => (h p hp).1)
  rw [List.map_congr_left (g := fun _ => (0 : Int)) (fun p hp => (h p hp).2), map_const_replicate] at this
  exact this

theorem scaleOne_fold (dbg : Bool) (fp : FP) (N : Num α) {s : List Nat} (hg : GoodShape s) (a : List Int → Fl)
    {ds : List Nat} (hne : ds ≠ []) (hpd : ProperDims s ds) (hd : ∀ d ∈ ds, d < s.length) (hdb : dbg = true → ds.length < s.length)
    (marg : NDArray α) :
    scaleOne dbg fp N (arr s a) (ds.map (fun d : Nat => (d : Int))) marg =
      (visitOrder s ds).foldlM (fun b idx =>
        scaleCell dbg fp N (arr (projSizes ds s) (fun j =>
          ((allIdx s).filter (fun v => proj ds v = j)).foldl (fun acc v => fp.add acc (a v)) (.fin 0)))
          marg b ⟨ds, projSizes ds s, false⟩ idx) (arr s a) := by
  obtain ⟨hlen, hout, hn⟩ := hpd
  unfold scaleOne
  rw [reduceM_eq dbg (numFl fp) hg a hne hd hdb]
  simp only [Out.ok_bind]
  have h1 : (arr s a).sizes = s := rfl
  have h2 : (arr s a).dim = s.length := rfl
  rw [h1, h2, index_new hg.1, invert_eq hlen]
  simp only [Out.ok_bind]
  generalize hr : arr (projSizes ds s) (fun j =>
    ((allIdx s).filter (fun v => proj ds v = j)).foldl (fun acc v => (numFl fp).add acc (a v)) (numFl fp).zero) = r
  have hr' : arr (projSizes ds s) (fun j =>
    ((allIdx s).filter (fun v => proj ds v = j)).foldl (fun acc v => fp.add acc (a v)) (.fin 0)) = r := hr
  rw [hr']
  set os := otherDims s.length ds with hos
  have hosd : ∀ d ∈ os, d < s.length := fun d h => (mem_otherDims.mp h).1
  have hosn : os.Nodup := List.nodup_range.filter _
  have hosne : os ≠ [] := by
    obtain ⟨d, h1, h2⟩ := hout
    exact List.ne_nil_of_mem (mem_otherDims.mpr ⟨h1, h2⟩)
  have hposS : ∀ {ps : List Nat}, (∀ d ∈ ps, d < s.length) → ∀ n ∈ projSizes ps s, 0 < n := by
    intro ps hps n hn
    obtain ⟨d, hd, rfl⟩ := List.mem_map.mp hn
    exact hg.2 _ (getD_mem (hps d hd))
  -- inner loop
  have hinner : ∀ (b : NDArray Fl) (w : List Int), w ∈ allIdx (projSizes os s) →
      forMapped ⟨s, writeAt os w (zerosI s.length), false⟩ (ds.map (fun d : Nat => (d : Int)))
        (fun a m idx => do
          let a ← scaleCell dbg fp N r marg a m idx
          pure (a, idx)) b =
      ((allIdx (projSizes ds s)).foldlM (fun b x =>
        scaleCell dbg fp N r marg b ⟨ds, projSizes ds s, false⟩ (writeAt ds x (writeAt os w (zerosI s.length)))) b
        >>= fun b' => Out.ok (b', writeAt os w (zerosI s.length))) := by
    intro b w hw
    unfold forMapped
    rw [mapped_new hd]
    simp only [Out.ok_bind]
    have hz : writeAt ds (zerosI ds.length) (writeAt os w (zerosI s.length)) = writeAt os w (zerosI s.length) := by
      apply writeAt_zeros_of
      intro p hp
      refine ⟨by simpa [zerosI] using hd p hp, ?_⟩
      rw [writeAt_getD_not_mem (fun hc => (mem_otherDims.mp hc).2 hp), zerosI_getD]
    have hl := loop_mapped' (σ := NDArray Fl) (s := s) (pos := ds)
      (base := writeAt os w (zerosI s.length)) hn (by simpa [zerosI] using hd) hne (hposS hd)
      (fun a m idx => do
          let a ← scaleCell dbg fp N r marg a m idx
          pure (a, idx))
      (fun b x => scaleCell dbg fp N r marg b ⟨ds, projSizes ds s, false⟩ (writeAt ds x (writeAt os w (zerosI s.length))))
      (fun _ _ _ => rfl) b
    rw [hz] at hl
    rw [hl]
    rw [bind_assoc]
    rfl
  unfold forMapped
  rw [mapped_new hosd]
  simp only [Out.ok_bind]
  have hl := loop_mapped' (σ := NDArray Fl) (s := s) (pos := os)
      (base := zerosI s.length) (loose_of_nodup hosn) (by simpa [zerosI] using hosd) hosne (hposS hosd)
      (fun a _ idx =>
        forMapped { sizes := s, idx := idx, atEnd := false } (ds.map (fun d : Nat => (d : Int))) (fun a m idx => do
          let a ← scaleCell dbg fp N r marg a m idx
          pure (a, idx)) a)
      (fun b w => (allIdx (projSizes ds s)).foldlM (fun b x =>
        scaleCell dbg fp N r marg b ⟨ds, projSizes ds s, false⟩ (writeAt ds x (writeAt os w (zerosI s.length)))) b)
      (fun b w hw => hinner b w hw) (arr s a)
  rw [writeAt_zeros_of (by intro p hp; exact ⟨by simpa [zerosI] using hosd p hp, zerosI_getD _ _⟩)] at hl
  unfold forMapped at hl
  rw [hl]
  rw [bind_assoc]
  have hvo : visitOrder s ds = (allIdx (projSizes os s)).flatMap (fun w => (allIdx (projSizes ds s)).map (fun x =>
      writeAt ds x (writeAt os w (zerosI s.length)))) := by
    unfold visitOrder
    rw [show projSizes (otherDims s.length ds ++ ds) s = projSizes os s ++ projSizes ds s by
      simp [projSizes, hos], allIdx_append, List.map_flatMap]
    apply List.flatMap_congr
    intro w hw
    rw [List.map_map]
    apply List.map_congr_left
    intro x _
    exact writeAt_append ds x _ (by
      have := inRange_length (mem_allIdx.mp hw)
      simpa [projSizes] using this.symm)
  rw [hvo, foldlM_flatMap']
  simp only [List.foldlM_map, bind_assoc, Out.ok_bind, Out.pure_eq]
  exact bind_pure _

/-- one cell after scaling to the marginal `m` over the dimensions `ds` -/
def scaled (fp : FP) (N : Num α) (s ds : List Nat) (m : List Int → α) (a : List Int → Fl) (v : List Int) : Fl :=
  if FP.feq (fsum fp s ds a (proj ds v)) (.fin 0) then .fin 0
  else fp.mul (a v) (fp.div (N.toFl (m (proj ds v))) (fsum fp s ds a (proj ds v)))

/-- a marginal entry with no positive sum to scale -/
def Blocked (fp : FP) (N : Num α) (s ds : List Nat) (m : List Int → α) (a : List Int → Fl) (j : List Int) : Prop :=
  FP.feq (fsum fp s ds a j) (.fin 0) = true ∧ FP.feq (N.toFl (m j)) (.fin 0) = false

instance (fp : FP) (N : Num α) (s ds : List Nat) (m : List Int → α) (a : List Int → Fl) (j : List Int) :
    Decidable (Blocked fp N s ds m a j) := inferInstanceAs (Decidable (_ ∧ _))

theorem scaleCell_eq (dbg : Bool) (fp : FP) (N : Num α) {s ds : List Nat} (hd : ∀ d ∈ ds, d < s.length)
    (m : List Int → α) (a b : List Int → Fl) {v : List Int} (hv : InRange s v) :
    scaleCell dbg fp N (arr (projSizes ds s) (fsum fp s ds a)) (arr (projSizes ds s) m) (arr s b)
      ⟨ds, projSizes ds s, false⟩ v =
    if dbg = true ∧ Blocked fp N s ds m a (proj ds v) then .thrown .div0
    else .ok (arr s (Function.update b v
      (if FP.feq (fsum fp s ds a (proj ds v)) (.fin 0) then .fin 0
        else fp.mul (b v) (fp.div (N.toFl (m (proj ds v))) (fsum fp s ds a (proj ds v)))))) := by
  unfold scaleCell
  have hp := inRange_proj hd hv
  rw [show MappedIndex.vals ⟨ds, projSizes ds s, false⟩ v = proj ds v from rfl, get_arr hp, get_arr hp]
  simp only [Out.ok_bind, Blocked]
  rcases Bool.eq_false_or_eq_true (FP.feq (fsum fp s ds a (proj ds v)) (.fin 0)) with h1 | h1 <;>
    rcases Bool.eq_false_or_eq_true (FP.feq (N.toFl (m (proj ds v))) (.fin 0)) with h2 | h2 <;>
    cases dbg <;> simp [h1, h2, modify_arr hv, set_arr hv]

theorem foldlM_thrown {β σ τ : Type} {f : σ → β → Out σ} (R : τ → σ) {h : τ → β → τ} {l : List β} {e : Exn}
    (bad : β → Prop) [DecidablePred bad] (hf : ∀ x ∈ l, ∀ t, f (R t) x = if bad x then .thrown e else .ok (R (h t x)))
    (hb : ∃ x ∈ l, bad x) (t : τ) : l.foldlM f (R t) = .thrown e := by
  induction l generalizing t with
  | nil => simp at hb
  | cons a l ih =>
    rw [List.foldlM_cons, hf a (by simp)]
    by_cases ha : bad a
    · rw [if_pos ha]; rfl
    · rw [if_neg ha]
      obtain ⟨x, hx, hbx⟩ := hb
      rcases List.mem_cons.mp hx with rfl | hx
      · exact absurd hbx ha
      · exact ih (fun x hx => hf x (by simp [hx])) ⟨x, hx, hbx⟩ _

theorem filter_eq_single {l : List (List Int)} (hn : l.Nodup) {v : List Int} (hv : v ∈ l) :
    l.filter (fun x => decide (x = v)) = [v] := by
  have := List.filter_eq (l := l) v
  have h2 : l.filter (fun x => decide (x = v)) = l.filter (fun x => x == v) := by
    apply List.filter_congr; intro x _; simp [Bool.beq_eq_decide_eq]
  rw [h2, List.filter_beq, List.count_eq_one_of_mem hn hv]
  rfl

theorem scaleOne_ok (dbg : Bool) (fp : FP) (N : Num α) {s : List Nat} (hg : GoodShape s) (a : List Int → Fl)
    {ds : List Nat} (hne : ds ≠ []) (hpd : ProperDims s ds) (hd : ∀ d ∈ ds, d < s.length) (hdb : dbg = true → ds.length < s.length)
    (m : List Int → α) (hb : dbg = true → ∀ v, InRange s v → ¬ Blocked fp N s ds m a (proj ds v)) :
    scaleOne dbg fp N (arr s a) (ds.map (fun d : Nat => (d : Int))) (arr (projSizes ds s) m) =
      .ok (arr s (scaled fp N s ds m a)) := by
  rw [scaleOne_fold dbg fp N hg a hne hpd hd hdb]
  have hn := hpd.2.2
  rw [foldlM_repr (R := fun b : List Int → Fl => arr s b)
    (h := fun b v => Function.update b v
      (if FP.feq (fsum fp s ds a (proj ds v)) (.fin 0) then .fin 0
        else fp.mul (b v) (fp.div (N.toFl (m (proj ds v))) (fsum fp s ds a (proj ds v)))))]
  · congr 1
    apply arr_congr
    intro v hv
    rw [foldl_update (fun v => v) (fun x v => if FP.feq (fsum fp s ds a (proj ds v)) (.fin 0) then .fin 0
        else fp.mul x (fp.div (N.toFl (m (proj ds v))) (fsum fp s ds a (proj ds v))))]
    rw [filter_eq_single (nodup_visitOrder hn hd) ((mem_visitOrder hn hd).mpr hv)]
    rfl
  · intro v hv b
    have hv := (mem_visitOrder hn hd).mp hv
    refine (scaleCell_eq dbg fp N hd m a b hv).trans ?_
    rw [if_neg]
    rintro ⟨h1, h2⟩
    exact hb h1 v hv h2

theorem scaleOne_blocked (fp : FP) (N : Num α) {s : List Nat} (hg : GoodShape s) (a : List Int → Fl)
    {ds : List Nat} (hne : ds ≠ []) (hpd : ProperDims s ds) (hd : ∀ d ∈ ds, d < s.length) (hdb : ds.length < s.length)
    (m : List Int → α) (hb : ∃ v, InRange s v ∧ Blocked fp N s ds m a (proj ds v)) :
    scaleOne true fp N (arr s a) (ds.map (fun d : Nat => (d : Int))) (arr (projSizes ds s) m) =
      .thrown .div0 := by
  rw [scaleOne_fold true fp N hg a hne hpd hd (fun _ => hdb)]
  have hn := hpd.2.2
  refine foldlM_thrown (R := fun b : List Int → Fl => arr s b)
    (h := fun b v => Function.update b v
      (if FP.feq (fsum fp s ds a (proj ds v)) (.fin 0) then .fin 0
        else fp.mul (b v) (fp.div (N.toFl (m (proj ds v))) (fsum fp s ds a (proj ds v)))))
    (bad := fun v => Blocked fp N s ds m a (proj ds v)) ?_ ?_ a
  · intro v hv b
    have hv := (mem_visitOrder hn hd).mp hv
    refine (scaleCell_eq true fp N hd m a b hv).trans ?_
    simp
  · obtain ⟨v, hv, hbv⟩ := hb
    exact ⟨v, (mem_visitOrder hn hd).mpr hv, hbv⟩

end HL

import Verif.Proof.IPFAlgebra

namespace HL
open Micro
variable {α : Type}

/-! ### The first sweep decides -/

theorem solve_start (dbg : Bool) (fp : FP) (N : Num α) {s : List Nat} {P : Prob α} (h : ProbShape s P)
    {pop : Int} {x : IPF α} (hx : IPFObj s P pop x) (a : List Int → Fl) :
    ∃ es ds, Slots s P es ∧ Slots s P ds ∧ IPF.solve dbg fp N x (arr s a) =
      (loop IPF.continues (IPF.step dbg fp N) (mkIPF s P pop a 0 false es x.maxError, ds) >>= fun r => .ok r.1) := by
  obtain ⟨es, ds, he, hd, hst⟩ := start_eq h hx a
  refine ⟨es, ds, he, hd, ?_⟩
  unfold IPF.solve
  obtain ⟨g, hm⟩ := hx.micro
  have hsz : x.micro.array.sizes = s := by rw [hm]; rfl
  have hix : x.micro.indices = indicesOf P := by rw [hm]; rfl
  rw [hsz, show (arr s a).sizes = s from rfl]
  have hcs : IPF.checkSeed s s = .ok () := by simp [IPF.checkSeed]
  rw [hcs]
  simp only [Out.ok_bind]
  rw [index_new h.good.1]
  simp only [Out.ok_bind]
  rw [hix, show (zerosI s.length) = List.replicate s.length 0 from rfl, mappings_ok (fun p hp => (h.dims p hp).2)]
  simp only [Out.ok_bind]
  rw [hst]
  rfl

theorem solve_first (dbg : Bool) (fp : FP) (N : Num α) {s : List Nat} {P : Prob α} (h : ProbShape s P)
    {pop : Int} {x : IPF α} (hx : IPFObj s P pop x) (a : List Int → Fl) {o : Out (NDArray Fl)}
    (ho : rScale dbg fp N (arr s a) (indicesOf P) (marginalsOf s P) = o) (hno : ∀ b, o ≠ .ok b) :
    IPF.solve dbg fp N x (arr s a) = (o >>= fun _ => .ok x) := by
  obtain ⟨es, ds, -, -, hs⟩ := solve_start dbg fp N h hx a
  rw [hs, loop_unfold, if_pos (by simp [IPF.continues, IPF.maxIter, mkIPF])]
  have : IPF.step dbg fp N (mkIPF s P pop a 0 false es x.maxError, ds) =
      (o >>= fun _ => .ok (mkIPF s P pop a 0 false es x.maxError, ds)) := by
    unfold IPF.step
    simp only [mkIPF, mkMicro]
    rw [ho]
    cases o with
    | ok b => exact absurd rfl (hno b)
    | thrown e => rfl
    | ub u => rfl
    | diverges => rfl
  rw [this]
  cases o with
  | ok b => exact absurd rfl (hno b)
  | thrown e => rfl
  | ub u => rfl
  | diverges => rfl

theorem rScale_append (dbg : Bool) (fp : FP) (N : Num α) {s : List Nat} : ∀ (A B : Prob α) (a b : List Int → Fl),
    rScale dbg fp N (arr s a) (indicesOf A) (marginalsOf s A) = .ok (arr s b) →
    rScale dbg fp N (arr s a) (indicesOf (A ++ B)) (marginalsOf s (A ++ B)) =
      rScale dbg fp N (arr s b) (indicesOf B) (marginalsOf s B) := by
  have key : ∀ (A B : Prob α) (x y : NDArray Fl),
      rScale dbg fp N x (indicesOf A) (marginalsOf s A) = .ok y →
      rScale dbg fp N x (indicesOf (A ++ B)) (marginalsOf s (A ++ B)) =
        rScale dbg fp N y (indicesOf B) (marginalsOf s B) := by
    intro A
    induction A with
    | nil =>
      intro B x y h
      simp only [indicesOf, List.map_nil, rScale] at h
      injection h with h
      subst h; rfl
    | cons p A ih =>
      intro B x y h
      simp only [indicesOf, marginalsOf, List.map_cons, List.cons_append, rScale] at h ⊢
      obtain ⟨z, hz, h⟩ := Out.bind_eq_ok.mp h
      rw [hz]
      simp only [Out.ok_bind]
      exact ih B z y h
  intro A B a b
  exact key A B _ _

/-! ### A marginal over all dimensions -/

theorem scaleCell_release (fp : FP) (N : Num α) {s ds : List Nat} (hd : ∀ d ∈ ds, d < s.length)
    (m : List Int → α) (a b : List Int → Fl) {v : List Int} (hv : InRange s v) :
    ∃ b', scaleCell false fp N (arr (projSizes ds s) (fsum fp s ds a)) (arr (projSizes ds s) m) (arr s b)
      ⟨ds, projSizes ds s, false⟩ v = .ok (arr s b') := by
  rw [scaleCell_eq false fp N hd m a b hv, if_neg (by simp)]
  exact ⟨_, rfl⟩

theorem otherDims_covering {n : Nat} {ds : List Nat} (hn : ds.Nodup) (hd : ∀ d ∈ ds, d < n) (hlen : ds.length = n) :
    otherDims n ds = [] := by
  unfold otherDims
  rw [List.filter_eq_nil_iff]
  intro d hdn
  have hsub : ds ⊆ List.range n := fun d h => List.mem_range.mpr (hd d h)
  have hperm := (List.subperm_of_subset hn hsub).perm_of_length_le (by simp [hlen])
  simpa using hperm.mem_iff.mpr hdn

theorem scaleOne_covering (fp : FP) (N : Num α) {s : List Nat} (hg : GoodShape s) (a : List Int → Fl)
    {ds : List Nat} (hn : ds.Nodup) (hd : ∀ d ∈ ds, d < s.length) (hlen : ds.length = s.length)
    (m : List Int → α) :
    scaleOne false fp N (arr s a) (ds.map (fun d : Nat => (d : Int))) (arr (projSizes ds s) m) = .diverges := by
  have hne : ds ≠ [] := by
    rintro rfl
    exact hg.1 (List.eq_nil_of_length_eq_zero hlen.symm)
  unfold scaleOne
  rw [reduceM_eq false (numFl fp) hg a hne hd (by simp)]
  simp only [Out.ok_bind]
  have h1 : (arr s a).sizes = s := rfl
  have h2 : (arr s a).dim = s.length := rfl
  rw [h1, h2, index_new hg.1, invert_eq hlen.le, otherDims_covering hn hd hlen]
  simp only [Out.ok_bind, List.map_nil]
  have hpos : ∀ n ∈ projSizes ds s, 0 < n := by
    intro n hn
    obtain ⟨d, hd', rfl⟩ := List.mem_map.mp hn
    exact hg.2 _ (getD_mem (hd d hd'))
  have hz : writeAt ds (zerosI ds.length) (zerosI s.length) = zerosI s.length := by
    apply writeAt_zeros_of
    intro p hp
    exact ⟨by simpa [zerosI] using hd p hp, zerosI_getD _ _⟩
  have hin : ∀ u ∈ allIdx (projSizes ds s), InRange s (writeAt ds u (zerosI s.length)) := by
    intro u hu
    rw [← mem_writeAll (loose_of_nodup hn) hd]
    · exact List.mem_map.mpr ⟨u, hu, rfl⟩
    · intro d hd'
      by_contra hc
      have : d ∈ otherDims s.length ds := mem_otherDims.mpr ⟨hd', hc⟩
      rw [otherDims_covering hn hd hlen] at this
      simp at this
  have hfold : ∀ (l : List (List Int)), (∀ u ∈ l, InRange s (writeAt ds u (zerosI s.length))) → ∀ b : List Int → Fl,
      ∃ b', l.foldlM (fun b u => scaleCell false fp N (arr (projSizes ds s) (fsum fp s ds a)) (arr (projSizes ds s) m) b
        ⟨ds, projSizes ds s, false⟩ (writeAt ds u (zerosI s.length))) (arr s b) = .ok (arr s b') := by
    intro l
    induction l with
    | nil => intro _ b; exact ⟨b, rfl⟩
    | cons u l ih =>
      intro hl b
      obtain ⟨b1, hb1⟩ := scaleCell_release fp N hd m a b (hl u (by simp))
      rw [List.foldlM_cons, hb1]
      exact ih (fun w hw => hl w (by simp [hw])) b1
  have hinner : ∀ b : List Int → Fl, ∃ b' : List Int → Fl,
      forMapped ⟨s, zerosI s.length, false⟩ (ds.map (fun d : Nat => (d : Int)))
        (fun a_1 mm idx => do
          let a ← scaleCell false fp N (arr (projSizes ds s) (fsum fp s ds a)) (arr (projSizes ds s) m) a_1 mm idx
          pure (a, idx)) (arr s b) = .ok (arr s b', zerosI s.length) := by
    intro b
    obtain ⟨b', hb'⟩ := hfold _ hin b
    refine ⟨b', ?_⟩
    unfold forMapped
    rw [mapped_new hd]
    simp only [Out.ok_bind]
    have hl := loop_mapped (σ := NDArray Fl) (pos := ds) (sizes := projSizes ds s)
      (base := zerosI s.length) hn (by simpa [zerosI] using hd) (by simp [projSizes]) hne hpos
      (fun a_1 mm idx => do
          let a ← scaleCell false fp N (arr (projSizes ds s) (fsum fp s ds a)) (arr (projSizes ds s) m) a_1 mm idx
          pure (a, idx))
      (fun b u => scaleCell false fp N (arr (projSizes ds s) (fsum fp s ds a)) (arr (projSizes ds s) m) b
        ⟨ds, projSizes ds s, false⟩ (writeAt ds u (zerosI s.length)))
      (fun _ _ _ => rfl) (arr s b)
    rw [hz] at hl
    rw [hl, hb']
    rfl
  have hdiv := loop_diverges
    (cond := fun (t : MappedIndex × List Int × NDArray Fl) => !t.1.atEnd)
    (body := fun t => do
      let s' ← forMapped ⟨s, t.2.1, false⟩ (ds.map (fun d : Nat => (d : Int)))
        (fun a_1 mm idx => do
          let a ← scaleCell false fp N (arr (projSizes ds s) (fsum fp s ds a)) (arr (projSizes ds s) m) a_1 mm idx
          pure (a, idx)) t.2.2
      let n := t.1.incr s'.2
      pure (n.1, n.2, s'.1))
    (fun t => ∃ b : List Int → Fl, t = (⟨[], [], false⟩, zerosI s.length, arr s b))
    (by
      rintro t ⟨b, rfl⟩
      refine ⟨rfl, ?_⟩
      obtain ⟨b', hb'⟩ := hinner b
      simp only [hb', Out.ok_bind]
      exact ⟨_, rfl, b', rfl⟩)
    ⟨a, rfl⟩
  unfold forMapped MappedIndex.new
  simp only [List.mapM_nil, Out.pure_eq, Out.ok_bind, List.map_nil]
  unfold forMapped at hdiv
  erw [hdiv]
  rfl

/-! ### A marginal that names a dimension twice -/

theorem inRange_set {s : List Nat} {v : List Int} (hv : InRange s v) {p : Nat} {x : Int}
    (hx : 0 ≤ x ∧ x < (s.getD p 0 : Nat)) : InRange s (v.set p x) := by
  rw [inRange_iff_getD] at hv ⊢
  refine ⟨by simpa using hv.1, ?_⟩
  intro d hd
  by_cases he : d = p
  · subst he
    have : d < v.length := by rw [hv.1]; exact hd
    simpa [List.getD_eq_getElem?_getD, this] using hx
  · have := hv.2 d hd
    simpa [List.getD_eq_getElem?_getD, List.getElem?_set_ne (Ne.symm he)] using this

theorem incrLoop_inRange {s ds : List Nat} (hd : ∀ d ∈ ds, d < s.length) : ∀ (i : Nat), i ≤ ds.length →
    ∀ (v : List Int) (e : Bool), InRange s v → InRange s (MappedIndex.incrLoop ds (projSizes ds s) i v e).1
  | 0, _, v, e, hv => hv
  | i + 1, hi, v, e, hv => by
    unfold MappedIndex.incrLoop
    have hi' : i < ds.length := hi
    have hp : ds.getD i 0 < s.length := hd _ (getD_mem hi')
    have hsz : (projSizes ds s).getD i 0 = s.getD (ds.getD i 0) 0 := by
      simp [projSizes, List.getD_eq_getElem?_getD, hi']
    have hr := inRange_getD hv hp
    have hlt : ds.getD i 0 < v.length := by rw [inRange_length hv]; exact hp
    have hget : (v.set (ds.getD i 0) (v.getD (ds.getD i 0) 0 + 1)).getD (ds.getD i 0) 0 = v.getD (ds.getD i 0) 0 + 1 := by
      rw [List.getD_eq_getElem?_getD, List.getElem?_set_self hlt]; rfl
    simp only [hget, hsz]
    split
    · apply inRange_set hv
      constructor
      · omega
      · omega
    · apply incrLoop_inRange hd i hi'.le
      rw [List.set_set]
      exact inRange_set hv ⟨le_rfl, by omega⟩

/-- after the later of two pointers to the same dimension has wrapped to zero, the earlier one stops -/
theorem incrLoop_stops {s ds : List Nat} (hd : ∀ d ∈ ds, d < s.length) {k p : Nat} (hk : k < ds.length)
    (hkp : ds.getD k 0 = p) (hsz : 2 ≤ s.getD p 0) : ∀ (i : Nat), i ≤ ds.length → k < i → ∀ (v : List Int),
    InRange s v → v.getD p 0 = 0 → (MappedIndex.incrLoop ds (projSizes ds s) i v false).2 = false
  | 0, _, h, _, _, _ => by omega
  | i + 1, hi, hki, v, hv, hv0 => by
    unfold MappedIndex.incrLoop
    have hi' : i < ds.length := hi
    have hp : ds.getD i 0 < s.length := hd _ (getD_mem hi')
    have hszi : (projSizes ds s).getD i 0 = s.getD (ds.getD i 0) 0 := by
      simp [projSizes, List.getD_eq_getElem?_getD, hi']
    have hlt : ds.getD i 0 < v.length := by rw [inRange_length hv]; exact hp
    have hget : (v.set (ds.getD i 0) (v.getD (ds.getD i 0) 0 + 1)).getD (ds.getD i 0) 0 = v.getD (ds.getD i 0) 0 + 1 := by
      rw [List.getD_eq_getElem?_getD, List.getElem?_set_self hlt]; rfl
    simp only [hget, hszi]
    by_cases he : ds.getD i 0 = p
    · rw [he, hv0, if_pos (by omega)]
    · split
      · rfl
      · rename_i hw
        have hki' : k < i := by
          rcases Nat.lt_or_ge k i with h | h
          · exact h
          · have : k = i := by omega
            subst this
            exact absurd hkp he
        rw [if_neg (by omega), List.set_set]
        apply incrLoop_stops hd hk hkp hsz i hi'.le hki'
        · exact inRange_set hv ⟨le_rfl, by
            have := inRange_getD hv hp
            omega⟩
        · have : (v.set (ds.getD i 0) 0).getD p 0 = v.getD p 0 := by
            rw [List.getD_eq_getElem?_getD, List.getElem?_set_ne he, ← List.getD_eq_getElem?_getD]
          rw [this, hv0]

theorem incrLoop_dup {s ds : List Nat} (hd : ∀ d ∈ ds, d < s.length) {k l p : Nat} (hkl : k < l) (hl : l < ds.length)
    (hkp : ds.getD k 0 = p) (hlp : ds.getD l 0 = p) (hsz : 2 ≤ s.getD p 0) : ∀ (i : Nat), i ≤ ds.length → l < i →
    ∀ (v : List Int), InRange s v → (MappedIndex.incrLoop ds (projSizes ds s) i v false).2 = false
  | 0, _, h, _, _ => by omega
  | i + 1, hi, hli, v, hv => by
    unfold MappedIndex.incrLoop
    have hi' : i < ds.length := hi
    have hp : ds.getD i 0 < s.length := hd _ (getD_mem hi')
    have hszi : (projSizes ds s).getD i 0 = s.getD (ds.getD i 0) 0 := by
      simp [projSizes, List.getD_eq_getElem?_getD, hi']
    have hlt : ds.getD i 0 < v.length := by rw [inRange_length hv]; exact hp
    have hget : (v.set (ds.getD i 0) (v.getD (ds.getD i 0) 0 + 1)).getD (ds.getD i 0) 0 = v.getD (ds.getD i 0) 0 + 1 := by
      rw [List.getD_eq_getElem?_getD, List.getElem?_set_self hlt]; rfl
    simp only [hget, hszi]
    split
    · rfl
    · rename_i hw
      rw [if_neg (by omega), List.set_set]
      have hin : InRange s (v.set (ds.getD i 0) 0) := inRange_set hv ⟨le_rfl, by
        have := inRange_getD hv hp
        omega⟩
      by_cases hil : i = l
      · subst hil
        apply incrLoop_stops hd (by omega) hkp hsz i hi'.le hkl _ hin
        rw [hlp] at hlt ⊢
        rw [List.getD_eq_getElem?_getD, List.getElem?_set_self hlt]; rfl
      · exact incrLoop_dup hd hkl hl hkp hlp hsz i hi'.le (by omega) _ hin

theorem scaleOne_dup (fp : FP) (N : Num α) {s : List Nat} (hg : GoodShape s) (a : List Int → Fl)
    {ds : List Nat} (hd : ∀ d ∈ ds, d < s.length) (hlen : ds.length ≤ s.length)
    {k l p : Nat} (hkl : k < l) (hl : l < ds.length)
    (hkp : ds.getD k 0 = p) (hlp : ds.getD l 0 = p) (hsz : 2 ≤ s.getD p 0) (m : List Int → α) :
    scaleOne false fp N (arr s a) (ds.map (fun d : Nat => (d : Int))) (arr (projSizes ds s) m) = .diverges := by
  have hne : ds ≠ [] := by rintro rfl; simp at hl
  unfold scaleOne
  rw [reduceM_eq false (numFl fp) hg a hne hd (by simp)]
  simp only [Out.ok_bind]
  have h1 : (arr s a).sizes = s := rfl
  have h2 : (arr s a).dim = s.length := rfl
  rw [h1, h2, index_new hg.1, invert_eq hlen]
  simp only [Out.ok_bind]
  have hz : InRange s (zerosI s.length) := by
    rw [inRange_iff_getD]
    refine ⟨by simp [zerosI], ?_⟩
    intro d hd'
    rw [zerosI_getD]
    exact ⟨le_rfl, by exact_mod_cast hg.2 _ (getD_mem hd')⟩
  have hinner : ∀ b : List Int → Fl,
      forMapped ⟨s, zerosI s.length, false⟩ (ds.map (fun d : Nat => (d : Int)))
        (fun a_1 mm idx => do
          let a ← scaleCell false fp N (arr (projSizes ds s) (fsum fp s ds a)) (arr (projSizes ds s) m) a_1 mm idx
          pure (a, idx)) (arr s b) = .diverges := by
    intro b
    unfold forMapped
    rw [mapped_new hd]
    simp only [Out.ok_bind]
    rw [loop_diverges (fun t => ∃ v b, InRange s v ∧ t = (⟨ds, projSizes ds s, false⟩, v, arr s b)) ?_
      ⟨zerosI s.length, b, hz, rfl⟩]
    · rfl
    · rintro t ⟨v, b, hv, rfl⟩
      refine ⟨rfl, ?_⟩
      obtain ⟨b', hb'⟩ := scaleCell_release fp N hd m a b hv
      simp only [hb', Out.ok_bind, Out.pure_eq]
      refine ⟨_, rfl, (MappedIndex.incrLoop ds (projSizes ds s) ds.length v false).1, b',
        incrLoop_inRange hd _ le_rfl v false hv, ?_⟩
      have := incrLoop_dup hd hkl hl hkp hlp hsz ds.length le_rfl hl v hv
      simp only [MappedIndex.incr, this]
  have hos : ∀ d ∈ otherDims s.length ds, d < s.length := fun d h => (mem_otherDims.mp h).1
  rw [forMapped, mapped_new hos]
  simp only [Out.ok_bind]
  rw [loop_unfold]
  simp only [Bool.not_false, if_true]
  erw [hinner a]
  rfl

end HL

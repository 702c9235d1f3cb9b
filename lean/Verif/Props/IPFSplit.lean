import Verif.Proof.IPFSplit
import Verif.Props.IPFRedundant

/-
C127: splitting categories in fixed proportions makes no difference to `ipf`.
-/

namespace HL
variable {s s' : List Nat} {π : Nat → Nat → Nat} {w : Nat → Nat → ℚ}

theorem allShare_zero {v : List Int} {d : Nat} : ∀ {w : Nat → Nat → ℚ}, d < v.length → w d (v.getD d 0).toNat = 0 → allShare w v = 0 := by
  induction v generalizing d with
  | nil => intro w h; simp at h
  | cons x v ih =>
    intro w h h0
    cases d with
    | zero =>
      simp only [List.getD_cons_zero] at h0
      rw [allShare, h0, zero_mul]
    | succ d =>
      simp only [List.getD_cons_succ] at h0
      rw [allShare, ih (w := fun d => w (d + 1)) (by simpa using h) h0, mul_zero]

theorem share_eq_allShare : ∀ (w : Nat → Nat → ℚ) (ds : List Nat) (j : List Int), j.length = ds.length →
    share w ds j = allShare (fun e => w (ds.getD e 0)) j
  | w, [], [], _ => by simp [share, allShare]
  | w, [], _ :: _, h => by simp at h
  | w, _ :: _, [], h => by simp at h
  | w, d :: ds, x :: j, h => by
    have ih := share_eq_allShare w ds j (by simpa using h)
    have e : share w (d :: ds) (x :: j) = w d x.toNat * share w ds j := by simp [share]
    rw [e, ih, allShare]
    rfl

theorem merged_eq_allMerged : ∀ (π : Nat → Nat → Nat) (ds : List Nat) (j : List Int), j.length = ds.length →
    merged π ds j = allMerged (fun e => π (ds.getD e 0)) j
  | π, [], [], _ => by simp [merged, allMerged]
  | π, [], _ :: _, h => by simp at h
  | π, _ :: _, [], h => by simp at h
  | π, d :: ds, x :: j, h => by
    have ih := merged_eq_allMerged π ds j (by simpa using h)
    have e : merged π (d :: ds) (x :: j) = (π d x.toNat : Int) :: merged π ds j := by simp [merged]
    rw [e, ih, allMerged]
    rfl

theorem proj_allMerged {ds : List Nat} {v : List Int} (hd : ∀ d ∈ ds, d < v.length) : proj ds (allMerged π v) = merged π ds (proj ds v) := by
  apply List.ext_getElem?
  intro e
  simp only [proj, merged, List.getElem?_map, List.getElem?_zipWith]
  cases h : ds[e]? with
  | none => rfl
  | some d =>
    have := hd d (List.mem_of_getElem? h)
    simp [List.getD, allMerged_get, this]

theorem projSizes_self (s : List Nat) : projSizes (List.range s.length) s = s := by
  apply List.ext_getElem
  · simp [projSizes]
  · intro d h1 h2
    simp [projSizes, List.getD, h2]

/-- one scaling of a table that is shared out -/
theorem qscaled_split (h : Split s s' π w) {ds : List Nat} (hn : ds.Nodup) (hd : ∀ d ∈ ds, d < s.length) {m m' b b' : List Int → ℚ}
    (hm : SplitOf π w s' ds m m') (hb : ∀ v, InRange s' v → b' v = allShare w v * b (allMerged π v)) :
    ∀ v, InRange s' v → qscaled s' ds m' b' v = allShare w v * qscaled s ds m b (allMerged π v) := by
  intro v hv
  have hd' : ∀ d ∈ ds, d < s'.length := by rw [h.len]; exact hd
  have hvl : v.length = s'.length := hv.length_eq.symm
  have hj := inRange_proj hd' hv
  unfold qscaled
  rw [marginalSum_split h hn hd hb hj, hm _ hj, proj_allMerged (by rw [hvl]; exact hd')]
  by_cases h0 : share w ds (proj ds v) = 0
  · have : allShare w v = 0 := by
      unfold share at h0
      rw [List.prod_eq_zero_iff, List.mem_iff_getElem] at h0
      obtain ⟨e, he, h1⟩ := h0
      have hel : e < ds.length := by simp [proj] at he; exact he
      rw [List.getElem_zipWith] at h1
      refine allShare_zero (d := ds[e]) (by rw [hvl]; exact hd' _ (List.getElem_mem hel)) ?_
      simpa [proj] using h1
    rw [h0, this]; simp
  · by_cases h1 : marginalSum s ds b (merged π ds (proj ds v)) = 0
    · rw [h1]; simp
    · rw [if_neg (mul_ne_zero h0 h1), if_neg h1, hb v hv]
      field_simp

theorem qsweep_split (h : Split s s' π w) : ∀ {Q Q' : Prob ℚ}, SplitProb π w s' Q Q' → (∀ q ∈ Q, q.1.Nodup) →
    (∀ q ∈ Q, ∀ d ∈ q.1, d < s.length) → ∀ {b b' : List Int → ℚ}, (∀ v, InRange s' v → b' v = allShare w v * b (allMerged π v)) →
    ∀ v, InRange s' v → qsweep s' Q' b' v = allShare w v * qsweep s Q b (allMerged π v)
  | [], _, .nil, _, _, _, _, hb => hb
  | q :: Q, q' :: Q', .cons h1 h2, hn, hd, b, b', hb => by
    rw [qsweep_cons, qsweep_cons]
    refine qsweep_split h h2 (fun p hp => hn p (by simp [hp])) (fun p hp => hd p (by simp [hp])) ?_
    rw [h1.1]
    exact qscaled_split h (hn q (by simp)) (hd q (by simp)) h1.2 hb

theorem splitProb_fst {Q Q' : Prob ℚ} (h : SplitProb π w s' Q Q') : Q.map Prod.fst = Q'.map Prod.fst := by
  induction h with
  | nil => rfl
  | cons h1 _ ih => simp [h1.1, ih]

theorem splitProb_mem {Q Q' : Prob ℚ} (h : SplitProb π w s' Q Q') {q'} (hq : q' ∈ Q') :
    ∃ q ∈ Q, q'.1 = q.1 ∧ SplitOf π w s' q.1 q.2 q'.2 := by
  induction h with
  | nil => simp at hq
  | cons h1 _ ih =>
    rcases List.mem_cons.mp hq with rfl | hq
    · exact ⟨_, by simp, h1⟩
    · obtain ⟨q, h2, h3⟩ := ih hq
      exact ⟨q, by simp [h2], h3⟩

theorem split_pos (h : Split s s' π w) (hp : ∀ n ∈ s, 0 < n) : ∀ n ∈ s', 0 < n := by
  intro n hn
  obtain ⟨d, hd, rfl⟩ := List.getElem_of_mem hn
  have hd' : d < s.length := by rw [← h.len]; exact hd
  have h1 := h.one d hd' 0 (by
    rw [List.getD, List.getElem?_eq_getElem hd']
    exact hp _ (List.getElem_mem hd'))
  by_contra h0
  have e : s'.getD d 0 = 0 := by
    rw [List.getD, List.getElem?_eq_getElem hd]
    simpa using h0
  rw [e] at h1
  simp at h1

theorem split_shape (h : Split s s' π w) {Q Q' : Prob ℚ} (hQ : SplitProb π w s' Q Q') (hs : ProbShape s Q) : ProbShape s' Q' :=
  probShape_congr (splitProb_fst hQ) ⟨hs.lists, by rw [h.len]; exact hs.two, split_pos h hs.pos,
    by rw [h.len]; exact hs.dims, by rw [h.len]; exact hs.cover⟩

theorem split_proj (h : Split s s' π w) {ds : List Nat} (hd : ∀ d ∈ ds, d < s.length) :
    Split (projSizes ds s) (projSizes ds s') (fun e => π (ds.getD e 0)) (fun e => w (ds.getD e 0)) := by
  have key : ∀ e < (projSizes ds s).length, ds.getD e 0 < s.length ∧ (projSizes ds s).getD e 0 = s.getD (ds.getD e 0) 0 ∧
      (projSizes ds s').getD e 0 = s'.getD (ds.getD e 0) 0 := by
    intro e he
    have he : e < ds.length := by simpa [projSizes] using he
    have : ds.getD e 0 = ds[e] := by simp [List.getD, he]
    refine ⟨this ▸ hd _ (List.getElem_mem he), ?_, ?_⟩ <;> simp [projSizes, List.getD, he]
  refine ⟨by simp [projSizes], ?_, ?_, ?_⟩
  · intro e he
    obtain ⟨h1, h2, h3⟩ := key e he
    rw [h2, h3]
    exact h.into _ h1
  · intro e he
    obtain ⟨h1, h2, h3⟩ := key e he
    rw [h3]
    exact h.nonneg _ h1
  · intro e he
    obtain ⟨h1, h2, h3⟩ := key e he
    rw [h2, h3]
    exact h.one _ h1

/-- **C127**: a consistent problem whose categories are split is consistent, for the same population. -/
theorem C127_accepted (h : Split s s' π w) {Q Q' : Prob ℚ} (hQ : SplitProb π w s' Q Q') {pop : Int} (hr : RatOK s Q pop) :
    RatOK s' Q' pop := by
  have hm : ∀ {q q' : List Nat × (List Int → ℚ)}, q'.1 = q.1 → SplitOf π w s' q.1 q.2 q'.2 → ∀ j, InRange (projSizes q.1 s') j →
      q'.2 j = allShare (fun e => w (q.1.getD e 0)) j * q.2 (allMerged (fun e => π (q.1.getD e 0)) j) := by
    intro q q' _ h2 j hj
    have hl : j.length = q.1.length := by simpa [projSizes] using hj.length_eq.symm
    rw [h2 j hj, share_eq_allShare _ _ _ hl, merged_eq_allMerged _ _ _ hl]
  refine ⟨split_shape h hQ hr.toProbShape, ?_, ?_, ?_⟩
  · intro q' hq' j hj
    obtain ⟨q, hq, h1, h2⟩ := splitProb_mem hQ hq'
    rw [h1] at hj
    rw [h2 j hj]
    exact mul_nonneg (share_mem h (hr.dims q hq).2 hj).1 (hr.nonneg q hq _ (merged_inRange h (hr.dims q hq).2 hj))
  · intro q' hq'
    obtain ⟨q, hq, h1, h2⟩ := splitProb_mem hQ hq'
    have h3 := marginalSum_split (split_proj h (hr.dims q hq).2) (ds := []) List.nodup_nil (by simp) (hm h1 h2) (j := [])
      (by simp [projSizes, InRange])
    rw [h1]
    simp only [marginalSum, proj, List.map_nil, Finset.filter_true, share, merged, List.zipWith_nil_left, List.prod_nil, one_mul] at h3
    rw [h3]
    exact hr.total q hq
  · intro p' hp' q' hq' a b d ha hb x hx
    obtain ⟨p, hp, h1, h2⟩ := splitProb_mem hQ hp'
    obtain ⟨q, hq, h3, h4⟩ := splitProb_mem hQ hq'
    rw [h1] at ha
    rw [h3] at hb
    have hd : d < s.length := (hr.dims p hp).2 d (List.mem_of_getElem? ha)
    have key : ∀ {q q' : List Nat × (List Int → ℚ)}, q ∈ Q → q'.1 = q.1 → SplitOf π w s' q.1 q.2 q'.2 → ∀ a, q.1[a]? = some d →
        marginalSum (projSizes q'.1 s') [a] q'.2 [(x : Int)] = w d x * marginalSum (projSizes q.1 s) [a] q.2 [(π d x : Int)] := by
      intro q q' hq h1 h2 a ha
      have hal : a < q.1.length := (List.getElem?_eq_some_iff.mp ha).1
      have hg : q.1.getD a 0 = d := by rw [List.getD, ha]; rfl
      have h5 := marginalSum_split (split_proj h (hr.dims q hq).2) (ds := [a]) (by simp) (by simpa [projSizes] using hal) (hm h1 h2)
        (j := [(x : Int)]) (by
          refine .cons ⟨by omega, ?_⟩ .nil
          have e : (projSizes q.1 s').getD a 0 = s'.getD d 0 := by simp [projSizes, List.getD, ha]
          show (x : Int) < ((projSizes q.1 s').getD a 0 : Nat)
          rw [e]
          exact_mod_cast hx)
      rw [h1, h5]
      simp only [share, merged, List.zipWith_cons_cons, List.zipWith_nil_left, List.prod_cons, List.prod_nil, mul_one,
        Int.toNat_natCast, hg]
    rw [key hp h1 h2 a ha, key hq h3 h4 b hb, hr.partials p hp q hq a b d ha hb _ (h.into d hd x hx)]

theorem qmax_split (h : Split s s' π w) {Q Q' : Prob ℚ} (hQ : SplitProb π w s' Q Q') (hn : ∀ q ∈ Q, q.1.Nodup)
    (hd : ∀ q ∈ Q, ∀ d ∈ q.1, d < s.length) {b b' : List Int → ℚ} (hb : ∀ v, InRange s' v → b' v = allShare w v * b (allMerged π v)) :
    qmax s' Q' b' ≤ qmax s Q b := by
  unfold qmax
  obtain ⟨h1, h2⟩ := (foldl_max_le (qdevs s Q b) (-dblMax)).mp le_rfl
  rw [foldl_max_le]
  refine ⟨h1, fun x hx => ?_⟩
  obtain ⟨q', hq', j, hj, rfl⟩ := mem_qdevs.mp hx
  obtain ⟨q, hq, h3, h4⟩ := splitProb_mem hQ hq'
  rw [h3] at hj ⊢
  rw [marginalSum_split h (hn q hq) (hd q hq) hb hj, h4 j hj, ← mul_sub, abs_mul]
  obtain ⟨h5, h6⟩ := share_mem h (hd q hq) hj
  rw [abs_of_nonneg h5]
  refine le_trans (mul_le_of_le_one_left (abs_nonneg _) h6) (h2 _ ?_)
  exact mem_qdevs.mpr ⟨q, hq, _, merged_inRange h (hd q hq) hj, rfl⟩

/-- **C127**: in exact arithmetic, if categories are split, the seed and the marginals being shared out among the parts in fixed
proportions, then so is the table `ipf` returns after the same number of iterations; if `ipf` converges for the one it does for
the other, after no more iterations. -/
theorem C127_split (h : Split s s' π w) {Q Q' : Prob ℚ} (hQ : SplitProb π w s' Q Q') {pop : Int} (hr : RatOK s Q pop)
    (hpop : pop < 2 ^ 62) (hnd : ∀ q ∈ Q, q.1.Nodup ∧ q.1.length < s.length) {b b' : List Int → ℚ}
    (hb : SplitOf π w s' (List.range s.length) b b') :
    ∃ r r' c c', ipfExact s Q b = .ok r ∧ ipfExact s' Q' b' = .ok r' ∧ r.micro.array = finArr s c ∧ r'.micro.array = finArr s' c' ∧
      (r'.iters = r.iters → SplitOf π w s' (List.range s.length) c c') ∧ (r.conv = true → r'.conv = true) ∧ r'.iters ≤ r.iters ∧
      r'.micro.population = r.micro.population := by
  have hr' := C127_accepted h hQ hr
  have hp : ProperProb s Q := fun q hq => properDims_of_nodup (hnd q hq).1 (hnd q hq).2
  have hp' : ProperProb s' Q' := by
    intro q' hq'
    obtain ⟨q, hq, h1, -⟩ := splitProb_mem hQ hq'
    rw [h1]
    exact properDims_of_nodup (hnd q hq).1 (by rw [h.len]; exact (hnd q hq).2)
  have hn : ∀ q ∈ Q, q.1.Nodup := fun q hq => (hnd q hq).1
  have hd : ∀ q ∈ Q, ∀ d ∈ q.1, d < s.length := fun q hq => (hr.dims q hq).2
  have hall : projSizes (List.range s.length) s' = s' := by rw [← h.len, projSizes_self]
  have hb0 : ∀ v, InRange s' v → b' v = allShare w v * b (allMerged π v) := by
    intro v hv
    have hvl : v.length = s.length := by rw [← h.len]; exact hv.length_eq.symm
    rw [hb v (by rw [hall]; exact hv), share_range w hvl, merged_range π hvl]
  have hit : ∀ k v, InRange s' v → (qsweep s' Q')^[k] b' v = allShare w v * (qsweep s Q)^[k] b (allMerged π v) := by
    intro k
    induction k with
    | zero => exact hb0
    | succ k ih =>
      rw [Function.iterate_succ_apply', Function.iterate_succ_apply']
      exact qsweep_split h hQ hn hd ih
  have hmx := fun k => qmax_split h hQ hn hd (hit k)
  obtain ⟨r, hrun⟩ := ipf_run_ok _ _ (minOK_fl _) (ratOK_accepted hr hpop) (properProb_fin hp) (fun v => .fin (b v))
  obtain ⟨r', hrun'⟩ := ipf_run_ok _ _ (minOK_fl _) (ratOK_accepted hr' hpop) (properProb_fin hp') (fun v => .fin (b' v))
  obtain ⟨pop1, n, ok1, g1, g2, g3, g4, g5, g6, g7, g8⟩ := ipf_exact_fin hr.toProbShape hp hrun
  obtain ⟨pop2, n', ok2, g1', g2', g3', g4', g5', g6', g7', g8'⟩ := ipf_exact_fin hr'.toProbShape hp' hrun'
  have hle : n' ≤ n := by
    by_contra hlt
    rcases g3 with h9 | h9
    · exact absurd (g4' n g1 (by omega)) (not_le.mpr (lt_of_le_of_lt (hmx n) h9))
    · omega
  refine ⟨r, r', _, _, hrun, hrun', by rw [g5], by rw [g5'], ?_, ?_, by omega, ?_⟩
  · intro hi v hv
    have : n' = n := by rw [← g6, ← g6', hi]
    subst this
    rw [hall] at hv
    have hvl : v.length = s.length := by rw [← h.len]; exact hv.length_eq.symm
    rw [share_range w hvl, merged_range π hvl]
    exact hit n' v hv
  · intro hc
    rw [g7, decide_eq_true_eq] at hc
    rw [g7', decide_eq_true_eq]
    rcases g3' with h9 | h9
    · exact h9
    · have : n' = n := by omega
      subst this
      exact lt_of_le_of_lt (hmx n') hc
  · have e1 := (new_ok_iff (β := Fl) _ _ (minOK_fl _) ok1.toProbShape).mpr ⟨_, ok1, rfl⟩
    have e2 := (new_ok_iff (β := Fl) _ _ (minOK_fl _) ok1.toProbShape).mpr ⟨_, ratOK_accepted hr hpop, rfl⟩
    have e3 := (new_ok_iff (β := Fl) _ _ (minOK_fl _) ok2.toProbShape).mpr ⟨_, ok2, rfl⟩
    have e4 := (new_ok_iff (β := Fl) _ _ (minOK_fl _) ok2.toProbShape).mpr ⟨_, ratOK_accepted hr' hpop, rfl⟩
    rw [e1] at e2
    rw [e3] at e4
    injection e2 with e2
    injection e4 with e4
    have e5 : pop1 = pop := congrArg Micro.population e2
    have e6 : pop2 = pop := congrArg Micro.population e4
    rw [g5, g5']
    show pop2 = pop1
    rw [e5, e6]

/-- **C127**: adding up the parts of each cell of a table that is shared out gives the table. -/
theorem C127_merged (h : Split s s' π w) {c c' : List Int → ℚ} (hc : SplitOf π w s' (List.range s.length) c c') {v : List Int}
    (hv : InRange s v) : ∑ v' ∈ (cells s').filter (fun v' => merged π (List.range s.length) v' = v), c' v' = c v := by
  have h1 := marginalSum_split h (ds := []) List.nodup_nil (by simp) (b := fun x => if x = v then c v else 0)
    (b' := fun v' => allShare w v' * (if allMerged π v' = v then c v else 0)) (fun _ _ => rfl) (j := []) (by simp [projSizes, InRange])
  simp only [marginalSum, proj, List.map_nil, Finset.filter_true, share, merged, List.zipWith_nil_left, List.prod_nil, one_mul] at h1
  rw [Finset.sum_ite_eq', if_pos (mem_cells.mpr hv)] at h1
  rw [← h1, Finset.sum_filter]
  refine Finset.sum_congr rfl fun v' hv' => ?_
  have hr := mem_cells.mp hv'
  have hvl : v'.length = s.length := by rw [← h.len]; exact hr.length_eq.symm
  have hall : projSizes (List.range s.length) s' = s' := by rw [← h.len, projSizes_self]
  rw [hc v' (by rw [hall]; exact hr), share_range w hvl, merged_range π hvl]
  split
  · rename_i e
    rw [e]
  · simp

/-- the first category of the second attribute in two parts, with a quarter and three quarters of it -/
def partOf (d x : Nat) : Nat := if d = 1 then x - 1 else x

def quarters (d x : Nat) : ℚ := if d = 1 then (if x = 0 then 1 / 4 else if x = 1 then 3 / 4 else 1) else 1

def quartersQ : Prob ℚ := [([0], fun j => j.getD 0 0 + 1), ([1], fun j => quarters 1 (j.getD 0 0).toNat)]

theorem quarters_split : Split [2, 3] [2, 4] partOf quarters where
  len := rfl
  into := by decide
  nonneg := by decide +kernel
  one := by decide +kernel

/-- The hypotheses of `C127_split` hold for it. -/
example : SplitProb partOf quarters [2, 4] exQ quartersQ ∧ RatOK [2, 3] exQ 3 ∧ (∀ q ∈ exQ, q.1.Nodup ∧ q.1.length < 2) ∧
    SplitOf partOf quarters [2, 4] (List.range 2) (fun _ => 1) (fun v => quarters 1 (v.getD 1 0).toNat) := by
  refine ⟨.cons ⟨rfl, ?_⟩ (.cons ⟨rfl, ?_⟩ .nil), exQ_ok, by decide, ?_⟩
  · have : ∀ j ∈ allIdx (projSizes [0] [2, 4]), (fun j : List Int => (j.getD 0 0 : ℚ) + 1) j =
        share quarters [0] j * (fun j : List Int => (j.getD 0 0 : ℚ) + 1) (merged partOf [0] j) := by decide +kernel
    exact fun j hj => this j (mem_allIdx.mpr hj)
  · have : ∀ j ∈ allIdx (projSizes [1] [2, 4]), quarters 1 (j.getD 0 0).toNat = share quarters [1] j * 1 := by decide +kernel
    exact fun j hj => this j (mem_allIdx.mpr hj)
  · have : ∀ j ∈ allIdx (projSizes (List.range 2) [2, 4]), quarters 1 (j.getD 1 0).toNat = share quarters (List.range 2) j * 1 := by
      decide +kernel
    exact fun j hj => this j (mem_allIdx.mpr hj)

end HL

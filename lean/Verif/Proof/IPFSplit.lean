import Verif.SplitSpec
import Verif.Proof.IPFAlgebra
import Verif.Props.IPFStrata

namespace HL

/-! ### Constraints on the entries of an index -/

/-- the entries of `v` are as required -/
def okB : List (Option Int) → List Int → Bool
  | [], [] => true
  | c :: cs, x :: v => (decide (c = none) || decide (c = some x)) && okB cs v
  | _, _ => false

/-- the shares of the required entries -/
def reqShare (w : Nat → Nat → ℚ) : List (Option Int) → ℚ
  | [] => 1
  | none :: cs => reqShare (fun d => w (d + 1)) cs
  | some x :: cs => w 0 x.toNat * reqShare (fun d => w (d + 1)) cs

/-- the requirements for the merged index -/
def reqMerged (π : Nat → Nat → Nat) : List (Option Int) → List (Option Int)
  | [] => []
  | c :: cs => c.map (fun x => (π 0 x.toNat : Int)) :: reqMerged (fun d => π (d + 1)) cs

def allShare (w : Nat → Nat → ℚ) : List Int → ℚ
  | [] => 1
  | x :: v => w 0 x.toNat * allShare (fun d => w (d + 1)) v

def allMerged (π : Nat → Nat → Nat) : List Int → List Int
  | [] => []
  | x :: v => (π 0 x.toNat : Int) :: allMerged (fun d => π (d + 1)) v

theorem split_tail {n n' : Nat} {t t' : List Nat} {π : Nat → Nat → Nat} {w : Nat → Nat → ℚ} (h : Split (n :: t) (n' :: t') π w) :
    Split t t' (fun d => π (d + 1)) (fun d => w (d + 1)) where
  len := by simpa using h.len
  into := fun d hd x hx => by simpa using h.into (d + 1) (by simpa using hd) x (by simpa using hx)
  nonneg := fun d hd x hx => h.nonneg (d + 1) (by simpa using hd) x (by simpa using hx)
  one := fun d hd y hy => by simpa using h.one (d + 1) (by simpa using hd) y (by simpa using hy)

/-- required entries are in range -/
def ReqIn (s : List Nat) (cs : List (Option Int)) : Prop :=
  List.Forall₂ (fun (n : Nat) (c : Option Int) => ∀ x, c = some x → 0 ≤ x ∧ x < (n : Int)) s cs

theorem sum_split : ∀ {s s' : List Nat} {π : Nat → Nat → Nat} {w : Nat → Nat → ℚ}, Split s s' π w →
    ∀ (cs : List (Option Int)), ReqIn s' cs → ∀ (g : List Int → ℚ),
    ∑ v ∈ cells s', (if okB cs v = true then allShare w v * g (allMerged π v) else 0) =
      reqShare w cs * ∑ v ∈ cells s, (if okB (reqMerged π cs) v = true then g v else 0)
  | [], s', π, w, h, cs, hc, g => by
    have : s' = [] := List.length_eq_zero_iff.mp (by simpa using h.len)
    subst this
    cases hc
    simp [cells, allIdx, okB, allShare, allMerged, reqShare, reqMerged]
  | n :: t, [], π, w, h, cs, hc, g => by
    have := h.len
    simp at this
  | n :: t, n' :: t', π, w, h, cs, hc, g => by
    cases hc with
    | @cons _ c _ cs hc1 hcs =>
    rw [sum_cells_cons, sum_cells_cons]
    have ih := fun g => sum_split (split_tail h) cs hcs g
    have hto : ∀ x < n', π 0 x < n := fun x hx => by simpa using h.into 0 (by simp) x (by simpa using hx)
    have hone : ∀ y < n, ∑ x ∈ (Finset.range n').filter (fun x => π 0 x = y), w 0 x = 1 :=
      fun y hy => by simpa using h.one 0 (by simp) y (by simpa using hy)
    have step : ∀ x, ∑ j ∈ cells t', part x (fun v => if okB (c :: cs) v = true then allShare w v * g (allMerged π v) else 0) j =
        if c = none ∨ c = some (x : Int) then w 0 x * (reqShare (fun d => w (d + 1)) cs *
          ∑ v ∈ cells t, (if okB (reqMerged (fun d => π (d + 1)) cs) v = true then g ((π 0 x : Int) :: v) else 0)) else 0 := by
      intro x
      split
      · rename_i hcx
        rw [← ih (fun v => g ((π 0 x : Int) :: v)), Finset.mul_sum]
        refine Finset.sum_congr rfl fun j _ => ?_
        have e : okB (c :: cs) ((x : Int) :: j) = okB cs j := by
          rw [okB]
          rcases hcx with h1 | h1 <;> simp [h1]
        simp only [part, e, allShare, allMerged, Int.toNat_natCast]
        split
        · ring
        · simp
      · rename_i hcx
        refine Finset.sum_eq_zero fun j _ => ?_
        have e : okB (c :: cs) ((x : Int) :: j) = false := by
          rw [okB]
          rw [not_or] at hcx
          simp [hcx.1, hcx.2]
        simp only [part, e]
        simp
    rw [Finset.sum_congr rfl (fun x _ => step x)]
    cases c with
    | none =>
      simp only [true_or, if_true, reqShare]
      have e2 : ∀ y, ∑ j ∈ cells t, part y (fun v => if okB (reqMerged π (none :: cs)) v = true then g v else 0) j =
          ∑ v ∈ cells t, (if okB (reqMerged (fun d => π (d + 1)) cs) v = true then g ((y : Int) :: v) else 0) := by
        intro y
        refine Finset.sum_congr rfl fun j _ => ?_
        simp only [part, reqMerged, Option.map_none, okB]
        simp
      rw [Finset.sum_congr rfl (fun y _ => e2 y), Finset.mul_sum]
      rw [← Finset.sum_fiberwise_of_maps_to (s := Finset.range n') (t := Finset.range n) (g := fun x => π 0 x)
        (fun x hx => Finset.mem_range.mpr (hto x (Finset.mem_range.mp hx)))]
      refine Finset.sum_congr rfl fun y hy => ?_
      rw [Finset.sum_congr rfl (g := fun x => w 0 x * (reqShare (fun d => w (d + 1)) cs *
          ∑ v ∈ cells t, (if okB (reqMerged (fun d => π (d + 1)) cs) v = true then g ((y : Int) :: v) else 0)))]
      · rw [← Finset.sum_mul, hone y (Finset.mem_range.mp hy), one_mul]
      · intro x hx
        rw [(Finset.mem_filter.mp hx).2]
    | some z =>
      obtain ⟨hz0, hzn⟩ := hc1 z rfl
      obtain ⟨x, rfl⟩ : ∃ x : Nat, z = x := ⟨z.toNat, by omega⟩
      have hx : x < n' := by exact_mod_cast hzn
      rw [Finset.sum_eq_single x]
      · rw [if_pos (Or.inr rfl)]
        have e2 : ∀ y, ∑ j ∈ cells t, part y (fun v => if okB (reqMerged π (some (x : Int) :: cs)) v = true then g v else 0) j =
            if y = π 0 x then ∑ v ∈ cells t, (if okB (reqMerged (fun d => π (d + 1)) cs) v = true then g ((y : Int) :: v) else 0)
            else 0 := by
          intro y
          split
          · rename_i hy
            refine Finset.sum_congr rfl fun j _ => ?_
            simp [part, reqMerged, okB, hy]
          · rename_i hy
            refine Finset.sum_eq_zero fun j _ => ?_
            have : ¬ ((π 0 x : Int) = (y : Int)) := fun h => hy (by exact_mod_cast h.symm)
            simp [part, reqMerged, okB, this]
        rw [Finset.sum_congr rfl (fun y _ => e2 y), Finset.sum_ite_eq', if_pos (Finset.mem_range.mpr (hto x hx))]
        simp only [reqShare, Int.toNat_natCast]
        ring
      · intro y _ hy
        rw [if_neg]
        rintro (h1 | h1)
        · cases h1
        · injection h1 with h1
          exact hy (by exact_mod_cast h1.symm)
      · intro hx'
        exact absurd (Finset.mem_range.mpr hx) hx'

/-! ### The requirements that fix the entries at some dimensions -/

/-- the entries at the dimensions `ds` are `j` -/
def reqOf (n : Nat) (ds : List Nat) (j : List Int) : List (Option Int) :=
  (List.range n).map (fun d => if d ∈ ds then some (j.getD (ds.idxOf d) 0) else none)

theorem okB_iff : ∀ {cs : List (Option Int)} {v : List Int}, okB cs v = true ↔
    cs.length = v.length ∧ ∀ (d : Nat) (x : Int), cs[d]? = some (some x) → v[d]? = some x
  | [], [] => by simp [okB]
  | [], x :: v => by simp [okB]
  | c :: cs, [] => by simp [okB]
  | c :: cs, y :: v => by
    unfold okB
    rw [Bool.and_eq_true, okB_iff (cs := cs) (v := v)]
    constructor
    · rintro ⟨h1, h2, h3⟩
      refine ⟨by simp [h2], ?_⟩
      intro d x hd
      cases d with
      | zero =>
        simp only [List.getElem?_cons_zero, Option.some.injEq] at hd ⊢
        subst hd
        simpa [eq_comm] using h1
      | succ d => exact h3 d x (by simpa using hd)
    · rintro ⟨h1, h2⟩
      refine ⟨?_, by simpa using h1, fun d x hd => by simpa using h2 (d + 1) x (by simpa using hd)⟩
      cases c with
      | none => simp
      | some x =>
        have := h2 0 x (by simp)
        simp at this
        simp [this]

theorem reqOf_get {n : Nat} {ds : List Nat} {j : List Int} {d : Nat} (hd : d < n) :
    (reqOf n ds j)[d]? = some (if d ∈ ds then some (j.getD (ds.idxOf d) 0) else none) := by
  unfold reqOf
  rw [List.getElem?_map, List.getElem?_range hd]
  rfl

theorem reqOf_ok {n : Nat} {ds : List Nat} (hn : ds.Nodup) (hd : ∀ d ∈ ds, d < n) {j v : List Int} (hj : j.length = ds.length)
    (hv : v.length = n) : okB (reqOf n ds j) v = true ↔ proj ds v = j := by
  rw [okB_iff]
  constructor
  · rintro ⟨-, h⟩
    apply List.ext_getElem
    · simp [proj, hj]
    · intro e h1 h2
      have he : e < ds.length := by simpa [proj] using h1
      have hde := hd ds[e] (List.getElem_mem he)
      have h3 := h ds[e] (j.getD e 0) (by
        rw [reqOf_get hde, if_pos (List.getElem_mem he), hn.idxOf_getElem])
      simp only [proj, List.getElem_map]
      rw [List.getD, h3]
      simp [List.getD, h2]
  · rintro rfl
    refine ⟨by simp [reqOf, hv], ?_⟩
    intro d x h
    have hdn : d < n := by
      have := (List.getElem?_eq_some_iff.mp h).1
      simpa [reqOf] using this
    rw [reqOf_get hdn] at h
    split at h
    · rename_i hmem
      simp only [Option.some.injEq] at h
      rw [List.getElem?_eq_getElem (by omega)]
      subst h
      have h1 := List.idxOf_lt_length_iff.mpr hmem
      simp [proj, List.getD, h1, hv, hdn]
    · simp at h

theorem reqOf_in {s ds : List Nat} {j : List Int} (hj : InRange (projSizes ds s) j) : ReqIn s (reqOf s.length ds j) := by
  unfold ReqIn
  rw [List.forall₂_iff_get]
  refine ⟨by simp [reqOf], ?_⟩
  intro d h1 h2 x hx
  simp only [reqOf, List.get_eq_getElem, List.getElem_map, List.getElem_range] at hx
  split at hx
  · rename_i hmem
    injection hx with hx
    have h3 := List.idxOf_lt_length_iff.mpr hmem
    have h4 := inRange_getD hj (d := ds.idxOf d) (by simpa [projSizes] using h3)
    rw [hx] at h4
    have h5 : (projSizes ds s).getD (ds.idxOf d) 0 = s[d] := by
      have h1 : d < s.length := h1
      simp [projSizes, List.getD, h3, List.getElem?_eq_getElem h1]
    rw [h5] at h4
    exact h4
  · cases hx

theorem reqMerged_get : ∀ (π : Nat → Nat → Nat) (cs : List (Option Int)) (d : Nat),
    (reqMerged π cs)[d]? = cs[d]?.map (fun c => c.map (fun x => (π d x.toNat : Int)))
  | π, [], d => by simp [reqMerged]
  | π, c :: cs, 0 => by simp [reqMerged]
  | π, c :: cs, d + 1 => by simpa [reqMerged] using reqMerged_get (fun d => π (d + 1)) cs d

theorem reqMerged_reqOf (π : Nat → Nat → Nat) (n : Nat) {ds : List Nat} {j : List Int} (hj : j.length = ds.length) :
    reqMerged π (reqOf n ds j) = reqOf n ds (merged π ds j) := by
  apply List.ext_getElem?
  intro d
  rw [reqMerged_get]
  by_cases hd : d < n
  · rw [reqOf_get hd, reqOf_get hd, Option.map_some]
    split
    · rename_i hmem
      have h1 := List.idxOf_lt_length_iff.mpr hmem
      have h2 : ds.idxOf d < j.length := by omega
      simp [merged, List.getD, h1, h2]
    · rfl
  · rw [List.getElem?_eq_none (by simp [reqOf]; omega), List.getElem?_eq_none (by simp [reqOf]; omega)]
    rfl

theorem reqShare_prod : ∀ (w : Nat → Nat → ℚ) (cs : List (Option Int)),
    reqShare w cs = ∏ d ∈ Finset.range cs.length, (match cs[d]? with | some (some x) => w d x.toNat | _ => 1)
  | w, [] => by simp [reqShare]
  | w, none :: cs => by
    rw [reqShare, reqShare_prod, List.length_cons, Finset.prod_range_succ']
    simp
  | w, some x :: cs => by
    rw [reqShare, reqShare_prod, List.length_cons, Finset.prod_range_succ']
    simp [mul_comm]

theorem reqShare_reqOf (w : Nat → Nat → ℚ) {n : Nat} {ds : List Nat} (hn : ds.Nodup) (hd : ∀ d ∈ ds, d < n) {j : List Int}
    (hj : j.length = ds.length) : reqShare w (reqOf n ds j) = share w ds j := by
  rw [reqShare_prod, show (reqOf n ds j).length = n by simp [reqOf]]
  rw [Finset.prod_congr rfl (g := fun d => if d ∈ ds.toFinset then w d (j.getD (ds.idxOf d) 0).toNat else 1)]
  · rw [Finset.prod_ite, Finset.prod_const_one, mul_one]
    have : (Finset.range n).filter (fun d => d ∈ ds.toFinset) = ds.toFinset := by
      ext d
      simp only [Finset.mem_filter, Finset.mem_range, List.mem_toFinset]
      exact ⟨fun h => h.2, fun h => ⟨hd d h, h⟩⟩
    rw [this, List.prod_toFinset _ hn]
    unfold share
    congr 1
    apply List.ext_getElem
    · simp [hj]
    · intro e h1 h2
      have he : e < ds.length := by simpa using h1
      rw [List.getElem_map, List.getElem_zipWith, hn.idxOf_getElem]
      simp [List.getD, hj, he]
  · intro d hdn
    rw [reqOf_get (Finset.mem_range.mp hdn)]
    by_cases h : d ∈ ds <;> simp [h]

theorem allShare_eq : ∀ (w : Nat → Nat → ℚ) (v : List Int) (k : Nat),
    share w (List.range' k v.length) v = allShare (fun d => w (d + k)) v
  | w, [], k => by simp [share, allShare]
  | w, x :: v, k => by
    have ih := allShare_eq w v (k + 1)
    unfold share at ih ⊢
    rw [List.length_cons, List.range'_succ, List.zipWith_cons_cons, List.prod_cons, ih, allShare]
    simp [Nat.add_assoc, Nat.add_comm 1 k]

theorem allMerged_eq : ∀ (π : Nat → Nat → Nat) (v : List Int) (k : Nat),
    merged π (List.range' k v.length) v = allMerged (fun d => π (d + k)) v
  | π, [], k => by simp [merged, allMerged]
  | π, x :: v, k => by
    have ih := allMerged_eq π v (k + 1)
    unfold merged at ih ⊢
    rw [List.length_cons, List.range'_succ, List.zipWith_cons_cons, ih, allMerged]
    simp [Nat.add_assoc, Nat.add_comm 1 k]

theorem share_range (w : Nat → Nat → ℚ) {n : Nat} {v : List Int} (h : v.length = n) : share w (List.range n) v = allShare w v := by
  rw [List.range_eq_range', ← h, allShare_eq]
  rfl

theorem merged_range (π : Nat → Nat → Nat) {n : Nat} {v : List Int} (h : v.length = n) : merged π (List.range n) v = allMerged π v := by
  rw [List.range_eq_range', ← h, allMerged_eq]
  rfl

theorem allMerged_length : ∀ (π : Nat → Nat → Nat) (v : List Int), (allMerged π v).length = v.length
  | _, [] => rfl
  | π, x :: v => by simp [allMerged, allMerged_length]

theorem allMerged_get : ∀ (π : Nat → Nat → Nat) (v : List Int) (d : Nat), (allMerged π v)[d]? = v[d]?.map (fun x => (π d x.toNat : Int))
  | π, [], d => by simp [allMerged]
  | π, c :: cs, 0 => by simp [allMerged]
  | π, c :: cs, d + 1 => by simpa [allMerged] using allMerged_get (fun d => π (d + 1)) cs d

/-- the sums of a table that is shared out are shared out -/
theorem marginalSum_split {s s' : List Nat} {π : Nat → Nat → Nat} {w : Nat → Nat → ℚ} (h : Split s s' π w) {ds : List Nat}
    (hn : ds.Nodup) (hd : ∀ d ∈ ds, d < s.length) {b b' : List Int → ℚ}
    (hb : ∀ v, InRange s' v → b' v = allShare w v * b (allMerged π v)) {j : List Int} (hj : InRange (projSizes ds s') j) :
    marginalSum s' ds b' j = share w ds j * marginalSum s ds b (merged π ds j) := by
  have hjl : j.length = ds.length := by
    have := hj.length_eq
    simpa [projSizes] using this.symm
  have hml : (merged π ds j).length = ds.length := by simp [merged, hjl]
  have h1 := sum_split h (reqOf s'.length ds j) (reqOf_in hj) b
  rw [reqShare_reqOf w hn (by rw [h.len]; exact hd) hjl, reqMerged_reqOf π _ hjl] at h1
  unfold marginalSum
  rw [Finset.sum_filter, Finset.sum_filter]
  refine Eq.trans (Finset.sum_congr rfl fun v hv => ?_) (h1.trans ?_)
  · have hvr := mem_cells.mp hv
    rw [hb v hvr]
    exact if_congr (reqOf_ok hn (by rw [h.len]; exact hd) hjl hvr.length_eq.symm).symm rfl rfl
  · congr 1
    refine Finset.sum_congr rfl fun v hv => ?_
    rw [h.len]
    exact if_congr (reqOf_ok hn hd hml (mem_cells.mp hv).length_eq.symm) rfl rfl

theorem merged_inRange {s s' : List Nat} {π : Nat → Nat → Nat} {w : Nat → Nat → ℚ} (h : Split s s' π w) {ds : List Nat}
    (hd : ∀ d ∈ ds, d < s.length) {j : List Int} (hj : InRange (projSizes ds s') j) : InRange (projSizes ds s) (merged π ds j) := by
  unfold InRange at hj ⊢
  rw [List.forall₂_iff_get] at hj ⊢
  obtain ⟨hl, hj⟩ := hj
  refine ⟨by simp [projSizes, merged] at hl ⊢; omega, ?_⟩
  intro e h1 h2
  have he : e < ds.length := by simpa [projSizes] using h1
  have h3 := hj e (by simpa [projSizes] using he) (by simp [projSizes] at hl; omega)
  simp only [projSizes, merged, List.get_eq_getElem, List.getElem_map, List.getElem_zipWith] at h3 ⊢
  refine ⟨by omega, ?_⟩
  exact_mod_cast h.into ds[e] (hd _ (List.getElem_mem he)) _ (by omega)

/-- each share is between 0 and 1 -/
theorem split_le_one {s s' : List Nat} {π : Nat → Nat → Nat} {w : Nat → Nat → ℚ} (h : Split s s' π w) {d x : Nat} (hd : d < s.length)
    (hx : x < s'.getD d 0) : w d x ≤ 1 := by
  rw [← h.one d hd (π d x) (h.into d hd x hx)]
  refine Finset.single_le_sum (f := fun x => w d x) (fun y hy => ?_) ?_
  · exact h.nonneg d hd y (Finset.mem_range.mp (Finset.mem_filter.mp hy).1)
  · exact Finset.mem_filter.mpr ⟨Finset.mem_range.mpr hx, rfl⟩

theorem share_mem {s s' : List Nat} {π : Nat → Nat → Nat} {w : Nat → Nat → ℚ} (h : Split s s' π w) : ∀ {ds : List Nat},
    (∀ d ∈ ds, d < s.length) → ∀ {j : List Int}, InRange (projSizes ds s') j → 0 ≤ share w ds j ∧ share w ds j ≤ 1
  | [], _, j, _ => by simp [share]
  | d :: ds, hd, j, hj => by
    unfold projSizes at hj
    rw [List.map_cons] at hj
    cases hj with
    | @cons _ x _ j hx hj =>
    obtain ⟨h1, h2⟩ := share_mem h (fun e he => hd e (by simp [he])) (ds := ds) (j := j) hj
    have hx' : x.toNat < s'.getD d 0 := by omega
    have h3 := h.nonneg d (hd d (by simp)) _ hx'
    have h4 := split_le_one h (hd d (by simp)) hx'
    have e : share w (d :: ds) (x :: j) = w d x.toNat * share w ds j := by simp [share]
    rw [e]
    exact ⟨mul_nonneg h3 h1, mul_le_one₀ h4 h1 h2⟩

end HL

import Verif.Proof.QISDraw
import Verif.Proof.QISScript

/-
The draws of `qis`, from what is drawn to the run: if every coordinate of an individual is where the running total passes the level,
the code draws that individual.
-/

namespace HL
open QIS
variable {fp : FP}

/-! ### `pick` -/

theorem pickLoop_of {α : Type} (N : Num α) (r : Fl) : ∀ (l : List α) (run : α) (k i : Nat) (x : α), l[i]? = some x →
    FP.lt r (N.toFl (N.add ((l.take i).foldl N.add run) x)) = true →
    (∀ j < i, ∃ y, l[j]? = some y ∧ FP.lt r (N.toFl (N.add ((l.take j).foldl N.add run) y)) = false) →
    pickLoop N r run k l = .ok (k + i)
  | [], _, _, _, _, h, _, _ => by simp at h
  | y :: l, run, k, 0, x, h, h1, _ => by
    simp only [List.getElem?_cons_zero, Option.some.injEq] at h
    subst h
    unfold pickLoop
    rw [if_pos (by simpa using h1)]; rfl
  | y :: l, run, k, i + 1, x, h, h1, h2 => by
    obtain ⟨z, hz, hz'⟩ := h2 0 (by omega)
    simp only [List.getElem?_cons_zero, Option.some.injEq] at hz
    subst hz
    unfold pickLoop
    rw [if_neg (by simpa using hz')]
    rw [pickLoop_of N r l (N.add run y) (k + 1) i x (by simpa using h) (by simpa using h1) (by
      intro j hj
      obtain ⟨w, hw, hw'⟩ := h2 (j + 1) (by omega)
      exact ⟨w, by simpa using hw, by simpa using hw'⟩)]
    congr 1; omega

/-- `pick` returns `i` exactly when the running totals pass the level, which is the fraction of the total rounded once, at `i`. -/
theorem pick_int_iff (hfp : fp.Good) {dist : List Int} (hb : (dist.map (fun x => |x|)).sum ≤ 2 ^ 53) {u : U32} {i : Nat} :
    pick fp (numInt fp) dist (variate fp u) = .ok i ↔
    ∃ r : ℚ, fp.rnd ((u.toNat : ℚ) / 2 ^ 32 * ((dist.sum : Int) : ℚ)) = .fin r ∧ i < dist.length ∧
      (∀ m < i, (((dist.take (m + 1)).sum : Int) : ℚ) ≤ r) ∧ r < (((dist.take (i + 1)).sum : Int) : ℚ) := by
  unfold pick
  have ht := total_abs hfp dist 0 (by simpa using hb)
  simp only [Int.cast_zero, zero_add] at ht
  rw [ht, variate_eq hfp]
  have hu := u.isLt
  have hsb : |dist.sum| ≤ 2 ^ 53 := (abs_sum_le dist).trans hb
  have hlev : ∃ r : ℚ, fp.rnd ((u.toNat : ℚ) / 2 ^ 32 * ((dist.sum : Int) : ℚ)) = .fin r := by
    apply hfp.finite
    rw [abs_mul, abs_of_nonneg (by positivity : (0 : ℚ) ≤ (u.toNat : ℚ) / 2 ^ 32)]
    have h1 : (u.toNat : ℚ) / 2 ^ 32 ≤ 1 := by
      rw [div_le_one (by norm_num)]
      exact_mod_cast hu.le
    have h2 : |((dist.sum : Int) : ℚ)| ≤ 2 ^ 53 := by
      rw [← Int.cast_abs]; exact_mod_cast hsb
    calc _ ≤ 1 * |((dist.sum : Int) : ℚ)| := by gcongr
      _ ≤ 2 ^ 53 := by rw [one_mul]; exact h2
      _ ≤ _ := pow_le_pow_right₀ (by norm_num) (by norm_num)
  obtain ⟨r, hr⟩ := hlev
  have hm : fp.mul (.fin ((u.toNat : ℚ) / 2 ^ 32)) (.fin ((dist.sum : Int) : ℚ)) = .fin r := hr
  rw [hm]
  have hpre : ∀ k, |(dist.take k).sum| ≤ 2 ^ 53 := by
    intro k
    refine (abs_sum_le _).trans (le_trans ?_ hb)
    have h4 := List.sum_take_add_sum_drop (dist.map (fun x => |x|)) k
    have h5 := sum_abs_nonneg (dist.drop k)
    rw [List.map_drop] at h5
    rw [List.map_take]
    omega
  have key : ∀ k y, dist[k]? = some y → (numInt fp).toFl ((numInt fp).add ((dist.take k).foldl (numInt fp).add (numInt fp).zero) y) =
      .fin (((dist.take (k + 1)).sum : Int) : ℚ) := by
    intro k y hk
    show (numInt fp).toFl ((numInt fp).add ((dist.take k).foldl (numInt fp).add 0) y) = _
    rw [foldl_numInt, zero_add]
    have : (dist.take k).sum + y = (dist.take (k + 1)).sum := by
      rw [List.take_add_one, hk]; simp
    show fp.ofInt ((dist.take k).sum + y) = _
    rw [this]
    exact ofInt_exact hfp (hpre (k + 1))
  constructor
  · intro hp
    rw [show i = 0 + i by omega] at hp
    obtain ⟨x, h1, h2, h3⟩ := pickLoop_spec (numInt fp) _ dist _ 0 i hp
    have hi : i < dist.length := by
      by_contra hc
      rw [List.getElem?_eq_none (by omega)] at h1
      cases h1
    refine ⟨r, hr, hi, ?_, ?_⟩
    · intro m hmi
      obtain ⟨y, hy, hc⟩ := h3 m (by omega)
      rw [key m y hy] at hc
      simpa only [FP.lt, decide_eq_false_iff_not, not_lt] using hc
    · rw [key i x h1] at h2
      simpa only [FP.lt, decide_eq_true_eq] using h2
  · rintro ⟨r', hr', hi, h1, h2⟩
    rw [hr] at hr'
    injection hr' with hr'
    subst hr'
    have := pickLoop_of (numInt fp) (.fin r) dist (numInt fp).zero 0 i dist[i] (List.getElem?_eq_getElem hi) (by
      rw [key i _ (List.getElem?_eq_getElem hi)]
      simpa only [FP.lt, decide_eq_true_eq] using h2) (by
      intro j hj
      have hj' : j < dist.length := by omega
      refine ⟨dist[j], List.getElem?_eq_getElem hj', ?_⟩
      rw [key j _ (List.getElem?_eq_getElem hj')]
      simpa only [FP.lt, decide_eq_false_iff_not, not_lt] using h1 j hj)
    rw [this, zero_add]

/-! ### one marginal -/

theorem exists_snocI {t : List Int} {k : Nat} (h : t.length = k + 1) : ∃ t' n, t = t' ++ [n] ∧ t'.length = k := by
  have hne : t ≠ [] := by rintro rfl; simp at h
  refine ⟨t.dropLast, t.getLast hne, (List.dropLast_append_getLast hne).symm, ?_⟩
  simp [h]

theorem inRange_unsnoc {t : List Nat} {n : Nat} {v : List Int} {i : Int} (hl : v.length = t.length) (h : InRange (t ++ [n]) (v ++ [i])) :
    InRange t v ∧ 0 ≤ i ∧ i < n := by
  rw [inRange_iff_getD] at h ⊢
  obtain ⟨-, h⟩ := h
  refine ⟨⟨hl, fun d hd => ?_⟩, ?_⟩
  · have := h d (by simp; omega)
    rwa [getD_snoc_lt (by omega), show (t ++ [n]).getD d 0 = t.getD d 0 by simp [List.getD_eq_getElem?_getD, List.getElem?_append_left hd]] at this
  · have := h t.length (by simp)
    rwa [getD_snoc_eq hl.symm, show (t ++ [n]).getD t.length 0 = n by simp [List.getD_eq_getElem?_getD]] at this

theorem rec_of {pos : List Nat} {sm : List (Nat × Nat)} : ∀ (L : List (Nat × U32)) (t : List Nat)
    (h : List Int → Int) (idx : List Int), L ≠ [] → t.length = L.length → GoodShape t → MapOK sm L →
    PosOK pos idx.length L → ∀ j, InRange t j → (∀ k < t.length, ∃ i : Nat, j.getD k 0 = i ∧
        pick fp (numInt fp) (tailSums t h j k) (variate fp (L.reverse.getD k (0, 0)).2) = .ok i) →
    recursiveSample fp pos sm L (arr t h) idx = .ok (writeAt (posOf pos L) j.reverse idx)
  | [], _, _, _, hne, _, _, _, _, _, _, _ => absurd rfl hne
  | [(d, u)], t, h, idx, _, hl, hg, _, hpos, j, hj, hpk => by
    obtain ⟨t', n, rfl, hl'⟩ := exists_snoc (k := 0) (by simpa using hl)
    have : t' = [] := List.eq_nil_of_length_eq_zero hl'
    subst this
    obtain ⟨p, hp, hpl⟩ := hpos (d, u) (by simp)
    obtain ⟨-, h2⟩ := rec_one (fp := fp) (sm := sm) (u := u) (n := n) (h := h) hp hpl
    obtain ⟨i, hi1, hi2⟩ := hpk 0 (by simp)
    have e := tailSums_last [] n h j
    rw [List.length_nil] at e
    rw [e] at hi2
    rw [List.nil_append, h2 i (by simpa using hi2)]
    have hjl := inRange_length hj
    obtain ⟨a, rfl⟩ := List.length_eq_one_iff.mp (by simpa using hjl)
    simp only [List.getD_cons_zero] at hi1
    subst hi1
    simp [posOf, writeAt, List.getD_eq_getElem?_getD, hp]
  | (d, u) :: e :: rest, t, h, idx, _, hl, hg, hm, hpos, j, hj, hpk => by
    obtain ⟨t', n, rfl, hl'⟩ := exists_snoc (k := (e :: rest).length) (by simpa using hl)
    obtain ⟨p, hp, hpl⟩ := hpos (d, u) (by simp)
    obtain ⟨-, h2⟩ := rec_step (fp := fp) (h := h) hg hl' hm hp hpl
    have hjl := inRange_length hj
    obtain ⟨j', y, rfl, hjl'⟩ := exists_snocI (k := t'.length) (t := j) (by simpa using hjl)
    obtain ⟨hj', hy0, hyn⟩ := inRange_unsnoc hjl' hj
    obtain ⟨i, hi1, hi2⟩ := hpk t'.length (by simp)
    rw [getD_snoc_eq hjl'.symm] at hi1
    subst hi1
    have hi' : i < n := by exact_mod_cast hyn
    rw [tailSums_last] at hi2
    rw [h2 i (by
      rw [← hi2, List.reverse_cons (a := (d, u))]
      congr 2
      simp only [List.getD_eq_getElem?_getD]
      rw [List.getElem?_append_right (by rw [List.length_reverse]; omega), List.length_reverse, hl']
      simp) hi']
    have ht : t' ≠ [] := by rintro rfl; simp at hl'
    rw [rec_of (e :: rest) t' (fun v => h (v ++ [(i : Int)])) (idx.set p i) (by simp) hl' (goodShape_init hg ht) hm.2 (by
        intro e' he'
        obtain ⟨p', hp', hl''⟩ := hpos e' (by simp [he'])
        exact ⟨p', hp', by simpa using hl''⟩) j' hj' (by
        intro k hk
        obtain ⟨x, hx1, hx2⟩ := hpk k (by simp; omega)
        rw [getD_snoc_lt (by omega)] at hx1
        refine ⟨x, hx1, ?_⟩
        rw [tailSums_init hi' h hjl' hk] at hx2
        rw [← hx2, List.reverse_cons (a := (d, u))]
        congr 3
        simp only [List.getD_eq_getElem?_getD]
        rw [List.getElem?_append_left (by rw [List.length_reverse]; omega)])]
    simp [posOf, writeAt, List.getD_eq_getElem?_getD, hp]

/-- The weights the code draws a free position from. -/
theorem tailSums_free {s ds F : List Nat} {idx : List Int} (hp : PartialIdx s idx) (hd : ∀ d ∈ ds, d < s.length)
    {g : List Int → Int} (hF : ∀ d ∈ ds, d ∈ F ↔ 0 ≤ idx.getD d 0) {v j : List Int}
    (hkeep : ∀ d, 0 ≤ idx.getD d 0 → v.getD d 0 = idx.getD d 0)
    (hval : ∀ k < (freeIn ds idx (List.range ds.length)).length,
      v.getD (ds.getD ((freeIn ds idx (List.range ds.length)).getD k 0) 0) 0 = j.getD k 0)
    {k a : Nat} (hk : k < (freeIn ds idx (List.range ds.length)).length) (hka' : (freeIn ds idx (List.range ds.length)).getD k 0 = a) :
    tailSums (projSizes (freeIn ds idx (List.range ds.length)) (projSizes ds s)) (freeFn ds idx g) j k = condSums s ds F g v a := by
  have hlen : (projSizes ds s).length = ds.length := by simp [projSizes]
  have hfixed : ∀ a < ds.length, (a ∈ freeIn ds idx (List.range ds.length) ↔ ds.getD a 0 ∉ F) := by
    intro a ha
    rw [hF _ (getD_mem ha)]
    simp only [freeIn, List.mem_filter, List.mem_range, isSet, Bool.not_eq_true', decide_eq_false_iff_not]
    constructor
    · rintro ⟨-, h⟩; omega
    · intro h; exact ⟨ha, by omega⟩
  have hok := fixedOK_in hp hd
  have hfd := freeDims_fixedIn ds idx ds.length
  set free := freeIn ds idx (List.range ds.length) with hfree
  have hflt : ∀ d ∈ free, d < ds.length := by
    intro d hd'
    have := (List.mem_filter.mp hd').1
    simpa using this
  have hka : free[k] = a := by rw [← hka']; simp [List.getD_eq_getElem?_getD, hk]
  have ha : a < ds.length := by rw [← hka]; exact hflt _ (List.getElem_mem _)
  have haF : ds.getD a 0 ∉ F := (hfixed a ha).mp (by rw [← hka]; exact List.getElem_mem _)
  symm
  unfold condSums tailSums
  have hsz : (projSizes free (projSizes ds s)).getD k 0 = s.getD (ds.getD a 0) 0 := by
    rw [projSizes_getD (List.getElem?_eq_getElem hk), hka, projSizes_getD (List.getElem?_eq_getElem ha)]
    simp [List.getD_eq_getElem?_getD, ha]
  rw [hsz]
  apply List.map_congr_left
  intro x _
  have hpr : ∀ w : List Int, w.length = ds.length → ∀ k < free.length, (proj free w).getD k 0 = w.getD (free.getD k 0) 0 := by
    intro w _ k hk
    simp [proj, List.getD_eq_getElem?_getD, hk]
  have hfv : ∀ p ∈ fixedIn ds idx (List.range ds.length), p.1 < ds.length ∧ ds.getD p.1 0 ∈ F ∧ p.2 = v.getD (ds.getD p.1 0) 0 := by
    intro p hpm
    simp only [fixedIn, List.mem_map, List.mem_filter, List.mem_range] at hpm
    obtain ⟨c, ⟨hc, hset⟩, rfl⟩ := hpm
    have h0 : idx.getD (ds.getD c 0) 0 > -1 := by simpa [isSet] using hset
    have h0' : 0 ≤ idx.getD (ds.getD c 0) 0 := by omega
    exact ⟨hc, (hF _ (getD_mem hc)).mpr h0', (hkeep _ h0').symm⟩
  symm
  refine Finset.sum_nbij' (fun w => sliceIdx ds.length (fixedIn ds idx (List.range ds.length)) w) (fun w => proj free w) ?_ ?_ ?_ ?_ ?_
  · intro w hw
    unfold tailCells at hw
    rw [Finset.mem_filter] at hw
    obtain ⟨hw1, hw2, hw3⟩ := hw
    have hwl : w.length = free.length := by
      have := inRange_length (mem_cells.mp hw1)
      simpa [projSizes] using this
    have hin : InRange (projSizes ds s) (sliceIdx ds.length (fixedIn ds idx (List.range ds.length)) w) := by
      have := inRange_sliceIdx hok (v := w) (by rw [hlen, hfd]; exact mem_cells.mp hw1)
      rwa [hlen] at this
    have hps : proj free (sliceIdx ds.length (fixedIn ds idx (List.range ds.length)) w) = w := by
      have := proj_sliceIdx (s := projSizes ds s) (fx := fixedIn ds idx (List.range ds.length)) (v := w)
        (by rw [hlen, hfd]; exact hwl)
      rwa [hlen, hfd] at this
    set z := sliceIdx ds.length (fixedIn ds idx (List.range ds.length)) w with hz
    have hzl : z.length = ds.length := by rw [inRange_length hin, hlen]
    have hat : ∀ k < free.length, z.getD (free.getD k 0) 0 = w.getD k 0 := by
      intro k hk
      rw [← hpr z hzl k hk, hps]
    unfold condCells
    rw [Finset.mem_filter]
    refine ⟨mem_cells.mpr hin, ?_, ?_⟩
    · rw [← hka', hat k hk]; exact hw2
    · intro c hc hca hor
      by_cases hcF : ds.getD c 0 ∈ F
      · have hmem : (c, idx.getD (ds.getD c 0) 0) ∈ fixedIn ds idx (List.range ds.length) := by
          simp only [fixedIn, List.mem_map, List.mem_filter, List.mem_range, isSet, decide_eq_true_eq]
          refine ⟨c, ⟨hc, ?_⟩, rfl⟩
          have := (hF _ (getD_mem hc)).mp hcF
          omega
        have h1 := sliceIdx_fixed hok w _ hmem
        rw [hlen] at h1
        simp only at h1
        rw [hz, h1, hkeep _ ((hF _ (getD_mem hc)).mp hcF)]
      · have hac : a < c := hor.resolve_right hcF
        obtain ⟨m, hm, hmc⟩ := List.getElem_of_mem ((hfixed c hc).mpr hcF)
        have hmc' : free.getD m 0 = c := by simp [List.getD_eq_getElem?_getD, hm, hmc]
        have hkm : k < m := by
          apply (free_lt (ds := ds) (idx := idx) hk hm).mp
          rw [← hfree, hka', hmc']; exact hac
        rw [← hmc', hat m hm, hval m hm]
        exact hw3 m (by simpa [projSizes] using hm) hkm
  · intro w hw
    unfold condCells at hw
    rw [Finset.mem_filter] at hw
    obtain ⟨hw1, hw2, hw3⟩ := hw
    have hwr := mem_cells.mp hw1
    have hwl : w.length = ds.length := by rw [inRange_length hwr, hlen]
    unfold tailCells
    rw [Finset.mem_filter]
    refine ⟨mem_cells.mpr (inRange_proj (fun d hd' => by rw [hlen]; exact hflt d hd') hwr), ?_, ?_⟩
    · rw [hpr w hwl k hk, hka']; exact hw2
    · intro m hm hkm
      have hm' : m < free.length := by simpa [projSizes] using hm
      have hlt := (free_lt (ds := ds) (idx := idx) hk hm').mpr hkm
      rw [← hfree, hka'] at hlt
      rw [hpr w hwl m hm', ← hval m hm']
      exact hw3 _ (hflt _ (getD_mem hm')) (by omega) (Or.inl hlt)
  · intro w hw
    unfold tailCells at hw
    rw [Finset.mem_filter] at hw
    have hwl : w.length = free.length := by
      have := inRange_length (mem_cells.mp hw.1)
      simpa [projSizes] using this
    have := proj_sliceIdx (s := projSizes ds s) (fx := fixedIn ds idx (List.range ds.length)) (v := w)
      (by rw [hlen, hfd]; exact hwl)
    rwa [hlen, hfd] at this
  · intro w hw
    unfold condCells at hw
    rw [Finset.mem_filter] at hw
    obtain ⟨hw1, hw2, hw3⟩ := hw
    have hwl : w.length = ds.length := by rw [inRange_length (mem_cells.mp hw1), hlen]
    have := sliceIdx_proj hok (w := w) (by rw [hwl, hlen]) (by
      intro p hpm
      obtain ⟨h1, h2, h3⟩ := hfv p hpm
      rw [h3]
      apply hw3 _ h1 _ (Or.inr h2)
      intro hpa
      rw [hpa] at h2
      exact haF h2)
    rwa [hlen, hfd] at this
  · intro w _
    rfl

/-- A marginal whose free positions are all drawn as in `v`. -/
theorem sample_of {s ds F : List Nat} {idx : List Int} {seq : List U32} (hg : GoodShape s)
    (hp : PartialIdx s idx) (hs : seq.length = s.length) (hd : ∀ d ∈ ds, d < s.length) (hne : ds ≠ [])
    (hnd : ds.Nodup) {g : List Int → Int} (b : Bool) (hF : ∀ d ∈ ds, d ∈ F ↔ 0 ≤ idx.getD d 0) {v : List Int} (hv : InRange s v)
    (hkeep : ∀ d, 0 ≤ idx.getD d 0 → v.getD d 0 = idx.getD d 0)
    (hpk : ∀ a < ds.length, ds.getD a 0 ∉ F → ∃ i : Nat, v.getD (ds.getD a 0) 0 = i ∧
      pick fp (numInt fp) (condSums s ds F g v a) (variate fp (seq.getD (ds.getD a 0) 0)) = .ok i) :
    ∃ idx', sample fp (ds.map (fun d : Nat => (d : Int))) seq (arr (projSizes ds s) g) ⟨ds, projSizes ds s, b⟩ idx = .ok idx' ∧
      Sampled s ds idx idx' ∧ ∀ d, 0 ≤ idx'.getD d 0 → v.getD d 0 = idx'.getD d 0 := by
  have he := sample_eq (fp := fp) hg hp hs hd hne g b
  simp only [] at he
  rw [he]
  have hlen : (projSizes ds s).length = ds.length := by simp [projSizes]
  have hfixed : ∀ a < ds.length, (a ∈ freeIn ds idx (List.range ds.length) ↔ ds.getD a 0 ∉ F) := by
    intro a ha
    rw [hF _ (getD_mem ha)]
    simp only [freeIn, List.mem_filter, List.mem_range, isSet, Bool.not_eq_true', decide_eq_false_iff_not]
    constructor
    · rintro ⟨-, h⟩; omega
    · intro h; exact ⟨ha, by omega⟩
  by_cases h : freeIn ds idx (List.range ds.length) = []
  · rw [if_pos h]
    exact ⟨idx, rfl, sampled_self hp h, hkeep⟩
  · rw [if_neg h]
    obtain ⟨f1, f2, f3, f4, f5, f6⟩ := free_facts (seq := seq) hg hp hd h
    have hflt : ∀ d ∈ freeIn ds idx (List.range ds.length), d < ds.length := by
      intro d hd'
      have := (List.mem_filter.mp hd').1
      simpa using this
    set j := (freePos ds idx).map (fun p => v.getD p 0) with hj
    have hval : ∀ k < (freeIn ds idx (List.range ds.length)).length,
        v.getD (ds.getD ((freeIn ds idx (List.range ds.length)).getD k 0) 0) 0 = j.getD k 0 := by
      intro k hk
      rw [hj]
      unfold freePos
      simp [List.getD_eq_getElem?_getD, hk]
    have hjr : InRange (projSizes (freeIn ds idx (List.range ds.length)) (projSizes ds s)) j := by
      have h1 : InRange (projSizes ds s) (proj ds v) := inRange_proj hd hv
      have h2 := inRange_proj (dims := freeIn ds idx (List.range ds.length)) (fun d hd' => by rw [hlen]; exact hflt d hd') h1
      have h3 : proj (freeIn ds idx (List.range ds.length)) (proj ds v) = j := by
        rw [hj]
        unfold proj freePos
        rw [List.map_map]
        apply List.map_congr_left
        intro a ha
        have := hflt a ha
        simp [List.getD_eq_getElem?_getD, this]
      rwa [h3] at h2
    have hrec := rec_of (fp := fp) _ _ (freeFn ds idx g) idx f1 f2 f3 f4 f5 j hjr (by
      intro k hk
      have hk' : k < (freeIn ds idx (List.range ds.length)).length := by simpa [projSizes] using hk
      have hmem : (freeIn ds idx (List.range ds.length)).getD k 0 ∈ freeIn ds idx (List.range ds.length) := getD_mem hk'
      have hal := hflt _ hmem
      obtain ⟨i, hi1, hi2⟩ := hpk _ hal ((hfixed _ hal).mp hmem)
      refine ⟨i, by rw [← hval k hk']; exact hi1, ?_⟩
      rw [tailSums_free hp hd hF hkeep hval hk' rfl, ← hi2]
      congr 3
      rw [List.reverse_reverse, List.getD_eq_getElem?_getD, List.getElem?_map, List.getElem?_eq_getElem hk']
      simp [List.getD_eq_getElem?_getD, hk'])
    refine ⟨_, hrec, ?_, ?_⟩
    · rw [f6]; exact sampled_write hp hd hjr
    · have hpn : (freePos ds idx).Nodup := by
        unfold freePos
        refine List.Nodup.map_on ?_ (List.nodup_range.filter _)
        intro x hx y hy hxy
        have hx' := hflt x hx
        have hy' := hflt y hy
        simp only [List.getD_eq_getElem?_getD, List.getElem?_eq_getElem hx', List.getElem?_eq_getElem hy',
          Option.getD_some] at hxy
        exact (List.Nodup.getElem_inj_iff hnd).mp hxy
      rw [f6]
      intro d hd0
      by_cases hdf : d ∈ freePos ds idx
      · have := map_writeAt (ps := (freePos ds idx).reverse) (vs := j.reverse) (idx := idx) (List.nodup_reverse.mpr hpn)
          (by simp [hj]) (by
            intro p hpm
            rw [List.mem_reverse] at hpm
            simp only [freePos, List.mem_map] at hpm
            obtain ⟨d, hdf, rfl⟩ := hpm
            rw [hp.1]
            exact hd _ (getD_mem (hflt d hdf)))
        have hjr' : j.reverse = (freePos ds idx).reverse.map (fun p => v.getD p 0) := by rw [hj, List.map_reverse]
        rw [hjr'] at this ⊢
        exact (List.map_inj_left.mp this d (by simpa using hdf)).symm
      · rw [writeAt_getD_not_mem (by simpa using hdf)] at hd0 ⊢
        exact hkeep d hd0

/-! ### all marginals -/

theorem sampleAll_of {s : List Nat} {seq : List U32} (hg : GoodShape s) (hs : seq.length = s.length) {v : List Int} (hv : InRange s v) :
    ∀ (Q : Prob Int) (F : List Nat) (idx : List Int), PartialIdx s idx →
    (∀ p ∈ Q, p.1 ≠ [] ∧ p.1.Nodup ∧ ∀ d ∈ p.1, d < s.length) → (∀ d < s.length, d ∈ F ↔ 0 ≤ idx.getD d 0) →
    (∀ d, 0 ≤ idx.getD d 0 → v.getD d 0 = idx.getD d 0) →
    (∀ A p B, Q = A ++ p :: B → ∀ a < p.1.length, p.1.getD a 0 ∉ F ++ A.flatMap Prod.fst → ∃ i : Nat, v.getD (p.1.getD a 0) 0 = i ∧
      pick fp (numInt fp) (condSums s p.1 (F ++ A.flatMap Prod.fst) p.2 v a) (variate fp (seq.getD (p.1.getD a 0) 0)) = .ok i) →
    ∃ idx', sampleAll fp seq (indicesOf Q) (mapsOf s Q) (marginalsOf s Q) idx = .ok idx' ∧
      ∀ d, 0 ≤ idx'.getD d 0 → v.getD d 0 = idx'.getD d 0
  | [], _, idx, _, _, _, hk, _ => ⟨idx, rfl, hk⟩
  | q :: Q, F, idx, hpi, hQ, hF, hk, hpk => by
    have e : sampleAll fp seq (indicesOf (q :: Q)) (mapsOf s (q :: Q)) (marginalsOf s (q :: Q)) idx =
        (sample fp (q.1.map (fun d : Nat => (d : Int))) seq (arr (projSizes q.1 s) q.2) ⟨q.1, projSizes q.1 s, false⟩ idx >>=
          fun idx => sampleAll fp seq (indicesOf Q) (mapsOf s Q) (marginalsOf s Q) idx) := rfl
    obtain ⟨hq1, hq2, hq3⟩ := hQ q (by simp)
    obtain ⟨i1, h1, hsm, h2⟩ := sample_of (fp := fp) hg hpi hs hq3 hq1 hq2 (g := q.2) false (F := F) (fun d hd => hF d (hq3 d hd)) hv hk (by
      intro a ha haF
      have := hpk [] q Q rfl a ha (by simpa using haF)
      simpa using this)
    rw [e, h1]
    simp only [Out.ok_bind]
    refine sampleAll_of hg hs hv Q (F ++ q.1) i1 hsm.part (fun p hp => hQ p (by simp [hp])) ?_ h2 ?_
    · intro d hd
      rw [List.mem_append, hF d hd]
      constructor
      · rintro (h1 | h1)
        · rw [hsm.keep d h1]; exact h1
        · exact hsm.set d h1
      · intro h1
        by_cases hdq : d ∈ q.1
        · exact Or.inr hdq
        · left; rw [← hsm.others d hdq]; exact h1
    · intro A p B hAB a ha haF
      have := hpk (q :: A) p B (by rw [hAB]; rfl) a ha (by simpa [List.flatMap_cons, List.append_assoc] using haF)
      simpa only [List.flatMap_cons, List.append_assoc] using this

end HL

import Verif.Proof.QISAxes

/-
What one call of `sample` draws, for marginals of any dimension.
-/

namespace HL
open QIS
variable {fp : FP}

/-- Weights of a slice of the last dimension. -/
theorem sum_filter_snoc {β : Type} [AddCommMonoid β] {t : List Nat} {n i : Nat} (hi : i < n) (h : List Int → β) (C C' : List Int → Prop)
    [DecidablePred C] [DecidablePred C'] (hc : ∀ w ∈ cells t, ∀ y < n, C' (w ++ [(y : Int)]) ↔ (C w ∧ y = i)) :
    ∑ v ∈ (cells (t ++ [n])).filter C', h v = ∑ w ∈ (cells t).filter C, h (w ++ [(i : Int)]) := by
  rw [Finset.sum_filter, Finset.sum_filter, sum_snoc]
  rw [Finset.sum_eq_single i]
  · apply Finset.sum_congr rfl
    intro w hw
    have := hc w hw i hi
    by_cases h1 : C w
    · rw [if_pos h1, if_pos (this.mpr ⟨h1, rfl⟩)]
    · rw [if_neg h1, if_neg (fun h2 => h1 (this.mp h2).1)]
  · intro y hy hne
    apply Finset.sum_eq_zero
    intro w hw
    exact if_neg (fun h2 => hne ((hc w hw y (by simpa using hy)).mp h2).2)
  · intro h1; exact absurd (Finset.mem_range.mpr hi) h1

/-- The cells that agree with `j` after position `k` and have `x` there. -/
def tailCells (t : List Nat) (j : List Int) (k : Nat) (x : Nat) : Finset (List Int) :=
  (cells t).filter (fun v => v.getD k 0 = (x : Int) ∧ ∀ b < t.length, k < b → v.getD b 0 = j.getD b 0)

/-- the weights from which position `k` is drawn -/
def tailSums (t : List Nat) (h : List Int → Int) (j : List Int) (k : Nat) : List Int :=
  (List.range (t.getD k 0)).map (fun x => ∑ v ∈ tailCells t j k x, h v)

theorem getD_snoc_lt {v : List Int} {y : Int} {k : Nat} (h : k < v.length) : (v ++ [y]).getD k 0 = v.getD k 0 := by
  simp [List.getD_eq_getElem?_getD, List.getElem?_append_left h]

theorem getD_snoc_eq {v : List Int} {y : Int} {k : Nat} (h : k = v.length) : (v ++ [y]).getD k 0 = y := by
  subst h; simp [List.getD_eq_getElem?_getD]

theorem tailSums_last (t : List Nat) (n : Nat) (h : List Int → Int) (j : List Int) :
    tailSums (t ++ [n]) h j t.length = lastSums t n h := by
  unfold tailSums lastSums
  rw [show (t ++ [n]).getD t.length 0 = n by simp [List.getD_eq_getElem?_getD]]
  apply List.map_congr_left
  intro x hx
  unfold tailCells
  rw [sum_filter_snoc (List.mem_range.mp hx) h (fun _ => True)]
  · simp
  · intro w hw y _
    have hl := inRange_length (mem_cells.mp hw)
    rw [getD_snoc_eq hl.symm]
    constructor
    · intro h1; exact ⟨trivial, by exact_mod_cast h1.1⟩
    · rintro ⟨-, rfl⟩
      refine ⟨rfl, fun b hb hk => ?_⟩
      simp at hb; omega

theorem tailSums_init {t : List Nat} {n i : Nat} (hi : i < n) (h : List Int → Int) {j : List Int} (hj : j.length = t.length)
    {k : Nat} (hk : k < t.length) :
    tailSums (t ++ [n]) h (j ++ [(i : Int)]) k = tailSums t (fun v => h (v ++ [(i : Int)])) j k := by
  unfold tailSums
  rw [show (t ++ [n]).getD k 0 = t.getD k 0 by simp [List.getD_eq_getElem?_getD, List.getElem?_append_left hk]]
  apply List.map_congr_left
  intro x _
  unfold tailCells
  apply sum_filter_snoc hi
  intro w hw y _
  have hl := inRange_length (mem_cells.mp hw)
  rw [getD_snoc_lt (by omega)]
  constructor
  · rintro ⟨h1, h2⟩
    refine ⟨⟨h1, fun b hb hkb => ?_⟩, ?_⟩
    · have := h2 b (by simp; omega) hkb
      rwa [getD_snoc_lt (by omega), getD_snoc_lt (by omega)] at this
    · have := h2 t.length (by simp) hk
      rw [getD_snoc_eq hl.symm, getD_snoc_eq hj.symm] at this
      exact_mod_cast this
  · rintro ⟨⟨h1, h2⟩, rfl⟩
    refine ⟨h1, fun b hb hkb => ?_⟩
    rcases Nat.lt_or_ge b t.length with hb' | hb'
    · rw [getD_snoc_lt (by omega), getD_snoc_lt (by omega)]
      exact h2 b hb' hkb
    · have : b = t.length := by simp at hb; omega
      rw [getD_snoc_eq (by omega), getD_snoc_eq (by omega)]

theorem rec_draw {pos : List Nat} {sm : List (Nat × Nat)} : ∀ (L : List (Nat × U32)) (t : List Nat)
    (h : List Int → Int) (idx v : List Int), L ≠ [] → t.length = L.length → GoodShape t → MapOK sm L →
    PosOK pos idx.length L → recursiveSample fp pos sm L (arr t h) idx = .ok v →
    ∃ j, InRange t j ∧ v = writeAt (posOf pos L) j.reverse idx ∧
      ∀ k < t.length, ∃ i : Nat, j.getD k 0 = i ∧
        pick fp (numInt fp) (tailSums t h j k) (variate fp (L.reverse.getD k (0, 0)).2) = .ok i
  | [], _, _, _, _, hne, _, _, _, _, _ => absurd rfl hne
  | [(d, u)], t, h, idx, v, _, hl, hg, _, hpos, hv => by
    obtain ⟨t', n, rfl, hl'⟩ := exists_snoc (k := 0) (by simpa using hl)
    have : t' = [] := List.eq_nil_of_length_eq_zero hl'
    subst this
    obtain ⟨p, hp, hpl⟩ := hpos (d, u) (by simp)
    obtain ⟨h1, h2⟩ := rec_one (fp := fp) (sm := sm) (u := u) (n := n) (h := h) hp hpl
    rw [List.nil_append] at hv
    rcases pick_cases fp (numInt fp) (lastSums [] n h) (variate fp u) with hpk | ⟨i, hpk, hi⟩
    · rw [h1 hpk] at hv; cases hv
    · rw [h2 i hpk] at hv
      injection hv with hv
      refine ⟨[(i : Int)], List.Forall₂.cons ⟨by positivity, ?_⟩ .nil, ?_, ?_⟩
      · simp [lastSums] at hi; exact_mod_cast hi
      · rw [← hv]
        simp [posOf, writeAt, List.getD_eq_getElem?_getD, hp]
      · intro k hk
        have : k = 0 := by simpa using hk
        subst this
        refine ⟨i, by simp, ?_⟩
        have := tailSums_last [] n h [(i : Int)]
        rw [List.length_nil] at this
        rw [this]
        simpa using hpk
  | (d, u) :: e :: rest, t, h, idx, v, _, hl, hg, hm, hpos, hv => by
    obtain ⟨t', n, rfl, hl'⟩ := exists_snoc (k := (e :: rest).length) (by simpa using hl)
    obtain ⟨p, hp, hpl⟩ := hpos (d, u) (by simp)
    obtain ⟨h1, h2⟩ := rec_step (fp := fp) (h := h) hg hl' hm hp hpl
    rcases pick_cases fp (numInt fp) (lastSums t' n h) (variate fp u) with hpk | ⟨i, hpk, hi⟩
    · rw [h1 hpk] at hv; cases hv
    · have hi' : i < n := by simpa [lastSums] using hi
      rw [h2 i hpk hi'] at hv
      have ht : t' ≠ [] := by rintro rfl; simp at hl'
      obtain ⟨j, hj, h3, h4⟩ := rec_draw (e :: rest) t' (fun v => h (v ++ [(i : Int)])) (idx.set p i) v (by simp) hl'
        (goodShape_init hg ht) hm.2 (by
          intro e' he'
          obtain ⟨p', hp', hl''⟩ := hpos e' (by simp [he'])
          exact ⟨p', hp', by simpa using hl''⟩) hv
      have hjl := inRange_length hj
      refine ⟨j ++ [(i : Int)], inRange_snoc hj (by positivity) (by exact_mod_cast hi'), ?_, ?_⟩
      · rw [h3]
        simp [posOf, writeAt, List.getD_eq_getElem?_getD, hp]
      · intro k hk
        rcases Nat.lt_or_ge k t'.length with hk' | hk'
        · obtain ⟨x, hx1, hx2⟩ := h4 k hk'
          refine ⟨x, by rw [getD_snoc_lt (by omega)]; exact hx1, ?_⟩
          rw [tailSums_init hi' h hjl hk']
          rw [← hx2, List.reverse_cons (a := (d, u))]
          congr 3
          simp only [List.getD_eq_getElem?_getD]
          rw [List.getElem?_append_left (by rw [List.length_reverse]; omega)]
        · have hke : k = t'.length := by simp at hk; omega
          subst hke
          refine ⟨i, getD_snoc_eq (by omega), ?_⟩
          rw [tailSums_last, ← hpk, List.reverse_cons (a := (d, u))]
          congr 3
          simp only [List.getD_eq_getElem?_getD]
          rw [List.getElem?_append_right (by rw [List.length_reverse]; omega), List.length_reverse, hl']
          simp

/-- the weights from which position `a` of the marginal `g` is drawn -/
def condSums (s ds F : List Nat) (g : List Int → Int) (v : List Int) (a : Nat) : List Int :=
  (List.range (s.getD (ds.getD a 0) 0)).map (fun x => ∑ j ∈ condCells s ds F v a x, g j)

theorem free_lt {ds : List Nat} {idx : List Int} {k b : Nat} (hk : k < (freeIn ds idx (List.range ds.length)).length)
    (hb : b < (freeIn ds idx (List.range ds.length)).length) :
    (freeIn ds idx (List.range ds.length)).getD k 0 < (freeIn ds idx (List.range ds.length)).getD b 0 ↔ k < b := by
  have hpw : (freeIn ds idx (List.range ds.length)).Pairwise (· < ·) := List.pairwise_lt_range.filter _
  have key : ∀ k b (hk : k < (freeIn ds idx (List.range ds.length)).length)
      (hb : b < (freeIn ds idx (List.range ds.length)).length), k < b →
      (freeIn ds idx (List.range ds.length))[k] < (freeIn ds idx (List.range ds.length))[b] :=
    fun k b hk hb h => List.pairwise_iff_getElem.mp hpw k b hk hb h
  simp only [List.getD_eq_getElem?_getD, List.getElem?_eq_getElem hk, List.getElem?_eq_getElem hb, Option.getD_some]
  constructor
  · intro h
    by_contra hc
    rcases Nat.lt_or_ge b k with h1 | h1
    · have := key b k hb hk h1; omega
    · have : b = k := by omega
      subst this; omega
  · exact key k b hk hb

theorem sample_draw {s ds F : List Nat} {idx : List Int} {seq : List U32} (hg : GoodShape s)
    (hp : PartialIdx s idx) (hs : seq.length = s.length) (hd : ∀ d ∈ ds, d < s.length) (hne : ds ≠ [])
    (hnd : ds.Nodup) {g : List Int → Int} (b : Bool) (hF : ∀ d ∈ ds, d ∈ F ↔ 0 ≤ idx.getD d 0) {v : List Int}
    (hv : sample fp (ds.map (fun d : Nat => (d : Int))) seq (arr (projSizes ds s) g) ⟨ds, projSizes ds s, b⟩ idx = .ok v) :
    Sampled s ds idx v ∧ ∀ a < ds.length, ds.getD a 0 ∉ F → ∃ i : Nat, v.getD (ds.getD a 0) 0 = i ∧
      pick fp (numInt fp) (condSums s ds F g v a) (variate fp (seq.getD (ds.getD a 0) 0)) = .ok i := by
  have he := sample_eq (fp := fp) hg hp hs hd hne g b
  simp only [] at he
  rw [he] at hv
  have hlen : (projSizes ds s).length = ds.length := by simp [projSizes]
  have hfixed : ∀ a < ds.length, (a ∈ freeIn ds idx (List.range ds.length) ↔ ds.getD a 0 ∉ F) := by
    intro a ha
    rw [hF _ (getD_mem ha)]
    simp only [freeIn, List.mem_filter, List.mem_range, isSet, Bool.not_eq_true', decide_eq_false_iff_not]
    constructor
    · rintro ⟨-, h⟩; omega
    · intro h; exact ⟨ha, by omega⟩
  by_cases h : freeIn ds idx (List.range ds.length) = []
  · rw [if_pos h] at hv
    injection hv with hv
    subst hv
    refine ⟨sampled_self hp h, ?_⟩
    intro a ha haF
    have := (hfixed a ha).mpr haF
    rw [h] at this
    simp at this
  · rw [if_neg h] at hv
    obtain ⟨f1, f2, f3, f4, f5, f6⟩ := free_facts (seq := seq) hg hp hd h
    have hok := fixedOK_in hp hd
    have hfd := freeDims_fixedIn ds idx ds.length
    obtain ⟨j, hj, hvj, hpk⟩ := rec_draw _ _ (freeFn ds idx g) idx v f1 f2 f3 f4 f5 hv
    rw [f6] at hvj
    have hsm : Sampled s ds idx v := by rw [hvj]; exact sampled_write hp hd hj
    refine ⟨hsm, ?_⟩
    set free := freeIn ds idx (List.range ds.length) with hfree
    have hflt : ∀ d ∈ free, d < ds.length := by
      intro d hd'
      have := (List.mem_filter.mp hd').1
      simpa using this
    have hjl : j.length = free.length := by
      have := inRange_length hj
      simpa [projSizes] using this
    have hfnd : free.Nodup := List.nodup_range.filter _
    have hpn : (freePos ds idx).Nodup := by
      unfold freePos
      refine List.Nodup.map_on ?_ hfnd
      intro x hx y hy hxy
      have hx' := hflt x hx
      have hy' := hflt y hy
      simp only [List.getD_eq_getElem?_getD, List.getElem?_eq_getElem hx', List.getElem?_eq_getElem hy',
        Option.getD_some] at hxy
      exact (List.Nodup.getElem_inj_iff hnd).mp hxy
    have hvals : (freePos ds idx).map (fun p => v.getD p 0) = j := by
      have := map_writeAt (ps := (freePos ds idx).reverse) (vs := j.reverse) (idx := idx) (List.nodup_reverse.mpr hpn)
        (by simp [freePos, hjl, ← hfree]) (by
          intro p hpm
          rw [List.mem_reverse] at hpm
          simp only [freePos, List.mem_map] at hpm
          obtain ⟨d, hdf, rfl⟩ := hpm
          rw [hp.1]
          exact hd _ (getD_mem (hflt d hdf)))
      rw [← hvj, List.map_reverse] at this
      exact List.reverse_injective this
    have hval : ∀ k < free.length, v.getD (ds.getD (free.getD k 0) 0) 0 = j.getD k 0 := by
      intro k hk
      conv_rhs => rw [← hvals]
      unfold freePos
      simp [List.getD_eq_getElem?_getD, hk, ← hfree]
    intro a ha haF
    have ham := (hfixed a ha).mpr haF
    obtain ⟨k, hk, hka⟩ := List.getElem_of_mem ham
    have hka' : free.getD k 0 = a := by simp [List.getD_eq_getElem?_getD, hk, hka]
    obtain ⟨i, hi1, hi2⟩ := hpk k (by simpa [projSizes] using hk)
    refine ⟨i, by rw [← hka', hval k hk]; exact hi1, ?_⟩
    have hseq : ((free.map (fun e => (e, seq.getD (ds.getD e 0) 0))).reverse.reverse.getD k (0, 0)).2 =
        seq.getD (ds.getD a 0) 0 := by
      rw [List.reverse_reverse, List.getD_eq_getElem?_getD, List.getElem?_map, List.getElem?_eq_getElem hk, hka]
      rfl
    rw [hseq] at hi2
    rw [← hi2]
    congr 1
    unfold condSums tailSums
    have hsz : (projSizes free (projSizes ds s)).getD k 0 = s.getD (ds.getD a 0) 0 := by
      rw [projSizes_getD (List.getElem?_eq_getElem hk), hka, projSizes_getD (List.getElem?_eq_getElem ha)]
      simp [List.getD_eq_getElem?_getD, ha]
    rw [hsz]
    apply List.map_congr_left
    intro x _
    have hpr : ∀ w : List Int, w.length = ds.length → ∀ k < free.length, (proj free w).getD k 0 = w.getD (free.getD k 0) 0 := by
      intro w _ k hk
      simp [proj, List.getD_eq_getElem?_getD, hk]
    have hfv : ∀ p ∈ fixedIn ds idx (List.range ds.length), p.1 < ds.length ∧ ds.getD p.1 0 ∈ F ∧ p.2 = v.getD (ds.getD p.1 0) 0 := by
      intro p hpm
      simp only [fixedIn, List.mem_map, List.mem_filter, List.mem_range] at hpm
      obtain ⟨c, ⟨hc, hset⟩, rfl⟩ := hpm
      have h0 : idx.getD (ds.getD c 0) 0 > -1 := by simpa [isSet] using hset
      have h0' : 0 ≤ idx.getD (ds.getD c 0) 0 := by omega
      exact ⟨hc, (hF _ (getD_mem hc)).mpr h0', (hsm.keep _ h0').symm⟩
    symm
    refine Finset.sum_nbij' (fun w => sliceIdx ds.length (fixedIn ds idx (List.range ds.length)) w) (fun w => proj free w) ?_ ?_ ?_ ?_ ?_
    · intro w hw
      unfold tailCells at hw
      rw [Finset.mem_filter] at hw
      obtain ⟨hw1, hw2, hw3⟩ := hw
      have hwl : w.length = free.length := by
        have := inRange_length (mem_cells.mp hw1)
        simpa [projSizes] using this
      have hin : InRange (projSizes ds s) (sliceIdx ds.length (fixedIn ds idx (List.range ds.length)) w) := by
        have := inRange_sliceIdx hok (v := w) (by rw [hlen, hfd]; exact mem_cells.mp hw1)
        rwa [hlen] at this
      have hps : proj free (sliceIdx ds.length (fixedIn ds idx (List.range ds.length)) w) = w := by
        have := proj_sliceIdx (s := projSizes ds s) (fx := fixedIn ds idx (List.range ds.length)) (v := w)
          (by rw [hlen, hfd]; exact hwl)
        rwa [hlen, hfd] at this
      set z := sliceIdx ds.length (fixedIn ds idx (List.range ds.length)) w with hz
      have hzl : z.length = ds.length := by rw [inRange_length hin, hlen]
      have hat : ∀ k < free.length, z.getD (free.getD k 0) 0 = w.getD k 0 := by
        intro k hk
        rw [← hpr z hzl k hk, hps]
      unfold condCells
      rw [Finset.mem_filter]
      refine ⟨mem_cells.mpr hin, ?_, ?_⟩
      · rw [← hka', hat k hk]; exact hw2
      · intro c hc hca hor
        by_cases hcF : ds.getD c 0 ∈ F
        · have hmem : (c, idx.getD (ds.getD c 0) 0) ∈ fixedIn ds idx (List.range ds.length) := by
            simp only [fixedIn, List.mem_map, List.mem_filter, List.mem_range, isSet, decide_eq_true_eq]
            refine ⟨c, ⟨hc, ?_⟩, rfl⟩
            have := (hF _ (getD_mem hc)).mp hcF
            omega
          have h1 := sliceIdx_fixed hok w _ hmem
          rw [hlen] at h1
          simp only at h1
          rw [hz, h1, hsm.keep _ ((hF _ (getD_mem hc)).mp hcF)]
        · have hac : a < c := hor.resolve_right hcF
          obtain ⟨m, hm, hmc⟩ := List.getElem_of_mem ((hfixed c hc).mpr hcF)
          have hmc' : free.getD m 0 = c := by simp [List.getD_eq_getElem?_getD, hm, hmc]
          have hkm : k < m := by
            apply (free_lt (ds := ds) (idx := idx) hk hm).mp
            rw [← hfree, hka', hmc']; exact hac
          rw [← hmc', hat m hm, hval m hm]
          exact hw3 m (by simpa [projSizes] using hm) hkm
    · intro w hw
      unfold condCells at hw
      rw [Finset.mem_filter] at hw
      obtain ⟨hw1, hw2, hw3⟩ := hw
      have hwr := mem_cells.mp hw1
      have hwl : w.length = ds.length := by rw [inRange_length hwr, hlen]
      unfold tailCells
      rw [Finset.mem_filter]
      refine ⟨mem_cells.mpr (inRange_proj (fun d hd' => by rw [hlen]; exact hflt d hd') hwr), ?_, ?_⟩
      · rw [hpr w hwl k hk, hka']; exact hw2
      · intro m hm hkm
        have hm' : m < free.length := by simpa [projSizes] using hm
        have hlt := (free_lt (ds := ds) (idx := idx) hk hm').mpr hkm
        rw [← hfree, hka'] at hlt
        rw [hpr w hwl m hm', ← hval m hm']
        exact hw3 _ (hflt _ (getD_mem hm')) (by omega) (Or.inl hlt)
    · intro w hw
      unfold tailCells at hw
      rw [Finset.mem_filter] at hw
      have hwl : w.length = free.length := by
        have := inRange_length (mem_cells.mp hw.1)
        simpa [projSizes] using this
      have := proj_sliceIdx (s := projSizes ds s) (fx := fixedIn ds idx (List.range ds.length)) (v := w)
        (by rw [hlen, hfd]; exact hwl)
      rwa [hlen, hfd] at this
    · intro w hw
      unfold condCells at hw
      rw [Finset.mem_filter] at hw
      obtain ⟨hw1, hw2, hw3⟩ := hw
      have hwl : w.length = ds.length := by rw [inRange_length (mem_cells.mp hw1), hlen]
      have := sliceIdx_proj hok (w := w) (by rw [hwl, hlen]) (by
        intro p hpm
        obtain ⟨h1, h2, h3⟩ := hfv p hpm
        rw [h3]
        apply hw3 _ h1 _ (Or.inr h2)
        intro hpa
        rw [hpa] at h2
        exact haF h2)
      rwa [hlen, hfd] at this
    · intro w _
      rfl

/-- The draws of `sampleAll`: each dimension is drawn from the first marginal that names it. -/
theorem sampleAll_draw {s : List Nat} {seq : List U32} (hg : GoodShape s) (hs : seq.length = s.length) :
    ∀ (Q : Prob Int) (F : List Nat) (idx v : List Int), PartialIdx s idx →
    (∀ p ∈ Q, p.1 ≠ [] ∧ p.1.Nodup ∧ ∀ d ∈ p.1, d < s.length) → (∀ d < s.length, d ∈ F ↔ 0 ≤ idx.getD d 0) →
    sampleAll fp seq (indicesOf Q) (mapsOf s Q) (marginalsOf s Q) idx = .ok v →
    ∀ A p B, Q = A ++ p :: B → ∀ a < p.1.length, p.1.getD a 0 ∉ F ++ A.flatMap Prod.fst → ∃ i : Nat, v.getD (p.1.getD a 0) 0 = i ∧
      pick fp (numInt fp) (condSums s p.1 (F ++ A.flatMap Prod.fst) p.2 v a) (variate fp (seq.getD (p.1.getD a 0) 0)) = .ok i
  | [], _, _, _, _, _, _, _, A, p, B, h => by simp at h
  | q :: Q, F, idx, v, hpi, hQ, hF, hv, A, p, B, hAB => by
    have e : sampleAll fp seq (indicesOf (q :: Q)) (mapsOf s (q :: Q)) (marginalsOf s (q :: Q)) idx =
        (sample fp (q.1.map (fun d : Nat => (d : Int))) seq (arr (projSizes q.1 s) q.2) ⟨q.1, projSizes q.1 s, false⟩ idx >>=
          fun idx => sampleAll fp seq (indicesOf Q) (mapsOf s Q) (marginalsOf s Q) idx) := rfl
    obtain ⟨hq1, hq2, hq3⟩ := hQ q (by simp)
    rw [e] at hv
    rcases sample_cases (fp := fp) hg hpi hs (ds := q.1) hq3 hq1 q.2 false with h | ⟨i1, h, -⟩
    · rw [h] at hv; cases hv
    · obtain ⟨hsm, hdr⟩ := sample_draw hg hpi hs hq3 hq1 hq2 false (F := F) (fun d hd => hF d (hq3 d hd)) h
      rw [h] at hv
      simp only [Out.ok_bind] at hv
      have hdims : ∀ p ∈ Q, p.1 ≠ [] ∧ ∀ d ∈ p.1, d < s.length := fun p hp => ⟨(hQ p (by simp [hp])).1, (hQ p (by simp [hp])).2.2⟩
      have hkeep : ∀ d, 0 ≤ i1.getD d 0 → v.getD d 0 = i1.getD d 0 := by
        rcases sampleAll_cases (fp := fp) hg hs Q i1 hdims hsm.part with h6 | ⟨v', h6, -, -, h7⟩
        · rw [h6] at hv; cases hv
        · rw [h6] at hv
          injection hv with hv
          subst hv
          exact h7
      cases A with
      | nil =>
        simp only [List.nil_append, List.cons.injEq] at hAB
        obtain ⟨rfl, rfl⟩ := hAB
        intro a ha haF
        simp only [List.flatMap_nil, List.append_nil] at haF ⊢
        obtain ⟨i, hi1, hi2⟩ := hdr a ha haF
        refine ⟨i, by rw [hkeep _ (by rw [hi1]; positivity), hi1], ?_⟩
        rw [← hi2]
        congr 1
        unfold condSums condCells
        apply List.map_congr_left
        intro x _
        congr 1
        apply Finset.filter_congr
        intro j _
        refine and_congr_right (fun _ => ?_)
        refine forall_congr' fun c => forall_congr' fun hc => forall_congr' fun _ => forall_congr' fun _ => ?_
        rw [hkeep _ (hsm.set _ (getD_mem hc))]
      | cons q' A =>
        simp only [List.cons_append, List.cons.injEq] at hAB
        obtain ⟨rfl, rfl⟩ := hAB
        have := sampleAll_draw hg hs (A ++ p :: B) (F ++ q.1) i1 v hsm.part (fun r hr => hQ r (by simp [List.mem_append, List.mem_cons] at hr ⊢; tauto)) (by
          intro d hd
          rw [List.mem_append, hF d hd]
          constructor
          · rintro (h1 | h1)
            · rw [hsm.keep d h1]; exact h1
            · exact hsm.set d h1
          · intro h1
            by_cases hdq : d ∈ q.1
            · exact Or.inr hdq
            · left; rw [← hsm.others d hdq]; exact h1) hv A p B rfl
        simpa only [List.flatMap_cons, List.append_assoc] using this

/-! ### levels -/

theorem abs_sum_le (l : List Int) : |l.sum| ≤ (l.map (fun x => |x|)).sum := by
  induction l with
  | nil => simp
  | cons x l ih =>
    simp only [List.sum_cons, List.map_cons]
    exact (abs_add_le _ _).trans (by omega)

theorem sum_abs_nonneg (l : List Int) : 0 ≤ (l.map (fun x => |x|)).sum := (abs_nonneg _).trans (abs_sum_le l)

theorem total_abs (hfp : fp.Good) : ∀ (l : List Int) (a : Int), |a| + (l.map (fun x => |x|)).sum ≤ 2 ^ 53 →
    l.foldl (fun acc x => fp.add acc ((numInt fp).toFl x)) (.fin a) = .fin ((a + l.sum : Int) : ℚ)
  | [], a, _ => by simp
  | x :: l, a, hb => by
    have hl := sum_abs_nonneg l
    simp only [List.map_cons, List.sum_cons] at hb
    have hx := abs_nonneg x
    have ha := abs_nonneg a
    have hax := abs_add_le a x
    rw [List.foldl_cons]
    have e : fp.add (.fin a) ((numInt fp).toFl x) = .fin ((a + x : Int) : ℚ) := by
      show fp.add _ (fp.ofInt x) = _
      rw [ofInt_exact hfp (by omega)]
      show fp.rnd _ = _
      rw [← Int.cast_add, rnd_int hfp (by omega)]
    rw [e, total_abs hfp l (a + x) (by omega)]
    simp [add_assoc]

/-- `pick` finds the first running total above a level: the fraction of the total that the variate asks for, rounded once. -/
theorem pick_int_level (hfp : fp.Good) {dist : List Int} (hb : (dist.map (fun x => |x|)).sum ≤ 2 ^ 53) {u : U32} {i : Nat}
    (hp : pick fp (numInt fp) dist (variate fp u) = .ok i) :
    ∃ r : ℚ, RoundedTo ((u.toNat : ℚ) / 2 ^ 32 * ((dist.sum : Int) : ℚ)) r ∧
      (|dist.sum| ≤ 2 ^ 21 → r = (u.toNat : ℚ) / 2 ^ 32 * ((dist.sum : Int) : ℚ)) ∧
      i < dist.length ∧ (∀ m < i, (((dist.take (m + 1)).sum : Int) : ℚ) ≤ r) ∧ r < (((dist.take (i + 1)).sum : Int) : ℚ) := by
  unfold pick at hp
  have ht := total_abs hfp dist 0 (by simpa using hb)
  simp only [Int.cast_zero, zero_add] at ht
  rw [ht, variate_eq hfp] at hp
  have hu := u.isLt
  have hsb : |dist.sum| ≤ 2 ^ 53 := (abs_sum_le dist).trans hb
  have hlev : ∃ r : ℚ, fp.mul (.fin ((u.toNat : ℚ) / 2 ^ 32)) (.fin ((dist.sum : Int) : ℚ)) = .fin r ∧
      RoundedTo ((u.toNat : ℚ) / 2 ^ 32 * ((dist.sum : Int) : ℚ)) r ∧
      (|dist.sum| ≤ 2 ^ 21 → r = (u.toNat : ℚ) / 2 ^ 32 * ((dist.sum : Int) : ℚ)) := by
    by_cases hsmall : |(u.toNat : Int) * dist.sum| ≤ 2 ^ 53
    · have e : (u.toNat : ℚ) / 2 ^ 32 * ((dist.sum : Int) : ℚ) = (((u.toNat : Int) * dist.sum : Int) : ℚ) / 2 ^ 32 := by
        push_cast; ring
      refine ⟨(u.toNat : ℚ) / 2 ^ 32 * ((dist.sum : Int) : ℚ), ?_, ?_, fun _ => rfl⟩
      · show fp.rnd _ = _
        rw [e]
        exact hfp.dyadic _ 32 hsmall (by norm_num)
      · unfold RoundedTo
        rw [sub_self, abs_zero]; positivity
    · have hge : (1 : ℚ) ≤ |(u.toNat : ℚ) / 2 ^ 32 * ((dist.sum : Int) : ℚ)| := by
        have h1 : (2 : ℚ) ^ 53 ≤ |(((u.toNat : Int) * dist.sum : Int) : ℚ)| := by
          rw [← Int.cast_abs]
          exact_mod_cast (not_le.mp hsmall).le
        have e : |(u.toNat : ℚ) / 2 ^ 32 * ((dist.sum : Int) : ℚ)| = |(((u.toNat : Int) * dist.sum : Int) : ℚ)| / 2 ^ 32 := by
          rw [← abs_of_pos (show (0 : ℚ) < 2 ^ 32 by norm_num), ← abs_div]
          congr 1
          rw [abs_of_pos (show (0 : ℚ) < 2 ^ 32 by norm_num)]
          push_cast; ring
        rw [e, le_div_iff₀ (by norm_num)]
        refine le_trans ?_ h1
        norm_num
      have hle : |(u.toNat : ℚ) / 2 ^ 32 * ((dist.sum : Int) : ℚ)| ≤ 2 ^ 53 := by
        rw [abs_mul, abs_of_nonneg (by positivity : (0 : ℚ) ≤ (u.toNat : ℚ) / 2 ^ 32)]
        have h1 : (u.toNat : ℚ) / 2 ^ 32 ≤ 1 := by
          rw [div_le_one (by norm_num)]
          exact_mod_cast hu.le
        have h2 : |((dist.sum : Int) : ℚ)| ≤ 2 ^ 53 := by
          rw [← Int.cast_abs]; exact_mod_cast hsb
        calc _ ≤ 1 * |((dist.sum : Int) : ℚ)| := by gcongr
          _ ≤ _ := by rw [one_mul]; exact h2
      obtain ⟨r, hr, hd⟩ := hfp.near ((u.toNat : ℚ) / 2 ^ 32 * ((dist.sum : Int) : ℚ))
        (le_trans (by
          rw [← zpow_zero (2 : ℚ)]
          exact zpow_le_zpow_right₀ (by norm_num) (by norm_num)) hge)
        (le_trans hle (pow_le_pow_right₀ (by norm_num) (by norm_num)))
      refine ⟨r, hr, hd, fun h21 => absurd ?_ hsmall⟩
      rw [abs_mul, abs_of_nonneg (by positivity : (0 : Int) ≤ (u.toNat : Int))]
      have : (u.toNat : Int) ≤ 2 ^ 32 := by exact_mod_cast hu.le
      calc (u.toNat : Int) * |dist.sum| ≤ 2 ^ 32 * 2 ^ 21 := mul_le_mul this h21 (abs_nonneg _) (by norm_num)
        _ = _ := by norm_num
  obtain ⟨r, hm, hr1, hr2⟩ := hlev
  refine ⟨r, hr1, hr2, ?_⟩
  rw [hm] at hp
  rw [show i = 0 + i by omega] at hp
  obtain ⟨x, h1, h2, h3⟩ := pickLoop_spec (numInt fp) _ dist 0 0 i hp
  have hi : i < dist.length := by
    by_contra hc
    rw [List.getElem?_eq_none (by omega)] at h1
    cases h1
  have hpre : ∀ k, |(dist.take k).sum| ≤ 2 ^ 53 := by
    intro k
    refine (abs_sum_le _).trans (le_trans ?_ hb)
    have h4 := List.sum_take_add_sum_drop (dist.map (fun x => |x|)) k
    have h5 := sum_abs_nonneg (dist.drop k)
    rw [List.map_drop] at h5
    rw [List.map_take]
    omega
  have key : ∀ k y, dist[k]? = some y → (numInt fp).toFl ((numInt fp).add ((dist.take k).foldl (numInt fp).add 0) y) =
      .fin (((dist.take (k + 1)).sum : Int) : ℚ) := by
    intro k y hk
    rw [foldl_numInt, zero_add]
    have : (dist.take k).sum + y = (dist.take (k + 1)).sum := by
      rw [List.take_add_one, hk]; simp
    show fp.ofInt ((dist.take k).sum + y) = _
    rw [this]
    exact ofInt_exact hfp (hpre (k + 1))
  refine ⟨hi, ?_, ?_⟩
  · intro m hmi
    obtain ⟨y, hy, hc⟩ := h3 m (by omega)
    rw [key m y hy] at hc
    simpa only [FP.lt, decide_eq_false_iff_not, not_lt] using hc
  · rw [key i x h1] at h2
    simpa only [FP.lt, decide_eq_true_eq] using h2

theorem take_map_range_sum (f : Nat → Int) {n m : Nat} (hm : m ≤ n) :
    (((List.range n).map f).take m).sum = ∑ a ∈ Finset.range m, f a := by
  rw [← List.map_take, List.take_range, Nat.min_eq_left hm]
  induction m with
  | zero => simp
  | succ k ih =>
    rw [List.range_succ, List.map_append, List.sum_append, ih (by omega), Finset.sum_range_succ]
    simp

theorem condSums_abs_le (s ds F : List Nat) (g : List Int → Int) (v : List Int) (a : Nat) :
    ((condSums s ds F g v a).map (fun x => |x|)).sum ≤ ∑ j ∈ cells (projSizes ds s), |g j| := by
  unfold condSums
  rw [List.map_map]
  have e := take_map_range_sum (fun x => |∑ j ∈ condCells s ds F v a x, g j|) (le_refl (s.getD (ds.getD a 0) 0))
  rw [List.take_of_length_le (by simp)] at e
  show ((List.range _).map (fun x => |∑ j ∈ condCells s ds F v a x, g j|)).sum ≤ _
  rw [e]
  calc _ ≤ ∑ x ∈ Finset.range (s.getD (ds.getD a 0) 0), ∑ j ∈ condCells s ds F v a x, |g j| :=
        Finset.sum_le_sum (fun x _ => Finset.abs_sum_le_sum_abs _ _)
    _ = ∑ j ∈ (Finset.range (s.getD (ds.getD a 0) 0)).biUnion (fun x => condCells s ds F v a x), |g j| := by
        rw [Finset.sum_biUnion]
        intro x _ y _ hxy
        apply Finset.disjoint_left.mpr
        intro j hj hj'
        unfold condCells at hj hj'
        rw [Finset.mem_filter] at hj hj'
        apply hxy
        have := hj.2.1.symm.trans hj'.2.1
        exact_mod_cast this
    _ ≤ _ := by
        apply Finset.sum_le_sum_of_subset_of_nonneg
        · intro j hj
          rw [Finset.mem_biUnion] at hj
          obtain ⟨x, -, hj⟩ := hj
          unfold condCells at hj
          exact (Finset.mem_filter.mp hj).1
        · intro j _ _; exact abs_nonneg _

end HL

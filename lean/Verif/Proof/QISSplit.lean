import Verif.Proof.QISSample

/-
What `sample` does, from the first loop to the result.
-/

namespace HL
open QIS
variable {fp : FP}

/-- Every entry of a partly assigned index is -1 or in range. -/
def PartialIdx (s : List Nat) (idx : List Int) : Prop :=
  idx.length = s.length ∧
    ∀ d < s.length, idx.getD d 0 = -1 ∨ (0 ≤ idx.getD d 0 ∧ idx.getD d 0 < (s.getD d 0 : Nat))

/-- position `d` of the dimension list `ds` is already assigned -/
def isSet (ds : List Nat) (idx : List Int) (d : Nat) : Bool := decide (idx.getD (ds.getD d 0) 0 > -1)

def freeIn (ds : List Nat) (idx : List Int) (l : List Nat) : List Nat := l.filter (fun d => !isSet ds idx d)

def fixedIn (ds : List Nat) (idx : List Int) (l : List Nat) : List (Nat × Int) :=
  (l.filter (isSet ds idx)).map (fun d => (d, idx.getD (ds.getD d 0) 0))

theorem split_eq {s ds : List Nat} {idx : List Int} {seq : List U32} (hl : idx.length = s.length)
    (hs : seq.length = s.length) (hd : ∀ d ∈ ds, d < s.length) : ∀ (m d : Nat) (rest : List Nat) (t : Split),
    rest = ds.drop d → rest.length = m →
    split seq ds idx d (rest.map (fun d : Nat => (d : Int))) t =
      .ok ⟨t.toSlice ++ (fixedIn ds idx (List.range' d m)).map (fun p => ((p.1 : Int), p.2)),
           t.toSample ++ (freeIn ds idx (List.range' d m)).map (fun e => (e, seq.getD (ds.getD e 0) 0)),
           t.sliceMap ++ (freeIn ds idx (List.range' d m)).zipIdx t.sliceMap.length⟩
  | 0, d, rest, t, _, hr => by
    have : rest = [] := List.eq_nil_of_length_eq_zero hr
    subst this
    simp [split, freeIn, fixedIn]
  | m + 1, d, [], t, _, hr => by simp at hr
  | m + 1, d, e :: rest, t, hdr, hr => by
    have hde : ds[d]? = some e := by
      have := congrArg (fun l => l[0]?) hdr
      simpa using this.symm
    have hdd : ds.getD d 0 = e := by simp [List.getD_eq_getElem?_getD, hde]
    have he : e < s.length := hd e (List.mem_of_getElem? hde)
    have hread : readMapped ds d idx = .ok (idx.getD e 0) := by
      unfold readMapped
      rw [hde]
      simp [List.getD_eq_getElem?_getD, List.getElem?_eq_getElem (show e < idx.length by omega)]
    have hseq : readSeq seq (e : Int) = .ok (seq.getD e 0) := by
      unfold readSeq
      rw [if_neg (by omega)]
      simp [List.getD_eq_getElem?_getD, List.getElem?_eq_getElem (show e < seq.length by omega)]
    have hdr' : rest = ds.drop (d + 1) := by
      have := congrArg List.tail hdr
      simpa using this
    rw [List.map_cons]
    unfold split
    rw [hread]
    simp only [Out.ok_bind]
    by_cases hc : idx.getD e 0 > -1
    · rw [if_pos hc, split_eq hl hs hd m (d + 1) rest _ hdr' (by simpa using hr)]
      have hset : isSet ds idx d = true := by unfold isSet; rw [hdd]; exact decide_eq_true hc
      simp [List.range'_succ, freeIn, fixedIn, hset, hde, List.getD_eq_getElem?_getD]
    · rw [if_neg hc, hseq]
      simp only [Out.ok_bind]
      rw [split_eq hl hs hd m (d + 1) rest _ hdr' (by simpa using hr)]
      have hset : isSet ds idx d = false := by unfold isSet; rw [hdd]; exact decide_eq_false hc
      simp [List.range'_succ, freeIn, fixedIn, hset, hde, List.getD_eq_getElem?_getD]

theorem lookup_zipIdx : ∀ (l : List Nat) (o k : Nat) (h : k < l.length), l.Nodup →
    (l.zipIdx o).lookup l[k] = some (o + k)
  | [], _, _, h, _ => by simp at h
  | a :: l, o, 0, _, _ => by simp
  | a :: l, o, k + 1, h, hn => by
    have hk : k < l.length := by simpa using h
    have hne : l[k] ≠ a := by
      intro e
      have : l[k] ∈ l := List.getElem_mem _
      rw [e] at this
      exact (List.nodup_cons.mp hn).1 this
    have hne' : (l[k] == a) = false := by simpa using hne
    simp only [List.zipIdx_cons, List.getElem_cons_succ, List.lookup_cons, hne']
    rw [lookup_zipIdx l (o + 1) k (by simpa using h) (List.nodup_cons.mp hn).2]
    congr 1; omega

theorem mapOK_take (F : Nat → U32) (l : List Nat) (hn : l.Nodup) : ∀ k, k ≤ l.length →
    MapOK l.zipIdx ((l.take k).map (fun e => (e, F e))).reverse
  | 0, _ => by simp [MapOK]
  | k + 1, hk => by
    have hlt : k < l.length := by omega
    rw [List.take_add_one, List.getElem?_eq_getElem hlt]
    simp only [Option.toList_some, List.map_append, List.map_cons, List.map_nil, List.reverse_append,
      List.reverse_cons, List.reverse_nil, List.nil_append, List.singleton_append]
    refine ⟨?_, mapOK_take F l hn k (by omega)⟩
    unfold mapAt
    rw [lookup_zipIdx l 0 k hlt hn]
    simp; omega

theorem mapOK_all (F : Nat → U32) (l : List Nat) (hn : l.Nodup) :
    MapOK l.zipIdx (l.map (fun e => (e, F e))).reverse := by
  have := mapOK_take F l hn l.length le_rfl
  rwa [List.take_length] at this

theorem freeDims_fixedIn (ds : List Nat) (idx : List Int) (n : Nat) :
    freeDims n (fixedIn ds idx (List.range n)) = freeIn ds idx (List.range n) := by
  unfold freeDims freeIn
  apply List.filter_congr
  intro d hd
  have : d ∈ (fixedIn ds idx (List.range n)).map Prod.fst ↔ isSet ds idx d = true := by
    simp only [fixedIn, List.map_map, Function.comp_def, List.map_id', List.mem_filter]
    exact ⟨fun h => h.2, fun h => ⟨hd, h⟩⟩
  cases h : isSet ds idx d <;> simp_all

theorem fixedOK_in {s ds : List Nat} {idx : List Int} (hp : PartialIdx s idx) (hd : ∀ d ∈ ds, d < s.length) :
    FixedOK (projSizes ds s) (fixedIn ds idx (List.range ds.length)) := by
  constructor
  · simp only [fixedIn, List.map_map, Function.comp_def, List.map_id']
    exact List.nodup_range.filter _
  · intro p hpm
    simp only [fixedIn, List.mem_map, List.mem_filter, List.mem_range] at hpm
    obtain ⟨d, ⟨hlt, hset⟩, rfl⟩ := hpm
    have hset' : idx.getD (ds.getD d 0) 0 > -1 := by simpa [isSet] using hset
    have hds : ds.getD d 0 < s.length := hd _ (getD_mem hlt)
    refine ⟨by simpa [projSizes] using hlt, by simp only []; omega, ?_⟩
    have : (projSizes ds s).getD d 0 = s.getD (ds.getD d 0) 0 := by
      apply projSizes_getD
      rw [List.getElem?_eq_getElem hlt, List.getD_eq_getElem?_getD, List.getElem?_eq_getElem hlt]; rfl
    rw [this]
    rcases hp.2 _ hds with h | h
    · omega
    · exact h.2

theorem writeAt_mem : ∀ {ps : List Nat} {vs idx : List Int} {q : Nat}, ps.length = vs.length → q ∈ ps → q < idx.length →
    ∃ k : Nat, ps[k]? = some q ∧ vs[k]? = some ((writeAt ps vs idx).getD q 0)
  | [], _, _, _, _, h, _ => by simp at h
  | p :: ps, [], _, _, hl, _, _ => by simp at hl
  | p :: ps, v :: vs, idx, q, hl, hm, hq => by
    simp only [writeAt]
    by_cases hmem : q ∈ ps
    · obtain ⟨k, h1, h2⟩ := writeAt_mem (ps := ps) (vs := vs) (idx := idx.set p v) (by simpa using hl) hmem (by simpa using hq)
      exact ⟨k + 1, by simpa using h1, by simpa using h2⟩
    · have hqp : q = p := by simpa [hmem] using hm
      subst hqp
      refine ⟨0, rfl, ?_⟩
      rw [writeAt_getD_not_mem hmem]
      simp [List.getD_eq_getElem?_getD, hq]

/-- the positions of the main index that `sample` assigns -/
def freePos (ds : List Nat) (idx : List Int) : List Nat :=
  (freeIn ds idx (List.range ds.length)).map (fun d => ds.getD d 0)

/-- the array `sample` draws from -/
def freeFn (ds : List Nat) (idx : List Int) (g : List Int → Int) (v : List Int) : Int :=
  g (sliceIdx ds.length (fixedIn ds idx (List.range ds.length)) v)

theorem sample_eq {s ds : List Nat} {idx : List Int} {seq : List U32} (hg : GoodShape s) (hp : PartialIdx s idx)
    (hs : seq.length = s.length) (hd : ∀ d ∈ ds, d < s.length) (hne : ds ≠ []) (g : List Int → Int) (b : Bool) :
    let free := freeIn ds idx (List.range ds.length)
    let L := (free.map (fun e => (e, seq.getD (ds.getD e 0) 0))).reverse
    sample fp (ds.map (fun d : Nat => (d : Int))) seq (arr (projSizes ds s) g) ⟨ds, projSizes ds s, b⟩ idx =
      if free = [] then .ok idx
      else recursiveSample fp ds free.zipIdx L (arr (projSizes free (projSizes ds s)) (freeFn ds idx g)) idx := by
  intro free L
  have hfree : freeIn ds idx (List.range' 0 ds.length) = free := by rw [← List.range_eq_range']
  unfold sample
  rw [split_eq hp.1 hs hd ds.length 0 ds ⟨[], [], []⟩ (by simp) rfl]
  simp only [Out.ok_bind, List.nil_append, List.length_nil]
  rw [hfree]
  by_cases h : free = []
  · rw [if_pos (by simp [h]), if_pos h]; rfl
  · rw [if_neg (by simp [h]), if_neg h]
    have hgp := goodShape_projSizes hg hne hd
    have hok := fixedOK_in hp hd
    have hfd : freeDims (projSizes ds s).length (fixedIn ds idx (List.range ds.length)) = free := by
      rw [show (projSizes ds s).length = ds.length by simp [projSizes]]
      exact freeDims_fixedIn ds idx ds.length
    have hlen := length_freeDims hok
    rw [hfd] at hlen
    have hlt : (fixedIn ds idx (List.range ds.length)).length < (projSizes ds s).length := by
      have := List.length_pos_of_ne_nil h
      omega
    rw [← List.range_eq_range', slice_eq hgp g hok hlt, hfd]
    simp only [Out.ok_bind]
    rw [show (projSizes ds s).length = ds.length by simp [projSizes]]
    rfl

theorem free_facts {s ds : List Nat} {idx : List Int} {seq : List U32} (hg : GoodShape s) (hp : PartialIdx s idx)
    (hd : ∀ d ∈ ds, d < s.length) (h : freeIn ds idx (List.range ds.length) ≠ []) :
    let free := freeIn ds idx (List.range ds.length)
    let L := (free.map (fun e => (e, seq.getD (ds.getD e 0) 0))).reverse
    L ≠ [] ∧ (projSizes free (projSizes ds s)).length = L.length ∧ GoodShape (projSizes free (projSizes ds s)) ∧
      MapOK free.zipIdx L ∧ PosOK ds idx.length L ∧ posOf ds L = (freePos ds idx).reverse := by
  intro free L
  have hlt : ∀ d ∈ free, d < ds.length := by
    intro d hd'
    have := (List.mem_filter.mp hd').1
    simpa using this
  have hnd : free.Nodup := List.nodup_range.filter _
  have hne : ds ≠ [] := by
    rintro rfl; simp [freeIn] at h
  refine ⟨by simpa [L, free] using h, by simp [L, projSizes], ?_, mapOK_all _ _ hnd, ?_, ?_⟩
  · refine goodShape_projSizes (goodShape_projSizes hg hne hd) h ?_
    intro d hd'
    simpa [projSizes] using hlt d hd'
  · intro e he
    simp only [L, List.mem_reverse, List.mem_map] at he
    obtain ⟨d, hdf, rfl⟩ := he
    have hdl := hlt d hdf
    refine ⟨ds[d], List.getElem?_eq_getElem hdl, ?_⟩
    rw [hp.1]
    exact hd _ (List.getElem_mem _)
  · simp [posOf, L, freePos, free, Function.comp_def]

/-- What is known about the index after `sample`. -/
structure Sampled (s ds : List Nat) (idx idx' : List Int) : Prop where
  part : PartialIdx s idx'
  set : ∀ d ∈ ds, 0 ≤ idx'.getD d 0
  keep : ∀ d, 0 ≤ idx.getD d 0 → idx'.getD d 0 = idx.getD d 0
  others : ∀ d, d ∉ ds → idx'.getD d 0 = idx.getD d 0

theorem sampled_write {s ds : List Nat} {idx : List Int} (hp : PartialIdx s idx)
    (hd : ∀ d ∈ ds, d < s.length) {j : List Int}
    (hj : InRange (projSizes (freeIn ds idx (List.range ds.length)) (projSizes ds s)) j) :
    Sampled s ds idx (writeAt (freePos ds idx).reverse j.reverse idx) := by
  have hjl : j.length = (freePos ds idx).length := by
    have := inRange_length hj
    simpa [projSizes, freePos] using this
  have hmemP : ∀ q, q ∈ freePos ds idx → q ∈ ds ∧ ¬ idx.getD q 0 > -1 := by
    intro q hq
    simp only [freePos, freeIn, List.mem_map, List.mem_filter, List.mem_range] at hq
    obtain ⟨d, ⟨hlt, hs⟩, rfl⟩ := hq
    exact ⟨getD_mem hlt, by simpa [isSet] using hs⟩
  have hval : ∀ q ∈ freePos ds idx, 0 ≤ (writeAt (freePos ds idx).reverse j.reverse idx).getD q 0 ∧
      (writeAt (freePos ds idx).reverse j.reverse idx).getD q 0 < (s.getD q 0 : Nat) := by
    intro q hq
    have hq' := hd q (hmemP q hq).1
    obtain ⟨k, h1, h2⟩ := writeAt_mem (ps := (freePos ds idx).reverse) (vs := j.reverse) (idx := idx) (q := q)
      (by simp [hjl]) (by simpa using hq) (by rw [hp.1]; exact hq')
    have hk : k < j.length := by
      by_contra hc
      rw [List.getElem?_eq_none (by simp; omega)] at h2
      cases h2
    have hk2 : k < (freePos ds idx).length := by omega
    rw [List.getElem?_reverse hk] at h2
    rw [List.getElem?_reverse hk2, ← hjl] at h1
    have hk3 : j.length - 1 - k < (freeIn ds idx (List.range ds.length)).length := by
      have : (freePos ds idx).length = (freeIn ds idx (List.range ds.length)).length := by simp [freePos]
      omega
    have hr := inRange_getD hj (d := j.length - 1 - k) (by simpa [projSizes] using hk3)
    have e1 : j.getD (j.length - 1 - k) 0 = (writeAt (freePos ds idx).reverse j.reverse idx).getD q 0 := by
      rw [List.getD_eq_getElem?_getD, h2]; rfl
    have e2 : (projSizes (freeIn ds idx (List.range ds.length)) (projSizes ds s)).getD (j.length - 1 - k) 0 =
        s.getD q 0 := by
      have h3 : (freeIn ds idx (List.range ds.length))[j.length - 1 - k]? =
          some ((freeIn ds idx (List.range ds.length))[j.length - 1 - k]) := List.getElem?_eq_getElem hk3
      rw [projSizes_getD h3]
      have h4 : (freeIn ds idx (List.range ds.length))[j.length - 1 - k] < ds.length := by
        have := (List.mem_filter.mp (List.getElem_mem hk3)).1
        simpa using this
      rw [projSizes_getD (List.getElem?_eq_getElem h4)]
      unfold freePos at h1
      rw [List.getElem?_map, h3] at h1
      simp only [Option.map_some, Option.some.injEq] at h1
      rw [← h1]
      congr 1
      rw [List.getD_eq_getElem?_getD, List.getElem?_eq_getElem h4]; rfl
    rw [e1, e2] at hr
    exact hr
  refine ⟨⟨by simp [hp.1], ?_⟩, ?_, ?_, ?_⟩
  · intro d hd'
    by_cases hm : d ∈ freePos ds idx
    · exact Or.inr (hval d hm)
    · rw [writeAt_getD_not_mem (by simpa using hm)]
      exact hp.2 d hd'
  · intro d hdm
    by_cases hm : d ∈ freePos ds idx
    · exact (hval d hm).1
    · rw [writeAt_getD_not_mem (by simpa using hm)]
      obtain ⟨a, ha, rfl⟩ := List.getElem_of_mem hdm
      by_contra hc
      apply hm
      simp only [freePos, freeIn, List.mem_map, List.mem_filter, List.mem_range]
      refine ⟨a, ⟨ha, ?_⟩, by simp [List.getD_eq_getElem?_getD, ha]⟩
      have e : ds.getD a 0 = ds[a] := by simp [List.getD_eq_getElem?_getD, ha]
      unfold isSet
      rw [e]
      simp only [Bool.not_eq_true', decide_eq_false_iff_not]
      omega
  · intro d h0
    apply writeAt_getD_not_mem
    intro hm
    have := (hmemP d (by simpa using hm)).2
    omega
  · intro d h0
    apply writeAt_getD_not_mem
    intro hm
    exact h0 (hmemP d (by simpa using hm)).1

theorem sampled_self {s ds : List Nat} {idx : List Int} (hp : PartialIdx s idx)
    (h : freeIn ds idx (List.range ds.length) = []) : Sampled s ds idx idx := by
  refine ⟨hp, ?_, fun _ _ => rfl, fun _ _ => rfl⟩
  intro d hd
  obtain ⟨a, ha, rfl⟩ := List.getElem_of_mem hd
  by_contra hc
  have : a ∈ freeIn ds idx (List.range ds.length) := by
    simp only [freeIn, List.mem_filter, List.mem_range]
    refine ⟨ha, ?_⟩
    have e : ds.getD a 0 = ds[a] := by simp [List.getD_eq_getElem?_getD, ha]
    unfold isSet
    rw [e]
    simp only [Bool.not_eq_true', decide_eq_false_iff_not]
    omega
  rw [h] at this
  simp at this

theorem sample_cases {s ds : List Nat} {idx : List Int} {seq : List U32} (hg : GoodShape s) (hp : PartialIdx s idx)
    (hs : seq.length = s.length) (hd : ∀ d ∈ ds, d < s.length) (hne : ds ≠ []) (g : List Int → Int) (b : Bool) :
    sample fp (ds.map (fun d : Nat => (d : Int))) seq (arr (projSizes ds s) g) ⟨ds, projSizes ds s, b⟩ idx =
      .thrown .pickFailed ∨
    ∃ idx', sample fp (ds.map (fun d : Nat => (d : Int))) seq (arr (projSizes ds s) g) ⟨ds, projSizes ds s, b⟩ idx =
      .ok idx' ∧ Sampled s ds idx idx' := by
  have he := sample_eq (fp := fp) hg hp hs hd hne g b
  simp only [] at he
  rw [he]
  by_cases h : freeIn ds idx (List.range ds.length) = []
  · rw [if_pos h]
    exact Or.inr ⟨idx, rfl, sampled_self hp h⟩
  · rw [if_neg h]
    obtain ⟨f1, f2, f3, f4, f5, f6⟩ := free_facts (seq := seq) hg hp hd h
    rcases rec_cases (fp := fp) _ _ (freeFn ds idx g) idx f1 f2 f3 f4 f5 with h1 | ⟨j, hj, h1⟩
    · exact Or.inl h1
    · right
      refine ⟨_, h1, ?_⟩
      rw [f6]
      exact sampled_write hp hd hj

/-- With a compatible cell of positive weight, `sample` succeeds and lands on such a cell. -/
theorem sample_pos (hfp : fp.Good) {s ds : List Nat} {idx : List Int} {seq : List U32} (hg : GoodShape s)
    (hp : PartialIdx s idx) (hs : seq.length = s.length) (hd : ∀ d ∈ ds, d < s.length) (hne : ds ≠ [])
    (hnd : ds.Nodup) {g : List Int → Int} (b : Bool) (hn : ∀ j, InRange (projSizes ds s) j → 0 ≤ g j)
    (hb : ∑ j ∈ cells (projSizes ds s), g j ≤ 2 ^ 53)
    (hj : ∃ j, InRange (projSizes ds s) j ∧ 0 < g j ∧
      ∀ a < ds.length, 0 ≤ idx.getD (ds.getD a 0) 0 → j.getD a 0 = idx.getD (ds.getD a 0) 0) :
    ∃ idx', sample fp (ds.map (fun d : Nat => (d : Int))) seq (arr (projSizes ds s) g) ⟨ds, projSizes ds s, b⟩ idx =
      .ok idx' ∧ Sampled s ds idx idx' ∧ 0 < g (proj ds idx') := by
  have he := sample_eq (fp := fp) hg hp hs hd hne g b
  simp only [] at he
  rw [he]
  obtain ⟨j, hjr, hjp, hjc⟩ := hj
  have hlen : (projSizes ds s).length = ds.length := by simp [projSizes]
  have hjl : j.length = ds.length := by rw [inRange_length hjr, hlen]
  by_cases h : freeIn ds idx (List.range ds.length) = []
  · rw [if_pos h]
    refine ⟨idx, rfl, sampled_self hp h, ?_⟩
    have hset := (sampled_self (s := s) hp h).set
    have : proj ds idx = j := by
      apply ext_getD (by simp [proj, hjl])
      intro a ha
      have ha' : a < ds.length := by simpa [proj] using ha
      rw [hjc a ha' (hset _ (getD_mem ha'))]
      simp [proj, List.getD_eq_getElem?_getD, ha']
    rw [this]; exact hjp
  · rw [if_neg h]
    obtain ⟨f1, f2, f3, f4, f5, f6⟩ := free_facts (seq := seq) hg hp hd h
    have hok := fixedOK_in hp hd
    have hfd := freeDims_fixedIn ds idx ds.length
    have hin : ∀ v, InRange (projSizes (freeIn ds idx (List.range ds.length)) (projSizes ds s)) v →
        InRange (projSizes ds s) (sliceIdx ds.length (fixedIn ds idx (List.range ds.length)) v) := by
      intro v hv
      have := inRange_sliceIdx hok (v := v) (by rw [hlen, hfd]; exact hv)
      rwa [hlen] at this
    have hnn : ∀ v, InRange (projSizes (freeIn ds idx (List.range ds.length)) (projSizes ds s)) v →
        0 ≤ freeFn ds idx g v := fun v hv => hn _ (hin v hv)
    have hfx : ∀ p ∈ fixedIn ds idx (List.range ds.length), j.getD p.1 0 = p.2 := by
      intro p hpm
      simp only [fixedIn, List.mem_map, List.mem_filter, List.mem_range] at hpm
      obtain ⟨a, ⟨ha, hset⟩, rfl⟩ := hpm
      have : idx.getD (ds.getD a 0) 0 > -1 := by simpa [isSet] using hset
      exact hjc a ha (by omega)
    have hsj : sliceIdx ds.length (fixedIn ds idx (List.range ds.length))
        (proj (freeIn ds idx (List.range ds.length)) j) = j := by
      have := sliceIdx_proj hok (w := j) (by rw [hjl, hlen]) hfx
      rwa [hlen, hfd] at this
    have hpj : InRange (projSizes (freeIn ds idx (List.range ds.length)) (projSizes ds s))
        (proj (freeIn ds idx (List.range ds.length)) j) := by
      apply inRange_proj _ hjr
      intro d hd'
      have := (List.mem_filter.mp hd').1
      rw [hlen]; simpa using this
    have hpos : 0 < ∑ v ∈ cells (projSizes (freeIn ds idx (List.range ds.length)) (projSizes ds s)), freeFn ds idx g v := by
      apply Finset.sum_pos' (fun v hv => hnn v (mem_cells.mp hv))
      refine ⟨_, mem_cells.mpr hpj, ?_⟩
      unfold freeFn
      rw [hsj]; exact hjp
    have hle : ∑ v ∈ cells (projSizes (freeIn ds idx (List.range ds.length)) (projSizes ds s)), freeFn ds idx g v ≤
        2 ^ 53 := by
      refine le_trans ?_ hb
      have hinj : Set.InjOn (fun v => sliceIdx ds.length (fixedIn ds idx (List.range ds.length)) v)
          (cells (projSizes (freeIn ds idx (List.range ds.length)) (projSizes ds s))) := by
        intro v hv w hw hvw
        have key : ∀ v, v ∈ cells (projSizes (freeIn ds idx (List.range ds.length)) (projSizes ds s)) →
            proj (freeIn ds idx (List.range ds.length))
              (sliceIdx ds.length (fixedIn ds idx (List.range ds.length)) v) = v := by
          intro v hv
          have := proj_sliceIdx (s := projSizes ds s) (fx := fixedIn ds idx (List.range ds.length)) (v := v)
            (by rw [hlen, hfd]; have := inRange_length (mem_cells.mp hv); simpa [projSizes] using this)
          rwa [hlen, hfd] at this
        rw [← key v hv, ← key w hw]
        simp only [] at hvw
        rw [hvw]
      unfold freeFn
      rw [← Finset.sum_image (f := g) (g := fun v => sliceIdx ds.length (fixedIn ds idx (List.range ds.length)) v) hinj]
      apply Finset.sum_le_sum_of_subset_of_nonneg
      · intro w hw
        simp only [Finset.mem_image] at hw
        obtain ⟨v, hv, rfl⟩ := hw
        exact mem_cells.mpr (hin v (mem_cells.mp hv))
      · intro w hw _
        exact hn w (mem_cells.mp hw)
    obtain ⟨k, hk, hkp, h1⟩ := rec_pos hfp _ _ (freeFn ds idx g) idx f1 f2 f3 f4 f5 hnn hpos hle
    refine ⟨_, h1, ?_, ?_⟩
    · rw [f6]; exact sampled_write hp hd hk
    · have hsm : Sampled s ds idx (writeAt (freePos ds idx).reverse k.reverse idx) := sampled_write hp hd hk
      rw [f6]
      set idx' := writeAt (freePos ds idx).reverse k.reverse idx with hidx'
      have hfree : ∀ d ∈ freeIn ds idx (List.range ds.length), d < ds.length := by
        intro d hd'
        have := (List.mem_filter.mp hd').1
        simpa using this
      have hpn : (freePos ds idx).Nodup := by
        unfold freePos
        apply (List.nodup_range.filter _).map_on
        intro a ha b hb hab
        have ha' := hfree a ha
        have hb' := hfree b hb
        rw [List.getD_eq_getElem?_getD, List.getD_eq_getElem?_getD, List.getElem?_eq_getElem ha',
          List.getElem?_eq_getElem hb'] at hab
        exact (List.Nodup.getElem_inj_iff hnd).mp hab
      have hkl : (freePos ds idx).length = k.length := by
        have := inRange_length hk
        simpa [projSizes, freePos] using this.symm
      have hmw := map_writeAt (ps := (freePos ds idx).reverse) (vs := k.reverse) (idx := idx)
        (List.nodup_reverse.mpr hpn) (by simp [hkl]) (by
          intro p hpm
          simp only [List.mem_reverse, freePos, List.mem_map] at hpm
          obtain ⟨d, hdm, rfl⟩ := hpm
          rw [hp.1]
          exact hd _ (getD_mem (hfree d hdm)))
      have hproj : proj (freeIn ds idx (List.range ds.length)) (proj ds idx') = k := by
        have e1 : proj (freeIn ds idx (List.range ds.length)) (proj ds idx') =
            (freePos ds idx).map (fun p => idx'.getD p 0) := by
          unfold proj freePos
          rw [List.map_map]
          apply List.map_congr_left
          intro d hdm
          have := hfree d hdm
          simp [List.getD_eq_getElem?_getD, this]
        rw [e1]
        have := congrArg List.reverse hmw
        simpa using this
      have hw : sliceIdx ds.length (fixedIn ds idx (List.range ds.length))
          (proj (freeIn ds idx (List.range ds.length)) (proj ds idx')) = proj ds idx' := by
        have := sliceIdx_proj hok (w := proj ds idx') (by simp [proj, projSizes]) (by
          intro p hpm
          simp only [fixedIn, List.mem_map, List.mem_filter, List.mem_range] at hpm
          obtain ⟨a, ⟨ha, hset⟩, rfl⟩ := hpm
          have h0 : idx.getD (ds.getD a 0) 0 > -1 := by simpa [isSet] using hset
          have hk := hsm.keep (ds.getD a 0) (by omega)
          rw [← hk]
          simp [proj, List.getD_eq_getElem?_getD, ha])
        rwa [hlen, hfd] at this
      rw [hproj] at hw
      have : freeFn ds idx g k = g (proj ds idx') := by unfold freeFn; rw [hw]
      rw [← this]
      exact hkp

end HL

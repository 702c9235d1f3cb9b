import Verif.Proof.QISSolve

/-
QIS on problems whose marginals overlap in at most one dimension at a time.
-/

namespace HL
open QIS
variable {fp : FP}

theorem proj_single (a : Nat) (j : List Int) (x : Int) : proj [a] j = [x] ↔ j.getD a 0 = x := by
  simp [proj]

theorem map_fst_remaining (hs : List (List Int)) (P : Prob Int) : (remaining hs P).map Prod.fst = P.map Prod.fst := by
  simp [remaining, Function.comp_def]

/-- a cell of positive weight compatible with what is assigned -/
theorem compatible {s : List Nat} {P L Q : Prob Int} {p : List Nat × (List Int → Int)} {n : Int} (h : ProbOK s P n) (hn : 0 < n)
    (ht : TreeDims (P.map Prod.fst)) (hP : P = L ++ p :: Q) {idx : List Int} (hi : PartialIdx s idx)
    (hset : ∀ q ∈ L, ∀ d ∈ q.1, 0 ≤ idx.getD d 0) (hpos : ∀ q ∈ L, 0 < q.2 (proj q.1 idx))
    (hfrom : ∀ d < s.length, 0 ≤ idx.getD d 0 → ∃ q ∈ L, d ∈ q.1) :
    ∃ j, InRange (projSizes p.1 s) j ∧ 0 < p.2 j ∧
      ∀ a < p.1.length, 0 ≤ idx.getD (p.1.getD a 0) 0 → j.getD a 0 = idx.getD (p.1.getD a 0) 0 := by
  have hp : p ∈ P := by rw [hP]; simp
  obtain ⟨hnd, htree⟩ := ht (L.map Prod.fst) p.1 (Q.map Prod.fst) (by rw [hP]; simp)
  have hdims := (h.dims p hp).2
  have gd : ∀ a < p.1.length, p.1[a]? = some (p.1.getD a 0) := by
    intro a ha
    simp [List.getD_eq_getElem?_getD, ha]
  by_cases hex : ∃ a < p.1.length, 0 ≤ idx.getD (p.1.getD a 0) 0
  · obtain ⟨a, ha, h0⟩ := hex
    have hds := hdims _ (getD_mem (k := a) (l := p.1) ha)
    obtain ⟨q, hq, hdq⟩ := hfrom _ hds h0
    have hqP : q ∈ P := by rw [hP]; simp [hq]
    obtain ⟨b, hb⟩ := List.getElem?_of_mem hdq
    have hrange : idx.getD (p.1.getD a 0) 0 < (s.getD (p.1.getD a 0) 0 : Nat) := by
      rcases hi.2 _ hds with h1 | h1
      · omega
      · exact h1.2
    have hpart := h.partials p hp q hqP a b _ (gd a ha) hb (idx.getD (p.1.getD a 0) 0).toNat (by omega)
    rw [Int.toNat_of_nonneg h0] at hpart
    have hqr : InRange (projSizes q.1 s) (proj q.1 idx) := by
      rw [inRange_iff_getD]
      refine ⟨by simp [proj, projSizes], ?_⟩
      intro c hc
      have hc' : c < q.1.length := by simpa [projSizes] using hc
      have e1 : (proj q.1 idx).getD c 0 = idx.getD (q.1.getD c 0) 0 := by
        simp [proj, List.getD_eq_getElem?_getD, hc']
      have e2 : (projSizes q.1 s).getD c 0 = s.getD (q.1.getD c 0) 0 := by
        simp [projSizes, List.getD_eq_getElem?_getD, hc']
      have hm := getD_mem (k := c) (l := q.1) hc'
      have h1 := hset q hq _ hm
      rw [e1, e2]
      refine ⟨h1, ?_⟩
      rcases hi.2 _ ((h.dims q hqP).2 _ hm) with h2 | h2
      · omega
      · exact h2.2
    have hqsum : 0 < marginalSum (projSizes q.1 s) [b] q.2 [idx.getD (p.1.getD a 0) 0] := by
      unfold marginalSum
      apply Finset.sum_pos' (fun j hj => h.nonneg q hqP j (mem_cells.mp (Finset.mem_filter.mp hj).1))
      refine ⟨proj q.1 idx, ?_, hpos q hq⟩
      rw [Finset.mem_filter, proj_single]
      refine ⟨mem_cells.mpr hqr, ?_⟩
      simp [proj, List.getD_eq_getElem?_getD, hb]
    rw [← hpart] at hqsum
    unfold marginalSum at hqsum
    obtain ⟨j, hj, hjp⟩ := Finset.exists_lt_of_sum_lt (f := fun _ => (0 : Int)) (by simpa using hqsum)
    rw [Finset.mem_filter, proj_single] at hj
    refine ⟨j, mem_cells.mp hj.1, hjp, ?_⟩
    intro a' ha' h0'
    have hds' := hdims _ (getD_mem (k := a') (l := p.1) ha')
    obtain ⟨q', hq', hdq'⟩ := hfrom _ hds' h0'
    have heq := htree (p.1.getD a' 0) (getD_mem ha') (p.1.getD a 0) (getD_mem ha)
      ⟨q'.1, List.mem_map.mpr ⟨q', hq', rfl⟩, hdq'⟩ ⟨q.1, List.mem_map.mpr ⟨q, hq, rfl⟩, hdq⟩
    have haa : a' = a := by
      have e1 := gd a' ha'
      rw [heq, ← gd a ha] at e1
      rw [List.getElem?_eq_getElem ha', List.getElem?_eq_getElem ha] at e1
      exact (List.Nodup.getElem_inj_iff hnd).mp (Option.some.inj e1)
    subst haa
    exact hj.2
  · have htot := h.total p hp
    obtain ⟨j, hj, hjp⟩ := Finset.exists_lt_of_sum_lt (s := cells (projSizes p.1 s)) (f := fun _ => (0 : Int)) (g := p.2)
      (by simp only [Finset.sum_const_zero]; omega)
    refine ⟨j, mem_cells.mp hj, hjp, ?_⟩
    intro a ha h0
    exact absurd ⟨a, ha, h0⟩ hex

theorem sampleAll_tree (hfp : fp.Good) {s : List Nat} {P : Prob Int} {n : Int} (h : ProbOK s P n) (hn : 0 < n) (hb : n ≤ 2 ^ 53)
    (ht : TreeDims (P.map Prod.fst)) {seq : List U32} (hs : seq.length = s.length) : ∀ (Q L : Prob Int) (idx : List Int), P = L ++ Q → PartialIdx s idx →
    (∀ q ∈ L, ∀ d ∈ q.1, 0 ≤ idx.getD d 0) → (∀ q ∈ L, 0 < q.2 (proj q.1 idx)) →
    (∀ d < s.length, 0 ≤ idx.getD d 0 → ∃ q ∈ L, d ∈ q.1) →
    ∃ v, sampleAll fp seq (indicesOf Q) (mapsOf s Q) (marginalsOf s Q) idx = .ok v ∧ ∀ p ∈ P, 0 < p.2 (proj p.1 v)
  | [], L, idx, hP, _, _, hpos, _ => ⟨idx, rfl, by rw [hP, List.append_nil]; exact hpos⟩
  | p :: Q, L, idx, hP, hi, hset, hpos, hfrom => by
    have hp : p ∈ P := by rw [hP]; simp
    have e : sampleAll fp seq (indicesOf (p :: Q)) (mapsOf s (p :: Q)) (marginalsOf s (p :: Q)) idx =
        (sample fp (p.1.map (fun d : Nat => (d : Int))) seq (arr (projSizes p.1 s) p.2) ⟨p.1, projSizes p.1 s, false⟩ idx >>=
          fun idx => sampleAll fp seq (indicesOf Q) (mapsOf s Q) (marginalsOf s Q) idx) := rfl
    obtain ⟨hnd, -⟩ := ht (L.map Prod.fst) p.1 (Q.map Prod.fst) (by rw [hP]; simp)
    obtain ⟨i1, h1, h2, h3⟩ := sample_pos hfp h.good hi hs (h.dims p hp).2 (h.dims p hp).1 hnd false (h.nonneg p hp)
      (by rw [h.total p hp]; exact hb) (compatible h hn ht hP hi hset hpos hfrom)
    rw [e, h1]
    simp only [Out.ok_bind]
    refine sampleAll_tree hfp h hn hb ht hs Q (L ++ [p]) i1 (by simp [hP]) h2.part ?_ ?_ ?_
    · intro q hq d hd
      rcases List.mem_append.mp hq with hq | hq
      · have := hset q hq d hd
        rw [h2.keep d this]; exact this
      · rw [List.mem_singleton] at hq
        subst hq
        exact h2.set d hd
    · intro q hq
      rcases List.mem_append.mp hq with hq | hq
      · have : proj q.1 i1 = proj q.1 idx := by
          unfold proj
          apply List.map_congr_left
          intro d hd
          exact h2.keep d (hset q hq d hd)
        rw [this]; exact hpos q hq
      · rw [List.mem_singleton] at hq
        subst hq
        exact h3
    · intro d hd h0
      by_cases hdp : d ∈ p.1
      · exact ⟨p, by simp, hdp⟩
      · rw [h2.others d hdp] at h0
        obtain ⟨q, hq, hdq⟩ := hfrom d hd h0
        exact ⟨q, by simp [hq], hdq⟩

theorem sum_remaining_one {g : List Int → Int} {w : List Int} (S : Finset (List Int)) :
    ∑ j ∈ S, (g j - (if w = j then 1 else 0)) = ∑ j ∈ S, g j - if w ∈ S then 1 else 0 := by
  rw [Finset.sum_sub_distrib, Finset.sum_ite_eq]

/-- one individual fewer -/
theorem probOK_remaining {s : List Nat} {P : Prob Int} {n : Int} (h : ProbOK s P (n + 1)) {v : List Int} (hv : InRange s v)
    (h1 : ∀ p ∈ P, 0 < p.2 (proj p.1 v)) : ProbOK s (remaining [v] P) n := by
  have ec : ∀ (ds : List Nat) (j : List Int), (([v].countP (fun w => decide (proj ds w = j)) : Nat) : Int) = if proj ds v = j then 1 else 0 := by
    intro ds j
    simp only [List.countP_cons, List.countP_nil, decide_eq_true_eq]
    split <;> simp
  refine ⟨shape_remaining h.toProbShape _, ?_, ?_, ?_⟩
  · intro p hp j hj
    simp only [remaining, List.mem_map] at hp
    obtain ⟨q, hq, rfl⟩ := hp
    simp only [ec]
    split
    · rename_i he
      have := h1 q hq
      rw [he] at this
      omega
    · have := h.nonneg q hq j hj
      omega
  · intro p hp
    simp only [remaining, List.mem_map] at hp
    obtain ⟨q, hq, rfl⟩ := hp
    simp only [ec]
    rw [sum_remaining_one, h.total q hq, if_pos (mem_cells.mpr (inRange_proj (h.dims q hq).2 hv))]
    omega
  · intro p hp q hq a b d ha hb x hx
    simp only [remaining, List.mem_map] at hp hq
    obtain ⟨p, hp, rfl⟩ := hp
    obtain ⟨q, hq, rfl⟩ := hq
    simp only [] at ha hb
    have := h.partials p hp q hq a b d ha hb x hx
    unfold marginalSum at *
    simp only [ec]
    rw [sum_remaining_one, sum_remaining_one, this]
    have e : ∀ (r : List Nat × (List Int → Int)) (c : Nat), r ∈ P → r.1[c]? = some d →
        (proj r.1 v ∈ (cells (projSizes r.1 s)).filter (fun w => proj [c] w = [(x : Int)]) ↔ v.getD d 0 = x) := by
      intro r c hr hc
      rw [Finset.mem_filter, proj_single]
      have : (proj r.1 v).getD c 0 = v.getD d 0 := by
        simp [proj, List.getD_eq_getElem?_getD, hc]
      rw [this]
      exact ⟨fun h => h.2, fun h' => ⟨mem_cells.mpr (inRange_proj (h.dims r hr).2 hv), h'⟩⟩
    simp only [e p a hp ha, e q b hq hb]

/-- One individual of a tree-structured problem, while the Sobol sequence lasts. -/
theorem individual_tree (hfp : fp.Good) {s : List Nat} {P : Prob Int} (h : ProbShape s P) (ht : TreeDims (P.map Prod.fst)) {pop : Int}
    {k : Nat} {hs : List (List Int)} {n : Nat} {x : QIS} (hx : QISAt s P pop hs n x) (hok : ProbOK s (remaining hs P) ((k + 1 : Nat) : Int))
    (hk : k + 1 ≤ 2 ^ 53) (hn : n < 2 ^ 32 - 1) :
    ∃ v x', individual fp (mapsOf s P) x = .ok x' ∧ QISAt s P pop (v :: hs) (n + 1) x' ∧ ProbOK s (remaining (v :: hs) P) k ∧
      x'.conv = x.conv := by
  have hfrom : ∀ d < s.length, 0 ≤ (List.replicate s.length (-1 : Int)).getD d 0 → ∃ q ∈ ([] : Prob Int), d ∈ q.1 := by
    intro d hd h0
    simp [List.getD_eq_getElem?_getD, hd] at h0
  have hdraw : ∀ seq : List U32, seq.length = s.length → ∃ v, Draw fp s P seq hs v ∧ ∀ p ∈ remaining hs P, 0 < p.2 (proj p.1 v) := by
    intro seq hsq
    obtain ⟨v, h1, h2⟩ := sampleAll_tree hfp hok (by push_cast; omega) (by push_cast; omega)
      (by rw [map_fst_remaining]; exact ht) hsq (remaining hs P) [] _ rfl (partial_replicate s) (by simp) (by simp) hfrom
    rw [indicesOf_remaining, mapsOf_remaining] at h1
    exact ⟨v, h1, h2⟩
  rcases individual_cases (fp := fp) h hx with h1 | ⟨h1, -⟩ | ⟨v, x', seq, hv, h1, h2, h3, h4, h5, h6, h7⟩
  · exfalso
    unfold individual at h1
    obtain ⟨sb, seq, a1, a2, a3, -, -⟩ := next_ok hx.sobol (by omega)
    rw [a1] at h1
    simp only [Out.ok_bind] at h1
    have e1 : x.micro.indices = indicesOf P := by rw [hx.micro]; rfl
    have e2 : x.micro.marginals = marginalsOf s (remaining hs P) := by rw [hx.micro]
    have e3 : x.micro.dim = s.length := by rw [hx.micro]; rfl
    have e4 : x.micro.array = arr s (fun v => (hs.count v : Int)) := by rw [hx.micro]
    rw [e1, e2, e3] at h1
    obtain ⟨v, hd, -⟩ := hdraw seq a3.1
    unfold Draw at hd
    rw [hd] at h1
    simp only [Out.ok_bind] at h1
    split at h1
    · cases h1
    · rename_i hneg
      have hv : InRange s v := by
        have hdim : ∀ p ∈ remaining hs P, p.1 ≠ [] ∧ ∀ d ∈ p.1, d < s.length := hok.dims
        have hc := sampleAll_cases (fp := fp) h.good (seq := seq) a3.1 (remaining hs P) _ hdim (partial_replicate s)
        rw [indicesOf_remaining, mapsOf_remaining, hd] at hc
        rcases hc with hc | ⟨v', hc, hp1, hp2, -⟩
        · cases hc
        · injection hc with hc
          subst hc
          refine inRange_of_partial hp1 ?_
          intro d hd
          obtain ⟨p, hp, hdp⟩ := hok.cover d hd
          exact hp2 p hp d hdp
      have hdec := decrement_eq hv (remaining hs P) x.conv (fun p hp => (hok.dims p hp).2)
      rw [mapsOf_remaining] at hdec
      rw [hdec] at h1
      simp only [Out.ok_bind] at h1
      rw [e4, modify_arr hv] at h1
      cases h1
  · omega
  · obtain ⟨v', hd, hpos⟩ := hdraw seq h6.1
    have : v' = v := by
      unfold Draw at hd h7
      rw [h7] at hd
      injection hd with hd
      exact hd.symm
    subst this
    have hok' := probOK_remaining (n := (k : Int)) (by push_cast at hok; exact hok) hv hpos
    rw [remaining_cons] at hok'
    refine ⟨v', x', h1, h2, hok', ?_⟩
    rw [h5, decide_eq_true (show ∀ p ∈ remaining hs P, 1 ≤ p.2 (proj p.1 v') from fun p hp => by have := hpos p hp; omega),
      Bool.and_true]

theorem individuals_tree (hfp : fp.Good) {s : List Nat} {P : Prob Int} (h : ProbShape s P) (ht : TreeDims (P.map Prod.fst)) {pop : Int} : ∀ (k : Nat) {hs : List (List Int)} {n : Nat} {x : QIS},
    QISAt s P pop hs n x → ProbOK s (remaining hs P) k → k ≤ 2 ^ 53 → n + k ≤ 2 ^ 32 - 1 →
    ∃ x', individuals fp (mapsOf s P) k x = .ok x' ∧ x'.conv = x.conv
  | 0, hs, n, x, _, _, _, _ => ⟨x, rfl, rfl⟩
  | k + 1, hs, n, x, hx, hok, hk, hn => by
    unfold individuals
    obtain ⟨v, x', h1, h2, h3, h4⟩ := individual_tree hfp h ht hx hok hk (by omega)
    obtain ⟨x'', g1, g2⟩ := individuals_tree hfp h ht k h2 h3 (by omega) (by omega)
    rw [h1]
    exact ⟨x'', g1, g2.trans h4⟩

/-- When the Sobol sequence is too short, this is what ends the loop. -/
theorem individuals_tree_exhausted (hfp : fp.Good) {s : List Nat} {P : Prob Int} (h : ProbShape s P) (ht : TreeDims (P.map Prod.fst))
    {pop : Int} : ∀ (k : Nat) {hs : List (List Int)} {n : Nat} {x : QIS},
    QISAt s P pop hs n x → ProbOK s (remaining hs P) k → k ≤ 2 ^ 53 → n ≤ 2 ^ 32 - 1 → 2 ^ 32 - 1 < n + k →
    individuals fp (mapsOf s P) k x = .thrown .sobolExhausted
  | 0, hs, n, x, _, _, _, _, _ => by omega
  | k + 1, hs, n, x, hx, hok, hk, hn, hn' => by
    unfold individuals
    by_cases he : n = 2 ^ 32 - 1
    · subst he
      unfold individual
      rw [next_end hx.sobol]
      rfl
    · obtain ⟨v, x', h1, h2, h3, h4⟩ := individual_tree hfp h ht hx hok hk (by omega)
      rw [h1]
      exact individuals_tree_exhausted hfp h ht k h2 h3 (by omega) (by omega) (by omega)

end HL

import Verif.AttachedSpec
import Verif.Proof.QISScript

/-
Further dimensions and marginals after those of a complete problem do not change what QIS draws for it.
-/

namespace HL
open QIS Sobol
variable {fp : FP}

theorem readMapped_append {pos : List Nat} {idx t : List Int} (hp : ∀ p ∈ pos, p < idx.length) (d : Nat) :
    readMapped pos d (idx ++ t) = readMapped pos d idx := by
  unfold readMapped
  cases h : pos[d]? with
  | none => rfl
  | some p =>
    have := hp p (List.mem_of_getElem? h)
    simp only []
    rw [List.getElem?_append_left this]

theorem writeMapped_append {pos : List Nat} {idx t : List Int} (hp : ∀ p ∈ pos, p < idx.length) (d : Nat) (v : Int) :
    writeMapped pos d v (idx ++ t) = (· ++ t) <$> writeMapped pos d v idx := by
  unfold writeMapped
  cases h : pos[d]? with
  | none => rfl
  | some p =>
    have := hp p (List.mem_of_getElem? h)
    simp only []
    rw [if_pos this, if_pos (by simp; omega), List.set_append_left _ _ this]
    rfl

theorem writeMapped_length {pos : List Nat} {d : Nat} {v : Int} {idx w : List Int} (h : writeMapped pos d v idx = .ok w) :
    w.length = idx.length := by
  unfold writeMapped at h
  split at h
  · cases h
  · split at h
    · injection h with h
      rw [← h, List.length_set]
    · cases h

theorem readSeq_append {q q' : List U32} {d : Int} (hd : d < q.length) : readSeq (q ++ q') d = readSeq q d := by
  unfold readSeq
  split
  · rfl
  · rw [List.getElem?_append_left (by omega)]

theorem split_append {q q' : List U32} {pos : List Nat} {idx t : List Int} (hp : ∀ p ∈ pos, p < idx.length) :
    ∀ (dims : List Int) (d : Nat) (a : Split), (∀ e ∈ dims, e < q.length) →
    split (q ++ q') pos (idx ++ t) d dims a = split q pos idx d dims a
  | [], _, _, _ => rfl
  | e :: dims, d, a, h => by
    unfold split
    rw [readMapped_append hp]
    congr 1
    funext i
    split
    · exact split_append hp dims _ _ (fun e he => h e (by simp [he]))
    · rw [readSeq_append (h e (by simp))]
      congr 1
      funext u
      exact split_append hp dims _ _ (fun e he => h e (by simp [he]))

theorem rec_append {pos : List Nat} {sm : List (Nat × Nat)} {t : List Int} : ∀ (L : List (Nat × U32)) (g : NDArray Int) (idx : List Int),
    (∀ p ∈ pos, p < idx.length) →
    recursiveSample fp pos sm L g (idx ++ t) = (· ++ t) <$> recursiveSample fp pos sm L g idx
  | [], _, _, _ => rfl
  | [(d, u)], g, idx, hp => by
    unfold recursiveSample
    simp only [map_bind, writeMapped_append hp]
  | (d, u) :: e :: L, g, idx, hp => by
    unfold recursiveSample
    simp only [map_bind, writeMapped_append hp]
    congr 1; funext r
    congr 1; funext i
    cases hw : writeMapped pos d (i : Int) idx with
    | ok w =>
      have hl := writeMapped_length hw
      have hp' : ∀ p ∈ pos, p < w.length := by rw [hl]; exact hp
      simp only [Out.map_ok, Out.ok_bind, readMapped_append hp']
      congr 1; funext v
      congr 1; funext g'
      exact rec_append (e :: L) g' w hp'
    | thrown _ => rfl
    | ub _ => rfl
    | diverges => rfl

theorem sample_append {dims : List Int} {q q' : List U32} {g : NDArray Int} {m : MappedIndex} {idx t : List Int}
    (hp : ∀ p ∈ m.pos, p < idx.length) (hd : ∀ e ∈ dims, e < q.length) :
    sample fp dims (q ++ q') g m (idx ++ t) = (· ++ t) <$> sample fp dims q g m idx := by
  unfold sample
  rw [split_append hp dims 0 _ hd]
  simp only [map_bind]
  congr 1; funext a
  split
  · rfl
  · simp only [map_bind]
    congr 1; funext f
    exact rec_append _ _ _ hp

theorem rec_length {pos : List Nat} {sm : List (Nat × Nat)} : ∀ (L : List (Nat × U32)) (g : NDArray Int) (idx w : List Int),
    recursiveSample fp pos sm L g idx = .ok w → w.length = idx.length
  | [], _, _, _, h => by cases h
  | [(d, u)], g, idx, w, h => by
    unfold recursiveSample at h
    obtain ⟨r, -, h⟩ := Out.bind_eq_ok.mp h
    obtain ⟨i, -, h⟩ := Out.bind_eq_ok.mp h
    exact writeMapped_length h
  | (d, u) :: e :: L, g, idx, w, h => by
    unfold recursiveSample at h
    obtain ⟨r, -, h⟩ := Out.bind_eq_ok.mp h
    obtain ⟨i, -, h⟩ := Out.bind_eq_ok.mp h
    obtain ⟨w', h1, h⟩ := Out.bind_eq_ok.mp h
    obtain ⟨v, -, h⟩ := Out.bind_eq_ok.mp h
    obtain ⟨g', -, h⟩ := Out.bind_eq_ok.mp h
    rw [rec_length (e :: L) g' w' w h, writeMapped_length h1]

theorem sample_length {dims : List Int} {q : List U32} {g : NDArray Int} {m : MappedIndex} {idx w : List Int}
    (h : sample fp dims q g m idx = .ok w) : w.length = idx.length := by
  unfold sample at h
  obtain ⟨a, -, h⟩ := Out.bind_eq_ok.mp h
  split at h
  · injection h with h
    rw [h]
  · obtain ⟨f, -, h⟩ := Out.bind_eq_ok.mp h
    exact rec_length _ _ _ _ h

theorem projSizes_append {ds s0 s1 : List Nat} (hd : ∀ d ∈ ds, d < s0.length) : projSizes ds (s0 ++ s1) = projSizes ds s0 := by
  unfold projSizes
  refine List.map_congr_left (fun d h => ?_)
  rw [List.getD_append _ _ _ _ (hd d h)]

theorem proj_append {ds : List Nat} {v w : List Int} (hd : ∀ d ∈ ds, d < v.length) : proj ds (v ++ w) = proj ds v := by
  unfold proj
  refine List.map_congr_left (fun d h => ?_)
  rw [List.getD_append _ _ _ _ (hd d h)]

theorem sampleAll_frame {s0 s1 : List Nat} {q q' : List U32} {t : List Int} (hq : q.length = s0.length) :
    ∀ (A : Prob Int) (idx : List Int), idx.length = s0.length → (∀ p ∈ A, ∀ d ∈ p.1, d < s0.length) →
    sampleAll fp (q ++ q') (indicesOf A) (mapsOf (s0 ++ s1) A) (marginalsOf (s0 ++ s1) A) (idx ++ t) =
      (· ++ t) <$> sampleAll fp q (indicesOf A) (mapsOf s0 A) (marginalsOf s0 A) idx
  | [], idx, _, _ => rfl
  | p :: A, idx, hi, h => by
    have hd := h p (by simp)
    show (do
      let idx ← sample fp (p.1.map (fun d : Nat => (d : Int))) (q ++ q') (arr (projSizes p.1 (s0 ++ s1)) p.2) ⟨p.1, projSizes p.1 (s0 ++ s1), false⟩ (idx ++ t)
      sampleAll fp (q ++ q') (indicesOf A) (mapsOf (s0 ++ s1) A) (marginalsOf (s0 ++ s1) A) idx) = (· ++ t) <$> (do
      let idx ← sample fp (p.1.map (fun d : Nat => (d : Int))) q (arr (projSizes p.1 s0) p.2) ⟨p.1, projSizes p.1 s0, false⟩ idx
      sampleAll fp q (indicesOf A) (mapsOf s0 A) (marginalsOf s0 A) idx)
    rw [projSizes_append hd, sample_append (by rw [hi]; exact hd) (by
      intro e he
      obtain ⟨d, hd', rfl⟩ := List.mem_map.mp he
      have := hd d hd'
      omega)]
    cases hw : sample fp (p.1.map (fun d : Nat => (d : Int))) q (arr (projSizes p.1 s0) p.2) ⟨p.1, projSizes p.1 s0, false⟩ idx with
    | ok w =>
      simp only [Out.map_ok, Out.ok_bind]
      exact sampleAll_frame hq A w ((sample_length hw).trans hi) (fun p hp => h p (by simp [hp]))
    | thrown _ => rfl
    | ub _ => rfl
    | diverges => rfl

theorem sampleAll_concat {s : List Nat} {q : List U32} : ∀ (A B : Prob Int) (idx : List Int),
    sampleAll fp q (indicesOf (A ++ B)) (mapsOf s (A ++ B)) (marginalsOf s (A ++ B)) idx =
      sampleAll fp q (indicesOf A) (mapsOf s A) (marginalsOf s A) idx >>=
        sampleAll fp q (indicesOf B) (mapsOf s B) (marginalsOf s B)
  | [], B, idx => rfl
  | p :: A, B, idx => by
    show (do
      let idx ← sample fp (p.1.map (fun d : Nat => (d : Int))) q (arr (projSizes p.1 s) p.2) ⟨p.1, projSizes p.1 s, false⟩ idx
      sampleAll fp q (indicesOf (A ++ B)) (mapsOf s (A ++ B)) (marginalsOf s (A ++ B)) idx) = (do
      let idx ← sample fp (p.1.map (fun d : Nat => (d : Int))) q (arr (projSizes p.1 s) p.2) ⟨p.1, projSizes p.1 s, false⟩ idx
      sampleAll fp q (indicesOf A) (mapsOf s A) (marginalsOf s A) idx) >>= sampleAll fp q (indicesOf B) (mapsOf s B) (marginalsOf s B)
    rw [bind_assoc]
    congr 1; funext w
    exact sampleAll_concat A B w

theorem remaining_concat (hs : List (List Int)) (A B : Prob Int) : remaining hs (A ++ B) = remaining hs A ++ remaining hs B := by
  simp [remaining]

theorem remaining_take {k : Nat} {A : Prob Int} (hd : ∀ p ∈ A, ∀ d ∈ p.1, d < k) {hs : List (List Int)} :
    remaining hs A = remaining (hs.map (List.take k)) A := by
  unfold remaining
  refine List.map_congr_left (fun p hp => ?_)
  congr 1
  funext j
  rw [List.countP_map]
  have : ∀ v : List Int, proj p.1 (v.take k) = proj p.1 v := by
    intro v
    unfold proj
    refine List.map_congr_left (fun d h => ?_)
    have := hd p hp d h
    simp [List.getD_eq_getElem?_getD, List.getElem?_take, this]
  simp [Function.comp_def, this]

/-- the leading coordinates of an individual are what would be drawn without the others -/
theorem draw_added {s0 s1 : List Nat} {A B : Prob Int} (hA : ProbShape s0 A) (h : ProbShape (s0 ++ s1) (A ++ B)) {q : List U32}
    (hq : q.length = (s0 ++ s1).length) {hs : List (List Int)} {v : List Int} (hv : Draw fp (s0 ++ s1) (A ++ B) q hs v) :
    Draw fp s0 A (q.take s0.length) (hs.map (List.take s0.length)) (v.take s0.length) := by
  have hdA : ∀ p ∈ A, ∀ d ∈ p.1, d < s0.length := fun p hp => (hA.dims p hp).2
  have hdR : ∀ p ∈ remaining hs A, ∀ d ∈ p.1, d < s0.length := by
    intro p hp
    obtain ⟨p', hp', rfl⟩ := List.mem_map.mp hp
    exact hdA p' hp'
  have hle : s0.length ≤ q.length := by rw [hq, List.length_append]; omega
  have hqt : (q.take s0.length).length = s0.length := by rw [List.length_take]; omega
  unfold Draw at hv ⊢
  rw [← indicesOf_remaining hs, ← mapsOf_remaining (s0 ++ s1) hs, remaining_concat, sampleAll_concat, ← List.take_append_drop s0.length q,
    List.length_append, List.replicate_add, sampleAll_frame hqt (remaining hs A) _ (by simp) hdR] at hv
  rw [← remaining_take hdA, ← indicesOf_remaining hs, ← mapsOf_remaining s0 hs]
  obtain ⟨w, h1, h2⟩ := Out.bind_eq_ok.mp hv
  have hc := sampleAll_cases (fp := fp) hA.good (seq := q.take s0.length) hqt (remaining hs A) (List.replicate s0.length (-1)) (by
    intro p hp
    obtain ⟨p', hp', rfl⟩ := List.mem_map.mp hp
    exact hA.dims p' hp') (partial_replicate s0)
  rcases hc with hc | ⟨w0, hc, c1, c2, -⟩
  · rw [hc] at h1; cases h1
  · rw [hc]
    rw [hc] at h1
    simp only [Out.map_ok] at h1
    injection h1 with h1
    subst h1
    have hl0 : w0.length = s0.length := c1.1
    have hpw : PartialIdx (s0 ++ s1) (w0 ++ List.replicate s1.length (-1)) := by
      refine ⟨by simp [hl0], fun d hd => ?_⟩
      by_cases hds : d < s0.length
      · rw [List.getD_append _ _ _ _ (by omega), List.getD_append _ _ _ _ hds]
        exact c1.2 d hds
      · left
        rw [List.getD_append_right _ _ _ _ (by omega)]
        rw [List.length_append] at hd
        simp [List.getD_eq_getElem?_getD, List.getElem?_replicate, hl0, show d - s0.length < s1.length by omega]
    rw [List.take_append_drop] at h2
    have hc2 := sampleAll_cases (fp := fp) h.good (seq := q) hq (remaining hs B) _ (by
      intro p hp
      obtain ⟨p', hp', rfl⟩ := List.mem_map.mp hp
      exact h.dims p' (by simp [hp'])) hpw
    rcases hc2 with hc2 | ⟨w2, hc2, d1, -, d3⟩
    · rw [hc2] at h2; cases h2
    · rw [hc2] at h2
      injection h2 with h2
      subst h2
      congr 1
      have hl2 : w2.length = (s0 ++ s1).length := d1.1
      rw [List.length_append] at hl2
      refine List.ext_getElem (by rw [List.length_take]; omega) (fun d e1 e2 => ?_)
      have hds : d < s0.length := by omega
      have hnn : 0 ≤ w0.getD d 0 := by
        obtain ⟨p, hp, hdp⟩ := hA.cover d hds
        exact c2 _ (List.mem_map.mpr ⟨p, hp, rfl⟩) d hdp
      have := d3 d (by rw [List.getD_append _ _ _ _ (by omega)]; exact hnn)
      rw [List.getD_append _ _ _ _ (by omega), List.getD_eq_getElem _ _ (by omega), List.getD_eq_getElem _ _ (by omega)] at this
      rw [List.getElem_take, this]

end HL

namespace HL
open QIS Sobol
variable {fp : FP}

theorem attached_remaining {A B : Prob Int} (h : Attached A B) (hs : List (List Int)) : Attached (remaining hs A) (remaining hs B) := by
  intro C p D he
  unfold remaining at he
  obtain ⟨C', pD, rfl, rfl, h2⟩ := List.map_eq_append_iff.mp he
  obtain ⟨p', D', rfl, rfl, rfl⟩ := List.map_eq_cons_iff.mp h2
  obtain ⟨h3, h4⟩ := h C' p' D' rfl
  have key : ∀ d, (∃ q ∈ remaining hs A ++ C'.map (fun p => (p.1, fun j => p.2 j - (hs.countP (fun v => proj p.1 v = j) : Int))), d ∈ q.1) →
      ∃ q ∈ A ++ C', d ∈ q.1 := by
    rintro d ⟨q, hq, hd⟩
    rcases List.mem_append.mp hq with hq | hq
    · obtain ⟨q', hq', rfl⟩ := List.mem_map.mp hq
      exact ⟨q', by simp [hq'], hd⟩
    · obtain ⟨q', hq', rfl⟩ := List.mem_map.mp hq
      exact ⟨q', by simp [hq'], hd⟩
  exact ⟨h3, fun d hd e he h5 h6 => h4 d hd e he (key d h5) (key e h6)⟩

theorem compatible_at {s : List Nat} {P L Q : Prob Int} {p : List Nat × (List Int → Int)} {n : Int} (h : ProbOK s P n) (hn : 0 < n)
    (hnd : p.1.Nodup) (htree : ∀ d ∈ p.1, ∀ e ∈ p.1, (∃ q ∈ L, d ∈ q.1) → (∃ q ∈ L, e ∈ q.1) → d = e)
    (hP : P = L ++ p :: Q) {idx : List Int} (hi : PartialIdx s idx)
    (hset : ∀ q ∈ L, ∀ d ∈ q.1, 0 ≤ idx.getD d 0) (hpos : ∀ q ∈ L, 0 < q.2 (proj q.1 idx))
    (hfrom : ∀ d < s.length, 0 ≤ idx.getD d 0 → ∃ q ∈ L, d ∈ q.1) :
    ∃ j, InRange (projSizes p.1 s) j ∧ 0 < p.2 j ∧
      ∀ a < p.1.length, 0 ≤ idx.getD (p.1.getD a 0) 0 → j.getD a 0 = idx.getD (p.1.getD a 0) 0 := by
  have hp : p ∈ P := by rw [hP]; simp
  have hdims := (h.dims p hp).2
  have gd : ∀ a < p.1.length, p.1[a]? = some (p.1.getD a 0) := by
    intro a ha
    simp [List.getD_eq_getElem?_getD, ha]
  by_cases hex : ∃ a < p.1.length, 0 ≤ idx.getD (p.1.getD a 0) 0
  · obtain ⟨a, ha, h0⟩ := hex
    have hds := hdims _ (getD_mem (k := a) (l := p.1) ha)
    obtain ⟨q, hq, hdq⟩ := hfrom _ hds h0
    have hqP : q ∈ P := by rw [hP]; simp [hq]
    obtain ⟨b, hb⟩ := List.getElem?_of_mem hdq
    have hrange : idx.getD (p.1.getD a 0) 0 < (s.getD (p.1.getD a 0) 0 : Nat) := by
      rcases hi.2 _ hds with h1 | h1
      · omega
      · exact h1.2
    have hpart := h.partials p hp q hqP a b _ (gd a ha) hb (idx.getD (p.1.getD a 0) 0).toNat (by omega)
    rw [Int.toNat_of_nonneg h0] at hpart
    have hqr : InRange (projSizes q.1 s) (proj q.1 idx) := by
      rw [inRange_iff_getD]
      refine ⟨by simp [proj, projSizes], ?_⟩
      intro c hc
      have hc' : c < q.1.length := by simpa [projSizes] using hc
      have e1 : (proj q.1 idx).getD c 0 = idx.getD (q.1.getD c 0) 0 := by
        simp [proj, List.getD_eq_getElem?_getD, hc']
      have e2 : (projSizes q.1 s).getD c 0 = s.getD (q.1.getD c 0) 0 := by
        simp [projSizes, List.getD_eq_getElem?_getD, hc']
      have hm := getD_mem (k := c) (l := q.1) hc'
      have h1 := hset q hq _ hm
      rw [e1, e2]
      refine ⟨h1, ?_⟩
      rcases hi.2 _ ((h.dims q hqP).2 _ hm) with h2 | h2
      · omega
      · exact h2.2
    have hqsum : 0 < marginalSum (projSizes q.1 s) [b] q.2 [idx.getD (p.1.getD a 0) 0] := by
      unfold marginalSum
      apply Finset.sum_pos' (fun j hj => h.nonneg q hqP j (mem_cells.mp (Finset.mem_filter.mp hj).1))
      refine ⟨proj q.1 idx, ?_, hpos q hq⟩
      rw [Finset.mem_filter, proj_single]
      refine ⟨mem_cells.mpr hqr, ?_⟩
      simp [proj, List.getD_eq_getElem?_getD, hb]
    rw [← hpart] at hqsum
    unfold marginalSum at hqsum
    obtain ⟨j, hj, hjp⟩ := Finset.exists_lt_of_sum_lt (f := fun _ => (0 : Int)) (by simpa using hqsum)
    rw [Finset.mem_filter, proj_single] at hj
    refine ⟨j, mem_cells.mp hj.1, hjp, ?_⟩
    intro a' ha' h0'
    have hds' := hdims _ (getD_mem (k := a') (l := p.1) ha')
    have heq := htree (p.1.getD a' 0) (getD_mem ha') (p.1.getD a 0) (getD_mem ha) (hfrom _ hds' h0') ⟨q, hq, hdq⟩
    have haa : a' = a := by
      have e1 := gd a' ha'
      rw [heq, ← gd a ha] at e1
      rw [List.getElem?_eq_getElem ha', List.getElem?_eq_getElem ha] at e1
      exact (List.Nodup.getElem_inj_iff hnd).mp (Option.some.inj e1)
    subst haa
    exact hj.2
  · have htot := h.total p hp
    obtain ⟨j, hj, hjp⟩ := Finset.exists_lt_of_sum_lt (s := cells (projSizes p.1 s)) (f := fun _ => (0 : Int)) (g := p.2)
      (by simp only [Finset.sum_const_zero]; omega)
    refine ⟨j, mem_cells.mp hj, hjp, ?_⟩
    intro a ha h0
    exact absurd ⟨a, ha, h0⟩ hex

theorem sampleAll_attached (hfp : fp.Good) {s : List Nat} {P A B : Prob Int} {n : Int} (h : ProbOK s P n) (hn : 0 < n) (hb : n ≤ 2 ^ 53)
    (hAB : P = A ++ B) (ht : Attached A B) {seq : List U32} (hs : seq.length = s.length) : ∀ (Q C : Prob Int) (idx : List Int), B = C ++ Q →
    PartialIdx s idx →
    (∀ q ∈ A ++ C, ∀ d ∈ q.1, 0 ≤ idx.getD d 0) → (∀ q ∈ A ++ C, 0 < q.2 (proj q.1 idx)) →
    (∀ d < s.length, 0 ≤ idx.getD d 0 → ∃ q ∈ A ++ C, d ∈ q.1) →
    ∃ v, sampleAll fp seq (indicesOf Q) (mapsOf s Q) (marginalsOf s Q) idx = .ok v ∧ ∀ p ∈ P, 0 < p.2 (proj p.1 v)
  | [], C, idx, hB, _, _, hpos, _ => ⟨idx, rfl, by rw [hAB, hB, List.append_nil]; exact hpos⟩
  | p :: Q, C, idx, hB, hi, hset, hpos, hfrom => by
    have hP : P = (A ++ C) ++ p :: Q := by rw [hAB, hB, List.append_assoc]
    have hp : p ∈ P := by rw [hP]; simp
    have e : sampleAll fp seq (indicesOf (p :: Q)) (mapsOf s (p :: Q)) (marginalsOf s (p :: Q)) idx =
        (sample fp (p.1.map (fun d : Nat => (d : Int))) seq (arr (projSizes p.1 s) p.2) ⟨p.1, projSizes p.1 s, false⟩ idx >>=
          fun idx => sampleAll fp seq (indicesOf Q) (mapsOf s Q) (marginalsOf s Q) idx) := rfl
    obtain ⟨hnd, htr⟩ := ht C p Q hB
    obtain ⟨i1, h1, h2, h3⟩ := sample_pos hfp h.good hi hs (h.dims p hp).2 (h.dims p hp).1 hnd false (h.nonneg p hp)
      (by rw [h.total p hp]; exact hb) (compatible_at h hn hnd htr hP hi hset hpos hfrom)
    rw [e, h1]
    simp only [Out.ok_bind]
    refine sampleAll_attached hfp h hn hb hAB ht hs Q (C ++ [p]) i1 (by simp [hB]) h2.part ?_ ?_ ?_
    · intro q hq d hd
      rw [← List.append_assoc] at hq
      rcases List.mem_append.mp hq with hq | hq
      · have := hset q hq d hd
        rw [h2.keep d this]; exact this
      · rw [List.mem_singleton] at hq
        subst hq
        exact h2.set d hd
    · intro q hq
      rw [← List.append_assoc] at hq
      rcases List.mem_append.mp hq with hq | hq
      · have : proj q.1 i1 = proj q.1 idx := by
          unfold proj
          apply List.map_congr_left
          intro d hd
          exact h2.keep d (hset q hq d hd)
        rw [this]; exact hpos q hq
      · rw [List.mem_singleton] at hq
        subst hq
        exact h3
    · intro d hd h0
      by_cases hdp : d ∈ p.1
      · exact ⟨p, by simp, hdp⟩
      · rw [h2.others d hdp] at h0
        obtain ⟨q, hq, hdq⟩ := hfrom d hd h0
        refine ⟨q, ?_, hdq⟩
        rw [← List.append_assoc]
        exact List.mem_append_left _ hq

/-- the draw for the larger problem -/
theorem draw_attached (hfp : fp.Good) {s0 s1 : List Nat} {A B : Prob Int} (hA : ProbShape s0 A) (h : ProbShape (s0 ++ s1) (A ++ B))
    (ht : Attached A B) {q : List U32} (hq : q.length = (s0 ++ s1).length) {hs : List (List Int)} {k : Nat}
    (hok : ProbOK (s0 ++ s1) (remaining hs (A ++ B)) ((k + 1 : Nat) : Int)) (hk : k + 1 ≤ 2 ^ 53) {w : List Int}
    (hw : Draw fp s0 A (q.take s0.length) (hs.map (List.take s0.length)) w)
    (hpos : ∀ p ∈ remaining (hs.map (List.take s0.length)) A, 0 < p.2 (proj p.1 w)) :
    ∃ v, Draw fp (s0 ++ s1) (A ++ B) q hs v ∧ ∀ p ∈ remaining hs (A ++ B), 0 < p.2 (proj p.1 v) := by
  have hdA : ∀ p ∈ A, ∀ d ∈ p.1, d < s0.length := fun p hp => (hA.dims p hp).2
  have hdR : ∀ p ∈ remaining hs A, ∀ d ∈ p.1, d < s0.length := by
    intro p hp
    obtain ⟨p', hp', rfl⟩ := List.mem_map.mp hp
    exact hdA p' hp'
  have hle : s0.length ≤ q.length := by rw [hq, List.length_append]; omega
  have hqt : (q.take s0.length).length = s0.length := by rw [List.length_take]; omega
  unfold Draw at hw ⊢
  rw [← remaining_take hdA, ← indicesOf_remaining hs, ← mapsOf_remaining s0 hs] at hw
  rw [← remaining_take hdA] at hpos
  have hc := sampleAll_cases (fp := fp) hA.good (seq := q.take s0.length) hqt (remaining hs A) (List.replicate s0.length (-1)) (by
    intro p hp
    obtain ⟨p', hp', rfl⟩ := List.mem_map.mp hp
    exact hA.dims p' hp') (partial_replicate s0)
  rw [hw] at hc
  rcases hc with hc | ⟨w0, hc, c1, c2, -⟩
  · cases hc
  · injection hc with hc
    subst hc
    have hl0 : w.length = s0.length := c1.1
    have hget : ∀ d < s0.length, (w ++ List.replicate s1.length (-1)).getD d 0 = w.getD d 0 := fun d hd =>
      List.getD_append _ _ _ _ (by omega)
    have hpw : PartialIdx (s0 ++ s1) (w ++ List.replicate s1.length (-1)) := by
      refine ⟨by simp [hl0], fun d hd => ?_⟩
      by_cases hds : d < s0.length
      · rw [hget d hds, List.getD_append _ _ _ _ hds]
        exact c1.2 d hds
      · left
        rw [List.getD_append_right _ _ _ _ (by omega)]
        rw [List.length_append] at hd
        simp [List.getD_eq_getElem?_getD, List.getElem?_replicate, hl0, show d - s0.length < s1.length by omega]
    rw [remaining_concat] at hok
    obtain ⟨v, g1, g2⟩ := sampleAll_attached hfp hok (by push_cast; omega) (by push_cast; omega) rfl
      (attached_remaining ht hs) hq (remaining hs B) [] _ rfl hpw
      (by
        intro p hp d hd
        rw [List.append_nil] at hp
        rw [hget d (hdR p hp d hd)]
        exact c2 p hp d hd)
      (by
        intro p hp
        rw [List.append_nil] at hp
        rw [proj_append (by rw [hl0]; exact hdR p hp)]
        exact hpos p hp)
      (by
        intro d hd h0
        by_cases hds : d < s0.length
        · obtain ⟨p, hp, hdp⟩ := hA.cover d hds
          refine ⟨(p.1, fun j => p.2 j - (hs.countP (fun v => proj p.1 v = j) : Int)), ?_, hdp⟩
          rw [List.append_nil]
          exact List.mem_map.mpr ⟨p, hp, rfl⟩
        · exfalso
          rw [List.getD_append_right _ _ _ _ (by omega)] at h0
          rw [List.length_append] at hd
          simp [List.getD_eq_getElem?_getD, List.getElem?_replicate, hl0, show d - s0.length < s1.length by omega] at h0)
    refine ⟨v, ?_, by rw [remaining_concat]; exact g2⟩
    rw [← indicesOf_remaining hs, ← mapsOf_remaining (s0 ++ s1) hs, remaining_concat, sampleAll_concat, List.length_append,
      List.replicate_add]
    have hf := sampleAll_frame (fp := fp) (s1 := s1) (q' := q.drop s0.length) (t := List.replicate s1.length (-1)) hqt (remaining hs A)
      (List.replicate s0.length (-1)) (by simp) hdR
    rw [List.take_append_drop] at hf
    rw [hf, hw]
    simp only [Out.map_ok, Out.ok_bind]
    exact g1

theorem pointAt_take {d d' n : Nat} (hd : d' ≤ d) {q : List U32} (h : PointAt d n q) : PointAt d' n (q.take d') := by
  refine ⟨by rw [List.length_take, h.1]; omega, fun i hi m hm => ?_⟩
  rw [← h.2 i (by omega) m hm]
  simp [List.getD_eq_getElem?_getD, List.getElem?_take, hi]

theorem unspent_step {P : Prob Int} {v : List Int} {hs : List (List Int)} : ∀ {ts : List (List Int)}, Unspent P (ts ++ v :: hs) →
    ∀ p ∈ remaining hs P, 0 < p.2 (proj p.1 v)
  | [], h => fun p hp => by have := (unspent_cons.mp h).2 p hp; omega
  | t :: ts, h => unspent_step (unspent_cons.mp h).1

theorem individuals_attached (hfp : fp.Good) {s0 s1 : List Nat} {A B : Prob Int} (hA : ProbShape s0 A)
    (h : ProbShape (s0 ++ s1) (A ++ B)) (ht : Attached A B) (hd : (s0 ++ s1).length ≤ 1111) {pop : Int} {c : Nat} {us : List (List Int)}
    (hn : c + us.length ≤ 2 ^ 32 - 1)
    (hus : ∀ i < us.length, ∀ seq, PointAt s0.length (c + i + 1) seq → Draw fp s0 A seq (us.take i).reverse (us.getD i []))
    (hun : Unspent A us.reverse) :
    ∀ (k i : Nat) {hs : List (List Int)} {x : QIS}, i + k = us.length → hs.map (List.take s0.length) = (us.take i).reverse →
    QISAt (s0 ++ s1) (A ++ B) pop hs (c + i) x → ProbOK (s0 ++ s1) (remaining hs (A ++ B)) k →
    ∃ x', individuals fp (mapsOf (s0 ++ s1) (A ++ B)) k x = .ok x' ∧ x'.conv = x.conv
  | 0, _, _, x, _, _, _, _ => ⟨x, rfl, rfl⟩
  | k + 1, i, hs, x, hi, hm, hx, hok => by
    unfold individuals
    have hlt : i < us.length := by omega
    have htake : (us.take (i + 1)).reverse = us.getD i [] :: (us.take i).reverse := by
      rw [List.take_succ_eq_append_getElem hlt, List.reverse_append, List.getD_eq_getElem _ _ hlt]
      rfl
    have hpos : ∀ p ∈ remaining (us.take i).reverse A, 0 < p.2 (proj p.1 (us.getD i [])) := by
      have : us.reverse = (us.drop (i + 1)).reverse ++ us.getD i [] :: (us.take i).reverse := by
        rw [← htake, ← List.reverse_append, List.take_append_drop]
      rw [this] at hun
      exact unspent_step hun
    have hdraw : ∀ seq, PointAt (s0 ++ s1).length (c + i + 1) seq →
        ∃ v, Draw fp (s0 ++ s1) (A ++ B) seq hs v ∧ ∀ p ∈ remaining hs (A ++ B), 0 < p.2 (proj p.1 v) := by
      intro seq hseq
      refine draw_attached hfp hA h ht hseq.1 hok (by omega) (w := us.getD i []) ?_ ?_
      · rw [hm]
        exact hus i hlt _ (pointAt_take (by rw [List.length_append]; omega) hseq)
      · rw [hm]
        exact hpos
    obtain ⟨sb, seq, a1, a2, a3, -, -⟩ := next_ok hx.sobol (by omega)
    obtain ⟨v, hv, hvp⟩ := hdraw seq a3
    obtain ⟨x', h1, h2⟩ := individual_of_point h hd hx (by omega) (v := v)
      (fun seq' h' => by rw [pointAt_unique hd h' a3]; exact hv)
    rcases individual_cases (fp := fp) h hx with h3 | ⟨-, h3⟩ | ⟨v', x'', seq', hr, h3, -, -, -, h4, h5, h6⟩
    · rw [h3] at h1; cases h1
    · rw [h3] at h1; cases h1
    · rw [h3] at h1
      injection h1 with h1
      subst h1
      have hvv : v' = v := by
        rw [pointAt_unique hd h5 a3] at h6
        unfold Draw at h6 hv
        rw [hv] at h6
        injection h6 with h6
        exact h6.symm
      subst hvv
      have hok' := probOK_remaining (n := (k : Int)) (by push_cast at hok; exact hok) hr hvp
      rw [remaining_cons] at hok'
      rw [h3]
      simp only [Out.ok_bind]
      obtain ⟨x3, g1, g2⟩ := individuals_attached hfp hA h ht hd hn hus hun k (i + 1) (hs := v' :: hs) (by omega) (by
        rw [htake, List.map_cons, hm]
        congr 1
        have e1 := draw_added hA h a3.1 hv
        have e2 := hus i hlt _ (pointAt_take (d' := s0.length) (by rw [List.length_append]; omega) a3)
        rw [hm] at e1
        unfold Draw at e1 e2
        rw [e1] at e2
        injection e2) h2 hok'
      refine ⟨x3, g1, g2.trans ?_⟩
      rw [h4, decide_eq_true (show ∀ p ∈ remaining hs (A ++ B), 1 ≤ p.2 (proj p.1 v') from fun p hp => by have := hvp p hp; omega),
        Bool.and_true]

/-- attaching marginals to a problem that `qis` solves -/
theorem run_attached (hfp : fp.Good) (lm : Libm) {s0 s1 : List Nat} {A B : Prob Int} {pop : Int} (hA : ProbOK s0 A pop)
    (h : ProbOK (s0 ++ s1) (A ++ B) pop) (hpop : pop < 2 ^ 52) (ht : Attached A B) (hd : (s0 ++ s1).length ≤ 1111) {skips : Int} {y : QIS}
    (hy : QIS.run fp lm (indicesOf A) (marginalsOf s0 A) skips = .ok y) (hconv : y.conv = true) :
    ∃ x, QIS.run fp lm (indicesOf (A ++ B)) (marginalsOf (s0 ++ s1) (A ++ B)) skips = .ok x ∧ x.conv = true := by
  obtain ⟨c, ws, hd0, hc, hS⟩ := run_ok hfp hA hpop hy
  have h0 := h.pop_nonneg
  have hun := hS.conv.mp hconv
  have hbound := hS.at_.sobol.bound
  have hlen : ws.reverse.length = pop.toNat := by rw [List.length_reverse, hS.size]
  have hus : ∀ i < ws.reverse.length, ∀ seq, PointAt s0.length (c + i + 1) seq →
      Draw fp s0 A seq (ws.reverse.take i).reverse (ws.reverse.getD i []) := by
    intro i hi seq hseq
    obtain ⟨seq', v, b1, b2, b3⟩ := hS.points i (by omega)
    rw [pointAt_unique hd0 hseq b2, List.getD_eq_getElem?_getD, b1]
    exact b3
  rcases run_eq hfp lm h hpop skips with ⟨h1, -⟩ | ⟨-, h1, -⟩ | ⟨c', x0, h1, h2, -, h3, -, -, h4⟩
  · omega
  · have := skipCount_diverges (n := (skips % 2 ^ 32).toNat) (by omega)
    rw [this] at hc; cases hc
  · rw [hc] at h2
    injection h2 with h2
    subst h2
    obtain ⟨x1, hb, g1, g2, g3, -⟩ := begin_ok h3 false
    rw [h4]
    have hs := h.toProbShape
    have e0 : remaining [] (A ++ B) = A ++ B := by simp [remaining]
    simp only [Bool.false_eq_true, if_false] at g1
    obtain ⟨x2, g4, g5⟩ := individuals_attached hfp hA.toProbShape hs ht hd (c := c) (us := ws.reverse) (by rw [hlen]; omega) hus
      (by rw [List.reverse_reverse]; exact hun) pop.toNat 0 (by omega) (by simp) g1 (by rw [e0, Int.toNat_of_nonneg h0]; exact h)
    unfold QIS.solve
    rw [hb]
    simp only [Out.ok_bind]
    have e1 : x1.micro.array.sizes = s0 ++ s1 := by rw [g1.micro]; rfl
    have e2 : x1.micro.indices = indicesOf (A ++ B) := by rw [g1.micro]; rfl
    have e3 : x1.micro.population = pop := by rw [g1.micro]; rfl
    rw [e1, e2, e3, index_new hs.good.1]
    simp only [Out.ok_bind]
    have hm := mappings_ok (s := s0 ++ s1) (P := A ++ B) (fun p hp => (h.dims p hp).2)
    rw [show (zerosI (s0 ++ s1).length) = List.replicate (s0 ++ s1).length 0 from rfl, hm]
    simp only [Out.ok_bind]
    have hc1 : x1.conv = true ↔ Unspent (A ++ B) [] := by simp [g3, Unspent]
    rcases individuals_cases (fp := fp) hs pop.toNat g1 hc1 with f | ⟨-, f⟩ | ⟨vs, seqs, x3, -, -, -, f, f1, f2, -, -, -⟩
    · rw [f] at g4; cases g4
    · rw [f] at g4; cases g4
    · rw [f] at g4
      injection g4 with g4
      subst g4
      unfold mapsOf at f
      rw [f]
      simp only [Out.ok_bind]
      have ha : x3.micro.array = arr (s0 ++ s1) (fun v => ((vs.reverse ++ []).count v : Int)) := by rw [f1.micro]
      rw [stats_ok lm hs.good ha (f2.trans g2)]
      exact ⟨_, rfl, g5.trans g3⟩

theorem count_take {s0 s1 : List Nat} {v : List Int} (hv : v.length = s0.length) : ∀ {vs : List (List Int)},
    (∀ u ∈ vs, InRange (s0 ++ s1) u) →
    ((vs.map (List.take s0.length)).count v : Int) = ∑ w ∈ cells s1, (vs.count (v ++ w) : Int)
  | [], _ => by simp
  | u :: vs, h => by
    have ih := count_take hv (vs := vs) (fun u hu => h u (by simp [hu]))
    have hu := h u (by simp)
    have hl := inRange_length hu
    rw [List.length_append] at hl
    have hdrop : InRange s1 (u.drop s0.length) := by
      rw [inRange_iff_getD] at hu ⊢
      refine ⟨by rw [List.length_drop]; omega, fun d hd => ?_⟩
      have := hu.2 (s0.length + d) (by rw [List.length_append]; omega)
      rw [List.getD_append_right _ _ _ _ (by omega), show s0.length + d - s0.length = d by omega] at this
      simpa [List.getD_eq_getElem?_getD] using this
    simp only [List.map_cons, List.count_cons, Nat.cast_add, Finset.sum_add_distrib, ← ih]
    congr 1
    by_cases hvu : u.take s0.length = v
    · have huv : u = v ++ u.drop s0.length := by rw [← hvu, List.take_append_drop]
      rw [Finset.sum_eq_single (u.drop s0.length)]
      · simp [← huv, hvu]
      · intro w _ hw
        have : ¬ u = v ++ w := by
          intro e
          rw [e] at huv
          have e2 := List.append_cancel_left huv
          apply hw
          rw [← e] at e2
          exact e2
        simp [this]
      · intro hn
        exact absurd (mem_cells.mpr hdrop) hn
    · rw [Finset.sum_eq_zero]
      · simp [hvu]
      · intro w _
        have : ¬ u = v ++ w := by
          intro e
          apply hvu
          rw [e, ← hv, List.take_left]
        simp [this]

/-- what the larger problem's run says about the smaller one -/
theorem run_added (hfp : fp.Good) {lm : Libm} {s0 s1 : List Nat} {A B : Prob Int} {pop : Int} (hA : ProbOK s0 A pop)
    (h : ProbOK (s0 ++ s1) (A ++ B) pop) (hpop : pop < 2 ^ 52) {skips : Int} {x : QIS}
    (hx : QIS.run fp lm (indicesOf (A ++ B)) (marginalsOf (s0 ++ s1) (A ++ B)) skips = .ok x) :
    ∃ y f, QIS.run fp lm (indicesOf A) (marginalsOf s0 A) skips = .ok y ∧ x.micro.array = arr (s0 ++ s1) f ∧
      y.micro.array = arr s0 (fun v => ∑ w ∈ cells s1, f (v ++ w)) ∧ (x.conv = true → y.conv = true) := by
  obtain ⟨c, ws, hd, hc, hS⟩ := run_ok hfp h hpop hx
  have h0 := h.pop_nonneg
  have hbound := hS.at_.sobol.bound
  have hl : s0.length ≤ (s0 ++ s1).length := by rw [List.length_append]; omega
  have hlen : ws.length = pop.toNat := hS.size
  obtain ⟨y, hy, hya, hyc⟩ := qis_script hfp lm hA hpop (by omega) hc (vs := (ws.reverse.map (List.take s0.length)))
    (by rw [List.length_map, List.length_reverse, hlen]; omega) (by rw [List.length_map, List.length_reverse, hlen]; omega) (by
    intro i hi seq hseq
    rw [List.length_map, List.length_reverse] at hi
    obtain ⟨seq', v, b1, b2, b3⟩ := hS.points i (by omega)
    have e := draw_added hA.toProbShape h.toProbShape b2.1 b3
    rw [pointAt_unique (by omega) hseq (pointAt_take hl b2), ← List.map_take, ← List.map_reverse,
      List.getD_eq_getElem?_getD, List.getElem?_map, b1]
    exact e)
  refine ⟨y, fun v => (ws.count v : Int), hy, by rw [hS.at_.micro], ?_, ?_⟩
  · rw [hya]
    refine arr_congr (fun v hv => ?_)
    rw [← count_take (inRange_length hv) hS.range, List.map_reverse, List.count_reverse]
  · intro hxc
    rw [hyc]
    have hu := hS.conv.mp hxc
    have hp : ∀ p ∈ A, ∀ v : List Int, proj p.1 (v.take s0.length) = proj p.1 v := by
      intro p hp v
      unfold proj
      refine List.map_congr_left (fun d h => ?_)
      have := (hA.dims p hp).2 d h
      simp [List.getD_eq_getElem?_getD, List.getElem?_take, this]
    rw [← List.map_reverse, List.reverse_reverse]
    intro p hpA v hv
    obtain ⟨u, hu', rfl⟩ := List.mem_map.mp hv
    have := hu p (by simp [hpA]) u hu'
    rw [hp p hpA, List.countP_map]
    simpa [Function.comp_def, hp p hpA] using this

end HL

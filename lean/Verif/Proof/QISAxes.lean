import Verif.Proof.QISMore

/-
QIS on problems whose marginals are all one-dimensional: what is drawn, exactly.
-/

namespace HL
open QIS
variable {fp : FP}

theorem foldl_numInt (l : List Int) (a : Int) : l.foldl (numInt fp).add a = a + l.sum := by
  induction l generalizing a with
  | nil => simp
  | cons x l ih =>
    rw [List.foldl_cons, ih]
    show a + x + l.sum = _
    simp [add_assoc]

/-- Without rounding `pick` inverts the cumulative distribution. -/
theorem pick_int_exact (hfp : fp.Good) {dist : List Int} (hn : ∀ x ∈ dist, 0 ≤ x) (hs : dist.sum ≤ 2 ^ 21) {u : U32} {i : Nat}
    (hp : pick fp (numInt fp) dist (variate fp u) = .ok i) :
    i < dist.length ∧ (dist.take i).sum * 2 ^ 32 ≤ (u.toNat : Int) * dist.sum ∧
      (u.toNat : Int) * dist.sum < (dist.take (i + 1)).sum * 2 ^ 32 := by
  unfold pick at hp
  have hs0 : 0 ≤ dist.sum := List.sum_nonneg hn
  have ht := total_int hfp dist 0 hn le_rfl (by omega)
  simp only [Int.cast_zero, zero_add] at ht
  rw [ht, variate_eq hfp] at hp
  have hu : (u.toNat : Int) < 2 ^ 32 := by exact_mod_cast u.isLt
  have hub : |(u.toNat : Int) * dist.sum| ≤ 2 ^ 53 := by
    rw [abs_of_nonneg (by positivity)]
    have : (u.toNat : Int) * dist.sum ≤ 2 ^ 32 * 2 ^ 21 := by
      apply mul_le_mul hu.le hs hs0 (by norm_num)
    calc _ ≤ _ := this
      _ = _ := by norm_num
  have hm : fp.mul (.fin ((u.toNat : ℚ) / 2 ^ 32)) (.fin ((dist.sum : Int) : ℚ)) =
      .fin ((((u.toNat : Int) * dist.sum : Int) : ℚ) / 2 ^ 32) := by
    show fp.rnd _ = _
    rw [← hfp.dyadic _ 32 hub (by norm_num)]
    congr 1
    push_cast
    ring
  rw [hm] at hp
  rw [show i = 0 + i by omega] at hp
  obtain ⟨x, h1, h2, h3⟩ := pickLoop_spec (numInt fp) _ dist 0 0 i hp
  have hi : i < dist.length := by
    by_contra hc
    rw [List.getElem?_eq_none (by omega)] at h1
    cases h1
  have hpre : ∀ k, 0 ≤ (dist.take k).sum ∧ (dist.take k).sum ≤ dist.sum := by
    intro k
    refine ⟨List.sum_nonneg (fun x hx => hn x (List.mem_of_mem_take hx)), ?_⟩
    have h4 := List.sum_take_add_sum_drop dist k
    have h5 : 0 ≤ (dist.drop k).sum := List.sum_nonneg (fun x hx => hn x (List.mem_of_mem_drop hx))
    omega
  have key : ∀ k y, dist[k]? = some y → (numInt fp).toFl ((numInt fp).add ((dist.take k).foldl (numInt fp).add 0) y) =
      .fin (((dist.take (k + 1)).sum : Int) : ℚ) := by
    intro k y hk
    rw [foldl_numInt, zero_add]
    have : (dist.take k).sum + y = (dist.take (k + 1)).sum := by
      rw [List.take_add_one, hk]; simp
    show fp.ofInt ((dist.take k).sum + y) = _
    rw [this]
    obtain ⟨a, b⟩ := hpre (k + 1)
    exact ofInt_exact hfp (by rw [abs_of_nonneg a]; omega)
  refine ⟨hi, ?_, ?_⟩
  · cases i with
    | zero => simp; positivity
    | succ k =>
      obtain ⟨y, hy, hc⟩ := h3 k (by omega)
      rw [key k y hy] at hc
      simp only [FP.lt, decide_eq_false_iff_not, not_lt] at hc
      rw [le_div_iff₀ (by norm_num)] at hc
      exact_mod_cast hc
  · rw [key i x h1] at h2
    simp only [FP.lt, decide_eq_true_eq] at h2
    rw [div_lt_iff₀ (by norm_num)] at h2
    exact_mod_cast h2

/-- the entries of a one-dimensional marginal -/
def axisList (n : Nat) (g : List Int → Int) : List Int := (List.range n).map (fun i : Nat => g [(i : Int)])

theorem sample_axis {s : List Nat} {d : Nat} {idx : List Int} {seq : List U32} (hg : GoodShape s) (hp : PartialIdx s idx)
    (hs : seq.length = s.length) (hd : d < s.length) (g : List Int → Int) (b : Bool) (hf : idx.getD d 0 < 0) {v : List Int}
    (h : sample fp [(d : Int)] seq (arr (projSizes [d] s) g) ⟨[d], projSizes [d] s, b⟩ idx = .ok v) :
    ∃ i : Nat, pick fp (numInt fp) (axisList (s.getD d 0) g) (variate fp (seq.getD d 0)) = .ok i ∧ v = idx.set d i := by
  have he := sample_eq (fp := fp) (ds := [d]) hg hp hs (by simpa using hd) (by simp) g b
  have hns : isSet [d] idx 0 = false := by
    unfold isSet
    rw [List.getD_cons_zero]
    exact decide_eq_false (by omega)
  have hfree : freeIn [d] idx (List.range 1) = [0] := by
    rw [show List.range 1 = [0] from rfl]
    unfold freeIn
    rw [List.filter_cons, hns]; rfl
  have hfix : fixedIn [d] idx (List.range 1) = [] := by
    rw [show List.range 1 = [0] from rfl]
    unfold fixedIn
    rw [List.filter_cons, hns]; rfl
  simp only [List.length_singleton] at he
  rw [hfree] at he
  have he2 : sample fp [(d : Int)] seq (arr (projSizes [d] s) g) ⟨[d], projSizes [d] s, b⟩ idx =
      recursiveSample fp [d] ([0].zipIdx) [(0, seq.getD d 0)] (arr [s.getD d 0] (freeFn [d] idx g)) idx := by
    have : ([d].map (fun d : Nat => (d : Int))) = [(d : Int)] := rfl
    rw [this] at he
    rw [he, if_neg (by simp)]
    rfl
  rw [he2] at h
  obtain ⟨h1, h2⟩ := rec_one (fp := fp) (pos := [d]) (sm := [0].zipIdx) (d := 0) (u := seq.getD d 0) (n := s.getD d 0)
    (h := freeFn [d] idx g) (idx := idx) (p := d) rfl (by rw [hp.1]; exact hd)
  have hl : lastSums [] (s.getD d 0) (freeFn [d] idx g) = axisList (s.getD d 0) g := by
    unfold lastSums axisList
    apply List.map_congr_left
    intro i _
    have : cells [] = {[]} := by rw [cells]; rfl
    rw [this, Finset.sum_singleton]
    unfold freeFn
    simp only [List.length_singleton]
    rw [hfix]
    rfl
  rw [hl] at h1 h2
  rcases pick_cases fp (numInt fp) (axisList (s.getD d 0) g) (variate fp (seq.getD d 0)) with h3 | ⟨i, h3, -⟩
  · rw [h1 h3] at h; cases h
  · rw [h2 i h3] at h
    injection h with h
    exact ⟨i, h3, h.symm⟩

theorem sampleAll_axes {s : List Nat} {seq : List U32} (hg : GoodShape s) (hs : seq.length = s.length) :
    ∀ (Q : Prob Int) (idx v : List Int), PartialIdx s idx → (∀ p ∈ Q, ∃ d, p.1 = [d] ∧ d < s.length ∧ idx.getD d 0 < 0) →
    (Q.map Prod.fst).Nodup → sampleAll fp seq (indicesOf Q) (mapsOf s Q) (marginalsOf s Q) idx = .ok v →
    ∀ p ∈ Q, ∀ d, p.1 = [d] → ∃ i : Nat, v.getD d 0 = i ∧
      pick fp (numInt fp) (axisList (s.getD d 0) p.2) (variate fp (seq.getD d 0)) = .ok i
  | [], _, _, _, _, _, _, p, hp, _, _ => by simp at hp
  | q :: Q, idx, v, hpi, hQ, hnd, hv, p, hp, d, hpd => by
    have e : sampleAll fp seq (indicesOf (q :: Q)) (mapsOf s (q :: Q)) (marginalsOf s (q :: Q)) idx =
        (sample fp (q.1.map (fun d : Nat => (d : Int))) seq (arr (projSizes q.1 s) q.2) ⟨q.1, projSizes q.1 s, false⟩ idx >>=
          fun idx => sampleAll fp seq (indicesOf Q) (mapsOf s Q) (marginalsOf s Q) idx) := rfl
    obtain ⟨e1, he1, he2, he3⟩ := hQ q (by simp)
    rw [e] at hv
    rcases sample_cases (fp := fp) hg hpi hs (ds := q.1) (by rw [he1]; simpa using he2) (by rw [he1]; simp) q.2 false with h | ⟨i1, h, hsm⟩
    · rw [h] at hv; cases hv
    · rw [h] at hv
      simp only [Out.ok_bind] at hv
      have hdims : ∀ p ∈ Q, p.1 ≠ [] ∧ ∀ d ∈ p.1, d < s.length := by
        intro p hp
        obtain ⟨d, h1, h2, -⟩ := hQ p (by simp [hp])
        rw [h1]; exact ⟨by simp, by simpa using h2⟩
      rcases List.mem_cons.mp hp with rfl | hp
      · have hde : d = e1 := by rw [he1] at hpd; simpa using hpd.symm
        subst hde
        have h' : sample fp [(d : Int)] seq (arr (projSizes [d] s) p.2) ⟨[d], projSizes [d] s, false⟩ idx = .ok i1 := by
          have := h
          rw [he1] at this
          exact this
        obtain ⟨i, h3, h4⟩ := sample_axis hg hpi hs he2 p.2 false he3 h'
        refine ⟨i, ?_, h3⟩
        have h5 : i1.getD d 0 = i := by
          rw [h4, List.getD_eq_getElem?_getD, List.getElem?_set, if_pos rfl, if_pos (by rw [hpi.1]; exact he2)]
          rfl
        rcases sampleAll_cases (fp := fp) hg hs Q i1 hdims hsm.part with h6 | ⟨v', h6, -, -, h7⟩
        · rw [h6] at hv; cases hv
        · rw [h6] at hv
          injection hv with hv
          subst hv
          rw [h7 d (by rw [h5]; positivity), h5]
      · rw [List.map_cons, List.nodup_cons] at hnd
        refine sampleAll_axes hg hs Q i1 v hsm.part ?_ hnd.2 hv p hp d hpd
        intro r hr
        obtain ⟨f, hf1, hf2, hf3⟩ := hQ r (by simp [hr])
        refine ⟨f, hf1, hf2, ?_⟩
        rw [hsm.others f, ]
        · exact hf3
        · rw [he1, List.mem_singleton]
          rintro rfl
          apply hnd.1
          rw [he1, ← hf1]
          exact List.mem_map.mpr ⟨r, hr, rfl⟩

theorem nonneg_remaining {s : List Nat} {P : Prob Int} {pop : Int} (h : ProbOK s P pop) {vs hs : List (List Int)} (hu : Unspent P vs)
    (hsub : hs.Sublist vs) : ∀ p ∈ remaining hs P, ∀ j, InRange (projSizes p.1 s) j → 0 ≤ p.2 j := by
  intro p hp j hj
  obtain ⟨q, hq, rfl⟩ := List.mem_map.mp hp
  have hle : hs.countP (fun v => proj q.1 v = j) ≤ vs.countP (fun v => proj q.1 v = j) := hsub.countP_le
  by_cases hz : vs.countP (fun v => proj q.1 v = j) = 0
  · have := h.nonneg q hq j hj
    simp only; omega
  · obtain ⟨v, hv1, hv2⟩ := List.countP_pos_iff.mp (Nat.pos_of_ne_zero hz)
    have hv2' : proj q.1 v = j := by simpa using hv2
    have := hu q hq v hv1
    rw [hv2'] at this
    simp only; omega

theorem sum_axisList (n : Nat) (g : List Int → Int) : (axisList n g).sum = ∑ j ∈ cells [n], g j := by
  rw [← sum_allIdx]
  unfold axisList
  have e : allIdx [n] = (List.range n).map (fun i : Nat => [(i : Int)]) := by
    simp [allIdx, List.map_eq_flatMap]
  rw [e, List.map_map]
  rfl

theorem take_axisList {n k : Nat} (hk : k ≤ n) (g : List Int → Int) :
    ((axisList n g).take k).sum = ∑ i ∈ Finset.range k, g [(i : Int)] := by
  unfold axisList
  rw [← List.map_take, List.take_range, Nat.min_eq_left hk]
  induction k with
  | zero => simp
  | succ k ih =>
    rw [List.range_succ, List.map_append, List.sum_append, ih (by omega), Finset.sum_range_succ]
    simp

end HL

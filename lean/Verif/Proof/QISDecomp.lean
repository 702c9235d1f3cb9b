import Verif.Proof.QISFull
import Verif.DecompSpec

/-
QIS on decomposable problems.
-/

namespace HL
open QIS
variable {fp : FP}

/-- the entries assigned so far, the others set to zero -/
def filled (idx : List Int) : List Int := idx.map (fun x => if x < 0 then 0 else x)

theorem filled_getD {idx : List Int} {d : Nat} (h : 0 ≤ idx.getD d 0) : (filled idx).getD d 0 = idx.getD d 0 := by
  unfold filled
  by_cases hd : d < idx.length
  · simp only [List.getD_eq_getElem?_getD, List.getElem?_map, List.getElem?_eq_getElem hd, Option.map_some, Option.getD_some] at *
    rw [if_neg (by omega)]
  · simp [List.getD_eq_getElem?_getD, hd]

theorem filled_inRange {s : List Nat} {idx : List Int} (hpos : ∀ n ∈ s, 0 < n) (hi : PartialIdx s idx) : InRange s (filled idx) := by
  rw [inRange_iff_getD]
  refine ⟨by simp [filled, hi.1], ?_⟩
  intro d hd
  rcases hi.2 d hd with h | h
  · have h0 : (filled idx).getD d 0 = 0 := by
      have hl : d < idx.length := by rw [hi.1]; exact hd
      simp only [filled, List.getD_eq_getElem?_getD, List.getElem?_map, List.getElem?_eq_getElem hl, Option.map_some, Option.getD_some] at *
      rw [h]; rfl
    have := hpos _ (getD_mem (k := d) (l := s) hd)
    omega
  · rw [filled_getD h.1]
    exact h

theorem compatible_decomp {s : List Nat} {P L Q : Prob Int} {p : List Nat × (List Int → Int)} {n : Int} (h : ProbOK s P n) (hn : 0 < n)
    (ht : Decomposable s P) (hP : P = L ++ p :: Q) {idx : List Int} (hi : PartialIdx s idx)
    (hset : ∀ q ∈ L, ∀ d ∈ q.1, 0 ≤ idx.getD d 0) (hpos : ∀ q ∈ L, 0 < q.2 (proj q.1 idx))
    (hfrom : ∀ d < s.length, 0 ≤ idx.getD d 0 → ∃ q ∈ L, d ∈ q.1) :
    ∃ j, InRange (projSizes p.1 s) j ∧ 0 < p.2 j ∧
      ∀ a < p.1.length, 0 ≤ idx.getD (p.1.getD a 0) 0 → j.getD a 0 = idx.getD (p.1.getD a 0) 0 := by
  have hp : p ∈ P := by rw [hP]; simp
  have hdims := (h.dims p hp).2
  obtain ⟨hnd, hL | ⟨q, hq, hall, hag⟩⟩ := ht L p Q hP
  · subst hL
    have htot := h.total p hp
    obtain ⟨j, hj, hjp⟩ := Finset.exists_lt_of_sum_lt (s := cells (projSizes p.1 s)) (f := fun _ => (0 : Int)) (g := p.2)
      (by simp only [Finset.sum_const_zero]; omega)
    refine ⟨j, mem_cells.mp hj, hjp, ?_⟩
    intro a ha h0
    obtain ⟨q, hq, -⟩ := hfrom _ (hdims _ (getD_mem ha)) h0
    cases hq
  · have hqP : q ∈ P := by rw [hP]; simp [hq]
    have hag := hag (filled idx) (filled_inRange h.pos hi)
    have hproj : proj q.1 (filled idx) = proj q.1 idx := by
      unfold proj
      apply List.map_congr_left
      intro d hd
      exact filled_getD (hset q hq d hd)
    have hqsum : 0 < weightOn s q (shared p q) (filled idx) := by
      unfold weightOn
      apply Finset.sum_pos' (fun j hj => h.nonneg q hqP j (mem_cells.mp (Finset.mem_filter.mp hj).1))
      refine ⟨proj q.1 (filled idx), ?_, by rw [hproj]; exact hpos q hq⟩
      rw [Finset.mem_filter]
      refine ⟨mem_cells.mpr (inRange_proj (h.dims q hqP).2 (filled_inRange h.pos hi)), ?_⟩
      intro a ha _
      simp [proj, List.getD_eq_getElem?_getD, ha]
    rw [← hag] at hqsum
    unfold weightOn at hqsum
    obtain ⟨j, hj, hjp⟩ := Finset.exists_lt_of_sum_lt (f := fun _ => (0 : Int)) (lt_of_eq_of_lt Finset.sum_const_zero hqsum)
    rw [Finset.mem_filter] at hj
    refine ⟨j, mem_cells.mp hj.1, hjp, ?_⟩
    intro a ha h0
    obtain ⟨r, hr, hdr⟩ := hfrom _ (hdims _ (getD_mem ha)) h0
    have := hj.2 a ha (by
      unfold shared
      rw [List.mem_filter]
      exact ⟨getD_mem ha, by simpa using hall _ (getD_mem ha) ⟨r, hr, hdr⟩⟩)
    rw [this, filled_getD h0]

/-- agreement is kept when one individual is taken from both -/
theorem weightOn_remaining {s : List Nat} {p : List Nat × (List Int → Int)} (hp : ∀ d ∈ p.1, d < s.length) {v : List Int} (hv : InRange s v)
    {D : List Nat} (hD : ∀ d ∈ D, d ∈ p.1) (w : List Int) :
    weightOn s (p.1, fun j => p.2 j - (([v].countP (fun w => decide (proj p.1 w = j)) : Nat) : Int)) D w =
      weightOn s p D w - if ∀ d ∈ D, v.getD d 0 = w.getD d 0 then 1 else 0 := by
  have ec : ∀ (ds : List Nat) (j : List Int), (([v].countP (fun w => decide (proj ds w = j)) : Nat) : Int) = if proj ds v = j then 1 else 0 := by
    intro ds j
    simp only [List.countP_cons, List.countP_nil, decide_eq_true_eq]
    split <;> simp
  unfold weightOn
  simp only [ec]
  rw [sum_remaining_one]
  congr 1
  have e : (proj p.1 v ∈ (cells (projSizes p.1 s)).filter
      (fun j => ∀ a < p.1.length, p.1.getD a 0 ∈ D → j.getD a 0 = w.getD (p.1.getD a 0) 0)) ↔ ∀ d ∈ D, v.getD d 0 = w.getD d 0 := by
    have eg : ∀ a < p.1.length, (proj p.1 v).getD a 0 = v.getD (p.1.getD a 0) 0 := by
      intro a ha
      simp [proj, List.getD_eq_getElem?_getD, ha]
    rw [Finset.mem_filter]
    constructor
    · rintro ⟨-, h⟩ d hd
      obtain ⟨a, ha, rfl⟩ := List.getElem_of_mem (hD d hd)
      have e1 : p.1.getD a 0 = p.1[a] := by simp [List.getD_eq_getElem?_getD, ha]
      have := h a ha (by rw [e1]; exact hd)
      rw [eg a ha, e1] at this
      exact this
    · intro h
      refine ⟨mem_cells.mpr (inRange_proj hp hv), ?_⟩
      intro a ha hd
      rw [eg a ha]
      exact h _ hd
  by_cases hc : ∀ d ∈ D, v.getD d 0 = w.getD d 0
  · rw [if_pos (e.mpr hc), if_pos hc]
  · rw [if_neg (fun h => hc (e.mp h)), if_neg hc]

theorem decomposable_remaining {s : List Nat} {P : Prob Int} (h : ProbShape s P) (ht : Decomposable s P) {v : List Int} (hv : InRange s v) :
    Decomposable s (remaining [v] P) := by
  intro A p' B he
  unfold remaining at he
  obtain ⟨A', B1, hP, hA, hB⟩ := List.map_eq_append_iff.mp he
  obtain ⟨p, B', hB1, hp', hB'⟩ := List.map_eq_cons_iff.mp hB
  subst hA hp'
  subst hB1
  obtain ⟨hnd, hc⟩ := ht A' p B' hP
  refine ⟨hnd, ?_⟩
  rcases hc with hc | ⟨q, hq, hall, hag⟩
  · left; simp [hc]
  · right
    refine ⟨_, List.mem_map.mpr ⟨q, hq, rfl⟩, ?_, ?_⟩
    · rintro d hd ⟨r, hr, hdr⟩
      obtain ⟨r', hr', rfl⟩ := List.mem_map.mp hr
      exact hall d hd ⟨r', hr', hdr⟩
    · intro w hw
      have hpm : p ∈ P := by rw [hP]; simp
      have hqm : q ∈ P := by rw [hP]; simp [hq]
      have := hag w hw
      unfold shared at *
      simp only [] at *
      rw [weightOn_remaining (h.dims p hpm).2 hv (fun d hd => (List.mem_filter.mp hd).1),
        weightOn_remaining (h.dims q hqm).2 hv (fun d hd => by simpa using (List.mem_filter.mp hd).2), this]

theorem sampleAll_decomp (hfp : fp.Good) {s : List Nat} {P : Prob Int} {n : Int} (h : ProbOK s P n) (hn : 0 < n) (hb : n ≤ 2 ^ 53)
    (ht : Decomposable s P) {seq : List U32} (hs : seq.length = s.length) : ∀ (Q L : Prob Int) (idx : List Int), P = L ++ Q → PartialIdx s idx →
    (∀ q ∈ L, ∀ d ∈ q.1, 0 ≤ idx.getD d 0) → (∀ q ∈ L, 0 < q.2 (proj q.1 idx)) →
    (∀ d < s.length, 0 ≤ idx.getD d 0 → ∃ q ∈ L, d ∈ q.1) →
    ∃ v, sampleAll fp seq (indicesOf Q) (mapsOf s Q) (marginalsOf s Q) idx = .ok v ∧ ∀ p ∈ P, 0 < p.2 (proj p.1 v)
  | [], L, idx, hP, _, _, hpos, _ => ⟨idx, rfl, by rw [hP, List.append_nil]; exact hpos⟩
  | p :: Q, L, idx, hP, hi, hset, hpos, hfrom => by
    have hp : p ∈ P := by rw [hP]; simp
    have e : sampleAll fp seq (indicesOf (p :: Q)) (mapsOf s (p :: Q)) (marginalsOf s (p :: Q)) idx =
        (sample fp (p.1.map (fun d : Nat => (d : Int))) seq (arr (projSizes p.1 s) p.2) ⟨p.1, projSizes p.1 s, false⟩ idx >>=
          fun idx => sampleAll fp seq (indicesOf Q) (mapsOf s Q) (marginalsOf s Q) idx) := rfl
    obtain ⟨hnd, -⟩ := ht L p Q hP
    obtain ⟨i1, h1, h2, h3⟩ := sample_pos hfp h.good hi hs (h.dims p hp).2 (h.dims p hp).1 hnd false (h.nonneg p hp)
      (by rw [h.total p hp]; exact hb) (compatible_decomp h hn ht hP hi hset hpos hfrom)
    rw [e, h1]
    simp only [Out.ok_bind]
    refine sampleAll_decomp hfp h hn hb ht hs Q (L ++ [p]) i1 (by simp [hP]) h2.part ?_ ?_ ?_
    · intro q hq d hd
      rcases List.mem_append.mp hq with hq | hq
      · have := hset q hq d hd
        rw [h2.keep d this]; exact this
      · rw [List.mem_singleton] at hq
        subst hq
        exact h2.set d hd
    · intro q hq
      rcases List.mem_append.mp hq with hq | hq
      · have : proj q.1 i1 = proj q.1 idx := by
          unfold proj
          apply List.map_congr_left
          intro d hd
          exact h2.keep d (hset q hq d hd)
        rw [this]; exact hpos q hq
      · rw [List.mem_singleton] at hq
        subst hq
        exact h3
    · intro d hd h0
      by_cases hdp : d ∈ p.1
      · exact ⟨p, by simp, hdp⟩
      · rw [h2.others d hdp] at h0
        obtain ⟨q, hq, hdq⟩ := hfrom d hd h0
        exact ⟨q, by simp [hq], hdq⟩

/-- One individual of a decomposable problem, while the Sobol sequence lasts. -/
theorem individual_decomp (hfp : fp.Good) {s : List Nat} {P : Prob Int} (h : ProbShape s P) {pop : Int}
    {k : Nat} {hs : List (List Int)} {n : Nat} {x : QIS} (hx : QISAt s P pop hs n x) (hok : ProbOK s (remaining hs P) ((k + 1 : Nat) : Int)) (ht : Decomposable s (remaining hs P))
    (hk : k + 1 ≤ 2 ^ 53) (hn : n < 2 ^ 32 - 1) :
    ∃ v x', individual fp (mapsOf s P) x = .ok x' ∧ QISAt s P pop (v :: hs) (n + 1) x' ∧ ProbOK s (remaining (v :: hs) P) k ∧
      Decomposable s (remaining (v :: hs) P) ∧
      x'.conv = x.conv := by
  have hfrom : ∀ d < s.length, 0 ≤ (List.replicate s.length (-1 : Int)).getD d 0 → ∃ q ∈ ([] : Prob Int), d ∈ q.1 := by
    intro d hd h0
    simp [List.getD_eq_getElem?_getD, hd] at h0
  have hdraw : ∀ seq : List U32, seq.length = s.length → ∃ v, Draw fp s P seq hs v ∧ ∀ p ∈ remaining hs P, 0 < p.2 (proj p.1 v) := by
    intro seq hsq
    obtain ⟨v, h1, h2⟩ := sampleAll_decomp hfp hok (by push_cast; omega) (by push_cast; omega)
      ht hsq (remaining hs P) [] _ rfl (partial_replicate s) (by simp) (by simp) hfrom
    rw [indicesOf_remaining, mapsOf_remaining] at h1
    exact ⟨v, h1, h2⟩
  rcases individual_cases (fp := fp) h hx with h1 | ⟨h1, -⟩ | ⟨v, x', seq, hv, h1, h2, h3, h4, h5, h6, h7⟩
  · exfalso
    unfold individual at h1
    obtain ⟨sb, seq, a1, a2, a3, -, -⟩ := next_ok hx.sobol (by omega)
    rw [a1] at h1
    simp only [Out.ok_bind] at h1
    have e1 : x.micro.indices = indicesOf P := by rw [hx.micro]; rfl
    have e2 : x.micro.marginals = marginalsOf s (remaining hs P) := by rw [hx.micro]
    have e3 : x.micro.dim = s.length := by rw [hx.micro]; rfl
    have e4 : x.micro.array = arr s (fun v => (hs.count v : Int)) := by rw [hx.micro]
    rw [e1, e2, e3] at h1
    obtain ⟨v, hd, -⟩ := hdraw seq a3.1
    unfold Draw at hd
    rw [hd] at h1
    simp only [Out.ok_bind] at h1
    split at h1
    · cases h1
    · rename_i hneg
      have hv : InRange s v := by
        have hdim : ∀ p ∈ remaining hs P, p.1 ≠ [] ∧ ∀ d ∈ p.1, d < s.length := hok.dims
        have hc := sampleAll_cases (fp := fp) h.good (seq := seq) a3.1 (remaining hs P) _ hdim (partial_replicate s)
        rw [indicesOf_remaining, mapsOf_remaining, hd] at hc
        rcases hc with hc | ⟨v', hc, hp1, hp2, -⟩
        · cases hc
        · injection hc with hc
          subst hc
          refine inRange_of_partial hp1 ?_
          intro d hd
          obtain ⟨p, hp, hdp⟩ := hok.cover d hd
          exact hp2 p hp d hdp
      have hdec := decrement_eq hv (remaining hs P) x.conv (fun p hp => (hok.dims p hp).2)
      rw [mapsOf_remaining] at hdec
      rw [hdec] at h1
      simp only [Out.ok_bind] at h1
      rw [e4, modify_arr hv] at h1
      cases h1
  · omega
  · obtain ⟨v', hd, hpos⟩ := hdraw seq h6.1
    have : v' = v := by
      unfold Draw at hd h7
      rw [h7] at hd
      injection hd with hd
      exact hd.symm
    subst this
    have hok' := probOK_remaining (n := (k : Int)) (by push_cast at hok; exact hok) hv hpos
    have hdec' := decomposable_remaining hok.toProbShape ht hv
    rw [remaining_cons] at hok' hdec'
    refine ⟨v', x', h1, h2, hok', hdec', ?_⟩
    rw [h5, decide_eq_true (show ∀ p ∈ remaining hs P, 1 ≤ p.2 (proj p.1 v') from fun p hp => by have := hpos p hp; omega),
      Bool.and_true]

theorem individuals_decomp (hfp : fp.Good) {s : List Nat} {P : Prob Int} (h : ProbShape s P) {pop : Int} : ∀ (k : Nat) {hs : List (List Int)} {n : Nat} {x : QIS},
    QISAt s P pop hs n x → ProbOK s (remaining hs P) k → Decomposable s (remaining hs P) → k ≤ 2 ^ 53 → n + k ≤ 2 ^ 32 - 1 →
    ∃ x', individuals fp (mapsOf s P) k x = .ok x' ∧ x'.conv = x.conv
  | 0, hs, n, x, _, _, _, _, _ => ⟨x, rfl, rfl⟩
  | k + 1, hs, n, x, hx, hok, ht, hk, hn => by
    unfold individuals
    obtain ⟨v, x', h1, h2, h3, h3', h4⟩ := individual_decomp hfp h hx hok ht hk (by omega)
    obtain ⟨x'', g1, g2⟩ := individuals_decomp hfp h k h2 h3 h3' (by omega) (by omega)
    rw [h1]
    exact ⟨x'', g1, g2.trans h4⟩

/-- When the Sobol sequence is too short, this is what ends the loop. -/
theorem individuals_decomp_exhausted (hfp : fp.Good) {s : List Nat} {P : Prob Int} (h : ProbShape s P) 
    {pop : Int} : ∀ (k : Nat) {hs : List (List Int)} {n : Nat} {x : QIS},
    QISAt s P pop hs n x → ProbOK s (remaining hs P) k → Decomposable s (remaining hs P) → k ≤ 2 ^ 53 → n ≤ 2 ^ 32 - 1 → 2 ^ 32 - 1 < n + k →
    individuals fp (mapsOf s P) k x = .thrown .sobolExhausted
  | 0, hs, n, x, _, _, _, _, _, _ => by omega
  | k + 1, hs, n, x, hx, hok, ht, hk, hn, hn' => by
    unfold individuals
    by_cases he : n = 2 ^ 32 - 1
    · subst he
      unfold individual
      rw [next_end hx.sobol]
      rfl
    · obtain ⟨v, x', h1, h2, h3, h3', h4⟩ := individual_decomp hfp h hx hok ht hk (by omega)
      rw [h1]
      exact individuals_decomp_exhausted hfp h k h2 h3 h3' (by omega) (by omega) (by omega)

theorem run_decomp (hfp : fp.Good) (lm : Libm) {s : List Nat} {P : Prob Int} {pop : Int} (h : ProbOK s P pop) (hpop : pop < 2 ^ 52)
    (ht : Decomposable s P) (hd : s.length ≤ 1111) {skips : Int} {c : Nat} (hc : skipCount (skips % 2 ^ 32).toNat = .ok c)
    (hn : c + pop ≤ 2 ^ 32 - 1) :
    ∃ x, QIS.run fp lm (indicesOf P) (marginalsOf s P) skips = .ok x ∧ x.conv = true := by
  have h0 := h.pop_nonneg
  rcases run_eq hfp lm h hpop skips with ⟨h1, -⟩ | ⟨-, h1, -⟩ | ⟨c', x0, h1, h2, -, h3, -, -, h4⟩
  · omega
  · rcases skipCount_cases (skips % 2 ^ 32).toNat with ⟨_, _, _⟩ | ⟨-, h2⟩
    · have := skipCount_diverges (n := (skips % 2 ^ 32).toNat) (by omega)
      rw [this] at hc; cases hc
    · rw [h2] at hc; cases hc
  · rw [hc] at h2
    injection h2 with h2
    subst h2
    obtain ⟨x1, hb, g1, g2, g3, -⟩ := begin_ok h3 false
    rw [h4]
    have hs := h.toProbShape
    have e0 : remaining [] P = P := by simp [remaining]
    simp only [Bool.false_eq_true, if_false] at g1
    obtain ⟨x2, g4, g5⟩ := individuals_decomp hfp hs pop.toNat g1 (by rw [e0, Int.toNat_of_nonneg h0]; exact h) (by rw [e0]; exact ht) (by omega) (by omega)
    unfold QIS.solve
    rw [hb]
    simp only [Out.ok_bind]
    have e1 : x1.micro.array.sizes = s := by rw [g1.micro]; rfl
    have e2 : x1.micro.indices = indicesOf P := by rw [g1.micro]; rfl
    have e3 : x1.micro.population = pop := by rw [g1.micro]; rfl
    rw [e1, e2, e3, index_new hs.good.1]
    simp only [Out.ok_bind]
    have hm := mappings_ok (s := s) (P := P) (fun p hp => (h.dims p hp).2)
    rw [show (zerosI s.length) = List.replicate s.length 0 from rfl, hm]
    simp only [Out.ok_bind]
    have hc1 : x1.conv = true ↔ Unspent P [] := by simp [g3, Unspent]
    rcases individuals_cases (fp := fp) hs pop.toNat g1 hc1 with f | ⟨-, f⟩ | ⟨vs, seqs, x3, -, -, -, f, f1, f2, -, -, -⟩
    · rw [f] at g4; cases g4
    · rw [f] at g4; cases g4
    · rw [f] at g4
      injection g4 with g4
      subst g4
      unfold mapsOf at f
      rw [f]
      simp only [Out.ok_bind]
      have ha : x3.micro.array = arr s (fun v => ((vs.reverse ++ []).count v : Int)) := by rw [f1.micro]
      rw [stats_ok lm hs.good ha (f2.trans g2)]
      exact ⟨_, rfl, g5.trans g3⟩

theorem run_decomp_exhausted (hfp : fp.Good) (lm : Libm) {s : List Nat} {P : Prob Int} {pop : Int} (h : ProbOK s P pop) (hpop : pop < 2 ^ 52)
    (ht : Decomposable s P) (hd : s.length ≤ 1111) {skips : Int} {c : Nat} (hc : skipCount (skips % 2 ^ 32).toNat = .ok c)
    (hn : 2 ^ 32 - 1 < c + pop) :
    QIS.run fp lm (indicesOf P) (marginalsOf s P) skips = .thrown .sobolExhausted := by
  have h0 := h.pop_nonneg
  rcases run_eq hfp lm h hpop skips with ⟨h1, -⟩ | ⟨-, h1, -⟩ | ⟨c', x0, h1, h2, hc', h3, -, -, h4⟩
  · omega
  · have := skipCount_diverges (n := (skips % 2 ^ 32).toNat) (by omega)
    rw [this] at hc; cases hc
  · rw [hc] at h2
    injection h2 with h2
    subst h2
    obtain ⟨x1, hb, g1, g2, g3, -⟩ := begin_ok h3 false
    rw [h4]
    have hs := h.toProbShape
    have e0 : remaining [] P = P := by simp [remaining]
    simp only [Bool.false_eq_true, if_false] at g1
    have g4 := individuals_decomp_exhausted hfp hs pop.toNat g1 (by rw [e0, Int.toNat_of_nonneg h0]; exact h) (by rw [e0]; exact ht) (by omega) (by omega)
      (by omega)
    unfold QIS.solve
    rw [hb]
    simp only [Out.ok_bind]
    have e1 : x1.micro.array.sizes = s := by rw [g1.micro]; rfl
    have e2 : x1.micro.indices = indicesOf P := by rw [g1.micro]; rfl
    have e3 : x1.micro.population = pop := by rw [g1.micro]; rfl
    rw [e1, e2, e3, index_new hs.good.1]
    simp only [Out.ok_bind]
    have hm := mappings_ok (s := s) (P := P) (fun p hp => (h.dims p hp).2)
    rw [show (zerosI s.length) = List.replicate s.length 0 from rfl, hm]
    simp only [Out.ok_bind]
    unfold mapsOf at g4
    rw [g4]
    rfl


theorem decomp_support {s : List Nat} {P : Prob Int} {pop : Int} (h : ProbOK s P pop) (hpop : 0 < pop) (hb : pop ≤ 2 ^ 53)
    (ht : Decomposable s P) : ∃ v, InRange s v ∧ ∀ p ∈ P, 0 < p.2 (proj p.1 v) := by
  have hfrom : ∀ d < s.length, 0 ≤ (List.replicate s.length (-1 : Int)).getD d 0 → ∃ q ∈ ([] : Prob Int), d ∈ q.1 := by
    intro d hd h0
    simp [List.getD_eq_getElem?_getD, hd] at h0
  obtain ⟨v, h1, h2⟩ := sampleAll_decomp FP.exact_good h hpop hb ht (seq := List.replicate s.length 0) (by simp) P [] _ rfl
    (partial_replicate s) (by simp) (by simp) hfrom
  refine ⟨v, ?_, h2⟩
  have hc := sampleAll_cases (fp := FP.exact) h.good (seq := List.replicate s.length 0) (by simp) P _ h.dims (partial_replicate s)
  rw [h1] at hc
  rcases hc with hc | ⟨v', hc, hp1, hp2, -⟩
  · cases hc
  · injection hc with hc
    subst hc
    refine inRange_of_partial hp1 ?_
    intro d hd
    obtain ⟨p, hp, hdp⟩ := h.cover d hd
    exact hp2 p hp d hdp

/-- tree-structured problems are decomposable -/
theorem tree_decomposable {s : List Nat} {P : Prob Int} {pop : Int} (h : ProbOK s P pop) (ht : TreeDims (P.map Prod.fst)) :
    Decomposable s P := by
  intro A p B hP
  obtain ⟨hnd, htree⟩ := ht (A.map Prod.fst) p.1 (B.map Prod.fst) (by rw [hP]; simp)
  have hp : p ∈ P := by rw [hP]; simp
  refine ⟨hnd, ?_⟩
  by_cases hA : A = []
  · exact .inl hA
  right
  by_cases hex : ∃ d ∈ p.1, ∃ q ∈ A, d ∈ q.1
  · obtain ⟨d, hd, q, hq, hdq⟩ := hex
    have hqP : q ∈ P := by rw [hP]; simp [hq]
    have hone : ∀ e ∈ p.1, (∃ r ∈ A, e ∈ r.1) → e = d := by
      rintro e he ⟨r, hr, her⟩
      exact htree e he d hd ⟨r.1, List.mem_map.mpr ⟨r, hr, rfl⟩, her⟩ ⟨q.1, List.mem_map.mpr ⟨q, hq, rfl⟩, hdq⟩
    refine ⟨q, hq, fun e he hr => by rw [hone e he hr]; exact hdq, ?_⟩
    intro v hv
    have hqnd : q.1.Nodup := by
      obtain ⟨A1, A2, hA12⟩ := List.append_of_mem hq
      exact (ht (A1.map Prod.fst) q.1 ((A2 ++ p :: B).map Prod.fst) (by rw [hP, hA12]; simp)).1
    have hsh : ∀ e, e ∈ shared p q ↔ e = d := by
      intro e
      unfold shared
      rw [List.mem_filter]
      constructor
      · rintro ⟨h1, h2⟩
        exact hone e h1 ⟨q, hq, by simpa using h2⟩
      · rintro rfl
        exact ⟨hd, by simpa using hdq⟩
    obtain ⟨a, ha⟩ := List.getElem?_of_mem hd
    obtain ⟨b, hb⟩ := List.getElem?_of_mem hdq
    have hds := (h.dims p hp).2 d hd
    have hvd := (inRange_iff_getD.mp hv).2 d hds
    have hpart := h.partials p hp q hqP a b d ha hb (v.getD d 0).toNat (by omega)
    rw [Int.toNat_of_nonneg hvd.1] at hpart
    have key : ∀ (r : List Nat × (List Int → Int)) (c : Nat), r.1.Nodup → r.1[c]? = some d →
        weightOn s r (shared p q) v = marginalSum (projSizes r.1 s) [c] r.2 [v.getD d 0] := by
      intro r c hr hc
      unfold weightOn marginalSum
      congr 1
      apply Finset.filter_congr
      intro j _
      rw [proj_single]
      obtain ⟨hcl, hce⟩ := List.getElem?_eq_some_iff.mp hc
      have hcg : r.1.getD c 0 = d := by simp [List.getD_eq_getElem?_getD, hc]
      constructor
      · intro hj
        have := hj c hcl (by rw [hcg]; exact (hsh d).mpr rfl)
        rw [hcg] at this
        exact this
      · intro hj a' ha' hm
        have e1 := (hsh _).mp hm
        have e2 : r.1.getD a' 0 = r.1[a'] := by simp [List.getD_eq_getElem?_getD, ha']
        have : a' = c := (List.Nodup.getElem_inj_iff hr).mp (by rw [hce, ← e2, e1])
        subst this
        rw [hcg]
        exact hj
    rw [key p a hnd ha, key q b hqnd hb]
    exact hpart
  · obtain ⟨q, A', rfl⟩ := List.exists_cons_of_ne_nil hA
    have hqP : q ∈ P := by rw [hP]; simp
    refine ⟨q, by simp, fun e he hr => absurd ⟨e, he, hr⟩ hex, ?_⟩
    intro v _
    have hsh : ∀ e, e ∉ shared p q := by
      intro e he
      unfold shared at he
      rw [List.mem_filter] at he
      exact hex ⟨e, he.1, q, by simp, by simpa using he.2⟩
    unfold weightOn
    rw [Finset.filter_true_of_mem (fun j _ a _ hm => absurd hm (hsh _)), Finset.filter_true_of_mem (fun j _ a _ hm => absurd hm (hsh _)),
      h.total p hp, h.total q hqP]

theorem probOK_prefix {s : List Nat} {D Q : Prob Int} {pop : Int} (h : ProbOK s (D ++ Q) pop) (hl : 2 ≤ D.length)
    (hall : ∀ d < s.length, ∃ p ∈ D, d ∈ p.1) : ProbOK s D pop :=
  ⟨⟨hl, h.two, h.pos, fun p hp => h.dims p (by simp [hp]), hall⟩, fun p hp => h.nonneg p (by simp [hp]), fun p hp => h.total p (by simp [hp]),
    fun p hp q hq => h.partials p (by simp [hp]) q (by simp [hq])⟩

theorem sampleAll_append {s : List Nat} {seq : List U32} (Q : Prob Int) : ∀ (D : Prob Int) (idx : List Int),
    sampleAll fp seq (indicesOf (D ++ Q)) (mapsOf s (D ++ Q)) (marginalsOf s (D ++ Q)) idx =
      (sampleAll fp seq (indicesOf D) (mapsOf s D) (marginalsOf s D) idx >>=
        fun idx => sampleAll fp seq (indicesOf Q) (mapsOf s Q) (marginalsOf s Q) idx)
  | [], idx => rfl
  | p :: D, idx => by
    have e : ∀ E : Prob Int, sampleAll fp seq (indicesOf (p :: E)) (mapsOf s (p :: E)) (marginalsOf s (p :: E)) idx =
        (sample fp (p.1.map (fun d : Nat => (d : Int))) seq (arr (projSizes p.1 s) p.2) ⟨p.1, projSizes p.1 s, false⟩ idx >>=
          fun idx => sampleAll fp seq (indicesOf E) (mapsOf s E) (marginalsOf s E) idx) := fun _ => rfl
    rw [List.cons_append, e, e]
    cases sample fp (p.1.map (fun d : Nat => (d : Int))) seq (arr (projSizes p.1 s) p.2) ⟨p.1, projSizes p.1 s, false⟩ idx with
    | ok i => exact sampleAll_append Q D i
    | thrown e => rfl
    | ub u => rfl
    | diverges => rfl

theorem remaining_append (hs : List (List Int)) (D Q : Prob Int) : remaining hs (D ++ Q) = remaining hs D ++ remaining hs Q := by
  simp [remaining]

theorem draw_prefix (hfp : fp.Good) {s : List Nat} {D Q : Prob Int} (h : ProbShape s (D ++ Q)) (hall : ∀ d < s.length, ∃ p ∈ D, d ∈ p.1)
    {hs : List (List Int)} {k : Int} (hok : ProbOK s (remaining hs D) k) (ht : Decomposable s (remaining hs D)) (hk : 0 < k) (hb : k ≤ 2 ^ 53)
    {seq : List U32} (hsq : seq.length = s.length) :
    ∃ v, Draw fp s (D ++ Q) seq hs v ∧ ∀ p ∈ remaining hs D, 0 < p.2 (proj p.1 v) := by
  have hfrom : ∀ d < s.length, 0 ≤ (List.replicate s.length (-1 : Int)).getD d 0 → ∃ q ∈ ([] : Prob Int), d ∈ q.1 := by
    intro d hd h0
    simp [List.getD_eq_getElem?_getD, hd] at h0
  obtain ⟨v, h1, h2⟩ := sampleAll_decomp hfp hok hk hb ht hsq (remaining hs D) [] _ rfl (partial_replicate s) (by simp) (by simp) hfrom
  refine ⟨v, ?_, h2⟩
  have hc := sampleAll_cases (fp := fp) h.good (seq := seq) hsq (remaining hs D) _ hok.dims (partial_replicate s)
  rw [h1] at hc
  rcases hc with hc | ⟨v', hc, hp1, hp2, -⟩
  · cases hc
  · injection hc with hc
    subst hc
    have hok' := shape_remaining h hs
    have := sampleAll_set (fp := fp) h.good hsq hp1 (remaining hs Q)
      (fun q hq => hok'.dims q (by rw [remaining_append]; exact List.mem_append_right _ hq))
      (fun q hq d hd => by
        have hds := (hok'.dims q (by rw [remaining_append]; exact List.mem_append_right _ hq)).2 d hd
        obtain ⟨p, hp, hdp⟩ := hok.cover d hds
        exact hp2 p hp d hdp)
    unfold Draw
    have e := sampleAll_append (fp := fp) (s := s) (seq := seq) (remaining hs Q) (remaining hs D) (List.replicate s.length (-1))
    rw [← remaining_append, indicesOf_remaining, mapsOf_remaining, h1] at e
    rw [e]
    exact this

theorem individuals_prefix (hfp : fp.Good) {s : List Nat} {D Q : Prob Int} (h : ProbShape s (D ++ Q)) (hall : ∀ d < s.length, ∃ p ∈ D, d ∈ p.1)
    {pop : Int} : ∀ (k : Nat) {hs : List (List Int)} {n : Nat} {x : QIS}, QISAt s (D ++ Q) pop hs n x →
    ProbOK s (remaining hs D) k → Decomposable s (remaining hs D) → k ≤ 2 ^ 53 → n + k ≤ 2 ^ 32 - 1 →
    ∃ x', individuals fp (mapsOf s (D ++ Q)) k x = .ok x'
  | 0, hs, n, x, _, _, _, _, _ => ⟨x, rfl⟩
  | k + 1, hs, n, x, hx, hok, ht, hk, hn => by
    unfold individuals
    have hdraw := fun (seq : List U32) (hsq : seq.length = s.length) =>
      draw_prefix (Q := Q) hfp h hall hok ht (by push_cast; omega) (by push_cast; omega) hsq
    rcases individual_cases (fp := fp) h hx with h1 | ⟨h1, -⟩ | ⟨v, x', seq, hv, h1, h2, h3, h4, h5, h6, h7⟩
    · exact absurd h1 (individual_of_draw h hx (by omega) (fun seq hs => (hdraw seq hs).imp fun _ h => h.1))
    · omega
    · rw [h1]
      simp only [Out.ok_bind]
      obtain ⟨v', hv1, hv2⟩ := hdraw seq h6.1
      have hvv : v = v' := by
        unfold Draw at h7 hv1
        rw [h7] at hv1
        injection hv1
      subst hvv
      have hok' := probOK_remaining (n := (k : Int)) (by push_cast at hok; exact hok) hv hv2
      have ht' := decomposable_remaining hok.toProbShape ht hv
      rw [remaining_cons] at hok' ht'
      exact individuals_prefix hfp h hall k h2 hok' ht' (by omega) (by omega)

theorem run_prefix (hfp : fp.Good) (lm : Libm) {s : List Nat} {D Q : Prob Int} {pop : Int}
    (h : ProbOK s (D ++ Q) pop) (hpop : pop < 2 ^ 52)
    (ht : Decomposable s D) (hl : 2 ≤ D.length) (hall : ∀ d < s.length, ∃ p ∈ D, d ∈ p.1) (hd : s.length ≤ 1111) {skips : Int} {c : Nat}
    (hc : skipCount (skips % 2 ^ 32).toNat = .ok c) (hn : c + pop ≤ 2 ^ 32 - 1) :
    ∃ x, QIS.run fp lm (indicesOf (D ++ Q)) (marginalsOf s (D ++ Q)) skips = .ok x := by
  have h0 := h.pop_nonneg
  rcases run_eq hfp lm h hpop skips with ⟨h1, -⟩ | ⟨-, h1, -⟩ | ⟨c', x0, h1, h2, -, h3, -, -, h4⟩
  · omega
  · have := skipCount_diverges (n := (skips % 2 ^ 32).toNat) (by omega)
    rw [this] at hc; cases hc
  · rw [hc] at h2
    injection h2 with h2
    subst h2
    obtain ⟨x1, hb, g1, g2, g3, -⟩ := begin_ok h3 false
    rw [h4]
    have hs := h.toProbShape
    simp only [Bool.false_eq_true, if_false] at g1
    have e0 : remaining [] D = D := by simp [remaining]
    obtain ⟨x2, g4⟩ := individuals_prefix hfp hs hall pop.toNat g1 (by rw [e0, Int.toNat_of_nonneg h0]; exact probOK_prefix h hl hall)
      (by rw [e0]; exact ht) (by omega) (by omega)
    rcases solve_cases (fp := fp) lm hs h3 false with f | ⟨f, -⟩ | ⟨vs, x', f, -⟩
    · exfalso
      unfold QIS.solve at f
      rw [hb] at f
      simp only [Out.ok_bind] at f
      have e1 : x1.micro.array.sizes = s := by rw [g1.micro]; rfl
      have e2 : x1.micro.indices = indicesOf (D ++ Q) := by rw [g1.micro]; rfl
      have e3 : x1.micro.population = pop := by rw [g1.micro]; rfl
      rw [e1, e2, e3, index_new hs.good.1] at f
      simp only [Out.ok_bind] at f
      have hm := mappings_ok (s := s) (P := D ++ Q) (fun p hp => (h.dims p hp).2)
      rw [show (zerosI s.length) = List.replicate s.length 0 from rfl, hm] at f
      simp only [Out.ok_bind] at f
      have hc1 : x1.conv = true ↔ Unspent (D ++ Q) [] := by simp [g3, Unspent]
      rcases individuals_cases (fp := fp) hs pop.toNat g1 hc1 with e | ⟨-, e⟩ | ⟨vs, seqs, x3, -, -, -, e, f1, f2, -, -, -⟩
      · rw [e] at g4; cases g4
      · rw [e] at g4; cases g4
      · unfold mapsOf at e
        rw [e] at f
        simp only [Out.ok_bind] at f
        have ha : x3.micro.array = arr s (fun v => ((vs.reverse ++ []).count v : Int)) := by rw [f1.micro]
        rw [stats_ok lm hs.good ha (f2.trans g2)] at f
        cases f
    · simp only [Bool.false_eq_true, if_false] at f
      omega
    · exact ⟨x', f⟩

end HL

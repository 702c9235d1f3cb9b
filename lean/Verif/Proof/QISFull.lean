import Verif.Proof.QISMore

/-
QIS when the first marginal ranges over every dimension: an individual can always be placed.
-/

namespace HL
open QIS
variable {fp : FP}

theorem individual_of_draw {s : List Nat} {P : Prob Int} (h : ProbShape s P) {pop : Int} {hs : List (List Int)} {n : Nat} {x : QIS}
    (hx : QISAt s P pop hs n x) (hn : n < 2 ^ 32 - 1)
    (hdraw : ∀ seq : List U32, seq.length = s.length → ∃ v, Draw fp s P seq hs v) :
    individual fp (mapsOf s P) x ≠ .thrown .pickFailed := by
  intro h1
  have hok := shape_remaining h hs
  unfold individual at h1
  obtain ⟨sb, seq, a1, a2, a3, -, -⟩ := next_ok hx.sobol (by omega)
  rw [a1] at h1
  simp only [Out.ok_bind] at h1
  have e1 : x.micro.indices = indicesOf P := by rw [hx.micro]; rfl
  have e2 : x.micro.marginals = marginalsOf s (remaining hs P) := by rw [hx.micro]
  have e3 : x.micro.dim = s.length := by rw [hx.micro]; rfl
  have e4 : x.micro.array = arr s (fun v => (hs.count v : Int)) := by rw [hx.micro]
  rw [e1, e2, e3] at h1
  obtain ⟨v, hd⟩ := hdraw seq a3.1
  unfold Draw at hd
  rw [hd] at h1
  simp only [Out.ok_bind] at h1
  split at h1
  · cases h1
  · have hv : InRange s v := by
      have hc := sampleAll_cases (fp := fp) h.good (seq := seq) a3.1 (remaining hs P) _ hok.dims (partial_replicate s)
      rw [indicesOf_remaining, mapsOf_remaining, hd] at hc
      rcases hc with hc | ⟨v', hc, hp1, hp2, -⟩
      · cases hc
      · injection hc with hc
        subst hc
        refine inRange_of_partial hp1 ?_
        intro d hd
        obtain ⟨p, hp, hdp⟩ := hok.cover d hd
        exact hp2 p hp d hdp
    have hdec := decrement_eq hv (remaining hs P) x.conv (fun p hp => (hok.dims p hp).2)
    rw [mapsOf_remaining] at hdec
    rw [hdec] at h1
    simp only [Out.ok_bind] at h1
    rw [e4, modify_arr hv] at h1
    cases h1

/-- With every dimension assigned, sampling changes nothing. -/
theorem sampleAll_set {s : List Nat} {seq : List U32} (hg : GoodShape s) (hs : seq.length = s.length) {idx : List Int}
    (hp : PartialIdx s idx) : ∀ (Q : Prob Int), (∀ p ∈ Q, p.1 ≠ [] ∧ ∀ d ∈ p.1, d < s.length) →
    (∀ p ∈ Q, ∀ d ∈ p.1, 0 ≤ idx.getD d 0) →
    sampleAll fp seq (indicesOf Q) (mapsOf s Q) (marginalsOf s Q) idx = .ok idx
  | [], _, _ => rfl
  | q :: Q, hd, hset => by
    have hq := hd q (by simp)
    have e : sampleAll fp seq (indicesOf (q :: Q)) (mapsOf s (q :: Q)) (marginalsOf s (q :: Q)) idx =
        (sample fp (q.1.map (fun d : Nat => (d : Int))) seq (arr (projSizes q.1 s) q.2) ⟨q.1, projSizes q.1 s, false⟩ idx >>=
          fun idx => sampleAll fp seq (indicesOf Q) (mapsOf s Q) (marginalsOf s Q) idx) := rfl
    have he := sample_eq (fp := fp) hg hp hs hq.2 hq.1 q.2 false
    simp only [] at he
    have hf : freeIn q.1 idx (List.range q.1.length) = [] := by
      unfold freeIn
      rw [List.filter_eq_nil_iff]
      intro a ha
      have := hset q (by simp) _ (getD_mem (List.mem_range.mp ha))
      unfold isSet
      simp only [Bool.not_eq_true', decide_eq_false_iff_not, not_not]
      omega
    rw [e, he, if_pos hf]
    simp only [Out.ok_bind]
    exact sampleAll_set hg hs hp Q (fun p hp => hd p (by simp [hp])) (fun p hp => hset p (by simp [hp]))

theorem individuals_full (hfp : fp.Good) {s : List Nat} {p : List Nat × (List Int → Int)} {Q : Prob Int} (h : ProbShape s (p :: Q))
    (hnd : p.1.Nodup) (hall : ∀ d < s.length, d ∈ p.1) {pop : Int} : ∀ (k : Nat) {hs : List (List Int)} {n : Nat} {x : QIS},
    QISAt s (p :: Q) pop hs n x →
    (∀ j, InRange (projSizes p.1 s) j → 0 ≤ p.2 j - (hs.countP (fun v => proj p.1 v = j) : Int)) →
    ∑ j ∈ cells (projSizes p.1 s), (p.2 j - (hs.countP (fun v => proj p.1 v = j) : Int)) = k →
    k ≤ 2 ^ 53 → n + k ≤ 2 ^ 32 - 1 →
    ∃ x', individuals fp (mapsOf s (p :: Q)) k x = .ok x'
  | 0, hs, n, x, _, _, _, _, _ => ⟨x, rfl⟩
  | k + 1, hs, n, x, hx, hnn, htot, hk, hn => by
    unfold individuals
    have hp := h.dims p (by simp)
    have hdraw : ∀ seq : List U32, seq.length = s.length → ∃ v, Draw fp s (p :: Q) seq hs v ∧
        0 < p.2 (proj p.1 v) - (hs.countP (fun w => proj p.1 w = proj p.1 v) : Int) := by
      intro seq hsq
      obtain ⟨j, hj, hjp⟩ : ∃ j ∈ cells (projSizes p.1 s), 0 < p.2 j - (hs.countP (fun v => proj p.1 v = j) : Int) := by
        by_contra hc
        simp only [not_exists, not_and, not_lt] at hc
        have := Finset.sum_nonpos hc
        rw [htot] at this
        push_cast at this
        omega
      obtain ⟨i1, h1, h2, h3⟩ := sample_pos hfp h.good (partial_replicate s) hsq hp.2 hp.1 hnd (seq := seq)
        (g := fun j => p.2 j - (hs.countP (fun v => proj p.1 v = j) : Int)) false hnn (by rw [htot]; push_cast; omega)
        ⟨j, mem_cells.mp hj, hjp, by
          intro a ha h0
          have := hp.2 _ (getD_mem ha)
          have e : (List.replicate s.length (-1 : Int)).getD (p.1.getD a 0) 0 = -1 := by
            rw [List.getD_eq_getElem?_getD, List.getElem?_replicate, if_pos this]; rfl
          rw [e] at h0
          omega⟩
      refine ⟨i1, ?_, h3⟩
      unfold Draw
      have hok := shape_remaining h hs
      have e : sampleAll fp seq (indicesOf (p :: Q)) (mapsOf s (p :: Q)) (marginalsOf s (remaining hs (p :: Q))) (List.replicate s.length (-1)) =
          (sample fp (p.1.map (fun d : Nat => (d : Int))) seq (arr (projSizes p.1 s) (fun j => p.2 j - (hs.countP (fun v => proj p.1 v = j) : Int)))
            ⟨p.1, projSizes p.1 s, false⟩ (List.replicate s.length (-1)) >>=
            fun idx => sampleAll fp seq (indicesOf Q) (mapsOf s Q) (marginalsOf s (remaining hs Q)) idx) := rfl
      rw [e, h1]
      simp only [Out.ok_bind]
      have := sampleAll_set (fp := fp) h.good hsq h2.part (remaining hs Q) (fun q hq => hok.dims q (List.mem_cons_of_mem _ hq))
        (fun q hq d hd => h2.set d (hall d ((hok.dims q (List.mem_cons_of_mem _ hq)).2 d hd)))
      rw [indicesOf_remaining, mapsOf_remaining] at this
      exact this
    rcases individual_cases (fp := fp) h hx with h1 | ⟨h1, -⟩ | ⟨v, x', seq, hv, h1, h2, h3, h4, h5, h6, h7⟩
    · exact absurd h1 (individual_of_draw h hx (by omega) (fun seq hs => (hdraw seq hs).imp fun _ h => h.1))
    · omega
    · rw [h1]
      simp only [Out.ok_bind]
      obtain ⟨v', hv1, hv2⟩ := hdraw seq h6.1
      have hvv : v = v' := by
        unfold Draw at h7 hv1
        rw [h7] at hv1
        injection hv1
      subst hvv
      refine individuals_full hfp h hnd hall k h2 ?_ ?_ (by omega) (by omega)
      · intro j hj
        have := hnn j hj
        rw [List.countP_cons]
        by_cases hvj : proj p.1 v = j
        · rw [hvj] at hv2
          simp only [hvj, decide_true, if_true]
          push_cast; omega
        · simp only [hvj, decide_false, Bool.false_eq_true, if_false, Nat.add_zero]
          exact this
      · have e : ∀ j, p.2 j - ((v :: hs).countP (fun w => proj p.1 w = j) : Int) =
            (p.2 j - (hs.countP (fun w => proj p.1 w = j) : Int)) - if proj p.1 v = j then 1 else 0 := by
          intro j
          rw [List.countP_cons]
          by_cases hvj : proj p.1 v = j
          · simp [hvj]; ring
          · simp [hvj]
        simp only [e]
        rw [Finset.sum_sub_distrib, htot, Finset.sum_ite_eq, if_pos (mem_cells.mpr (inRange_proj hp.2 hv))]
        push_cast; ring

theorem run_full (hfp : fp.Good) (lm : Libm) {s : List Nat} {p : List Nat × (List Int → Int)} {Q : Prob Int} {pop : Int}
    (h : ProbOK s (p :: Q) pop) (hpop : pop < 2 ^ 52)
    (hnd : p.1.Nodup) (hall : ∀ d < s.length, d ∈ p.1) (hd : s.length ≤ 1111) {skips : Int} {c : Nat}
    (hc : skipCount (skips % 2 ^ 32).toNat = .ok c) (hn : c + pop ≤ 2 ^ 32 - 1) :
    ∃ x, QIS.run fp lm (indicesOf (p :: Q)) (marginalsOf s (p :: Q)) skips = .ok x := by
  have h0 := h.pop_nonneg
  rcases run_eq hfp lm h hpop skips with ⟨h1, -⟩ | ⟨-, h1, -⟩ | ⟨c', x0, h1, h2, -, h3, -, -, h4⟩
  · omega
  · have := skipCount_diverges (n := (skips % 2 ^ 32).toNat) (by omega)
    rw [this] at hc; cases hc
  · rw [hc] at h2
    injection h2 with h2
    subst h2
    obtain ⟨x1, hb, g1, g2, g3, -⟩ := begin_ok h3 false
    rw [h4]
    have hs := h.toProbShape
    simp only [Bool.false_eq_true, if_false] at g1
    obtain ⟨x2, g4⟩ := individuals_full hfp hs hnd hall pop.toNat g1 (by simpa using h.nonneg p (by simp))
      (by simpa [Int.toNat_of_nonneg h0] using h.total p (by simp)) (by omega) (by omega)
    rcases solve_cases (fp := fp) lm hs h3 false with f | ⟨f, -⟩ | ⟨vs, x', f, -⟩
    · exfalso
      unfold QIS.solve at f
      rw [hb] at f
      simp only [Out.ok_bind] at f
      have e1 : x1.micro.array.sizes = s := by rw [g1.micro]; rfl
      have e2 : x1.micro.indices = indicesOf (p :: Q) := by rw [g1.micro]; rfl
      have e3 : x1.micro.population = pop := by rw [g1.micro]; rfl
      rw [e1, e2, e3, index_new hs.good.1] at f
      simp only [Out.ok_bind] at f
      have hm := mappings_ok (s := s) (P := p :: Q) (fun p hp => (h.dims p hp).2)
      rw [show (zerosI s.length) = List.replicate s.length 0 from rfl, hm] at f
      simp only [Out.ok_bind] at f
      have hc1 : x1.conv = true ↔ Unspent (p :: Q) [] := by simp [g3, Unspent]
      rcases individuals_cases (fp := fp) hs pop.toNat g1 hc1 with e | ⟨-, e⟩ | ⟨vs, seqs, x3, -, -, -, e, f1, f2, -, -, -⟩
      · rw [e] at g4; cases g4
      · rw [e] at g4; cases g4
      · unfold mapsOf at e
        rw [e] at f
        simp only [Out.ok_bind] at f
        have ha : x3.micro.array = arr s (fun v => ((vs.reverse ++ []).count v : Int)) := by rw [f1.micro]
        rw [stats_ok lm hs.good ha (f2.trans g2)] at f
        cases f
    · simp only [Bool.false_eq_true, if_false] at f
      omega
    · exact ⟨x', f⟩

end HL

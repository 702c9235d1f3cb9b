import Verif.Proof.QISMore

/-
Runs of QIS whose draws are known.
-/

namespace HL
open QIS Sobol
variable {fp : FP}

theorem individual_of_point {s : List Nat} {P : Prob Int} (h : ProbShape s P) (hd : s.length ≤ 1111) {pop : Int} {hs : List (List Int)}
    {n : Nat} {x : QIS} (hx : QISAt s P pop hs n x) (hn : n < 2 ^ 32 - 1) {v : List Int}
    (hv : ∀ seq, PointAt s.length (n + 1) seq → Draw fp s P seq hs v) :
    ∃ x', individual fp (mapsOf s P) x = .ok x' ∧ QISAt s P pop (v :: hs) (n + 1) x' := by
  rcases individual_cases (fp := fp) h hx with h1 | ⟨h1, -⟩ | ⟨w, x', seq, -, h1, h2, -, -, -, h6, h7⟩
  · exfalso
    obtain ⟨sb, seq, h2, h3, h4, -, -⟩ := next_ok hx.sobol hn
    unfold individual at h1
    rw [h2] at h1
    simp only [Out.ok_bind] at h1
    have e1 : x.micro.indices = indicesOf P := by rw [hx.micro]; rfl
    have e2 : x.micro.marginals = marginalsOf s (remaining hs P) := by rw [hx.micro]
    have e3 : x.micro.dim = s.length := by rw [hx.micro]; rfl
    have e4 : x.micro.array = arr s (fun v => (hs.count v : Int)) := by rw [hx.micro]
    have hdr := hv seq h4
    unfold Draw at hdr
    rw [e1, e2, e3, hdr] at h1
    simp only [Out.ok_bind] at h1
    split at h1
    · cases h1
    · have hdim : ∀ p ∈ remaining hs P, p.1 ≠ [] ∧ ∀ d ∈ p.1, d < s.length := by
        intro p hp
        simp only [remaining, List.mem_map] at hp
        obtain ⟨q, hq, rfl⟩ := hp
        exact h.dims q hq
      have hc := sampleAll_cases (fp := fp) h.good (seq := seq) h4.1 (remaining hs P) _ hdim (partial_replicate s)
      rw [indicesOf_remaining, mapsOf_remaining, hdr] at hc
      rcases hc with hc | ⟨v', hc, hp1, hp2, -⟩
      · cases hc
      · injection hc with hc
        subst hc
        have hvr : InRange s v := by
          refine inRange_of_partial hp1 ?_
          intro d hd
          obtain ⟨p, hp, hdp⟩ := h.cover d hd
          exact hp2 _ (List.mem_map.mpr ⟨p, hp, rfl⟩) d hdp
        have hdec := decrement_eq hvr (remaining hs P) x.conv (fun p hp => (hdim p hp).2)
        rw [mapsOf_remaining] at hdec
        rw [hdec, e4, Out.ok_bind, modify_arr hvr] at h1
        cases h1
  · omega
  · have h8 := hv seq h6
    unfold Draw at h7 h8
    rw [h7] at h8
    injection h8 with h8
    subst h8
    exact ⟨x', h1, h2⟩

theorem individuals_of_points {s : List Nat} {P : Prob Int} (h : ProbShape s P) (hd : s.length ≤ 1111) {pop : Int} {c : Nat}
    {vs : List (List Int)} (hn : c + vs.length ≤ 2 ^ 32 - 1)
    (hv : ∀ i < vs.length, ∀ seq, PointAt s.length (c + i + 1) seq → Draw fp s P seq (vs.take i).reverse (vs.getD i [])) :
    ∀ (k i : Nat) {x : QIS}, i + k = vs.length → QISAt s P pop (vs.take i).reverse (c + i) x →
    ∃ x', individuals fp (mapsOf s P) k x = .ok x' ∧ QISAt s P pop vs.reverse (c + vs.length) x'
  | 0, i, x, hi, hx => by
    have : i = vs.length := by omega
    subst this
    rw [List.take_length] at hx
    exact ⟨x, rfl, hx⟩
  | k + 1, i, x, hi, hx => by
    unfold individuals
    obtain ⟨x', h1, h2⟩ := individual_of_point h hd hx (by omega) (hv i (by omega))
    rw [h1]
    simp only [Out.ok_bind]
    refine individuals_of_points h hd hn hv k (i + 1) (by omega) ?_
    have : (vs.take (i + 1)).reverse = vs.getD i [] :: (vs.take i).reverse := by
      rw [List.take_succ_eq_append_getElem (by omega), List.reverse_append, List.getD_eq_getElem _ _ (by omega)]
      rfl
    rw [this]
    exact h2

/-- a scripted run -/
theorem qis_script (hfp : fp.Good) (lm : Libm) {s : List Nat} {P : Prob Int} {pop : Int} (h : ProbOK s P pop) (hpop : pop < 2 ^ 52)
    (hd : s.length ≤ 1111) {skips : Int} {c : Nat} (hc : skipCount (skips % 2 ^ 32).toNat = .ok c) {vs : List (List Int)}
    (hvs : (vs.length : Int) = pop) (hn : c + vs.length ≤ 2 ^ 32 - 1)
    (hv : ∀ i < vs.length, ∀ seq, PointAt s.length (c + i + 1) seq → Draw fp s P seq (vs.take i).reverse (vs.getD i [])) :
    ∃ x, QIS.run fp lm (indicesOf P) (marginalsOf s P) skips = .ok x ∧ x.micro.array = arr s (fun v => (vs.count v : Int)) ∧
      (x.conv = true ↔ Unspent P vs.reverse) := by
  rcases run_eq hfp lm h hpop skips with ⟨h1, -⟩ | ⟨-, h1, -⟩ | ⟨c', x0, h1, h2, -, h3, -, -, h4⟩
  · omega
  · rcases skipCount_cases (skips % 2 ^ 32).toNat with ⟨_, _, _⟩ | ⟨-, h2⟩
    · have := skipCount_diverges (n := (skips % 2 ^ 32).toNat) (by omega)
      rw [this] at hc; cases hc
    · rw [h2] at hc; cases hc
  · rw [hc] at h2
    injection h2 with h2
    subst h2
    obtain ⟨x1, hb, g1, g2, g3, -⟩ := begin_ok h3 false
    have hs := h.toProbShape
    simp only [Bool.false_eq_true, if_false] at g1
    have hlen : pop.toNat = vs.length := by omega
    obtain ⟨x2, g4, g5⟩ := individuals_of_points hs hd hn hv vs.length 0 (by omega) g1
    rcases solve_cases (fp := fp) lm hs h3 false with h5 | ⟨h5, -⟩ | ⟨ws, x', h5, h6⟩
    · exfalso
      unfold QIS.solve at h5
      rw [hb] at h5
      simp only [Out.ok_bind] at h5
      have e1 : x1.micro.array.sizes = s := by rw [g1.micro]; rfl
      have e2 : x1.micro.indices = indicesOf P := by rw [g1.micro]; rfl
      have e3 : x1.micro.population = pop := by rw [g1.micro]; rfl
      rw [e1, e2, e3, index_new hs.good.1] at h5
      simp only [Out.ok_bind] at h5
      have hm := mappings_ok (s := s) (P := P) (fun p hp => (h.dims p hp).2)
      rw [show (zerosI s.length) = List.replicate s.length 0 from rfl, hm] at h5
      simp only [Out.ok_bind] at h5
      have hc1 : x1.conv = true ↔ Unspent P [] := by simp [g3, Unspent]
      rw [← hlen] at g4
      rcases individuals_cases (fp := fp) hs pop.toNat g1 hc1 with f | ⟨-, f⟩ | ⟨us, seqs, x3, -, -, -, f, f1, f2, -, -, -⟩
      · rw [f] at g4; cases g4
      · rw [f] at g4; cases g4
      · unfold mapsOf at f
        rw [f] at h5
        simp only [Out.ok_bind] at h5
        have ha : x3.micro.array = arr s (fun v => ((us.reverse ++ []).count v : Int)) := by rw [f1.micro]
        rw [stats_ok lm hs.good ha (f2.trans g2)] at h5
        cases h5
    · simp at h5
      omega
    · have hw : ws = vs.reverse := by
        have hl : ws.reverse.length = vs.length := by rw [List.length_reverse, h6.size, hlen]
        have key : ∀ i ≤ vs.length, ws.reverse.take i = vs.take i := by
          intro i
          induction i with
          | zero => simp
          | succ i ih =>
            intro hi
            have hii := ih (by omega)
            obtain ⟨seq, v, a1, a2, a3⟩ := h6.points i (by omega)
            simp only [Bool.false_eq_true, if_false] at a2
            have a4 := hv i (by omega) seq a2
            rw [hii] at a3
            unfold Draw at a3 a4
            rw [a3] at a4
            injection a4 with a4
            rw [List.take_succ_eq_append_getElem (show i < ws.reverse.length by omega), List.take_succ_eq_append_getElem (show i < vs.length by omega), hii]
            congr 2
            have b1 : ws.reverse[i]'(by omega) = v := by
              rw [List.getElem?_eq_getElem (by omega)] at a1
              exact Option.some.inj a1
            rw [b1, a4, List.getD_eq_getElem _ _ (by omega)]
        have := key vs.length le_rfl
        rw [List.take_length, List.take_of_length_le (by omega)] at this
        rw [← this, List.reverse_reverse]
      refine ⟨x', h4.trans h5, ?_, by rw [h6.conv, hw]⟩
      rw [h6.at_.micro]
      show arr s (fun v => (ws.count v : Int)) = _
      rw [hw]
      simp

end HL

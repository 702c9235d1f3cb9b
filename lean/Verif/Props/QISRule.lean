import Verif.Proof.QISRule

/-
C115: `qis` is the rule of `QISRuleSpec.lean`, no more and no less.
-/

namespace HL
open QIS
variable {fp : FP}

theorem readOff_congr {rnd : ℚ → Fl} {s : List Nat} {P : Prob Int} (hd : ∀ p ∈ P, ∀ d ∈ p.1, d < s.length) {done : List (List Int)}
    {pt pt' : Nat → Nat} (he : ∀ d < s.length, pt d = pt' d) {v : List Int} (h : ReadOff rnd s P done pt v) : ReadOff rnd s P done pt' v := by
  refine ⟨h.1, ?_⟩
  intro A p B hP a d had hdA
  have := hd p (by rw [hP]; simp) d (List.mem_of_getElem? had)
  rw [← he d this]
  exact h.2 A p B hP a d had hdA

theorem leftAt_congr {s : List Nat} {p : List Nat × (List Int → Int)} {F : List Nat} {done : List (List Int)} {v v' : List Int} {a : Nat}
    (h : ∀ b < p.1.length, b ≠ a → (a < b ∨ p.1.getD b 0 ∈ F) → v.getD (p.1.getD b 0) 0 = v'.getD (p.1.getD b 0) 0) :
    leftAt s p F done v a = leftAt s p F done v' a := by
  funext x
  unfold leftAt
  have : condCells s p.1 F v a x = condCells s p.1 F v' a x := by
    unfold condCells
    apply Finset.filter_congr
    intro j _
    refine and_congr_right fun _ => forall_congr' fun b => forall_congr' fun hb => forall_congr' fun hn => forall_congr' fun hF => ?_
    rw [h b hb hn hF]
  rw [this]

theorem readOff_agree {rnd : ℚ → Fl} {s : List Nat} {P : Prob Int} {done : List (List Int)} {pt : Nat → Nat} {v v' : List Int}
    (h : ReadOff rnd s P done pt v) (h' : ReadOff rnd s P done pt v') :
    ∀ A B, P = A ++ B → ∀ d ∈ A.flatMap Prod.fst, v.getD d 0 = v'.getD d 0 := by
  intro A
  induction A using List.reverseRecOn with
  | nil => intro B _ d hd; simp at hd
  | append_singleton A p ih =>
    intro B hP
    have hP' : P = A ++ p :: B := by rw [hP]; simp
    have hA := ih _ hP'
    have key : ∀ k, ∀ a < p.1.length, p.1.length - k ≤ a → v.getD (p.1.getD a 0) 0 = v'.getD (p.1.getD a 0) 0 := by
      intro k
      induction k with
      | zero => intro a h1 h2; omega
      | succ k ihk =>
        intro a h1 h2
        by_cases hF : ∃ q ∈ A, p.1.getD a 0 ∈ q.1
        · obtain ⟨q, hq, hdq⟩ := hF
          exact hA _ (List.mem_flatMap.mpr ⟨q, hq, hdq⟩)
        · have had : p.1[a]? = some (p.1.getD a 0) := by simp [List.getD_eq_getElem?_getD, h1]
          have hno : ∀ q ∈ A, p.1.getD a 0 ∉ q.1 := fun q hq hdq => hF ⟨q, hq, hdq⟩
          obtain ⟨r, e1, e2⟩ := h.2 A p B hP' a _ had hno
          obtain ⟨r', e3, e4⟩ := h'.2 A p B hP' a _ had hno
          have hc : leftAt s p (A.flatMap Prod.fst) done v a = leftAt s p (A.flatMap Prod.fst) done v' a := by
            apply leftAt_congr
            rintro b hb hn (hab | hbF)
            · exact ihk b hb (by omega)
            · exact hA _ hbF
          rw [← hc] at e3 e4
          rw [e1] at e3
          injection e3 with e3
          subst e3
          exact firstPast_unique e2 e4
    intro d hd
    rw [List.flatMap_append, List.mem_append] at hd
    rcases hd with hd | hd
    · exact hA d hd
    · simp only [List.flatMap_cons, List.flatMap_nil, List.append_nil] at hd
      obtain ⟨a, ha, rfl⟩ := List.getElem_of_mem hd
      have := key p.1.length a ha (by omega)
      rwa [List.getD_eq_getElem _ _ ha] at this

theorem readOff_unique {rnd : ℚ → Fl} {s : List Nat} {P : Prob Int} (hcov : ∀ d < s.length, ∃ p ∈ P, d ∈ p.1) {done : List (List Int)}
    {pt : Nat → Nat} {v v' : List Int} (h : ReadOff rnd s P done pt v) (h' : ReadOff rnd s P done pt v') : v = v' := by
  apply List.ext_getElem (by rw [inRange_length h.1, inRange_length h'.1])
  intro k h1 h2
  obtain ⟨p, hp, hk⟩ := hcov k (by rw [← inRange_length h.1]; exact h1)
  have := readOff_agree h h' P [] (by simp) k (List.mem_flatMap.mpr ⟨p, hp, hk⟩)
  simpa only [List.getD_eq_getElem?_getD, List.getElem?_eq_getElem h1, List.getElem?_eq_getElem h2, Option.getD_some] using this

theorem skipTo_iff {skips : Int} (h0 : 0 ≤ skips) (h1 : skips ≤ 2 ^ 31) {c : Nat} :
    SkipTo skips c ↔ skipCount (skips % 2 ^ 32).toNat = .ok c := by
  have hmod : (skips % 2 ^ 32).toNat = skips.toNat := by
    rw [Int.emod_eq_of_lt h0 (by omega)]
  rw [hmod]
  constructor
  · rintro ⟨h2, h3⟩
    rcases Nat.lt_or_ge skips.toNat 2 with hk | hk
    · rw [skipCount_small (by omega), h2 (by omega)]
    · obtain ⟨f, g1, g2, g3⟩ := skipCount_ok hk (by omega)
      obtain ⟨e, rfl, e2, e3⟩ := h3 (by omega)
      rw [g1]
      have : e = f := by
        have a1 : 2 ^ e < 2 ^ (f + 1) := lt_of_lt_of_le e2 (by rw [pow_succ]; omega)
        have a2 : 2 ^ f < 2 ^ (e + 1) := lt_of_lt_of_le g2 e3
        have b1 := (Nat.pow_lt_pow_iff_right (by norm_num : 1 < 2)).mp a1
        have b2 := (Nat.pow_lt_pow_iff_right (by norm_num : 1 < 2)).mp a2
        omega
      rw [this]
  · intro h
    obtain ⟨c1, c2⟩ := skipped_spec h
    exact ⟨fun hk => c1 (by omega), fun hk => c2 (by omega)⟩

theorem sobolAfter_point {n c : Nat} (hn : n ≤ 1111) {pt : Nat → Nat → Nat} (hpt : SobolAfter n c pt) {i : Nat} {seq : List U32}
    (hs : PointAt n (c + i + 1) seq) : ∀ d < n, (seq.getD d 0).toNat = pt i d := by
  intro d hd
  obtain ⟨⟨m, hm⟩, -⟩ := C09_direction_numbers (i := d) (by omega)
  rw [hs.2 d hd m hm, hpt i d hd m hm]

/-! ### C115 -/

/-- The points exist, whatever the number of dimensions and of points left out. -/
theorem C115_points {n : Nat} (hn : n ≤ 1111) (c : Nat) : ∃ pt, SobolAfter n c pt := by
  have : ∀ k, ∃ g : Nat → Nat, k < n → ∀ i m, IsDirection k m → g i = (sobolValue m (c + i + 1)).toNat := by
    intro k
    by_cases hk : k < n
    · obtain ⟨⟨m, hm⟩, hu⟩ := C09_direction_numbers (i := k) (by omega)
      refine ⟨fun i => (sobolValue m (c + i + 1)).toNat, fun _ i m' hm' => ?_⟩
      rw [← sobolValue_congr (hu m m' hm hm')]
    · exact ⟨fun _ => 0, fun h => absurd h hk⟩
  obtain ⟨g, hg⟩ := Classical.axiomOfChoice this
  exact ⟨fun i k => g k i, fun i k hk m hm => hg k hk i m hm⟩

/-- **C115.**  The rule leaves no choice: two lists of individuals of one length drawn by it from the same points are the same. -/
theorem C115_unique {rnd : ℚ → Fl} {s : List Nat} {P : Prob Int} (hcov : ∀ d < s.length, ∃ p ∈ P, d ∈ p.1) {pt : Nat → Nat → Nat}
    {vs vs' : List (List Int)} (h : ByRule rnd s P pt vs) (h' : ByRule rnd s P pt vs') (hl : vs.length = vs'.length) : vs = vs' := by
  have key : ∀ i ≤ vs.length, vs.take i = vs'.take i := by
    intro i
    induction i with
    | zero => intro _; simp
    | succ i ih =>
      intro hi
      have e := ih (by omega)
      have h1 := h i vs[i] (List.getElem?_eq_getElem (by omega))
      have h2 := h' i vs'[i] (List.getElem?_eq_getElem (by omega))
      rw [← e] at h2
      rw [List.take_succ_eq_append_getElem (by omega), List.take_succ_eq_append_getElem (by omega), e, readOff_unique hcov h1 h2]
  have := key vs.length (le_refl _)
  rwa [List.take_length, hl, List.take_length] at this

theorem qis_byRule (hfp : fp.Good) {lm : Libm} {s : List Nat} {P : Prob Int} {pop : Int} (h : ProbOK s P pop) (hpop : pop < 2 ^ 52)
    (hnd : ∀ p ∈ P, p.1.Nodup) {skips : Int} (h0 : 0 ≤ skips) (h1 : skips ≤ 2 ^ 31) {c : Nat} (hc : SkipTo skips c)
    {pt : Nat → Nat → Nat} (hpt : SobolAfter s.length c pt) {x : QIS} (hx : qis fp lm s P skips = .ok x) :
    c + pop ≤ 2 ^ 32 - 1 ∧ ∃ vs : List (List Int), (vs.length : Int) = pop ∧ ByRule fp.rnd s P pt vs ∧
      x.micro.array = arr s (fun v => (vs.count v : Int)) := by
  obtain ⟨c', vs, hdim, hc', hs⟩ := run_ok hfp h hpop hx
  rw [(skipTo_iff h0 h1).mp hc] at hc'
  injection hc' with hc'
  subst hc'
  have hpn := h.pop_nonneg
  have hbound := hs.at_.sobol.bound
  refine ⟨by omega, vs.reverse, ?_, ?_, ?_⟩
  · rw [List.length_reverse, hs.size, Int.toNat_of_nonneg hpn]
  · intro i v hv
    have hi : i < vs.length := by
      have := (List.getElem?_eq_some_iff.mp hv).1
      simpa using this
    rw [hs.size] at hi
    obtain ⟨seq, v', g1, g2, g3⟩ := hs.points i hi
    rw [hv] at g1
    injection g1 with g1
    subst g1
    refine readOff_congr (fun p hp => (h.dims p hp).2) (fun d hd => sobolAfter_point hdim hpt g2 d hd)
      ((draw_iff hfp h hpop hnd ?_ ?_ g2.1).mp g3)
    · intro u hu
      exact hs.range u (by simpa using List.mem_of_mem_take hu)
    · rw [List.length_take, List.length_reverse, hs.size]; omega
  · rw [hs.at_.micro]
    simp only [List.count_reverse]

/-- **C115.**  `qis` returns a population exactly when there are individuals drawn by the rule, as many as the marginals ask for,
from the points of the Sobol sequence that follow the skipped ones (and no more of them than the sequence has). -/
theorem C115_returns (hfp : fp.Good) (lm : Libm) {s : List Nat} {P : Prob Int} {pop : Int} (h : ProbOK s P pop) (hpop : pop < 2 ^ 52)
    (hnd : ∀ p ∈ P, p.1.Nodup) (hdim : s.length ≤ 1111) {skips : Int} (h0 : 0 ≤ skips) (h1 : skips ≤ 2 ^ 31) {c : Nat}
    (hc : SkipTo skips c) {pt : Nat → Nat → Nat} (hpt : SobolAfter s.length c pt) :
    (∃ x, qis fp lm s P skips = .ok x) ↔
      c + pop ≤ 2 ^ 32 - 1 ∧ ∃ vs : List (List Int), (vs.length : Int) = pop ∧ ByRule fp.rnd s P pt vs := by
  constructor
  · rintro ⟨x, hx⟩
    obtain ⟨g1, vs, g2, g3, -⟩ := qis_byRule hfp h hpop hnd h0 h1 hc hpt hx
    exact ⟨g1, vs, g2, g3⟩
  · rintro ⟨g1, vs, g2, g3⟩
    obtain ⟨x, hx, -⟩ := qis_script hfp lm h hpop hdim ((skipTo_iff h0 h1).mp hc) g2 (by omega) (by
      intro i hi seq hseq
      have hv := g3 i (vs.getD i []) (by rw [List.getD_eq_getElem _ _ hi]; exact List.getElem?_eq_getElem hi)
      refine (draw_iff hfp h hpop hnd ?_ ?_ hseq.1).mpr (readOff_congr (fun p hp => (h.dims p hp).2) (fun d hd => ?_) hv)
      · intro v hv
        obtain ⟨k, hk, rfl⟩ := List.getElem_of_mem hv
        rw [List.getElem_take]
        rw [List.length_take] at hk
        exact (g3 k _ (List.getElem?_eq_getElem (by omega))).1
      · rw [List.length_take]; omega
      · exact (sobolAfter_point hdim hpt hseq d hd).symm)
    exact ⟨x, hx⟩

/-- **C115.**  The population it returns is the one of those individuals. -/
theorem C115_result (hfp : fp.Good) {lm : Libm} {s : List Nat} {P : Prob Int} {pop : Int} (h : ProbOK s P pop) (hpop : pop < 2 ^ 52)
    (hnd : ∀ p ∈ P, p.1.Nodup) {skips : Int} (h0 : 0 ≤ skips) (h1 : skips ≤ 2 ^ 31) {c : Nat}
    (hc : SkipTo skips c) {pt : Nat → Nat → Nat} (hpt : SobolAfter s.length c pt) {x : QIS} (hx : qis fp lm s P skips = .ok x)
    {vs : List (List Int)} (hl : (vs.length : Int) = pop) (hvs : ByRule fp.rnd s P pt vs) :
    x.micro.array = arr s (fun v => (vs.count v : Int)) ∧
      (x.conv = true ↔ ∀ p ∈ P, ∀ j, InRange (projSizes p.1 s) j → marginalSum s p.1 (fun v => (vs.count v : Int)) j = p.2 j) := by
  obtain ⟨-, vs', g2, g3, g4⟩ := qis_byRule hfp h hpop hnd h0 h1 hc hpt hx
  have : vs = vs' := C115_unique h.cover hvs g3 (by omega)
  subst this
  exact ⟨g4, C22_conv hfp h hpop hx g4⟩

/-- **C115.**  When there are no such individuals, it throws: no state could be picked, or the sequence is used up. -/
theorem C115_otherwise (hfp : fp.Good) (lm : Libm) {s : List Nat} {P : Prob Int} {pop : Int} (h : ProbOK s P pop) (hpop : pop < 2 ^ 52)
    (hnd : ∀ p ∈ P, p.1.Nodup) (hdim : s.length ≤ 1111) {skips : Int} (h0 : 0 ≤ skips) (h1 : skips ≤ 2 ^ 31) {c : Nat}
    (hc : SkipTo skips c) {pt : Nat → Nat → Nat} (hpt : SobolAfter s.length c pt)
    (hno : ¬ ∃ vs : List (List Int), (vs.length : Int) = pop ∧ ByRule fp.rnd s P pt vs) :
    qis fp lm s P skips = .thrown .pickFailed ∨ qis fp lm s P skips = .thrown .sobolExhausted := by
  rcases C25_outcomes hfp lm h hpop skips with ⟨h2, -⟩ | ⟨-, h2, -⟩ | ⟨-, -, h2 | h2 | h2⟩
  · omega
  · rw [Int.emod_eq_of_lt h0 (by omega)] at h2
    omega
  · exact absurd ((C115_returns hfp lm h hpop hnd hdim h0 h1 hc hpt).mp h2).2 hno
  · exact Or.inl h2
  · exact Or.inr h2.2

/-- The hypotheses are met, by marginals that overlap: `qis` returns, so the individuals of the rule exist. -/
example (hfp : fp.Good) {pt : Nat → Nat → Nat} (hpt : SobolAfter 3 4 pt) :
    SkipTo 5 4 ∧ (∀ p ∈ bridgeProb, p.1.Nodup) ∧ ∃ vs : List (List Int), vs.length = 6 ∧ ByRule fp.rnd [2, 2, 2] bridgeProb pt vs := by
  have hc : SkipTo 5 4 := ⟨by norm_num, fun _ => ⟨2, by norm_num⟩⟩
  have hnd : ∀ p ∈ bridgeProb, p.1.Nodup := by simp [bridgeProb]
  refine ⟨hc, hnd, ?_⟩
  obtain ⟨x, hx, -⟩ := C23_tree hfp ⟨id, id, id, id, id⟩ bridgeProb_ok (by norm_num) bridgeProb_tree (by simp) (skips := 5) (by norm_num) (by norm_num)
  obtain ⟨-, vs, h1, h2⟩ := (C115_returns hfp _ bridgeProb_ok (by norm_num) hnd (by simp) (by norm_num) (by norm_num) hc hpt).mp ⟨x, hx⟩
  exact ⟨vs, by omega, h2⟩

end HL

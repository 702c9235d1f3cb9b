import Verif.Proof.QISTree
import Verif.QISSpec
import Verif.Proof.IPFExact

/-
Further facts about QIS: exhausted marginals, exact expectations, evaluation of small cases.
-/

namespace HL
open QIS
variable {fp : FP}

/-! exhausted marginals -/

theorem lastSums_zero {t : List Nat} {n : Nat} {h : List Int → Int} (hz : ∀ v, InRange (t ++ [n]) v → h v = 0) :
    ∀ x ∈ lastSums t n h, x = 0 := by
  intro x hx
  simp only [lastSums, List.mem_map, List.mem_range] at hx
  obtain ⟨i, hi, rfl⟩ := hx
  apply Finset.sum_eq_zero
  intro v hv
  exact hz _ (inRange_snoc (mem_cells.mp hv) (by positivity) (by exact_mod_cast hi))

theorem rec_zero (hfp : fp.Good) {pos : List Nat} {sm : List (Nat × Nat)} : ∀ (L : List (Nat × U32)) (t : List Nat)
    (h : List Int → Int) (idx : List Int), L ≠ [] → t.length = L.length → GoodShape t → MapOK sm L →
    PosOK pos idx.length L → (∀ v, InRange t v → h v = 0) →
    recursiveSample fp pos sm L (arr t h) idx = .thrown .pickFailed
  | [], _, _, _, hne, _, _, _, _, _ => absurd rfl hne
  | [(d, u)], t, h, idx, _, hl, hg, _, hpos, hz => by
    obtain ⟨t', n, rfl, hl'⟩ := exists_snoc (k := 0) (by simpa using hl)
    have : t' = [] := List.eq_nil_of_length_eq_zero hl'
    subst this
    obtain ⟨p, hp, hpl⟩ := hpos (d, u) (by simp)
    obtain ⟨h1, -⟩ := rec_one (fp := fp) (sm := sm) (u := u) (n := n) (h := h) hp hpl
    exact h1 (pick_int_zero hfp (lastSums_zero hz) u)
  | (d, u) :: e :: rest, t, h, idx, _, hl, hg, hm, hpos, hz => by
    obtain ⟨t', n, rfl, hl'⟩ := exists_snoc (k := (e :: rest).length) (by simpa using hl)
    obtain ⟨p, hp, hpl⟩ := hpos (d, u) (by simp)
    obtain ⟨h1, -⟩ := rec_step (fp := fp) (u := u) (h := h) hg hl' hm hp hpl
    exact h1 (pick_int_zero hfp (lastSums_zero hz) u)

theorem sample_zero (hfp : fp.Good) {s ds : List Nat} {idx : List Int} {seq : List U32} (hg : GoodShape s) (hp : PartialIdx s idx)
    (hs : seq.length = s.length) (hd : ∀ d ∈ ds, d < s.length) (hne : ds ≠ []) {g : List Int → Int} (b : Bool)
    (hz : ∀ j, InRange (projSizes ds s) j → g j = 0) (hfree : freeIn ds idx (List.range ds.length) ≠ []) :
    sample fp (ds.map (fun d : Nat => (d : Int))) seq (arr (projSizes ds s) g) ⟨ds, projSizes ds s, b⟩ idx =
      .thrown .pickFailed := by
  have he := sample_eq (fp := fp) hg hp hs hd hne g b
  simp only [] at he
  rw [he, if_neg hfree]
  obtain ⟨f1, f2, f3, f4, f5, f6⟩ := free_facts (seq := seq) hg hp hd hfree
  apply rec_zero hfp _ _ _ _ f1 f2 f3 f4 f5
  intro v hv
  have hok := fixedOK_in hp hd
  have hlen : (projSizes ds s).length = ds.length := by simp [projSizes]
  have := inRange_sliceIdx hok (v := v) (by rw [hlen, freeDims_fixedIn ds idx ds.length]; exact hv)
  rw [hlen] at this
  exact hz _ this

theorem freeIn_replicate {s ds : List Nat} (hd : ∀ d ∈ ds, d < s.length) :
    freeIn ds (List.replicate s.length (-1)) (List.range ds.length) = List.range ds.length := by
  unfold freeIn
  rw [List.filter_eq_self]
  intro a ha
  have ha' : a < ds.length := List.mem_range.mp ha
  have := hd _ (getD_mem ha')
  unfold isSet
  rw [List.getD_eq_getElem?_getD, List.getElem?_replicate, if_pos this]
  simp

theorem individual_zero (hfp : fp.Good) {s : List Nat} {P : Prob Int} (h : ProbShape s P) {pop : Int} {n : Nat} {x : QIS}
    (hx : QISAt s P pop [] n x) (hn : n < 2 ^ 32 - 1) (hz : ∀ p ∈ P, ∀ j, InRange (projSizes p.1 s) j → p.2 j = 0) :
    individual fp (mapsOf s P) x = .thrown .pickFailed := by
  unfold individual
  obtain ⟨sb, seq, a1, a2, a3, -, -⟩ := next_ok hx.sobol hn
  rw [a1]
  simp only [Out.ok_bind]
  have e0 : remaining [] P = P := by simp [remaining]
  have e1 : x.micro.indices = indicesOf P := by rw [hx.micro]; rfl
  have e2 : x.micro.marginals = marginalsOf s P := by rw [hx.micro, e0]
  have e3 : x.micro.dim = s.length := by rw [hx.micro]; rfl
  rw [e1, e2, e3]
  have hl := h.lists
  obtain ⟨p, Q, rfl⟩ : ∃ p Q, P = p :: Q := by
    cases P with
    | nil => simp at hl
    | cons p Q => exact ⟨p, Q, rfl⟩
  have hp := h.dims p (by simp)
  have e : ∀ idx, sampleAll fp seq (indicesOf (p :: Q)) (mapsOf s (p :: Q)) (marginalsOf s (p :: Q)) idx =
      (sample fp (p.1.map (fun d : Nat => (d : Int))) seq (arr (projSizes p.1 s) p.2) ⟨p.1, projSizes p.1 s, false⟩ idx >>=
        fun idx => sampleAll fp seq (indicesOf Q) (mapsOf s Q) (marginalsOf s Q) idx) := fun _ => rfl
  rw [e, sample_zero hfp h.good (partial_replicate s) a3.1 hp.2 hp.1 false (hz p (by simp))
    (by rw [freeIn_replicate hp.2]; simpa using hp.1)]
  rfl

theorem solve_zero (hfp : fp.Good) (lm : Libm) {s : List Nat} {P : Prob Int} (h : ProbShape s P) {pop : Int} {n : Nat}
    {E : List Int → Fl} {x : QIS} (hx : QISObj s P pop n E x) (reset : Bool) (hpop : 0 < pop)
    (hz : ∀ p ∈ P, ∀ j, InRange (projSizes p.1 s) j → p.2 j = 0) :
    QIS.solve fp lm x reset = .thrown .pickFailed ∨ QIS.solve fp lm x reset = .thrown .sobolExhausted := by
  rcases solve_cases (fp := fp) lm h hx reset with h1 | ⟨-, h1⟩ | ⟨vs, x', h1, h2⟩
  · exact Or.inl h1
  · exact Or.inr h1
  · exfalso
    obtain ⟨x1, hb, h3, -⟩ := begin_ok hx reset
    unfold QIS.solve at h1
    rw [hb] at h1
    simp only [Out.ok_bind] at h1
    have e1 : x1.micro.array.sizes = s := by rw [h3.micro]; rfl
    have e2 : x1.micro.indices = indicesOf P := by rw [h3.micro]; rfl
    have e3 : x1.micro.population = pop := by rw [h3.micro]; rfl
    rw [e1, e2, e3, index_new h.good.1] at h1
    simp only [Out.ok_bind] at h1
    have hm := mappings_ok (s := s) (P := P) (fun p hp => (h.dims p hp).2)
    rw [show (zerosI s.length) = List.replicate s.length 0 from rfl, hm] at h1
    simp only [Out.ok_bind] at h1
    obtain ⟨k, hk⟩ : ∃ k, pop.toNat = k + 1 := ⟨pop.toNat - 1, by omega⟩
    rw [hk] at h1
    unfold individuals at h1
    rcases individual_cases (fp := fp) h h3 with h4 | ⟨-, h4⟩ | ⟨v, x2, seq, hv, h4, h5, -, -, -, -, -⟩
    · unfold mapsOf at h4
      rw [h4] at h1; cases h1
    · unfold mapsOf at h4
      rw [h4] at h1; cases h1
    · have hb := h5.sobol.bound
      rw [individual_zero hfp h h3 (by omega) hz] at h4
      cases h4

theorem solve_zero_reset (hfp : fp.Good) (lm : Libm) {s : List Nat} {P : Prob Int} (h : ProbShape s P) {pop : Int} {n : Nat}
    {E : List Int → Fl} {x : QIS} (hx : QISObj s P pop n E x) (reset : Bool) (hpop : 0 < pop)
    (hz : ∀ p ∈ P, ∀ j, InRange (projSizes p.1 s) j → p.2 j = 0) (hn : (if reset then 0 else n) < 2 ^ 32 - 1) :
    QIS.solve fp lm x reset = .thrown .pickFailed := by
  obtain ⟨x1, hb, h3, -⟩ := begin_ok hx reset
  unfold QIS.solve
  rw [hb]
  simp only [Out.ok_bind]
  have e1 : x1.micro.array.sizes = s := by rw [h3.micro]; rfl
  have e2 : x1.micro.indices = indicesOf P := by rw [h3.micro]; rfl
  have e3 : x1.micro.population = pop := by rw [h3.micro]; rfl
  rw [e1, e2, e3, index_new h.good.1]
  simp only [Out.ok_bind]
  have hm := mappings_ok (s := s) (P := P) (fun p hp => (h.dims p hp).2)
  rw [show (zerosI s.length) = List.replicate s.length 0 from rfl, hm]
  simp only [Out.ok_bind]
  obtain ⟨k, hk⟩ : ∃ k, pop.toNat = k + 1 := ⟨pop.toNat - 1, by omega⟩
  rw [hk]
  unfold individuals
  have := individual_zero hfp h h3 hn hz
  unfold mapsOf at this
  rw [this]
  rfl

/-! the whole of `qis` -/

theorem skipCount_cases (k : Nat) : (∃ c, skipCount k = .ok c ∧ c ≤ 2 ^ 31) ∨ (2 ^ 31 < k ∧ skipCount k = .diverges) := by
  by_cases h : k ≤ 2
  · exact Or.inl ⟨1, skipCount_small h, by norm_num⟩
  · by_cases h' : k ≤ 2 ^ 31
    · obtain ⟨f, h1, h2, -⟩ := skipCount_ok (n := k) (by omega) h'
      exact Or.inl ⟨_, h1, by omega⟩
    · exact Or.inr ⟨by omega, skipCount_diverges (by omega)⟩

theorem run_eq (hfp : fp.Good) (lm : Libm) {s : List Nat} {P : Prob Int} {pop : Int} (h : ProbOK s P pop) (hpop : pop < 2 ^ 52)
    (skips : Int) :
    (1111 < s.length ∧ ∃ e, QIS.run fp lm (indicesOf P) (marginalsOf s P) skips = .thrown e ∧ (e = .sobolDim ∨ e = .lengthError)) ∨
    (s.length ≤ 1111 ∧ 2 ^ 31 < skips % 2 ^ 32 ∧ QIS.run fp lm (indicesOf P) (marginalsOf s P) skips = .diverges) ∨
    ∃ c x, s.length ≤ 1111 ∧ skipCount (skips % 2 ^ 32).toNat = .ok c ∧ c ≤ 2 ^ 31 ∧
      QISObj s P pop c (expectedVal fp s P pop) x ∧ x.stateValues = arr s (stateVal fp P) ∧
      QIS.new fp (indicesOf P) (marginalsOf s P) skips = .ok x ∧
      QIS.run fp lm (indicesOf P) (marginalsOf s P) skips = QIS.solve fp lm x false := by
  have h2 := h.two
  by_cases hd : s.length ≤ 1111
  · right
    rcases skipCount_cases (skips % 2 ^ 32).toNat with ⟨c, hc, hc'⟩ | ⟨hc, hc'⟩
    · right
      obtain ⟨x, hx, ho, hv⟩ := qis_new_ok hfp h hpop hd hc
      rw [show min c (2 ^ 32 - 1) = c by omega] at ho
      refine ⟨c, x, hd, hc, hc', ho, hv, hx, ?_⟩
      unfold QIS.run
      rw [hx]; rfl
    · left
      refine ⟨hd, by omega, ?_⟩
      obtain ⟨sb, hsb, ha, -⟩ := new_ok (dim := s.length) (by omega) hd
      unfold QIS.run QIS.new
      rw [micro_new_int hfp h hpop]
      simp only [Out.ok_bind]
      rw [show (mkMicro Int s P pop).dim = s.length from rfl, hsb]
      simp only [Out.ok_bind]
      unfold Sobol.skip sobolSkip
      rw [hc']
      rfl
  · left
    refine ⟨by omega, ?_⟩
    unfold QIS.run QIS.new
    rw [micro_new_int hfp h hpop]
    simp only [Out.ok_bind]
    rw [show (mkMicro Int s P pop).dim = s.length from rfl]
    unfold Sobol.new
    by_cases h61 : 2 ^ 61 ≤ s.length
    · rw [if_pos h61]; exact ⟨_, rfl, Or.inr rfl⟩
    · rw [if_neg h61, if_pos (by omega)]; exact ⟨_, rfl, Or.inl rfl⟩

theorem run_ok (hfp : fp.Good) {lm : Libm} {s : List Nat} {P : Prob Int} {pop : Int} (h : ProbOK s P pop) (hpop : pop < 2 ^ 52)
    {skips : Int} {x : QIS} (hx : QIS.run fp lm (indicesOf P) (marginalsOf s P) skips = .ok x) :
    ∃ c vs, s.length ≤ 1111 ∧ skipCount (skips % 2 ^ 32).toNat = .ok c ∧ Solved fp lm s P pop c (expectedVal fp s P pop) vs x := by
  rcases run_eq hfp lm h hpop skips with ⟨-, e, h1, -⟩ | ⟨-, -, h1⟩ | ⟨c, x0, h1, h2, -, h3, -, -, h4⟩
  · rw [h1] at hx; cases hx
  · rw [h1] at hx; cases hx
  · rw [h4] at hx
    rcases solve_cases (fp := fp) lm h.toProbShape h3 false with h5 | ⟨-, h5⟩ | ⟨vs, x', h5, h6⟩
    · rw [h5] at hx; cases hx
    · rw [h5] at hx; cases hx
    · rw [h5] at hx
      injection hx with hx
      subst hx
      exact ⟨c, vs, h1, h2, h6⟩

theorem run_tree (hfp : fp.Good) (lm : Libm) {s : List Nat} {P : Prob Int} {pop : Int} (h : ProbOK s P pop) (hpop : pop < 2 ^ 52)
    (ht : TreeDims (P.map Prod.fst)) (hd : s.length ≤ 1111) {skips : Int} {c : Nat} (hc : skipCount (skips % 2 ^ 32).toNat = .ok c)
    (hn : c + pop ≤ 2 ^ 32 - 1) :
    ∃ x, QIS.run fp lm (indicesOf P) (marginalsOf s P) skips = .ok x ∧ x.conv = true := by
  have h0 := h.pop_nonneg
  rcases run_eq hfp lm h hpop skips with ⟨h1, -⟩ | ⟨-, h1, -⟩ | ⟨c', x0, h1, h2, -, h3, -, -, h4⟩
  · omega
  · rcases skipCount_cases (skips % 2 ^ 32).toNat with ⟨_, _, _⟩ | ⟨-, h2⟩
    · have := skipCount_diverges (n := (skips % 2 ^ 32).toNat) (by omega)
      rw [this] at hc; cases hc
    · rw [h2] at hc; cases hc
  · rw [hc] at h2
    injection h2 with h2
    subst h2
    obtain ⟨x1, hb, g1, g2, g3, -⟩ := begin_ok h3 false
    rw [h4]
    have hs := h.toProbShape
    have e0 : remaining [] P = P := by simp [remaining]
    simp only [Bool.false_eq_true, if_false] at g1
    obtain ⟨x2, g4, g5⟩ := individuals_tree hfp hs ht pop.toNat g1 (by rw [e0, Int.toNat_of_nonneg h0]; exact h) (by omega) (by omega)
    unfold QIS.solve
    rw [hb]
    simp only [Out.ok_bind]
    have e1 : x1.micro.array.sizes = s := by rw [g1.micro]; rfl
    have e2 : x1.micro.indices = indicesOf P := by rw [g1.micro]; rfl
    have e3 : x1.micro.population = pop := by rw [g1.micro]; rfl
    rw [e1, e2, e3, index_new hs.good.1]
    simp only [Out.ok_bind]
    have hm := mappings_ok (s := s) (P := P) (fun p hp => (h.dims p hp).2)
    rw [show (zerosI s.length) = List.replicate s.length 0 from rfl, hm]
    simp only [Out.ok_bind]
    have hc1 : x1.conv = true ↔ Unspent P [] := by simp [g3, Unspent]
    rcases individuals_cases (fp := fp) hs pop.toNat g1 hc1 with f | ⟨-, f⟩ | ⟨vs, seqs, x3, -, -, -, f, f1, f2, -, -, -⟩
    · rw [f] at g4; cases g4
    · rw [f] at g4; cases g4
    · rw [f] at g4
      injection g4 with g4
      subst g4
      unfold mapsOf at f
      rw [f]
      simp only [Out.ok_bind]
      have ha : x3.micro.array = arr s (fun v => ((vs.reverse ++ []).count v : Int)) := by rw [f1.micro]
      rw [stats_ok lm hs.good ha (f2.trans g2)]
      exact ⟨_, rfl, g5.trans g3⟩

theorem run_tree_exhausted (hfp : fp.Good) (lm : Libm) {s : List Nat} {P : Prob Int} {pop : Int} (h : ProbOK s P pop) (hpop : pop < 2 ^ 52)
    (ht : TreeDims (P.map Prod.fst)) (hd : s.length ≤ 1111) {skips : Int} {c : Nat} (hc : skipCount (skips % 2 ^ 32).toNat = .ok c)
    (hn : 2 ^ 32 - 1 < c + pop) :
    QIS.run fp lm (indicesOf P) (marginalsOf s P) skips = .thrown .sobolExhausted := by
  have h0 := h.pop_nonneg
  rcases run_eq hfp lm h hpop skips with ⟨h1, -⟩ | ⟨-, h1, -⟩ | ⟨c', x0, h1, h2, hc', h3, -, -, h4⟩
  · omega
  · have := skipCount_diverges (n := (skips % 2 ^ 32).toNat) (by omega)
    rw [this] at hc; cases hc
  · rw [hc] at h2
    injection h2 with h2
    subst h2
    obtain ⟨x1, hb, g1, g2, g3, -⟩ := begin_ok h3 false
    rw [h4]
    have hs := h.toProbShape
    have e0 : remaining [] P = P := by simp [remaining]
    simp only [Bool.false_eq_true, if_false] at g1
    have g4 := individuals_tree_exhausted hfp hs ht pop.toNat g1 (by rw [e0, Int.toNat_of_nonneg h0]; exact h) (by omega) (by omega)
      (by omega)
    unfold QIS.solve
    rw [hb]
    simp only [Out.ok_bind]
    have e1 : x1.micro.array.sizes = s := by rw [g1.micro]; rfl
    have e2 : x1.micro.indices = indicesOf P := by rw [g1.micro]; rfl
    have e3 : x1.micro.population = pop := by rw [g1.micro]; rfl
    rw [e1, e2, e3, index_new hs.good.1]
    simp only [Out.ok_bind]
    have hm := mappings_ok (s := s) (P := P) (fun p hp => (h.dims p hp).2)
    rw [show (zerosI s.length) = List.replicate s.length 0 from rfl, hm]
    simp only [Out.ok_bind]
    unfold mapsOf at g4
    rw [g4]
    rfl

/-! exact expectations -/

theorem stateVal_exact (P : Prob Int) (v : List Int) : stateVal FP.exact P v = .fin (productAt P v) := by
  have : ∀ (P : Prob Int) (c : ℚ), P.foldl (fun x p => FP.exact.mul x (FP.exact.ofInt (p.2 (proj p.1 v)))) (.fin c) =
      .fin (c * productAt P v) := by
    intro P
    induction P with
    | nil => intro c; simp [productAt]
    | cons p P ih =>
      intro c
      rw [List.foldl_cons]
      have : FP.exact.mul (.fin c) (FP.exact.ofInt (p.2 (proj p.1 v))) = .fin (c * (p.2 (proj p.1 v) : ℚ)) := rfl
      rw [this, ih]
      simp [productAt, mul_assoc]
  have h := this P 1
  rw [one_mul] at h
  exact h

theorem expectedVal_exact {s : List Nat} {P : Prob Int} {pop : Int} (hz : ∑ v ∈ cells s, productAt P v ≠ 0) (v : List Int) :
    expectedVal FP.exact s P pop v = .fin (productAt P v * (pop / ∑ v ∈ cells s, productAt P v)) := by
  unfold expectedVal
  have e : (allIdx s).foldl (fun acc v => FP.exact.add acc (stateVal FP.exact P v)) (.fin 0) = .fin (∑ v ∈ cells s, productAt P v) := by
    rw [foldl_exact _ (productAt P) _ (fun v _ => stateVal_exact P v), zero_add, sum_allIdx]
  rw [e, stateVal_exact]
  have : FP.exact.div (FP.exact.ofInt pop) (.fin (∑ v ∈ cells s, productAt P v)) = .fin (pop / ∑ v ∈ cells s, productAt P v) := by
    show (if _ then _ else _) = _
    rw [if_neg hz]; rfl
  rw [this]; rfl

theorem productAt_nonneg {s : List Nat} {P : Prob Int} {pop : Int} (h : ProbOK s P pop) {v : List Int} (hv : InRange s v) :
    0 ≤ productAt P v := by
  unfold productAt
  have key : ∀ l : List ℚ, (∀ x ∈ l, 0 ≤ x) → 0 ≤ l.prod := by
    intro l
    induction l with
    | nil => intro _; simp
    | cons a l ih =>
      intro hl
      rw [List.prod_cons]
      exact mul_nonneg (hl a (by simp)) (ih fun x hx => hl x (by simp [hx]))
  apply key
  intro x hx
  obtain ⟨p, hp, rfl⟩ := List.mem_map.mp hx
  exact_mod_cast h.nonneg p hp _ (inRange_proj (h.dims p hp).2 hv)

theorem productAt_eq_zero {P : Prob Int} {v : List Int} : productAt P v = 0 ↔ ∃ p ∈ P, p.2 (proj p.1 v) = 0 := by
  unfold productAt
  rw [List.prod_eq_zero_iff]
  simp only [List.mem_map, Int.cast_eq_zero]

/-- A tree-structured problem has a cell where no marginal is zero. -/
theorem tree_support {s : List Nat} {P : Prob Int} {pop : Int} (h : ProbOK s P pop) (hpop : 0 < pop) (hb : pop ≤ 2 ^ 53)
    (ht : TreeDims (P.map Prod.fst)) : ∃ v, InRange s v ∧ ∀ p ∈ P, 0 < p.2 (proj p.1 v) := by
  have hfrom : ∀ d < s.length, 0 ≤ (List.replicate s.length (-1 : Int)).getD d 0 → ∃ q ∈ ([] : Prob Int), d ∈ q.1 := by
    intro d hd h0
    simp [List.getD_eq_getElem?_getD, hd] at h0
  obtain ⟨v, h1, h2⟩ := sampleAll_tree FP.exact_good h hpop hb ht (seq := List.replicate s.length 0) (by simp) P [] _ rfl
    (partial_replicate s) (by simp) (by simp) hfrom
  refine ⟨v, ?_, h2⟩
  have hc := sampleAll_cases (fp := FP.exact) h.good (seq := List.replicate s.length 0) (by simp) P _ h.dims (partial_replicate s)
  rw [h1] at hc
  rcases hc with hc | ⟨v', hc, hp1, hp2, -⟩
  · cases hc
  · injection hc with hc
    subst hc
    refine inRange_of_partial hp1 ?_
    intro d hd
    obtain ⟨p, hp, hdp⟩ := h.cover d hd
    exact hp2 p hp d hdp

/-! NaN -/

theorem nan_add (x : Fl) : fp.add .nan x = .nan := by unfold FP.add; rfl

theorem add_nan (x : Fl) : fp.add x .nan = .nan := by cases x <;> rfl

theorem mul_nan (x : Fl) : fp.mul x .nan = .nan := by cases x <;> rfl

theorem nan_mul (x : Fl) : fp.mul .nan x = .nan := by cases x <;> rfl

theorem foldl_nan {γ : Type} (f : γ → Fl) : ∀ (l : List γ), l.foldl (fun c v => fp.add c (f v)) .nan = .nan
  | [] => rfl
  | a :: l => by rw [List.foldl_cons, nan_add, foldl_nan f l]

theorem foldl_has_nan {γ : Type} (f : γ → Fl) : ∀ (l : List γ) (c : Fl), (∃ v ∈ l, f v = .nan) →
    l.foldl (fun c v => fp.add c (f v)) c = .nan
  | [], _, h => by simp at h
  | a :: l, c, h => by
    rw [List.foldl_cons]
    by_cases ha : f a = .nan
    · rw [ha, add_nan, foldl_nan]
    · obtain ⟨v, hv, hn⟩ := h
      rcases List.mem_cons.mp hv with rfl | hv
      · exact absurd hn ha
      · exact foldl_has_nan f l _ ⟨v, hv, hn⟩

theorem mul_zero_cases (hfp : fp.Good) (x : Fl) : fp.mul x (.fin 0) = .fin 0 ∨ fp.mul x (.fin 0) = .nan := by
  cases x with
  | fin q =>
    left
    show fp.rnd (q * 0) = _
    rw [mul_zero]; exact rnd0 hfp
  | pinf => right; simp [FP.mul, FP.infOfSign, FP.sgn]
  | ninf => right; simp [FP.mul, FP.infOfSign, FP.sgn]
  | nan => right; rfl

theorem zero_mul_cases (hfp : fp.Good) (x : Fl) : fp.mul (.fin 0) x = .fin 0 ∨ fp.mul (.fin 0) x = .nan := by
  cases x with
  | fin q =>
    left
    show fp.rnd (0 * q) = _
    rw [zero_mul]; exact rnd0 hfp
  | pinf => right; simp [FP.mul, FP.infOfSign, FP.sgn]
  | ninf => right; simp [FP.mul, FP.infOfSign, FP.sgn]
  | nan => right; rfl

theorem foldl_zero_nan (hfp : fp.Good) {γ : Type} (f : γ → Fl) : ∀ (l : List γ) (c : Fl), (c = .fin 0 ∨ c = .nan) →
    (l.foldl (fun x p => fp.mul x (f p)) c = .fin 0 ∨ l.foldl (fun x p => fp.mul x (f p)) c = .nan)
  | [], c, h => h
  | a :: l, c, h => by
    rw [List.foldl_cons]
    apply foldl_zero_nan hfp f l
    rcases h with rfl | rfl
    · exact zero_mul_cases hfp _
    · right; exact nan_mul _

theorem stateVal_zero (hfp : fp.Good) {P : Prob Int} {v : List Int} (h : ∃ p ∈ P, p.2 (proj p.1 v) = 0) :
    stateVal fp P v = .fin 0 ∨ stateVal fp P v = .nan := by
  unfold stateVal
  have key : ∀ (Q : Prob Int) (c : Fl), (∃ p ∈ Q, p.2 (proj p.1 v) = 0) →
      Q.foldl (fun x p => fp.mul x (fp.ofInt (p.2 (proj p.1 v)))) c = .fin 0 ∨
      Q.foldl (fun x p => fp.mul x (fp.ofInt (p.2 (proj p.1 v)))) c = .nan := by
    intro Q
    induction Q with
    | nil => intro c h; simp at h
    | cons q Q ih =>
      intro c h
      rw [List.foldl_cons]
      by_cases hq : q.2 (proj q.1 v) = 0
      · apply foldl_zero_nan hfp (fun p : List Nat × (List Int → Int) => fp.ofInt (p.2 (proj p.1 v)))
        rw [hq, ofInt_exact hfp (by norm_num)]
        rw [Int.cast_zero]
        exact mul_zero_cases hfp c
      · obtain ⟨p, hp, hz⟩ := h
        rcases List.mem_cons.mp hp with rfl | hp
        · exact absurd hz hq
        · exact ih _ ⟨p, hp, hz⟩
  exact key P _ h

/-- Where a marginal is zero the expectation is zero or NaN, whatever the rounding. -/
theorem expectedVal_zero (hfp : fp.Good) {s : List Nat} {P : Prob Int} {pop : Int} {v : List Int} (h : ∃ p ∈ P, p.2 (proj p.1 v) = 0) :
    expectedVal fp s P pop v = .fin 0 ∨ expectedVal fp s P pop v = .nan := by
  unfold expectedVal
  rcases stateVal_zero hfp h with h | h
  · rw [h]; exact zero_mul_cases hfp _
  · rw [h]; right; exact nan_mul _

/-- An empty cell with zero (or NaN) expectation contributes NaN to the chi-squared statistic. -/
theorem chiSqVal_nan (hfp : fp.Good) {s : List Nat} {f : List Int → Int} {E : List Int → Fl} {v : List Int} (hv : InRange s v)
    (hf : f v = 0) (hE : E v = .fin 0 ∨ E v = .nan) : chiSqVal fp s f E = .nan := by
  unfold chiSqVal
  apply foldl_has_nan (fun v => fp.div (fp.mul (fp.sub (fp.ofInt (f v)) (E v)) (fp.sub (fp.ofInt (f v)) (E v))) (E v))
  refine ⟨v, mem_allIdx.mpr hv, ?_⟩
  rw [hf, ofInt_exact hfp (by norm_num), Int.cast_zero]
  rcases hE with hE | hE
  · rw [hE]
    have e : fp.sub (.fin 0) (.fin 0) = .fin 0 := by
      show fp.rnd (0 + -0) = _
      rw [neg_zero, add_zero]; exact rnd0 hfp
    rw [e]
    have e2 : fp.mul (.fin 0) (.fin 0) = .fin 0 := by
      show fp.rnd (0 * 0) = _
      rw [mul_zero]; exact rnd0 hfp
    rw [e2]
    simp [FP.div, FP.infOfSign]
  · rw [hE]
    cases fp.mul (fp.sub (.fin 0) .nan) (fp.sub (.fin 0) .nan) <;> rfl

/-! the p-value of NaN -/

theorem div_nan_left (x : Fl) : fp.div .nan x = .nan := by cases x <;> rfl
theorem sub_nan_right (x : Fl) : fp.sub x .nan = .nan := by cases x <;> rfl
theorem sub_nan_left (x : Fl) : fp.sub .nan x = .nan := by cases x <;> rfl

theorem fraction_nan (factor : Fl) : ∀ (k : Nat) (s : Gamain.Frac), s.p1 = .nan → s.p3 = .nan →
    Gamain.fraction fp factor k s = none
  | 0, _, _, _ => rfl
  | k + 1, s, h1, h3 => by
    unfold Gamain.fraction
    have e5 : Gamain.newPn fp (Gamain.nextFrac fp s) (Gamain.nextFrac fp s).p3 (Gamain.nextFrac fp s).p1 = .nan := by
      unfold Gamain.newPn
      rw [show (Gamain.nextFrac fp s).p3 = .nan from h3, mul_nan, sub_nan_left]
    simp only [e5]
    have e6 : FP.feq .nan (.fin 0) = false := rfl
    rw [e6]
    simp only [Bool.not_false, if_true, div_nan_right, sub_nan_right]
    have e7 : FP.le (FP.abs .nan) (Gamain.acu fp) = false := by
      cases Gamain.acu fp <;> rfl
    rw [e7]
    simp only [Bool.false_and, Bool.false_eq_true, if_false]
    apply fraction_nan
    · unfold Gamain.shiftPn
      split
      · show fp.div s.p3 _ = _
        rw [h3, div_nan_left]
      · exact h3
    · unfold Gamain.shiftPn
      split
      · simp only [div_nan_left]
      · rfl

theorem gamain_nan (lm : Libm) (p : Fl) : (gamain fp lm .nan p).1 = .fin 0 ∧ (gamain fp lm .nan p).2 ≠ 0 := by
  unfold gamain
  by_cases hp : FP.le p (.fin 0) = true
  · rw [if_pos hp]; exact ⟨rfl, by decide⟩
  · rw [if_neg hp]
    have e1 : FP.lt .nan (.fin 0) = false := rfl
    have e2 : FP.feq .nan (.fin 0) = false := rfl
    rw [if_neg (by rw [e1]; simp), if_neg (by rw [e2]; simp)]
    simp only [sub_nan_right, sub_nan_left]
    have e3 : FP.lt .nan (Gamain.loguflo fp lm) = false := by cases Gamain.loguflo fp lm <;> rfl
    rw [if_neg (by rw [e3]; simp)]
    have e4 : FP.le .nan (.fin 1) = false := rfl
    have e5 : FP.lt .nan p = false := by cases p <;> rfl
    rw [if_neg (by rw [e4, e5]; simp)]
    rw [fraction_nan _ _ _ rfl (by simp only [Gamain.fracStart, nan_mul])]
    exact ⟨rfl, by decide⟩

theorem pValue_nan (hfp : fp.Good) (lm : Libm) (df : Nat) : pValue fp lm df .nan = (.fin 1, false) := by
  unfold pValue
  rw [div_nan_left]
  obtain ⟨h1, h2⟩ := gamain_nan (fp := fp) lm (fp.mul (fp.ofInt df) (.fin (1 / 2)))
  simp only [h1, h2, decide_false]
  congr 1
  show fp.rnd (1 + -0) = _
  have := rnd_int hfp (t := 1) (by norm_num)
  simpa using this

end HL

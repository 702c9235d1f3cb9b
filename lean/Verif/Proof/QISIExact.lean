import Verif.Proof.QISISolve

/-
QISI in exact arithmetic, when its fits meet the marginals.
-/

namespace HL
open QISI

theorem le_marginalSum {s : List Nat} {ds : List Nat} {b : List Int → ℚ} (h : ∀ v, InRange s v → 0 ≤ b v) {v : List Int}
    (hv : InRange s v) : b v ≤ marginalSum s ds b (proj ds v) := by
  unfold marginalSum
  exact Finset.single_le_sum (f := b) (fun w hw => h w (mem_cells.mp (Finset.mem_filter.mp hw).1))
    (Finset.mem_filter.mpr ⟨mem_cells.mpr hv, rfl⟩)

theorem marginalSum_update {s : List Nat} {ds : List Nat} {b : List Int → ℚ} {v : List Int} (hv : InRange s v) (x : ℚ)
    (j : List Int) : marginalSum s ds (Function.update b v (b v + x)) j = marginalSum s ds b j + if proj ds v = j then x else 0 := by
  unfold marginalSum
  by_cases hj : proj ds v = j
  · rw [if_pos hj]
    have hm : v ∈ (cells s).filter (fun w => proj ds w = j) := Finset.mem_filter.mpr ⟨mem_cells.mpr hv, hj⟩
    rw [← Finset.add_sum_erase _ _ hm, ← Finset.add_sum_erase _ _ hm, Function.update_self,
      Finset.sum_congr rfl (fun w hw => Function.update_of_ne (Finset.ne_of_mem_erase hw) _ _)]
    ring
  · rw [if_neg hj, add_zero]
    apply Finset.sum_congr rfl
    intro w hw
    rw [Function.update_of_ne]
    rintro rfl
    exact hj (Finset.mem_filter.mp hw).2

/-- the whole table meets the total -/
theorem Meets.total {s : List Nat} {Q : Prob Int} {n : Int} (hQ : ProbOK s Q n) {b : List Int → ℚ} (h : Meets s Q b) :
    ∑ v ∈ cells s, b v = n := by
  have hl := hQ.lists
  obtain ⟨p, hp⟩ := List.exists_mem_of_ne_nil Q (by rintro rfl; simp at hl)
  rw [← hQ.total p hp]
  push_cast
  rw [Finset.sum_congr rfl (fun j hj => (h.2 p hp j (mem_cells.mp hj)).symm)]
  unfold marginalSum
  rw [← Finset.sum_fiberwise_of_maps_to (g := proj p.1) (t := cells (projSizes p.1 s))
    (fun v hv => mem_cells.mpr (inRange_proj (hQ.dims p hp).2 (mem_cells.mp hv)))]

theorem sub_one_exact (q : ℚ) : FP.exact.sub (.fin q) (.fin 1) = .fin (q + -1) := rfl

theorem placed_meets {s : List Nat} {P : Prob Int} {pop : Int} (h : ProbOK s P pop) {sd : List Int → Fl}
    (hfit : ∀ Q c, FitDone FP.exact s P sd Q c → ∃ b, Agree s c b ∧ Meets s Q b)
    {hs : List (List Int)} {a : List Int → Fl} (hpl : Placed FP.exact s P sd hs a) :
    (∃ b, Agree s a b ∧ Meets s (remaining hs P) b) ∧ ¬ Overdrawn s P hs ∧ Unspent P hs := by
  have er : remaining [] P = P := by simp [remaining]
  have step : ∀ {hs : List (List Int)} {a : List Int → Fl} {seq : List U32} {v : List Int} {b : List Int → ℚ},
      Placed FP.exact s P sd hs a → Drawn FP.exact seq s a v → Agree s a b → Meets s (remaining hs P) b →
      ¬ Overdrawn s P hs → Unspent P hs → 0 < b v ∧ ¬ Overdrawn s P (v :: hs) ∧ Unspent P (v :: hs) := by
    intro hs a seq v b hpl hd hab hm ho hu
    have hv := hd.inRange
    have hok := probOK_remaining_all h hpl.range ho
    have hpos : 0 < b v := by
      have := (drawn_ne signOK_exact hd (fun w hw => Or.inr (by
        rw [hab w hw]; simpa [FP.le] using hm.1 w hw))).1
      rw [hab v hv] at this
      exact lt_of_le_of_ne (hm.1 v hv) (fun hc => this (by rw [← hc]))
    have h1 : ∀ p ∈ remaining hs P, 1 ≤ p.2 (proj p.1 v) := by
      intro p hp
      have hj := inRange_proj (hok.dims p hp).2 hv
      have := le_marginalSum hm.1 (ds := p.1) hv
      rw [hm.2 p hp _ hj] at this
      have : (0 : ℚ) < (p.2 (proj p.1 v) : ℚ) := lt_of_lt_of_le hpos this
      have : 0 < p.2 (proj p.1 v) := by exact_mod_cast this
      omega
    refine ⟨hpos, ?_, unspent_cons.mpr ⟨hu, h1⟩⟩
    rintro ⟨p, hp, j, hj, hlt⟩
    obtain ⟨q, hq, rfl⟩ := List.mem_map.mp hp
    have hmem : (q.1, fun j => q.2 j - (hs.countP (fun v => proj q.1 v = j) : Int)) ∈ remaining hs P :=
      List.mem_map.mpr ⟨q, hq, rfl⟩
    have g1 := h1 _ hmem
    have g2 := hok.nonneg _ hmem j hj
    simp only [List.countP_cons, decide_eq_true_eq] at g1 g2 hlt
    split at hlt
    · rename_i he
      rw [he] at g1
      push_cast at hlt
      omega
    · push_cast at hlt
      omega
  induction hpl with
  | start c hc =>
    refine ⟨?_, ?_, by simp [Unspent]⟩
    · rw [er]
      exact hfit P c ⟨hc, Or.inl rfl⟩
    · rintro ⟨p, hp, j, hj, hlt⟩
      rw [er] at hp
      have := h.nonneg p hp j hj
      omega
  | keep hs a seq v hpl hpt hd hlt ih =>
    obtain ⟨⟨b, hab, hm⟩, ho, hu⟩ := ih
    obtain ⟨hpos, ho', hu'⟩ := step hpl hd hab hm ho hu
    have hv := hd.inRange
    refine ⟨⟨Function.update b v (b v + -1), ?_, ?_, ?_⟩, ho', hu'⟩
    · intro w hw
      by_cases hwv : w = v
      · subst hwv
        rw [Function.update_self, Function.update_self, hab w hw, sub_one_exact]
      · rw [Function.update_of_ne hwv, Function.update_of_ne hwv, hab w hw]
    · intro w hw
      by_cases hwv : w = v
      · subst hwv
        rw [Function.update_self]
        rw [hab w hw, sub_one_exact] at hlt
        simpa [FP.lt] using hlt
      · rw [Function.update_of_ne hwv]; exact hm.1 w hw
    · intro p hp j hj
      obtain ⟨q, hq, rfl⟩ := List.mem_map.mp hp
      have hmem : (q.1, fun j => q.2 j - (hs.countP (fun v => proj q.1 v = j) : Int)) ∈ remaining hs P :=
        List.mem_map.mpr ⟨q, hq, rfl⟩
      have := hm.2 _ hmem j hj
      simp only at this ⊢
      rw [marginalSum_update hv, this, List.countP_cons]
      simp only [decide_eq_true_eq]
      split <;> push_cast <;> ring
  | refit hs a seq v c hpl hpt hd hlt hc ih =>
    obtain ⟨⟨b, hab, hm⟩, ho, hu⟩ := ih
    obtain ⟨hpos, ho', hu'⟩ := step hpl hd hab hm ho hu
    exact ⟨hfit _ c ⟨hc, Or.inr ⟨hs, a, seq, v, hpl, hpt, hd, hlt, rfl⟩⟩, ho', hu'⟩

theorem individuals_meets {s : List Nat} {P : Prob Int} {pop : Int} (h : ProbOK s P pop) (hpop : pop ≤ 2 ^ 32 - 1)
    (hp : ProperProb s P) {sd : List Int → Fl}
    (hfit : ∀ Q c, FitDone FP.exact s P sd Q c → ∃ b, Agree s c b ∧ Meets s Q b) :
    ∀ (k : Nat) {hs : List (List Int)} {a : List Int → Fl} {t : Loop},
    LoopAt FP.exact s P pop sd hs a t → (hs.length + k : Int) ≤ pop →
    ∃ t', individuals false FP.exact (arr s sd) (mapsOf s P) k t = .ok t'
  | 0, hs, a, t, _, _ => ⟨t, rfl⟩
  | k + 1, hs, a, t, ht, hl => by
    have h2 := h.two
    unfold individuals
    obtain ⟨⟨b, hab, hm⟩, ho, -⟩ := placed_meets h hfit ht.placed
    have hok := probOK_remaining_all h ht.placed.range ho
    have htot := hm.total hok
    rcases individual_cases' FP.exact_good h (by omega) hp ht (by push_cast at hl; omega) with
      ⟨hb, -⟩ | ⟨seq, hpt, ⟨hno, -⟩ | ⟨v, hd, ⟨hlt, hov, -⟩ | ⟨a1, t1, hi, h1, -⟩⟩⟩
    · push_cast at hl; omega
    · exfalso
      refine hno ?_
      obtain ⟨v, hv, -⟩ := exists_drawn (seq := seq) (s.length - 1) s b a (by omega) hab hm.1 (by
        rw [htot]
        have : 0 < pop - (hs.length : Int) := by push_cast at hl; omega
        exact_mod_cast this)
      exact ⟨v, hv⟩
    · exfalso
      by_cases hc : ∃ c, Fit FP.exact s (remaining (v :: hs) P) sd c
      · obtain ⟨c, hc⟩ := hc
        exact (placed_meets h hfit (.refit hs a seq v c ht.placed hpt hd hlt hc)).2.1 hov
      · -- the marginals left are consistent, so there is a fit
        have hr : ∀ w ∈ v :: hs, InRange s w := by
          intro w hw
          rcases List.mem_cons.mp hw with rfl | hw
          · exact hd.inRange
          · exact ht.placed.range w hw
        have hv := hd.inRange
        have hpos : 0 < b v := by
          have := (drawn_ne signOK_exact hd (fun w hw => Or.inr (by
            rw [hab w hw]; simpa [FP.le] using hm.1 w hw))).1
          rw [hab v hv] at this
          exact lt_of_le_of_ne (hm.1 v hv) (fun hc => this (by rw [← hc]))
        obtain ⟨p, hp', j, hj, hneg⟩ := hov
        obtain ⟨q, hq, rfl⟩ := List.mem_map.mp hp'
        have hmem : (q.1, fun j => q.2 j - (hs.countP (fun v => proj q.1 v = j) : Int)) ∈ remaining hs P :=
          List.mem_map.mpr ⟨q, hq, rfl⟩
        have g2 := hok.nonneg _ hmem j hj
        simp only [List.countP_cons, decide_eq_true_eq] at g2 hneg
        split at hneg
        · rename_i he
          have hle := le_marginalSum hm.1 (ds := q.1) hv
          rw [he, hm.2 _ hmem j hj] at hle
          have h0 := lt_of_lt_of_le hpos hle
          simp only at h0
          have : 0 < q.2 j - (hs.countP (fun v => proj q.1 v = j) : Int) := by exact_mod_cast h0
          push_cast at hneg
          omega
        · push_cast at hneg
          omega
    · rw [hi]
      simp only [Out.ok_bind]
      exact individuals_meets h hpop hp hfit k h1 (by simp; push_cast at hl; omega)

/-- **C44**, at the level of `run`. -/
theorem qisi_meets (lm : Libm) {s : List Nat} {P : Prob Int} {pop : Int} (h : ProbOK s P pop) (hpop : pop ≤ 2 ^ 32 - 1)
    (hp : ProperProb s P) (hd : s.length ≤ 1111) {sd : List Int → Fl} {skips : Int} (h0 : 0 ≤ skips) (h1 : skips ≤ 2 ^ 31)
    (hfit : ∀ Q c, FitDone FP.exact s P sd Q c → ∃ b, Agree s c b ∧ Meets s Q b) :
    ∃ x, QISI.run false FP.exact lm (indicesOf P) (marginalsOf s P) (arr s sd) skips = .ok x ∧ x.conv = true := by
  rcases qisi_run_eq FP.exact_good lm h (by omega) (arr s sd) skips with ⟨hb, -⟩ | ⟨-, hb, -⟩ | ⟨c, x0, -, -, hx, -, he⟩
  · omega
  · omega
  · rw [he]
    obtain ⟨c, t, hc, ht, g1, g2, -, he⟩ := qisi_solve_eq FP.exact_good lm h (by omega) hp hd sd hx false
    rw [he]
    have hp0 := h.pop_nonneg
    obtain ⟨t', ht'⟩ := individuals_meets h hpop hp hfit pop.toNat ht (by simp; omega)
    rcases individuals_cases' FP.exact_good h (by omega) hp pop.toNat ht (by simp; omega) (by simp [g2, Unspent]) with
      ⟨e, hi⟩ | ⟨vs, a, t'', k1, k2, k3, k4, k5, k6⟩
    · rw [hi] at ht'; cases ht'
    · rw [List.append_nil] at k3 k6
      rw [k2]
      simp only [Out.ok_bind]
      obtain ⟨x', hx', hs, -⟩ := qisi_finish lm h hc k1 k3 (k4.trans g1) k6
      exact ⟨x', hx', hs.conv.mpr (placed_meets h hfit k3.placed).2.2⟩

/-! ### Fits in exact arithmetic -/

/-- the problem with rational entries -/
def ratProb (P : Prob Int) : Prob ℚ := P.map (fun p => (p.1, fun j => (p.2 j : ℚ)))

theorem reads_rat (s : List Nat) (P : Prob Int) : Reads (numInt FP.exact) s P (ratProb P) := by
  unfold Reads ratProb
  rw [List.forall₂_map_right_iff]
  exact List.forall₂_same.mpr (fun p _ => ⟨rfl, fun _ _ => rfl⟩)

/-- a fit is finite, and non-negative if the seed is -/
theorem fit_exact {s : List Nat} {Q : Prob Int} (hQ : ProbShape s Q) (hp : ProperProb s Q) {b : List Int → ℚ}
    {sd c : List Int → Fl} (hb : Agree s sd b) (hf : Fit FP.exact s Q sd c) :
    ∃ n, 1 ≤ n ∧ Agree s c ((qsweep s (ratProb Q))^[n] b) ∧
      (∀ m, 1 ≤ m → m < n → 1 / 10 ^ 8 ≤ qmax s (ratProb Q) ((qsweep s (ratProb Q))^[m] b)) ∧
      ((∀ v, InRange s v → 0 ≤ b v) → ∀ v, InRange s v → 0 ≤ (qsweep s (ratProb Q))^[n] b v) := by
  obtain ⟨r, hr, ha⟩ := hf
  obtain ⟨pop, n, h1, h2, -, -, h4, h5, -⟩ := ipf_exact (minOK_int _) hQ hp (reads_rat s Q) hb hr
  refine ⟨n, h2, ?_, h4, ?_⟩
  · rw [h5] at ha
    intro v hv
    exact (arr_inj ha v hv).symm
  · intro hb0
    clear h5 h4 h2
    induction n with
    | zero => exact hb0
    | succ n ih =>
      rw [Function.iterate_succ_apply']
      refine qsweep_nonneg _ ?_ ?_ ih
      · intro q hq
        obtain ⟨p, hp, rfl⟩ := List.mem_map.mp hq
        exact (hQ.dims p hp).2
      · intro q hq j hj
        obtain ⟨p, hp, rfl⟩ := List.mem_map.mp hq
        have := h1.nonneg p hp j hj
        have h1 : 0 ≤ p.2 j := by simpa [numInt] using this
        show (0 : ℚ) ≤ (p.2 j : ℚ)
        exact_mod_cast h1

end HL

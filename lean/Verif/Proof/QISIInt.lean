import Verif.Proof.IntTable
import Verif.Proof.QISIDisjoint

namespace HL
open QISI
variable {fp : FP}

theorem pick_intFl (hfp : fp.Good) {w : List Int} (hn : ∀ x ∈ w, 0 ≤ x) (hs : 0 < w.sum) (hb : w.sum ≤ 2 ^ 53) (u : U32) :
    ∃ i, pick fp (numFl fp) (w.map (fun x : Int => Fl.fin (x : ℚ))) (variate fp u) = .ok i ∧ i < w.length ∧ 0 < w.getD i 0 := by
  have ht := foldl_intFl hfp id w 0 hn le_rfl (by simpa using hb)
  simp only [Int.cast_zero, zero_add, List.map_id, id] at ht
  have ht' : ((w.map (fun x : Int => (x : ℚ))).map Fl.fin).foldl fp.add (.fin 0) = .fin (w.sum : ℚ) := by
    rw [List.map_map, List.foldl_map]
    exact ht
  have h1 : (1 : ℚ) ≤ (w.sum : ℚ) := by exact_mod_cast hs
  have h2 : (w.sum : ℚ) ≤ 2 ^ 53 := by exact_mod_cast hb
  obtain ⟨i, g1, g2, g3⟩ := pick_fl_pos hfp (w := w.map (fun x : Int => (x : ℚ))) (t := (w.sum : ℚ)) (by
    intro x hx
    obtain ⟨y, hy, rfl⟩ := List.mem_map.mp hx
    exact_mod_cast hn y hy) ht'
    (le_trans (by
      have : (2 : ℚ) ^ (-990 : ℤ) ≤ 2 ^ (0 : ℤ) := zpow_le_zpow_right₀ (by norm_num) (by norm_num)
      simpa using this) h1)
    (h2.trans (pow_le_pow_right₀ (by norm_num) (by norm_num))) u
  refine ⟨i, ?_, by simpa using g2, ?_⟩
  · rw [← g1, List.map_map]; rfl
  · have hi : i < w.length := by simpa using g2
    rw [List.getD_eq_getElem?_getD, List.getElem?_map, List.getElem?_eq_getElem hi] at g3
    rw [List.getD_eq_getElem?_getD, List.getElem?_eq_getElem hi]
    simp only [Option.map_some, Option.getD_some] at g3 ⊢
    exact_mod_cast g3

theorem exists_drawn_int (hfp : fp.Good) {seq : List U32} : ∀ (k : Nat) (t : List Nat) (g : List Int → Int),
    t.length = k + 1 → (∀ v, InRange t v → 0 ≤ g v) → 0 < ∑ v ∈ cells t, g v → ∑ v ∈ cells t, g v ≤ 2 ^ 53 →
    ∃ v, Drawn fp seq t (intFl g) v ∧ 0 < g v := by
  intro k
  induction k with
  | zero =>
    intro t g hl hn hs hb
    match t, hl with
    | [n], _ =>
      have hs' : ((List.range n).map (fun j : Nat => g [(j : Int)])).sum = ∑ v ∈ cells [n], g v := by
        rw [← sum_allIdx, allIdx_one, List.map_map]; rfl
      obtain ⟨i, h1, h2, h3⟩ := pick_intFl hfp (w := (List.range n).map (fun j : Nat => g [(j : Int)])) (by
        intro x hx
        obtain ⟨j, hj, rfl⟩ := List.mem_map.mp hx
        exact hn _ (.cons ⟨by positivity, by exact_mod_cast List.mem_range.mp hj⟩ .nil)) (by rw [hs']; exact hs)
        (by rw [hs']; exact hb) (seq.getD 0 0)
      have hi : i < n := by simpa using h2
      refine ⟨[(i : Int)], .one n _ i hi ?_, ?_⟩
      · rw [← h1, List.map_map]; rfl
      · rw [List.getD_eq_getElem?_getD, List.getElem?_map, List.getElem?_range hi] at h3
        exact h3
  | succ k ih =>
    intro T g hl hn hs hb
    obtain ⟨t, n, rfl⟩ : ∃ t n, T = t ++ [n] := by
      rcases List.eq_nil_or_concat T with rfl | ⟨t', n, h⟩
      · simp at hl
      · exact ⟨t', n, by simpa using h⟩
    have hl' : t.length = k + 1 := by simpa using hl
    have ht : t ≠ [] := by rintro rfl; simp at hl'
    let w : List Int := (List.range n).map (fun j : Nat => ∑ v ∈ cells t, g (v ++ [(j : Int)]))
    have hr : ∀ j < n, ∀ v, InRange t v → InRange (t ++ [n]) (v ++ [(j : Int)]) := fun j hj v hv =>
      inRange_snoc hv (by positivity) (by exact_mod_cast hj)
    have hwn : ∀ x ∈ w, 0 ≤ x := by
      intro x hx
      obtain ⟨j, hj, rfl⟩ := List.mem_map.mp hx
      exact Finset.sum_nonneg (fun v hv => hn _ (hr j (List.mem_range.mp hj) v (mem_cells.mp hv)))
    have hsum : w.sum = ∑ v ∈ cells (t ++ [n]), g v := by
      rw [sum_snoc, ← List.toFinset_range, List.sum_toFinset _ List.nodup_range]
    have hle : ∀ j < n, ∑ v ∈ cells t, g (v ++ [(j : Int)]) ≤ 2 ^ 53 := by
      intro j hj
      have : ∑ v ∈ cells t, g (v ++ [(j : Int)]) ∈ w := List.mem_map.mpr ⟨j, List.mem_range.mpr hj, rfl⟩
      have := List.single_le_sum hwn _ this
      rw [hsum] at this
      exact this.trans hb
    obtain ⟨i, h1, h2, h3⟩ := pick_intFl hfp (w := w) hwn (by rw [hsum]; exact hs) (by rw [hsum]; exact hb) (seq.getD t.length 0)
    have hi : i < n := by simpa [w] using h2
    have hw : lastSumsF fp t n (intFl g) = w.map (fun x : Int => Fl.fin (x : ℚ)) := by
      simp only [lastSumsF, w, List.map_map]
      apply List.map_congr_left
      intro j hj
      have hj' := List.mem_range.mp hj
      have := foldl_intFl hfp (fun v => g (v ++ [(j : Int)])) (allIdx t) 0
        (fun v hv => hn _ (hr j hj' v (mem_allIdx.mp hv))) le_rfl (by rw [zero_add, sum_allIdx]; exact hle j hj')
      rw [zero_add, sum_allIdx, Int.cast_zero] at this
      exact this
    obtain ⟨v, hv, hp⟩ := ih t (fun v => g (v ++ [(i : Int)])) hl' (fun v hv => hn _ (hr i hi v hv)) (by
        simp only [w, List.getD_eq_getElem?_getD, List.getElem?_map, List.getElem?_range hi] at h3
        exact h3) (hle i hi)
    exact ⟨v ++ [(i : Int)], .snoc t n _ i v ht hi (by rw [hw]; exact h1) hv, hp⟩

section
variable {s : List Nat} {P : Prob Int} {pop : Int} {g : List Int → Int}

theorem sumsTo_int (hfp : fp.Good) (hb : pop ≤ 2 ^ 53) (hn : ∀ v, InRange s v → 0 ≤ g v) (ht : ∑ v ∈ cells s, g v = pop)
    (hm : ∀ p ∈ P, ∀ j, InRange (projSizes p.1 s) j → marginalSum s p.1 g j = p.2 j) : SumsTo fp (numInt fp) s P g := by
  intro p hp j hj
  show fp.ofInt (p.2 j) = _
  rw [← hm p hp j hj]
  have h1 := int_marginalSum_nonneg (ds := p.1) hn j
  have h2 := int_marginalSum_le (ds := p.1) hn j
  exact ofInt_exact hfp (by rw [abs_of_nonneg h1]; omega)

/-- the working population is what is left of the seed -/
theorem placed_int (hfp : fp.Good) (h : ProbOK s P pop) (hb : pop ≤ 2 ^ 53) (hp : ProperProb s P)
    (hn : ∀ v, InRange s v → 0 ≤ g v) (ht : ∑ v ∈ cells s, g v = pop)
    (hm : ∀ p ∈ P, ∀ j, InRange (projSizes p.1 s) j → marginalSum s p.1 g j = p.2 j)
    {hs : List (List Int)} {a : List Int → Fl} (hpl : Placed fp s P (intFl g) hs a) (hl : (hs.length : Int) ≤ pop) :
    (∀ v, InRange s v → (hs.count v : Int) ≤ g v) ∧ ∀ v, InRange s v → a v = intFl (fun v => g v - hs.count v) v := by
  -- what is drawn is there
  have key : ∀ {hs : List (List Int)} {a : List Int → Fl} {seq : List U32} {v : List Int}, Placed fp s P (intFl g) hs a →
      (hs.length : Int) < pop → (∀ v, InRange s v → (hs.count v : Int) ≤ g v) →
      (∀ v, InRange s v → a v = intFl (fun v => g v - hs.count v) v) → Drawn fp seq s a v →
      (hs.count v : Int) < g v ∧ fp.sub (a v) (.fin 1) = .fin ((g v - hs.count v - 1 : Int) : ℚ) := by
    intro hs a seq v hpl hlt h1 h2 hd
    have h2' := h.two
    have hsum : ∑ v ∈ cells s, (g v - hs.count v) = pop - hs.length := by
      rw [Finset.sum_sub_distrib, ht, sum_count hpl.range]
    obtain ⟨w, hw, hpos⟩ := exists_drawn_int hfp (seq := seq) (s.length - 1) s (fun v => g v - hs.count v) (by omega)
      (fun v hv => by have := h1 v hv; omega) (by rw [hsum]; omega) (by rw [hsum]; omega)
    have := drawn_unique (drawn_congr h2 hd) hw
    subst this
    refine ⟨by omega, ?_⟩
    have hv := hd.inRange
    rw [h2 v hv]
    show fp.rnd (((g v - hs.count v : Int) : ℚ) + -1) = _
    have e : (((g v - hs.count v : Int) : ℚ) + -1) = ((g v - hs.count v - 1 : Int) : ℚ) := by push_cast; ring
    rw [e]
    have hgle : g v ≤ pop := by
      rw [← ht]
      exact Finset.single_le_sum (f := g) (fun w hw => hn w (mem_cells.mp hw)) (mem_cells.mpr hv)
    exact rnd_int hfp (by rw [abs_of_nonneg (by omega)]; omega)
  induction hpl with
  | start c hc =>
    refine ⟨fun v hv => by simpa using hn v hv, ?_⟩
    obtain ⟨r, hr, hra⟩ := hc
    have := (ipf_run_int hfp (minOK_int fp) h.toProbShape hp hn (by omega) (sumsTo_int hfp hb hn ht hm) hr).2.2.2
    rw [hra] at this
    intro v hv
    rw [arr_inj this v hv]
    simp [intFl]
  | keep hs a seq v hpl hpt hd hlt ih =>
    obtain ⟨h1, h2⟩ := ih (by simp at hl; omega)
    obtain ⟨h3, h4⟩ := key hpl (by simp at hl; omega) h1 h2 hd
    constructor
    · intro w hw
      rw [List.count_cons]
      split
      · rename_i he
        have : v = w := by simpa using he
        subst this
        push_cast; omega
      · have := h1 w hw
        push_cast; omega
    · intro w hw
      by_cases hwv : w = v
      · subst hwv
        rw [Function.update_self, h4]
        simp only [intFl, List.count_cons_self]
        congr 2
        push_cast; ring
      · rw [Function.update_of_ne hwv, h2 w hw]
        simp only [intFl, List.count_cons_of_ne (Ne.symm hwv)]
  | refit hs a seq v c hpl hpt hd hlt hc ih =>
    exfalso
    obtain ⟨h1, h2⟩ := ih (by simp at hl; omega)
    obtain ⟨h3, h4⟩ := key hpl (by simp at hl; omega) h1 h2 hd
    rw [h4] at hlt
    have : (g v - hs.count v - 1 : Int) < 0 := by
      simp only [FP.lt, decide_eq_true_eq] at hlt
      exact_mod_cast hlt
    omega

theorem individuals_int (hfp : fp.Good) (h : ProbOK s P pop) (hpop : pop ≤ 2 ^ 32 - 1) (hp : ProperProb s P)
    (hn : ∀ v, InRange s v → 0 ≤ g v) (ht : ∑ v ∈ cells s, g v = pop)
    (hm : ∀ p ∈ P, ∀ j, InRange (projSizes p.1 s) j → marginalSum s p.1 g j = p.2 j) :
    ∀ (k : Nat) {hs : List (List Int)} {a : List Int → Fl} {t : Loop},
    LoopAt fp s P pop (intFl g) hs a t → (hs.length + k : Int) ≤ pop →
    ∃ t', individuals false fp (arr s (intFl g)) (mapsOf s P) k t = .ok t'
  | 0, hs, a, t, _, _ => ⟨t, rfl⟩
  | k + 1, hs, a, t, hlt, hl => by
    have h2 := h.two
    unfold individuals
    obtain ⟨h3, h4⟩ := placed_int hfp h (by omega) hp hn ht hm hlt.placed (by push_cast at hl; omega)
    have hsum : ∑ v ∈ cells s, (g v - hs.count v) = pop - hs.length := by
      rw [Finset.sum_sub_distrib, ht, sum_count hlt.placed.range]
    rcases individual_cases' hfp h (by omega) hp hlt (by push_cast at hl; omega) with
      ⟨hb, -⟩ | ⟨seq, hpt, ⟨hno, -⟩ | ⟨v, hd, ⟨hneg, hov, -⟩ | ⟨a1, t1, hi, h1, -⟩⟩⟩
    · push_cast at hl; omega
    · exfalso
      obtain ⟨w, hw, -⟩ := exists_drawn_int hfp (seq := seq) (s.length - 1) s (fun v => g v - hs.count v) (by omega)
        (fun v hv => by have := h3 v hv; omega) (by rw [hsum]; push_cast at hl; omega) (by rw [hsum]; omega)
      exact hno ⟨w, drawn_congr (fun v hv => (h4 v hv).symm) hw⟩
    · exfalso
      have := fun c hc => placed_int hfp h (by omega) hp hn ht hm (.refit hs a seq v c hlt.placed hpt hd hneg hc)
        (by simp; push_cast at hl; omega)
      -- the step that keeps the population gives the same contradiction
      by_cases hf : FP.lt (fp.sub (a v) (.fin 1)) (.fin 0) = false
      · rw [hf] at hneg; cases hneg
      · obtain ⟨w, hw, hpos⟩ := exists_drawn_int hfp (seq := seq) (s.length - 1) s (fun v => g v - hs.count v) (by omega)
          (fun v hv => by have := h3 v hv; omega) (by rw [hsum]; push_cast at hl; omega) (by rw [hsum]; omega)
        have := drawn_unique (drawn_congr h4 hd) hw
        subst this
        apply hf
        rw [h4 v hd.inRange]
        show FP.lt (fp.rnd (((g v - hs.count v : Int) : ℚ) + -1)) (.fin 0) = false
        have e : (((g v - hs.count v : Int) : ℚ) + -1) = ((g v - hs.count v - 1 : Int) : ℚ) := by push_cast; ring
        have hgle : g v ≤ pop := by
          rw [← ht]
          exact Finset.single_le_sum (f := g) (fun w hw => hn w (mem_cells.mp hw)) (mem_cells.mpr hd.inRange)
        rw [e, rnd_int hfp (by rw [abs_of_nonneg (by omega)]; omega)]
        simp only [FP.lt, decide_eq_false_iff_not, not_lt]
        have : (0 : Int) ≤ g v - hs.count v - 1 := by omega
        exact_mod_cast this
    · rw [hi]
      simp only [Out.ok_bind]
      exact individuals_int hfp h hpop hp hn ht hm k h1 (by simp; push_cast at hl; omega)

theorem total_of_marginals (h : ProbOK s P pop)
    (hm : ∀ p ∈ P, ∀ j, InRange (projSizes p.1 s) j → marginalSum s p.1 g j = p.2 j) : ∑ v ∈ cells s, g v = pop := by
  have hl := h.lists
  obtain ⟨p, hpp⟩ := List.exists_mem_of_ne_nil P (by rintro rfl; simp at hl)
  rw [← h.total p hpp, Finset.sum_congr rfl (fun j hj => (hm p hpp j (mem_cells.mp hj)).symm)]
  unfold marginalSum
  rw [← Finset.sum_fiberwise_of_maps_to (g := proj p.1) (t := cells (projSizes p.1 s))
    (fun v hv => mem_cells.mpr (inRange_proj (h.dims p hpp).2 (mem_cells.mp hv)))]

/-- `qisi` with a seed of whole numbers that meets the marginals returns it. -/
theorem qisi_int (hfp : fp.Good) (lm : Libm) (h : ProbOK s P pop) (hpop : pop ≤ 2 ^ 32 - 1) (hp : ProperProb s P)
    (hd : s.length ≤ 1111) (hn : ∀ v, InRange s v → 0 ≤ g v)
    (hm : ∀ p ∈ P, ∀ j, InRange (projSizes p.1 s) j → marginalSum s p.1 g j = p.2 j) {skips : Int} (h0 : 0 ≤ skips)
    (h1 : skips ≤ 2 ^ 31) :
    ∃ x, QISI.run false fp lm (indicesOf P) (marginalsOf s P) (arr s (intFl g)) skips = .ok x ∧ x.micro.array = arr s g ∧
      x.conv = true ∧ x.expected = arr s (intFl g) := by
  have ht := total_of_marginals h hm
  rcases qisi_run_eq hfp lm h (by omega) (arr s (intFl g)) skips with ⟨hb, -⟩ | ⟨-, hb, -⟩ | ⟨c, x0, -, -, hx, -, he⟩
  · omega
  · omega
  · rw [he]
    obtain ⟨c, t, hc, hlt, g1, g2, -, he⟩ := qisi_solve_eq hfp lm h (by omega) hp hd (intFl g) hx false
    rw [he]
    have hp0 := h.pop_nonneg
    obtain ⟨t', ht'⟩ := individuals_int hfp h hpop hp hn ht hm pop.toNat hlt (by simp; omega)
    rcases individuals_cases' hfp h (by omega) hp pop.toNat hlt (by simp; omega) (by simp [g2, Unspent]) with
      ⟨e, hi⟩ | ⟨vs, a, t'', k1, k2, k3, k4, k5, k6⟩
    · rw [hi] at ht'; cases ht'
    · rw [List.append_nil] at k3 k6
      rw [k2]
      simp only [Out.ok_bind]
      obtain ⟨x', hx', hs, -⟩ := qisi_finish lm h hc k1 k3 (k4.trans g1) k6
      obtain ⟨q1, -⟩ := placed_int hfp h (by omega) hp hn ht hm hs.placed (by rw [k1]; omega)
      have hcount : ∀ v, InRange s v → (vs.count v : Int) = g v := by
        intro v hv
        have hsum : ∑ v ∈ cells s, (g v - vs.count v) = 0 := by
          rw [Finset.sum_sub_distrib, ht, sum_count hs.placed.range, k1]; omega
        have := (Finset.sum_eq_zero_iff_of_nonneg (fun w hw => by
          have := q1 w (mem_cells.mp hw); omega)).mp hsum v (mem_cells.mpr hv)
        omega
      refine ⟨x', hx', ?_, ?_, ?_⟩
      · rw [hs.at_.micro]
        exact arr_congr hcount
      · rw [hs.conv, unspent_iff h hs.placed.range hs.size]
        intro p hpp j hj
        rw [← hm p hpp j hj]
        exact marginalSum_congr hcount j
      · rw [hs.expected]
        obtain ⟨r, hr, hra⟩ := hc
        have := (ipf_run_int hfp (minOK_int fp) h.toProbShape hp hn (by omega) (sumsTo_int hfp (by omega) hn ht hm) hr).2.2.2
        rw [hra] at this
        exact this

end

end HL

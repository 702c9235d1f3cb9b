import Verif.Proof.IntegeriseRound

namespace HL
namespace Integerise
variable {fp : FP}

/-- Giving one more to those with the largest remainders: every result is within one of the target `z`, if the numbers
`y` that are truncated are close to the targets and the remainders `r` are close to those of `y`. -/
theorem greedy_close {n : Nat} {y z r : Nat → ℚ} {b : Nat → Int} {pop : Int} {δ u : ℚ} (h0 : 0 ≤ δ) (hu : 0 ≤ u)
    (hy : ∀ i < n, |y i - z i| ≤ δ) (hsum : |∑ i ∈ Finset.range n, y i - pop| ≤ δ)
    (hr : ∀ i < n, |r i - (y i - ⌊y i⌋)| ≤ u) (hb : ∀ i < n, b i = 0 ∨ b i = 1)
    (hp : ∑ i ∈ Finset.range n, (⌊y i⌋ + b i) = pop) (ho : ∀ i < n, ∀ j < n, b i = 0 → b j = 1 → r i ≤ r j)
    (hs : (n + 2) * (δ + 2 * u) < 1) : ∀ i < n, |((⌊y i⌋ + b i : Int) : ℚ) - z i| < 1 := by
  intro i hi
  have hn0 : (0 : ℚ) ≤ n := by positivity
  set k : ℚ := ∑ j ∈ Finset.range n, (b j : ℚ) with hk
  have hp' : ∑ j ∈ Finset.range n, (⌊y j⌋ : ℚ) + k = pop := by
    rw [hk, ← Finset.sum_add_distrib, ← hp]
    push_cast
    rfl
  have hF : ∑ j ∈ Finset.range n, (y j - (⌊y j⌋ : ℚ)) = ∑ j ∈ Finset.range n, y j - pop + k := by
    rw [Finset.sum_sub_distrib]; linarith
  have hkn : k ≤ n := by
    calc k ≤ ∑ j ∈ Finset.range n, (1 : ℚ) := Finset.sum_le_sum (fun j hj => by
          rcases hb j (Finset.mem_range.mp hj) with h | h <;> rw [h] <;> norm_num)
      _ = n := by simp
  obtain ⟨s1, s2⟩ := abs_le.mp hsum
  have fl0 : ∀ j, 0 ≤ y j - (⌊y j⌋ : ℚ) := fun j => by linarith [Int.floor_le (y j)]
  have fl1 : ∀ j, y j - (⌊y j⌋ : ℚ) < 1 := fun j => by linarith [Int.lt_floor_add_one (y j)]
  obtain ⟨yi1, yi2⟩ := abs_le.mp (hy i hi)
  obtain ⟨ri1, ri2⟩ := abs_le.mp (hr i hi)
  have hd1 : δ < 1 := by nlinarith
  have hind : ∑ j ∈ Finset.range n, (if j = i then (1 : ℚ) else 0) = 1 := by
    rw [Finset.sum_ite_eq' (Finset.range n) i, if_pos (Finset.mem_range.mpr hi)]
  rcases hb i hi with hbi | hbi
  · rw [hbi, abs_lt]
    push_cast
    refine ⟨?_, by linarith [fl0 i]⟩
    by_contra hc
    have hc' : (⌊y i⌋ : ℚ) + 1 ≤ z i := by linarith
    have hlow : ∑ j ∈ Finset.range n, ((b j : ℚ) + if j = i then 1 else 0) * (1 - δ - 2 * u) ≤
        ∑ j ∈ Finset.range n, (y j - (⌊y j⌋ : ℚ)) := by
      apply Finset.sum_le_sum
      intro j hj
      have hj := Finset.mem_range.mp hj
      by_cases hji : j = i
      · subst hji
        rw [if_pos rfl, hbi]
        push_cast
        linarith
      · rw [if_neg hji]
        rcases hb j hj with h | h
        · rw [h]; push_cast; linarith [fl0 j]
        · rw [h]
          have := ho i hi j hj hbi h
          obtain ⟨rj1, rj2⟩ := abs_le.mp (hr j hj)
          push_cast
          linarith
    rw [← Finset.sum_mul, Finset.sum_add_distrib, hind, ← hk, hF] at hlow
    nlinarith
  · rw [hbi, abs_lt]
    push_cast
    refine ⟨by linarith [fl1 i], ?_⟩
    by_contra hc
    have hc' : z i ≤ (⌊y i⌋ : ℚ) := by linarith
    have hup : ∑ j ∈ Finset.range n, (y j - (⌊y j⌋ : ℚ)) ≤
        ∑ j ∈ Finset.range n, ((b j : ℚ) + (δ + 2 * u) - if j = i then 1 else 0) := by
      apply Finset.sum_le_sum
      intro j hj
      have hj := Finset.mem_range.mp hj
      by_cases hji : j = i
      · subst hji
        rw [if_pos rfl, hbi]
        push_cast
        linarith
      · rw [if_neg hji]
        rcases hb j hj with h | h
        · rw [h]
          have := ho j hj i hi h hbi
          obtain ⟨rj1, rj2⟩ := abs_le.mp (hr j hj)
          push_cast
          linarith
        · rw [h]; push_cast; linarith [fl1 j]
    rw [hF, Finset.sum_sub_distrib, Finset.sum_add_distrib, hind, ← hk, Finset.sum_const, Finset.card_range, nsmul_eq_mul] at hup
    nlinarith

/-- rounding a non-negative number, subnormal or not -/
theorem rnd_close (h : fp.Good) {q : ℚ} (h0 : 0 ≤ q) (h1 : q ≤ 2 * hugeQ) :
    ∃ a, fp.rnd q = .fin a ∧ 0 ≤ a ∧ |a - q| ≤ q * eps + 2 * tinyQ := by
  have tiny := tinyQ_pos
  have he := eps_pos
  obtain ⟨a, ha, ha0⟩ := rnd_nonneg h h0 h1
  refine ⟨a, ha, ha0, ?_⟩
  by_cases hq : q < tinyQ
  · obtain ⟨b, hb, hbn⟩ := near' h tinyQ (by rw [abs_of_pos tiny]) (by
      rw [abs_of_pos tiny]
      have := tinyQ_le
      have := hugeQ_ge
      have h3 : (1 : ℚ) / 2 ^ 64 ≤ 2 ^ 64 := by norm_num
      linarith)
    have hab : a ≤ b := h.mono q tinyQ a b hq.le ha hb
    rw [abs_of_pos tiny] at hbn
    have h2 := (abs_le.mp hbn).2
    have h3 : tinyQ / 2 ^ 53 ≤ tinyQ := div_le_self tiny.le (by norm_num)
    have h4 : 0 ≤ q * eps := mul_nonneg h0 he.le
    rw [abs_le]
    constructor <;> linarith
  · rw [not_lt] at hq
    obtain ⟨b, hb, hbn⟩ := near' h q (by rwa [abs_of_nonneg h0]) (by rwa [abs_of_nonneg h0])
    rw [ha] at hb
    injection hb with hb
    subst hb
    rw [abs_of_nonneg h0] at hbn
    unfold eps
    linarith

theorem tinyQ_small : tinyQ ≤ eps / 2 ^ 200 := by
  rw [tinyQ_eq]
  have : (2 : ℚ) ^ (-1022 : ℤ) ≤ 2 ^ (-253 : ℤ) := zpow_le_zpow_right₀ (by norm_num) (by norm_num)
  refine this.trans (le_of_eq ?_)
  unfold eps
  norm_num

/-- The run in rounded arithmetic, with targets `z`. -/
theorem marginal_close (h : fp.Good) {p : List ℚ} {pop : Int} (h0 : 0 ≤ pop) (h1 : pop < 2 ^ 31) (hne : p ≠ [])
    {Y : ℚ → ℚ} (hY : ∀ x ∈ p, fp.mul (.fin x) (fp.ofInt pop) = .fin (Y x) ∧ 0 ≤ Y x) {z : Nat → ℚ} {δ : ℚ} (hδ : 0 ≤ δ)
    (hz : ∀ i < p.length, |Y (p.getD i 0) - z i| ≤ δ) (hsum : |(p.map Y).sum - pop| ≤ δ)
    (hs : (p.length + 2) * (δ + 4 * eps) < 1) :
    ∃ f e, marginal fp (p.map Fl.fin) pop = .ok (f, e) ∧ f.length = p.length ∧ (∀ k ∈ f, 0 ≤ k) ∧ f.sum = pop ∧
      ∀ i < p.length, |(f.getD i 0 : ℚ) - z i| < 1 := by
  have he := eps_pos
  have tiny := tinyQ_pos
  have ts := tinyQ_small
  have hpq : (0 : ℚ) ≤ pop := by exact_mod_cast h0
  have hpq1 : (pop : ℚ) + 1 ≤ 2 ^ 31 := by exact_mod_cast h1
  have hn0 : (0 : ℚ) ≤ p.length := by positivity
  have hd1 : δ < 1 := by nlinarith
  obtain ⟨s1, s2⟩ := abs_le.mp hsum
  set u : ℚ := 2 * eps with hu
  have hY0 : ∀ y ∈ p.map Y, 0 ≤ y := by
    intro y hy
    obtain ⟨x, hx, rfl⟩ := List.mem_map.mp hy
    exact (hY x hx).2
  have hYle : ∀ x ∈ p, Y x < pop + 1 := by
    intro x hx
    have := List.single_le_sum hY0 _ (List.mem_map_of_mem hx)
    linarith
  -- the remainders
  have hrem : ∀ x ∈ p, ∃ r, fp.sub (.fin (Y x)) (fp.ofInt ⌊Y x⌋) = .fin r ∧ 0 ≤ r ∧ r ≤ 1 ∧ |r - (Y x - ⌊Y x⌋)| ≤ u := by
    intro x hx
    have f0 : 0 ≤ ⌊Y x⌋ := Int.floor_nonneg.mpr (hY x hx).2
    have f1 : ⌊Y x⌋ < 2 ^ 31 := by
      rw [Int.floor_lt]; push_cast; linarith [hYle x hx]
    have e1 : fp.ofInt ⌊Y x⌋ = .fin (⌊Y x⌋ : ℚ) := rnd_int h (by rw [abs_of_nonneg f0]; omega)
    have q0 : 0 ≤ Y x - (⌊Y x⌋ : ℚ) := by linarith [Int.floor_le (Y x)]
    have q1 : Y x - (⌊Y x⌋ : ℚ) ≤ 1 := by linarith [Int.lt_floor_add_one (Y x)]
    obtain ⟨a, ha, ha0, hac⟩ := rnd_close h q0 (by
      have h3 : (1 : ℚ) ≤ 2 ^ 64 := by norm_num
      linarith [hugeQ_ge])
    refine ⟨a, ?_, ha0, ?_, ?_⟩
    · rw [e1]
      show fp.rnd (Y x + -(⌊Y x⌋ : ℚ)) = _
      rw [← sub_eq_add_neg]; exact ha
    · have := rnd_int h (z := 1) (by norm_num)
      exact h.mono _ 1 a 1 q1 ha (by simpa using this)
    · refine hac.trans ?_
      have : (Y x - (⌊Y x⌋ : ℚ)) * eps ≤ 1 * eps := mul_le_mul_of_nonneg_right q1 he.le
      have h5 : eps / 2 ^ 200 ≤ eps / 2 := by
        apply div_le_div_of_nonneg_left he.le (by norm_num) (by norm_num)
      rw [hu]
      linarith
  choose! r0 hr0 using hrem
  let g : Fl → Int := fun x => match x with
    | .fin q => ⌊Y q⌋
    | _ => 0
  have hgd : ∀ {α : Type} (F : ℚ → α) (d : α) (i : Nat), i < p.length → (p.map F).getD i d = F (p.getD i 0) := by
    intro α F d i hi
    rw [List.getD_eq_getElem _ _ (by simpa using hi), List.getElem_map, List.getD_eq_getElem _ _ hi]
  have hmem : ∀ i < p.length, p.getD i 0 ∈ p := fun i hi => by
    rw [List.getD_eq_getElem _ _ hi]; exact List.getElem_mem _
  have hgmap : (p.map Fl.fin).map g = p.map (fun x => ⌊Y x⌋) := by rw [List.map_map]; rfl
  have hfl : ∀ l : List ℚ, ((l.map (fun x => ⌊Y x⌋)).sum : ℚ) ≤ (l.map Y).sum := by
    intro l
    induction l with
    | nil => simp
    | cons x l ih =>
      simp only [List.map_cons, List.sum_cons]
      rw [Int.cast_add]
      linarith [Int.floor_le (Y x)]
  have hYsum : (p.map Y).sum = ∑ i ∈ Finset.range p.length, Y (p.getD i 0) := by
    rw [sum_getD, List.length_map]
    exact Finset.sum_congr rfl (fun i hi => hgd Y 0 i (Finset.mem_range.mp hi))
  obtain ⟨f, r, m1, m2, m3, m4, m5, b, R, j1, j2, j3, j4, j5, j6⟩ := marginal_inv fp (p := p.map Fl.fin) (g := g) h1
    (by
      intro x hx
      obtain ⟨q, hq, rfl⟩ := List.mem_map.mp hx
      rw [(hY q hq).1]
      exact toInt32_nonneg (hY q hq).2 (by linarith [hYle q hq]))
    (by
      intro x hx
      obtain ⟨q, hq, rfl⟩ := List.mem_map.mp hx
      exact Int.floor_nonneg.mpr (hY q hq).2)
    (by
      rw [hgmap]
      have h2 : ((p.map (fun x => ⌊Y x⌋)).sum : ℚ) < ((pop + 1 : Int) : ℚ) := by
        push_cast [-List.sum_map_count_dedup_eq_length]
        have := hfl p
        rw [Int.cast_list_sum] at this
        linarith
      have h3 : (p.map (fun x => ⌊Y x⌋)).sum < pop + 1 := by exact_mod_cast h2
      omega)
    (Or.inl (by simpa using hne))
    (fun f r => ∃ (b : Nat → Int) (R : List ℚ), r = R.map Fl.fin ∧ (∀ i < p.length, b i = 0 ∨ b i = 1) ∧
      (∀ i < p.length, f.getD i 0 = ⌊Y (p.getD i 0)⌋ + b i) ∧ (∀ i < p.length, b i = 0 → R.getD i 0 = r0 (p.getD i 0)) ∧
      (∀ i < p.length, b i = 1 → R.getD i 0 ≤ 0) ∧
      (∀ i < p.length, ∀ j < p.length, b i = 0 → b j = 1 → r0 (p.getD i 0) ≤ r0 (p.getD j 0)))
    (by
      refine ⟨fun _ => 0, p.map r0, ?_, fun _ _ => Or.inl rfl, ?_, ?_, ?_, ?_⟩
      · rw [List.map_map, List.map_map]
        apply List.map_congr_left
        intro x hx
        show fp.sub (fp.mul (.fin x) (fp.ofInt pop)) (fp.ofInt ⌊Y x⌋) = .fin (r0 x)
        rw [(hY x hx).1]
        exact (hr0 x hx).1
      · intro i hi
        rw [hgmap, hgd _ 0 i hi, add_zero]
      · intro i hi _
        exact hgd r0 0 i hi
      · intro i _ hc; simp at hc
      · intro i _ j _ _ hc; simp at hc)
    (by
      rintro f r ⟨b, R, rfl, i1, i2, i3, i4, i5⟩ lf lr hf0 hfs
      rw [List.length_map] at lf
      rw [List.length_map, List.length_map] at lr
      have hRne : R ≠ [] := by
        rintro rfl
        exact hne (List.length_eq_zero_iff.mp (by simpa using lr.symm))
      have hmr := maxElement_lt (r := R.map Fl.fin) (by simpa using hRne)
      rw [List.length_map] at hmr
      obtain ⟨hmax, -⟩ := maxElement_max R hRne
      set m := maxElement (R.map Fl.fin) with hm
      have hmp : m < p.length := by omega
      have hbm : b m = 0 := by
        rcases i1 m hmp with hb | hb
        · exact hb
        exfalso
        -- all remainders are used up, so the frequencies have reached the population
        have hle : ∑ j ∈ Finset.range p.length, (Y (p.getD j 0) - (⌊Y (p.getD j 0)⌋ : ℚ)) ≤
            ∑ j ∈ Finset.range p.length, ((b j : ℚ) + u) := by
          apply Finset.sum_le_sum
          intro j hj
          have hj := Finset.mem_range.mp hj
          obtain ⟨-, k2, -, k4⟩ := hr0 _ (hmem j hj)
          obtain ⟨k5, k6⟩ := abs_le.mp k4
          rcases i1 j hj with hbj | hbj
          · have h6 := hmax j (by omega)
            rw [i3 j hj hbj] at h6
            have h7 := i4 m hmp hb
            rw [hbj]
            push_cast
            linarith
          · rw [hbj]
            push_cast
            linarith [Int.lt_floor_add_one (Y (p.getD j 0))]
        have hfsum : (f.sum : ℚ) = ∑ j ∈ Finset.range p.length, ((⌊Y (p.getD j 0)⌋ : ℚ) + b j) := by
          rw [sum_getD f, lf, Int.cast_sum]
          apply Finset.sum_congr rfl
          intro j hj
          rw [i2 j (Finset.mem_range.mp hj)]
          push_cast
          rfl
        have hfp : (f.sum : ℚ) + 1 ≤ pop := by exact_mod_cast hfs
        rw [Finset.sum_sub_distrib, Finset.sum_add_distrib, ← hYsum, Finset.sum_const, Finset.card_range, nsmul_eq_mul] at hle
        rw [Finset.sum_add_distrib] at hfsum
        nlinarith
      obtain ⟨k1, k2, k3, k4⟩ := hr0 _ (hmem m hmp)
      have hRm := i3 m hmp hbm
      obtain ⟨c, hc, hc0⟩ : ∃ c, fp.sub (.fin (r0 (p.getD m 0))) (.fin 1) = .fin c ∧ c ≤ 0 := by
        obtain ⟨c, hc⟩ := finite' h (r0 (p.getD m 0) + -1) (by
          have h3 : (1 : ℚ) ≤ 2 ^ 64 := by norm_num
          rw [abs_le]
          constructor <;> linarith [hugeQ_ge])
        exact ⟨c, hc, h.mono _ 0 c 0 (by linarith) hc (rnd_zero' h)⟩
      have hget : (R.map Fl.fin).getD m (.fin 0) = .fin (r0 (p.getD m 0)) := by
        rw [← hRm, List.getD_eq_getElem _ _ (by simpa using hmr), List.getElem_map, List.getD_eq_getElem _ _ hmr]
      refine ⟨fun i => if i = m then 1 else b i, R.set m c, ?_, ?_, ?_, ?_, ?_, ?_⟩
      · rw [hget, hc, List.map_set]
      · intro i hi
        by_cases him : i = m
        · simp [him]
        · simpa [him] using i1 i hi
      · intro i hi
        by_cases him : i = m
        · subst him
          rw [getD_set_self (by omega), i2 _ hmp, hbm]
          simp
        · rw [getD_set_ne (fun h => him h.symm)]
          simp only [if_neg him]
          exact i2 i hi
      · intro i hi hb
        by_cases him : i = m
        · simp [him] at hb
        · rw [getD_set_ne (fun h => him h.symm)]
          exact i3 i hi (by simpa [him] using hb)
      · intro i hi hb
        by_cases him : i = m
        · subst him
          rw [getD_set_self (by omega)]; exact hc0
        · rw [getD_set_ne (fun h => him h.symm)]
          exact i4 i hi (by simpa [him] using hb)
      · intro i hi j hj hbi hbj
        have him : i ≠ m := by rintro rfl; simp at hbi
        have hbi : b i = 0 := by simpa [him] using hbi
        by_cases hjm : j = m
        · subst hjm
          rw [← i3 i hi hbi, ← hRm]
          exact hmax i (by omega)
        · exact i5 i hi j hj hbi (by simpa [hjm] using hbj))
  rw [List.length_map] at m2
  refine ⟨f, _, m1, m2, m4, m5, ?_⟩
  intro i hi
  rw [j3 i hi]
  refine greedy_close (n := p.length) (y := fun i => Y (p.getD i 0)) (r := fun i => r0 (p.getD i 0)) (b := b) (pop := pop) hδ
    (u := u) (by rw [hu]; linarith) hz ?_ ?_ j2 ?_ j6 ?_ i hi
  · rw [← hYsum]; exact hsum
  · intro i hi; exact (hr0 _ (hmem i hi)).2.2.2
  · rw [← m5, sum_getD f, m2]
    exact Finset.sum_congr rfl (fun i hi => (j3 i (Finset.mem_range.mp hi)).symm)
  · rw [hu]
    have : δ + 2 * (2 * eps) = δ + 4 * eps := by ring
    rw [this]; exact hs

/-- a share rounded and multiplied by the population -/
theorem share_close (h : fp.Good) {v : ℚ} (hv0 : 0 ≤ v) (hv2 : v ≤ 2) {pop : Int} (h0 : 0 ≤ pop) (h1 : pop < 2 ^ 31) :
    ∃ a y, fp.rnd v = .fin a ∧ fp.mul (.fin a) (fp.ofInt pop) = .fin y ∧ 0 ≤ y ∧
      |y - v * pop| ≤ v * pop * (3 * eps) + eps / 2 ^ 100 := by
  have he := eps_pos
  have tiny := tinyQ_pos
  have ts := tinyQ_small
  have hpq : (0 : ℚ) ≤ pop := by exact_mod_cast h0
  have hpq1 : (pop : ℚ) + 1 ≤ 2 ^ 31 := by exact_mod_cast h1
  have huge := hugeQ_ge
  have e31 : (2 : ℚ) ^ 31 * 8 ≤ 2 ^ 64 := by norm_num
  have h264 : (2 : ℚ) ≤ 2 ^ 64 := by norm_num
  obtain ⟨a, ha, ha0, hac⟩ := rnd_close h hv0 (by linarith)
  obtain ⟨c1, c2⟩ := abs_le.mp hac
  have he1 : eps ≤ 1 / 2 := by unfold eps; norm_num
  have t1 : tinyQ ≤ eps := ts.trans (div_le_self he.le (by norm_num))
  have hve : v * eps ≤ 2 * (1 / 2) := mul_le_mul hv2 he1 he.le (by norm_num)
  have ha4 : a ≤ 4 := by linarith
  have hap : a * pop ≤ 4 * 2 ^ 31 := mul_le_mul ha4 (by linarith) hpq (by norm_num)
  have hap0 : 0 ≤ a * pop := mul_nonneg ha0 hpq
  obtain ⟨y, hy, hy0, hyc⟩ := rnd_close h hap0 (by linarith)
  have e1 : fp.ofInt pop = .fin pop := rnd_int h (by rw [abs_of_nonneg h0]; omega)
  refine ⟨a, y, ha, by rw [e1]; exact hy, hy0, ?_⟩
  have d1 : |a * pop - v * pop| ≤ (v * eps + 2 * tinyQ) * pop := by
    rw [← sub_mul, abs_mul, abs_of_nonneg hpq]
    exact mul_le_mul_of_nonneg_right hac hpq
  have d2 : a * pop ≤ v * pop + (v * eps + 2 * tinyQ) * pop := by linarith [(abs_le.mp d1).2]
  have d3 : |y - v * pop| ≤ |y - a * pop| + |a * pop - v * pop| := abs_sub_le _ _ _
  have tp : tinyQ * pop ≤ eps / 2 ^ 200 * 2 ^ 31 := mul_le_mul ts (by linarith) hpq (by positivity)
  have e200 : eps / 2 ^ 200 * 2 ^ 31 * 4 + eps / 2 ^ 200 * 2 ≤ eps / 2 ^ 100 := by
    have : eps / 2 ^ 200 * 2 ^ 31 * 4 + eps / 2 ^ 200 * 2 = eps * ((2 ^ 31 * 4 + 2) / 2 ^ 200) := by ring
    rw [this, div_eq_mul_inv eps]
    exact mul_le_mul_of_nonneg_left (by norm_num) he.le
  have d4 : a * pop * eps ≤ (v * pop + (v * eps + 2 * tinyQ) * pop) * eps := mul_le_mul_of_nonneg_right d2 he.le
  have vp0 : 0 ≤ v * pop := mul_nonneg hv0 hpq
  have d5 : v * pop * eps * eps ≤ v * pop * eps * (1 / 2) := mul_le_mul_of_nonneg_left he1 (mul_nonneg vp0 he.le)
  have tp0 : 0 ≤ tinyQ * pop := mul_nonneg tiny.le hpq
  have d6 : tinyQ * pop * eps ≤ tinyQ * pop * (1 / 2) := mul_le_mul_of_nonneg_left he1 tp0
  have d7 : 0 ≤ v * pop * eps := mul_nonneg vp0 he.le
  nlinarith

/-- Truncating and distributing the shares `x / S`, where `S` is close to the sum of the numbers. -/
theorem shares_close (h : fp.Good) {xs : List ℚ} {pop : Int} (h0 : 0 ≤ pop) (h1 : pop < 2 ^ 31) (hne : xs ≠ [])
    (hn : (pop + 2) * (xs.length + 3) ^ 2 ≤ 2 ^ 52) (hx : ∀ x ∈ xs, 0 ≤ x) {S T : ℚ} (hS : 0 < S) (hT : 0 ≤ T)
    (hxS : ∀ x ∈ xs, x ≤ S) (g1 : |xs.sum - S| ≤ 2 * xs.length * eps * S) (g2 : |pop - T * S| ≤ 2 * xs.length * eps * (T * S))
    (g3 : T * xs.sum ≤ pop * (1 + 2 * xs.length * eps)) :
    ∃ f e, marginal fp ((xs.map Fl.fin).map (fun x => fp.div x (.fin S))) pop = .ok (f, e) ∧ f.length = xs.length ∧
      (∀ k ∈ f, 0 ≤ k) ∧ f.sum = pop ∧ ∀ i < xs.length, |(f.getD i 0 : ℚ) - T * xs.getD i 0| < 1 := by
  have he := eps_pos
  have hpq : (0 : ℚ) ≤ pop := by exact_mod_cast h0
  have hn0 : (0 : ℚ) ≤ xs.length := by positivity
  set n : ℚ := (xs.length : ℚ) with hnd
  have hnq : ((pop : ℚ) + 2) * (n + 3) ^ 2 ≤ 2 ^ 52 := by rw [hnd]; exact_mod_cast hn
  have hnb : ((pop : ℚ) + 2) * (n + 3) ^ 2 * (2 * eps) ≤ 1 := by
    calc ((pop : ℚ) + 2) * (n + 3) ^ 2 * (2 * eps) ≤ 2 ^ 52 * (2 * eps) := by gcongr
      _ = 1 := by unfold eps; norm_num
  have hnsq : (n + 3) ^ 2 * (4 * eps) ≤ 1 := by
    have : (n + 3) ^ 2 * (4 * eps) = 2 * (n + 3) ^ 2 * (2 * eps) := by ring
    rw [this]
    refine le_trans ?_ hnb
    have : 0 ≤ (n + 3) ^ 2 * (2 * eps) := by positivity
    nlinarith
  have hne4 : 2 * n * eps ≤ 1 / 4 := by nlinarith
  have hS2 : xs.sum ≤ S * (1 + 2 * n * eps) := by linarith [(abs_le.mp g1).2]
  have hex : ∀ x ∈ xs, ∃ a y, fp.rnd (x / S) = .fin a ∧ fp.mul (.fin a) (fp.ofInt pop) = .fin y ∧ 0 ≤ y ∧
      |y - x / S * pop| ≤ x / S * pop * (3 * eps) + eps / 2 ^ 100 := by
    intro x hxm
    have : x / S ≤ 1 := by rw [div_le_one hS]; exact hxS x hxm
    exact share_close h (div_nonneg (hx x hxm) hS.le) (by linarith) h0 h1
  choose! A B hAB using hex
  let Y : ℚ → ℚ := fun a => match fp.mul (.fin a) (fp.ofInt pop) with
    | .fin y => y
    | _ => 0
  have hYA : ∀ x ∈ xs, Y (A x) = B x := by
    intro x hxm
    show (match fp.mul (.fin (A x)) (fp.ofInt pop) with | .fin y => y | _ => 0) = _
    rw [(hAB x hxm).2.1]
  have hmap : (xs.map Fl.fin).map (fun x => fp.div x (.fin S)) = (xs.map A).map Fl.fin := by
    rw [List.map_map, List.map_map]
    apply List.map_congr_left
    intro x hxm
    show (if S = 0 then FP.infOfSign x else fp.rnd (x / S)) = _
    rw [if_neg hS.ne']
    exact (hAB x hxm).1
  have hmem : ∀ i < xs.length, xs.getD i 0 ∈ xs := fun i hi => by
    rw [List.getD_eq_getElem _ _ hi]; exact List.getElem_mem _
  have hgA : ∀ i < xs.length, (xs.map A).getD i 0 = A (xs.getD i 0) := by
    intro i hi
    rw [List.getD_eq_getElem _ _ (by simpa using hi), List.getElem_map, List.getD_eq_getElem _ _ hi]
  have small : eps / 2 ^ 100 ≤ eps := div_le_self he.le (by norm_num)
  have hlenN : n * (1 / 2 ^ 100) ≤ 1 := by
    have e1 : n ≤ (n + 3) ^ 2 := by nlinarith
    have e2 : (n + 3) ^ 2 ≤ 2 ^ 52 := by
      refine le_trans ?_ hnq
      have : 0 ≤ (n + 3) ^ 2 := by positivity
      nlinarith
    have : n * (1 / 2 ^ 100) ≤ 2 ^ 52 * (1 / 2 ^ 100) := mul_le_mul_of_nonneg_right (by linarith) (by norm_num)
    refine this.trans (by norm_num)
  -- one entry
  have hent : ∀ x ∈ xs, |B x - T * x| ≤ (pop * (2 * n + 6) + 1) * eps := by
    intro x hxm
    have hxx := hx x hxm
    obtain ⟨-, -, -, hb⟩ := hAB x hxm
    have tx0 : 0 ≤ T * x := mul_nonneg hT hxx
    have e1 : |x / S * pop - T * x| ≤ T * x * (2 * n * eps) := by
      have : x / S * pop - T * x = x / S * (pop - T * S) := by field_simp
      rw [this, abs_mul, abs_of_nonneg (div_nonneg hxx hS.le)]
      calc x / S * |↑pop - T * S| ≤ x / S * (2 * n * eps * (T * S)) :=
            mul_le_mul_of_nonneg_left g2 (div_nonneg hxx hS.le)
        _ = T * x * (2 * n * eps) := by field_simp
    have e2 : x / S * pop ≤ T * x * (5 / 4) := by nlinarith [(abs_le.mp e1).2]
    have e3 : |B x - T * x| ≤ |B x - x / S * pop| + |x / S * pop - T * x| := abs_sub_le _ _ _
    have e4 : x / S * pop * (3 * eps) ≤ T * x * (5 / 4) * (3 * eps) := mul_le_mul_of_nonneg_right e2 (by linarith)
    have e5 : T * x ≤ pop * (1 + 2 * n * eps) := by
      refine le_trans ?_ g3
      exact mul_le_mul_of_nonneg_left (List.single_le_sum hx _ hxm) hT
    have e6 : |B x - T * x| ≤ T * x * ((2 * n + 4) * eps) + eps := by nlinarith [mul_nonneg tx0 he.le]
    have e7 : T * x * ((2 * n + 4) * eps) ≤ pop * (1 + 2 * n * eps) * ((2 * n + 4) * eps) :=
      mul_le_mul_of_nonneg_right e5 (by positivity)
    have e8 : 2 * n * eps * (2 * n + 4) ≤ 1 := by nlinarith
    have e9 : pop * (1 + 2 * n * eps) * ((2 * n + 4) * eps) = pop * eps * ((2 * n + 4) + 2 * n * eps * (2 * n + 4)) := by ring
    have e10 : pop * eps * ((2 * n + 4) + 2 * n * eps * (2 * n + 4)) ≤ pop * eps * ((2 * n + 4) + 1) :=
      mul_le_mul_of_nonneg_left (by linarith) (mul_nonneg hpq he.le)
    nlinarith [mul_nonneg hpq he.le]
  -- the sum
  have hsumB : |(xs.map B).sum - pop| ≤ (pop * (2 * n + 6) + 1) * eps := by
    have s1 : ∀ l : List ℚ, (∀ x ∈ l, x ∈ xs) →
        |(l.map B).sum - l.sum / S * pop| ≤ l.sum / S * pop * (3 * eps) + l.length * (eps / 2 ^ 100) := by
      intro l
      induction l with
      | nil => intro _; simp
      | cons x l ih =>
        intro hl
        have i1 := ih (fun y hy => hl y (by simp [hy]))
        obtain ⟨-, -, -, i2⟩ := hAB x (hl x (by simp))
        rw [List.map_cons, List.sum_cons, List.sum_cons, List.length_cons]
        have e : B x + (l.map B).sum - (x + l.sum) / S * pop = (B x - x / S * pop) + ((l.map B).sum - l.sum / S * pop) := by ring
        rw [e]
        refine (abs_add_le _ _).trans ((add_le_add i2 i1).trans (le_of_eq ?_))
        push_cast
        ring
    have s2 := s1 xs (fun _ h => h)
    rw [← hnd] at s2
    have s3 : |xs.sum / S * pop - pop| ≤ 2 * n * eps * pop := by
      have : xs.sum / S * pop - pop = (xs.sum - S) / S * pop := by field_simp
      rw [this, abs_mul, abs_of_nonneg hpq, abs_div, abs_of_pos hS]
      apply mul_le_mul_of_nonneg_right _ hpq
      rw [div_le_iff₀ hS]; exact g1
    have s4 : xs.sum / S * pop ≤ pop * (5 / 4) := by
      have := (abs_le.mp s3).2
      nlinarith
    have s5 : |(xs.map B).sum - pop| ≤ |(xs.map B).sum - xs.sum / S * pop| + |xs.sum / S * pop - pop| := abs_sub_le _ _ _
    have s6 : n * (eps / 2 ^ 100) ≤ eps := by
      have : n * (eps / 2 ^ 100) = n * (1 / 2 ^ 100) * eps := by ring
      rw [this]
      have := mul_le_mul_of_nonneg_right hlenN he.le
      linarith
    have s7 : xs.sum / S * pop * (3 * eps) ≤ pop * (5 / 4) * (3 * eps) := mul_le_mul_of_nonneg_right s4 (by linarith)
    nlinarith [mul_nonneg hpq he.le]
  rw [hmap]
  obtain ⟨f, e, k1, k2, k3, k4, k5⟩ := marginal_close h h0 h1 (p := xs.map A) (by simpa using hne) (Y := Y)
    (by
      intro a ha
      obtain ⟨x, hxm, rfl⟩ := List.mem_map.mp ha
      rw [hYA x hxm]
      exact ⟨(hAB x hxm).2.1, (hAB x hxm).2.2.1⟩)
    (z := fun i => T * xs.getD i 0) (δ := (pop * (2 * n + 6) + 1) * eps) (by positivity)
    (by
      intro i hi
      have hi' : i < xs.length := by simpa using hi
      rw [hgA i hi', hYA _ (hmem i hi')]
      exact hent _ (hmem i hi'))
    (by
      have : (xs.map A).map Y = xs.map B := by
        rw [List.map_map]
        exact List.map_congr_left hYA
      rw [this]
      exact hsumB)
    (by
      rw [List.length_map, ← hnd]
      have : (n + 2) * ((pop * (2 * n + 6) + 1) * eps + 4 * eps) < ((pop : ℚ) + 2) * (n + 3) ^ 2 * (2 * eps) := by
        have : ((pop : ℚ) + 2) * (n + 3) ^ 2 * (2 * eps) - (n + 2) * ((pop * (2 * n + 6) + 1) * eps + 4 * eps) =
          eps * (pop * (2 * n + 6) + (4 * n ^ 2 + 19 * n + 26)) := by ring
        have : 0 < eps * (pop * (2 * n + 6) + (4 * n ^ 2 + 19 * n + 26)) := by positivity
        linarith
      linarith)
  rw [List.length_map] at k2 k5
  exact ⟨f, e, k1, k2, k3, k4, k5⟩

/-- the computed sum, in the form `shares_close` needs -/
theorem sum_close (h : fp.Good) {xs : List ℚ} (hlen : (xs.length : ℚ) * eps ≤ 1 / 4) (hr : ∀ x ∈ xs, fp.rnd x = .fin x)
    (hx : ∀ x ∈ xs, x = 0 ∨ tinyQ ≤ x) (hs0 : 0 < xs.sum) (hs1 : xs.sum ≤ hugeQ) :
    ∃ S, sumVec (numFl fp) (xs.map Fl.fin) = .fin S ∧ 0 < S ∧ (∀ x ∈ xs, x ≤ S) ∧
      |xs.sum - S| ≤ 2 * xs.length * eps * S ∧ |xs.sum - S| ≤ 2 * xs.length * eps * xs.sum := by
  have he := eps_pos
  have hn0 : (0 : ℚ) ≤ xs.length := by positivity
  have hl : xs.length ≤ 2 ^ 52 := by
    have : (xs.length : ℚ) ≤ 2 ^ 52 := by
      unfold eps at hlen
      have : (xs.length : ℚ) * (1 / 2 ^ 53) * 2 ^ 53 ≤ 1 / 4 * 2 ^ 53 := mul_le_mul_of_nonneg_right hlen (by norm_num)
      have e2 : (xs.length : ℚ) * (1 / 2 ^ 53) * 2 ^ 53 = xs.length := by ring
      rw [e2] at this
      refine this.trans ?_
      norm_num
    exact_mod_cast this
  obtain ⟨S, hS, g1, g2, -, g4⟩ := sum_bounds h xs 0 0 0 (Or.inl rfl) hx hr (rnd_zero' h) (by simp) (by simp) le_rfl
    (by simpa using hs1) (by simpa using hl)
  simp only [zero_add] at g1 g2
  set n : ℚ := (xs.length : ℚ) with hn
  have hSpos : 0 < S := lt_of_lt_of_le (mul_pos hs0 (by linarith)) g1
  have hne : 0 ≤ n * eps := mul_nonneg hn0 he.le
  have hS2 : xs.sum ≤ 2 * S := by nlinarith
  refine ⟨S, hS, hSpos, g4, ?_, ?_⟩
  · rw [abs_le]
    have e1 : n * eps * xs.sum ≤ n * eps * (2 * S) := mul_le_mul_of_nonneg_left hS2 hne
    constructor
    · -- S ≤ sum * (1 + 2 n eps), and sum ≤ S or else trivial
      by_cases hc : xs.sum ≤ S
      · have : n * eps * xs.sum ≤ n * eps * S := mul_le_mul_of_nonneg_left hc hne
        nlinarith
      · have : 0 ≤ 2 * n * eps * S := by positivity
        linarith
    · nlinarith
  · rw [abs_le]
    have : 0 ≤ n * eps * xs.sum := by positivity
    constructor <;> nlinarith

/-- `integerise(frac, pop)` in rounded arithmetic: within one of the exact values. -/
theorem oneD_close (h : fp.Good) {xs : List ℚ} {pop : Int} (h0 : 0 ≤ pop) (h1 : pop < 2 ^ 31)
    (hn : (pop + 2) * (xs.length + 3) ^ 2 ≤ 2 ^ 52) (hr : ∀ x ∈ xs, fp.rnd x = .fin x)
    (hx : ∀ x ∈ xs, x = 0 ∨ tinyQ ≤ x) (hs0 : 0 < xs.sum) (hs1 : xs.sum ≤ hugeQ) :
    ∃ f e, oneD fp (xs.map Fl.fin) pop = .ok (f, e) ∧ f.length = xs.length ∧ (∀ k ∈ f, 0 ≤ k) ∧ f.sum = pop ∧
      ∀ i < xs.length, |(f.getD i 0 : ℚ) - xs.getD i 0 / xs.sum * pop| < 1 := by
  have he := eps_pos
  have tiny := tinyQ_pos
  have hpq : (0 : ℚ) ≤ pop := by exact_mod_cast h0
  have hne : xs ≠ [] := by rintro rfl; simp at hs0
  have hx0 : ∀ x ∈ xs, 0 ≤ x := by
    intro x hxm
    rcases hx x hxm with h | h
    · exact h.ge
    · linarith
  have hlen : (xs.length : ℚ) * eps ≤ 1 / 4 := by
    have hnq : ((pop : ℚ) + 2) * (xs.length + 3) ^ 2 ≤ 2 ^ 52 := by exact_mod_cast hn
    have e0 : (0 : ℚ) ≤ xs.length := by positivity
    have e1 : (xs.length : ℚ) * 2 ≤ 2 ^ 52 := by nlinarith
    have : (xs.length : ℚ) * eps ≤ 2 ^ 51 * eps := mul_le_mul_of_nonneg_right (by linarith) he.le
    refine this.trans ?_
    unfold eps; norm_num
  obtain ⟨S, hS, hSpos, g4, g1, g2⟩ := sum_close h hlen hr hx hs0 hs1
  obtain ⟨f, e, k1, k2, k3, k4, k5⟩ := shares_close h h0 h1 hne hn hx0 hSpos (T := pop / xs.sum) (div_nonneg hpq hs0.le) g4 g1
    (by
      have e1 : (pop : ℚ) - pop / xs.sum * S = pop / xs.sum * (xs.sum - S) := by field_simp
      rw [e1, abs_mul, abs_of_nonneg (div_nonneg hpq hs0.le)]
      calc pop / xs.sum * |xs.sum - S| ≤ pop / xs.sum * (2 * xs.length * eps * S) :=
            mul_le_mul_of_nonneg_left g1 (div_nonneg hpq hs0.le)
        _ = _ := by ring)
    (by
      rw [div_mul_cancel₀ _ hs0.ne']
      have : 0 ≤ (pop : ℚ) * (2 * xs.length * eps) := by positivity
      linarith)
  refine ⟨f, e, ?_, k2, k3, k4, ?_⟩
  · unfold oneD
    rw [if_neg (by omega), hS]
    exact k1
  · intro i hi
    have := k5 i hi
    rwa [show xs.getD i 0 / xs.sum * (pop : ℚ) = pop / xs.sum * xs.getD i 0 by ring]

/-- `prob2IntFreq` in rounded arithmetic: what it accepts is returned within one of the exact values. -/
theorem prob2IntFreq_close (h : fp.Good) {p : List ℚ} {pop : Int} (h0 : 0 ≤ pop) (h1 : pop < 2 ^ 31)
    (hn : (pop + 4) * (2 * p.length + 2003) * (p.length + 2) ≤ 2 ^ 53) (hp : ∀ x ∈ p, 0 ≤ x) (hs : p.sum ≤ 2)
    {f : List Int} {e : Fl} (hf : prob2IntFreq fp (p.map Fl.fin) pop = .ok (f, e)) :
    ∀ i < p.length, |(f.getD i 0 : ℚ) - p.getD i 0 * pop| < 1 := by
  have he := eps_pos
  have tiny := tinyQ_pos
  have ts := tinyQ_small
  have hpq : (0 : ℚ) ≤ pop := by exact_mod_cast h0
  have hpq1 : (pop : ℚ) + 1 ≤ 2 ^ 31 := by exact_mod_cast h1
  have hn0 : (0 : ℚ) ≤ p.length := by positivity
  set n : ℚ := (p.length : ℚ) with hnd
  have hnq : ((pop : ℚ) + 4) * (2 * n + 2003) * (n + 2) ≤ 2 ^ 53 := by rw [hnd]; exact_mod_cast hn
  have hn' : (pop + 4) * (2 * p.length + 2003) ≤ 2 ^ 53 := by
    refine le_trans ?_ hn
    have e1 : (0 : Int) ≤ (pop + 4) * (2 * p.length + 2003) := by positivity
    have e2 : (1 : Int) ≤ (p.length : Int) + 2 := by omega
    nlinarith
  rcases prob2IntFreq_rounded h h0 h1 hn' hp hs with ⟨ht, -⟩ | ⟨hT, -⟩
  · rw [ht] at hf; cases hf
  rw [← hnd] at hT
  have e1000 : (1000 : ℚ) / 2 ^ 52 = 2000 * eps := by unfold eps; norm_num
  rw [e1000] at hT
  have hm : marginal fp (p.map Fl.fin) pop = .ok (f, e) := by
    unfold prob2IntFreq at hf
    split_ifs at hf
    exact hf
  have hbig : ((pop : ℚ) + 4) * (2 * n + 2003) * (n + 2) * eps ≤ 1 := by
    calc ((pop : ℚ) + 4) * (2 * n + 2003) * (n + 2) * eps ≤ 2 ^ 53 * eps := mul_le_mul_of_nonneg_right hnq he.le
      _ = 1 := by unfold eps; norm_num
  have hne : p ≠ [] := by
    rintro rfl
    have : n = 0 := by rw [hnd]; rfl
    rw [this] at hT
    simp only [List.sum_nil] at hT
    unfold eps at hT
    norm_num at hT
  have huge := hugeQ_ge
  have e31 : (2 : ℚ) ^ 31 * 2 ≤ 2 ^ 64 := by norm_num
  have e1 : fp.ofInt pop = .fin pop := rnd_int h (by rw [abs_of_nonneg h0]; omega)
  have small : eps / 2 ^ 200 ≤ eps / 2 ^ 100 := div_le_div_of_nonneg_left he.le (by norm_num) (by norm_num)
  have hex : ∀ x ∈ p, ∃ y, fp.mul (.fin x) (fp.ofInt pop) = .fin y ∧ 0 ≤ y ∧ |y - x * pop| ≤ x * pop * eps + 2 * (eps / 2 ^ 100) := by
    intro x hxm
    have hx2 : x ≤ 2 := (List.single_le_sum hp _ hxm).trans hs
    have q0 : 0 ≤ x * pop := mul_nonneg (hp x hxm) hpq
    have q1 : x * pop ≤ 2 * 2 ^ 31 := mul_le_mul hx2 (by linarith) hpq (by norm_num)
    obtain ⟨y, hy, hy0, hyc⟩ := rnd_close h q0 (by linarith)
    exact ⟨y, by rw [e1]; exact hy, hy0, by linarith⟩
  choose! Y hY using hex
  have hlenN : n * (2 * (eps / 2 ^ 100)) ≤ eps := by
    have e3 : n ≤ 2 ^ 53 := by
      refine le_trans ?_ hnq
      have a1 : (1 : ℚ) ≤ (pop + 4) * (2 * n + 2003) := by nlinarith
      have a2 : 1 * (n + 2) ≤ (pop + 4) * (2 * n + 2003) * (n + 2) := mul_le_mul_of_nonneg_right a1 (by linarith)
      linarith
    calc n * (2 * (eps / 2 ^ 100)) ≤ 2 ^ 53 * (2 * (eps / 2 ^ 100)) := mul_le_mul_of_nonneg_right e3 (by positivity)
      _ = eps * (2 ^ 53 * 2 / 2 ^ 100) := by ring
      _ ≤ eps * 1 := mul_le_mul_of_nonneg_left (by norm_num) he.le
      _ = eps := mul_one _
  have hone : 2 * (eps / 2 ^ 100) ≤ eps := by
    have : eps / 2 ^ 100 ≤ eps / 2 := div_le_div_of_nonneg_left he.le (by norm_num) (by norm_num)
    linarith
  have pe0 : 0 ≤ (pop : ℚ) * eps := mul_nonneg hpq he.le
  obtain ⟨f', e', k1, -, -, -, k5⟩ := marginal_close h h0 h1 hne (Y := Y) (fun x hx => ⟨(hY x hx).1, (hY x hx).2.1⟩)
    (z := fun i => p.getD i 0 * pop) (δ := (pop * (2 * n + 2002) + 1) * eps) (by positivity)
    (by
      intro i hi
      have hm : p.getD i 0 ∈ p := by rw [List.getD_eq_getElem _ _ hi]; exact List.getElem_mem _
      refine (hY _ hm).2.2.trans ?_
      have hx2 : p.getD i 0 ≤ 2 := (List.single_le_sum hp _ hm).trans hs
      have a1 : p.getD i 0 * pop * eps ≤ 2 * pop * eps := by
        rw [mul_assoc, mul_assoc]; exact mul_le_mul_of_nonneg_right hx2 pe0
      have a2 : (pop * (2 * n + 2002) + 1) * eps = 2 * pop * eps + eps + (2 * n + 2000) * (pop * eps) := by ring
      have a3 : 0 ≤ (2 * n + 2000) * (pop * eps) := by positivity
      linarith)
    (by
      have s1 : ∀ l : List ℚ, (∀ x ∈ l, x ∈ p) →
          |(l.map Y).sum - l.sum * pop| ≤ l.sum * pop * eps + l.length * (2 * (eps / 2 ^ 100)) := by
        intro l
        induction l with
        | nil => intro _; simp
        | cons x l ih =>
          intro hl
          have i1 := ih (fun y hy => hl y (by simp [hy]))
          have i2 := (hY x (hl x (by simp))).2.2
          rw [List.map_cons, List.sum_cons, List.sum_cons, List.length_cons]
          have e : Y x + (l.map Y).sum - (x + l.sum) * pop = (Y x - x * pop) + ((l.map Y).sum - l.sum * pop) := by ring
          rw [e]
          refine (abs_add_le _ _).trans ((add_le_add i2 i1).trans (le_of_eq ?_))
          push_cast
          ring
      have s2 := s1 p (fun _ h => h)
      rw [← hnd] at s2
      have s3 : |p.sum * pop - pop| ≤ (2000 * eps + 2 * n * eps) * pop := by
        have : p.sum * pop - pop = (p.sum - 1) * pop := by ring
        rw [this, abs_mul, abs_of_nonneg hpq]
        exact mul_le_mul_of_nonneg_right hT hpq
      have s4 : p.sum * pop * eps ≤ 2 * pop * eps := by
        rw [mul_assoc, mul_assoc]; exact mul_le_mul_of_nonneg_right hs pe0
      have s5 : |(p.map Y).sum - pop| ≤ |(p.map Y).sum - p.sum * pop| + |p.sum * pop - pop| := abs_sub_le _ _ _
      linarith)
    (by
      rw [← hnd]
      have : ((pop : ℚ) + 4) * (2 * n + 2003) * (n + 2) * eps - (n + 2) * ((pop * (2 * n + 2002) + 1) * eps + 4 * eps) =
        eps * ((n + 2) * (pop + (8 * n + 8007))) := by ring
      have : 0 < eps * ((n + 2) * (pop + (8 * n + 8007))) := by positivity
      linarith)
  rw [hm] at k1
  injection k1 with k1
  have : f = f' := congrArg Prod.fst k1
  rw [this]
  exact k5

end Integerise
end HL

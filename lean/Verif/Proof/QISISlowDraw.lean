import Verif.Proof.QISISlow

/-
C100: the draw that goes wrong.
-/

namespace HL
open QISI Micro Integerise Rate
variable {fp : FP}

/-- what a draw from a 2x2 table consists of -/
theorem drawn22 {seq : List U32} {a : List Int → Fl} {v : List Int} (h : Drawn fp seq [2, 2] a v) :
    ∃ i j : Nat, i < 2 ∧ j < 2 ∧ v = [(i : Int), (j : Int)] ∧
      pick fp (numFl fp) (lastSumsF fp [2] 2 a) (variate fp (seq.getD 1 0)) = .ok j ∧
      pick fp (numFl fp) [a [0, (j : Int)], a [1, (j : Int)]] (variate fp (seq.getD 0 0)) = .ok i := by
  generalize hs : [2, 2] = s at h
  cases h with
  | one n a i hi hp => simp at hs
  | snoc t n a j w ht hj hp hw =>
    obtain ⟨h1, h2⟩ := List.append_inj' (s₁ := [2]) (t₁ := [2]) hs rfl
    injection h2 with h2
    subst h1
    subst h2
    generalize hs' : [2] = s' at hw
    cases hw with
    | one n a' i hi hp' =>
      injection hs' with hs'
      subst hs'
      exact ⟨i, j, hi, hj, rfl, hp, hp'⟩
    | snoc t n a' j w ht =>
      obtain ⟨h1, -⟩ := List.append_inj' (s₁ := []) (t₁ := [2]) hs' rfl
      exact absurd h1.symm ht

theorem rel_add (hfp : fp.Good) {p q : ℚ} (hp : 0 ≤ p) (hq : 0 ≤ q) (h : p + q = 0 ∨ 1 / 2 ^ 40 ≤ p + q) (h' : p + q ≤ 2 ^ 40) :
    ∃ r, fp.add (.fin p) (.fin q) = .fin r ∧ Rel 1 r (p + q) := by
  refine rel_rnd hfp (h.imp id fun h => ⟨?_, ?_⟩)
  · have := tinyQ_le; linarith
  · have := hugeQ_ge; linarith

/-- picking the first of two weights -/
theorem slow_pick (hfp : fp.Good) {p q : ℚ} (hp : 0 ≤ p) (hq : 0 ≤ q) (h1 : 1 ≤ p + q) (h2 : p + q ≤ 2 ^ 30) (hp' : p = 0 ∨ 1 / 2 ^ 40 ≤ p)
    {u : U32} (hu : 2 ^ 31 ≤ u.toNat)
    (hpk : pick fp (numFl fp) [.fin p, .fin q] (variate fp u) = .ok 0) :
    uu ^ 4 * ((u.toNat : ℚ) / 2 ^ 32 * (p + q)) < p := by
  unfold pick at hpk
  rw [variate_eq hfp] at hpk
  obtain ⟨x, hx, hlt, -⟩ := pickLoop_spec _ _ _ _ 0 0 hpk
  simp only [List.getElem?_cons_zero, Option.some.injEq] at hx
  subst hx
  obtain ⟨a, ha, hra⟩ := rel_add hfp le_rfl hp (by simpa using hp') (by linarith)
  rw [zero_add] at hra
  have ha0 := hra.nonneg hp
  have hau := hra.upper (by norm_num) ha0
  have hal := hra.lower (by norm_num) hp
  have hs : Rel 1 (a + q) (p + q) := by
    refine ⟨?_, ?_⟩
    · have := hra.1
      have h3 := mul_le_mul_of_nonneg_right (uu_pow_le 1) hq
      rw [mul_add]; linarith
    · have := hra.2
      have h3 := mul_le_mul_of_nonneg_right (uu_pow_le 1) hq
      rw [mul_add]; linarith
  have hsl := hs.lower (by norm_num) (by linarith)
  obtain ⟨t, ht, hrt⟩ := rel_add hfp ha0 hq (Or.inr (by linarith)) (by linarith)
  have hrt2 := hrt.trans hs
  have ht0 := hrt2.nonneg (by linarith)
  have htl := hrt2.lower (by norm_num) (by linarith)
  have htu := hrt2.upper (by norm_num) ht0
  have hu1 : (1 : ℚ) / 2 ≤ (u.toNat : ℚ) / 2 ^ 32 := by
    rw [div_le_div_iff₀ (by norm_num) (by norm_num)]
    have : (2 ^ 31 : ℚ) ≤ (u.toNat : ℚ) := by exact_mod_cast hu
    linarith
  have hu2 : (u.toNat : ℚ) / 2 ^ 32 ≤ 1 := by
    rw [div_le_one (by norm_num)]
    have := u.isLt
    exact_mod_cast this.le
  obtain ⟨r, hr, hrr⟩ := rel_rnd hfp (q := (u.toNat : ℚ) / 2 ^ 32 * t) (Or.inr ⟨by have := tinyQ_le; nlinarith, by have := hugeQ_ge; nlinarith⟩)
  have e : FP.lt (.fin r) (.fin a) = true := by
    have : fp.mul (.fin ((u.toNat : ℚ) / 2 ^ 32)) ([Fl.fin p, Fl.fin q].foldl (fun acc x => fp.add acc ((numFl fp).toFl x)) (.fin 0)) = .fin r := by
      show fp.mul _ (fp.add (fp.add (.fin 0) (.fin p)) (.fin q)) = _
      rw [ha, ht]
      exact hr
    rw [this] at hlt
    have h4 : (numFl fp).toFl ((numFl fp).add (([Fl.fin p, Fl.fin q].take 0).foldl (numFl fp).add (numFl fp).zero) (.fin p)) = .fin a := ha
    rw [h4] at hlt
    exact hlt
  have e' : r < a := by simpa [FP.lt] using e
  have hut : Rel 2 ((u.toNat : ℚ) / 2 ^ 32 * t) ((u.toNat : ℚ) / 2 ^ 32 * (p + q)) := by
    have := (Rel.refl ((u.toNat : ℚ) / 2 ^ 32)).mul hrt2 (by positivity) (by positivity) ht0 (by linarith)
    simpa using this
  have k1 := (hrr.trans hut).1
  have k2 := hra.2
  have hpos : 0 < uu ^ 1 := uu_pow_pos 1
  calc uu ^ 4 * ((u.toNat : ℚ) / 2 ^ 32 * (p + q)) = uu ^ 1 * (uu ^ (1 + 2) * ((u.toNat : ℚ) / 2 ^ 32 * (p + q))) := by ring
    _ ≤ uu ^ 1 * r := mul_le_mul_of_nonneg_left k1 hpos.le
    _ < uu ^ 1 * a := mul_lt_mul_of_pos_left e' hpos
    _ ≤ p := k2

/-- The draw that goes wrong: with coordinates of at least 2047/2048 and 3/4, from a working table close to the fit. -/
theorem slow_draw (hfp : fp.Good) {a : List Int → Fl} {x y z : ℚ} (h : SlowTable a x y z) {seq : List U32} {v : List Int}
    (hd : Drawn fp seq [2, 2] a v) (h0 : 2047 * 2 ^ 21 ≤ (seq.getD 0 0).toNat) (h1 : 3 * 2 ^ 30 ≤ (seq.getD 1 0).toNat)
    (hx1 : 1 ≤ x) (hx2 : x ≤ 16386) (hy1 : 1 ≤ y) (hy2 : y ≤ 16386) (hz1 : 8187 / 1000 ≤ z) (hz2 : z ≤ 8200)
    (ht : 24000 ≤ x + y + z) : v = [1, 1] := by
  obtain ⟨i, j, hi, hj, rfl, hc, hr⟩ := drawn22 hd
  have q0 : (2047 : ℚ) / 2048 ≤ ((seq.getD 0 0).toNat : ℚ) / 2 ^ 32 := by
    rw [div_le_div_iff₀ (by norm_num) (by norm_num)]
    have : 2047 * 2 ^ 32 ≤ (seq.getD 0 0).toNat * 2048 := by omega
    exact_mod_cast this
  have q1 : (3 : ℚ) / 4 ≤ ((seq.getD 1 0).toNat : ℚ) / 2 ^ 32 := by
    rw [div_le_div_iff₀ (by norm_num) (by norm_num)]
    have : 3 * 2 ^ 32 ≤ (seq.getD 1 0).toNat * 4 := by omega
    exact_mod_cast this
  have u4 : 1 - 4 / 2 ^ 53 ≤ uu ^ 4 := by have := uu_pow_ge 4; norm_num at this ⊢; linarith
  have u4' : (9999 : ℚ) / 10000 ≤ uu ^ 4 := le_trans (by norm_num) u4
  -- the column
  have hj1 : j ≠ 0 := by
    rintro rfl
    obtain ⟨w0, e0, r0⟩ := rel_add hfp le_rfl (show (0 : ℚ) ≤ y by linarith) (Or.inr (by linarith)) (by linarith)
    rw [zero_add] at r0
    obtain ⟨w1, e1, r1⟩ := rel_add hfp le_rfl (show (0 : ℚ) ≤ x by linarith) (Or.inr (by linarith)) (by linarith)
    rw [zero_add] at r1
    have w10 := r1.nonneg (by linarith)
    have w1u := r1.upper (by norm_num) w10
    have w1l := r1.lower (by norm_num) (by linarith)
    obtain ⟨w2, e2, r2⟩ := rel_add hfp w10 (show (0 : ℚ) ≤ z by linarith) (Or.inr (by linarith)) (by linarith)
    have r2' : Rel 2 w2 (x + z) := by
      have : Rel 1 (w1 + z) (x + z) := by
        refine r1.add ⟨?_, ?_⟩ <;> exact mul_le_of_le_one_left (by linarith) (uu_pow_le 1)
      exact r2.trans this
    have e3 : lastSumsF fp [2] 2 a = [.fin w0, .fin w2] := by
      have e00 : fp.add (.fin 0) (.fin 0) = .fin 0 := by
        have := rnd_zero' hfp
        show fp.rnd (0 + 0) = _
        rw [add_zero]; exact this
      show [fp.add (fp.add (.fin 0) (a [0, 0])) (a [1, 0]), fp.add (fp.add (.fin 0) (a [0, 1])) (a [1, 1])] = _
      rw [h.c00, h.c10, h.c01, h.c11, e00, e0, e1, e2]
    have w00 := r0.nonneg (by linarith)
    have w20 := r2'.nonneg (by linarith)
    have w0u := r0.upper (by norm_num) w00
    have w0l := r0.lower (by norm_num) (by linarith)
    have w2u := r2'.upper (by norm_num) w20
    have w2l := r2'.lower (by norm_num) (by linarith)
    rw [e3] at hc
    have := slow_pick hfp w00 w20 (by linarith) (by linarith) (Or.inr (by linarith)) (by omega) hc
    have a1 := (mul_le_mul_of_nonneg_right (uu_ge (k := 1) (by norm_num)) w00).trans r0.2
    have a2 := (mul_le_mul_of_nonneg_right (uu_ge (k := 2) (by norm_num)) (show 0 ≤ x + z by linarith)).trans r2'.1
    have a3 := (mul_le_mul_of_nonneg_right (uu_ge (k := 1) (by norm_num)) (show 0 ≤ y by linarith)).trans r0.1
    have b1 : w0 ≤ 16387 := by linarith
    have b2 : 23999 ≤ w0 + w2 := by linarith
    have b3 : 3 / 4 * 23999 ≤ ((seq.getD 1 0).toNat : ℚ) / 2 ^ 32 * (w0 + w2) := mul_le_mul q1 b2 (by norm_num) (by positivity)
    have b4 : 9999 / 10000 * (3 / 4 * 23999) ≤ uu ^ 4 * (((seq.getD 1 0).toNat : ℚ) / 2 ^ 32 * (w0 + w2)) :=
      mul_le_mul u4' b3 (by norm_num) (uu_pow_pos 4).le
    linarith
  have hj2 : j = 1 := by omega
  subst hj2
  have hi1 : i ≠ 0 := by
    rintro rfl
    have e4 : a [0, ((1 : ℕ) : Int)] = .fin x := h.c01
    have e5 : a [1, ((1 : ℕ) : Int)] = .fin z := h.c11
    rw [e4, e5] at hr
    have := slow_pick hfp (by linarith) (by linarith) (by linarith) (by linarith) (Or.inr (by linarith)) (by omega) hr
    have b3 : 2047 / 2048 * (x + z) ≤ ((seq.getD 0 0).toNat : ℚ) / 2 ^ 32 * (x + z) := mul_le_mul_of_nonneg_right q0 (by linarith)
    have b4 : (1 - 4 / 2 ^ 53) * (2047 / 2048 * (x + z)) ≤ uu ^ 4 * (((seq.getD 0 0).toNat : ℚ) / 2 ^ 32 * (x + z)) :=
      mul_le_mul u4 b3 (by linarith) (uu_pow_pos 4).le
    linarith
  have hi2 : i = 1 := by omega
  subst hi2
  rfl

/-- the draws one by one -/
theorem placed_step {s : List Nat} {P : Prob Int} {sd : List Int → Fl} {hs : List (List Int)} {a : List Int → Fl}
    (h : Placed fp s P sd hs a) {k : Nat} (hk : k < hs.length) :
    ∃ l v hs' a' seq, hs = l ++ v :: hs' ∧ hs'.length = k ∧ Placed fp s P sd hs' a' ∧ PointAt s.length (k + 1) seq ∧ Drawn fp seq s a' v := by
  induction h with
  | start => simp at hk
  | keep hs a seq v hp hpt hd hlt ih =>
    by_cases he : k = hs.length
    · subst he
      exact ⟨[], v, hs, a, seq, rfl, rfl, hp, hpt, hd⟩
    · obtain ⟨l, w, hs', a', seq', h1, h2⟩ := ih (by simp at hk; omega)
      exact ⟨v :: l, w, hs', a', seq', by rw [h1]; rfl, h2⟩
  | refit hs a seq v c hp hpt hd hlt hf ih =>
    by_cases he : k = hs.length
    · subst he
      exact ⟨[], v, hs, a, seq, rfl, rfl, hp, hpt, hd⟩
    · obtain ⟨l, w, hs', a', seq', h1, h2⟩ := ih (by simp at hk; omega)
      exact ⟨v :: l, w, hs', a', seq', by rw [h1]; rfl, h2⟩

/-- taking one person out -/
theorem sub_one (hfp : fp.Good) {x : ℚ} (h1 : 2 ≤ x) (h2 : x ≤ 16386) :
    ∃ r, fp.sub (.fin x) (.fin 1) = .fin r ∧ |r - (x - 1)| ≤ 1 / 2 ^ 20 := by
  obtain ⟨r, hr, hb⟩ := near' hfp (x - 1) (by rw [abs_of_nonneg (by linarith)]; have := tinyQ_le; linarith)
    (by rw [abs_of_nonneg (by linarith)]; have := hugeQ_ge; linarith)
  have e : fp.sub (.fin x) (.fin 1) = .fin r := by
    show fp.rnd (x + -1) = _
    rw [← sub_eq_add_neg]; exact hr
  refine ⟨r, e, hb.trans ?_⟩
  rw [abs_of_nonneg (by linarith), div_le_div_iff₀ (by norm_num) (by norm_num)]
  linarith

/-- the working tables of the first draws, as long as they are in the second cell or the third -/
theorem slow_tables (hfp : fp.Good) {hs : List (List Int)} {a : List Int → Fl}
    (h : Placed fp [2, 2] slowProb (fun v => .fin (slowSeed v)) hs a) (hl : hs.length ≤ 8192)
    (hv : ∀ v ∈ hs, v = [0, 1] ∨ v = [1, 0]) :
    ∃ x y z, SlowTable a x y z ∧ 8187 / 1000 ≤ z ∧ z ≤ 8200 ∧
      x ≤ 16385 + hs.length / 2 ^ 20 ∧ y ≤ 16385 + hs.length / 2 ^ 20 ∧
      10900 - hs.length - hs.length / 2 ^ 20 ≤ x ∧ 10900 - hs.length - hs.length / 2 ^ 20 ≤ y ∧
      32766 - hs.length - hs.length / 2 ^ 20 ≤ x + y + z := by
  induction h with
  | start c hf =>
    obtain ⟨x, y, z, h1, h2, h3, h4, h5, h6, h7, h8⟩ := slow_fit hfp hf
    refine ⟨x, y, z, h1, h6, h7, ?_, ?_, ?_, ?_, ?_⟩ <;> simp <;> linarith
  | keep hs a seq v hp hpt hd hlt ih =>
    simp only [List.length_cons] at hl
    obtain ⟨x, y, z, g, h1, h2, h3, h4, h5, h6, h7⟩ := ih (by omega) (fun w hw => hv w (List.mem_cons_of_mem _ hw))
    have hl' : (hs.length : ℚ) ≤ 8191 := by
      have : hs.length ≤ 8191 := by omega
      exact_mod_cast this
    have hl0 : (0 : ℚ) ≤ hs.length := Nat.cast_nonneg _
    simp only [List.length_cons]
    push_cast
    rcases hv v (by simp) with rfl | rfl
    · obtain ⟨r, hr, hb⟩ := sub_one hfp (x := x) (by linarith) (by linarith)
      rw [abs_le] at hb
      refine ⟨r, y, z, ⟨?_, ?_, ?_, ?_⟩, h1, h2, by linarith, by linarith, by linarith, by linarith, by linarith⟩
      · rw [Function.update_of_ne (by decide)]; exact g.c00
      · rw [Function.update_self, g.c01]; exact hr
      · rw [Function.update_of_ne (by decide)]; exact g.c10
      · rw [Function.update_of_ne (by decide)]; exact g.c11
    · obtain ⟨r, hr, hb⟩ := sub_one hfp (x := y) (by linarith) (by linarith)
      rw [abs_le] at hb
      refine ⟨x, r, z, ⟨?_, ?_, ?_, ?_⟩, h1, h2, by linarith, by linarith, by linarith, by linarith, by linarith⟩
      · rw [Function.update_of_ne (by decide)]; exact g.c00
      · rw [Function.update_of_ne (by decide)]; exact g.c01
      · rw [Function.update_self, g.c10]; exact hr
      · rw [Function.update_of_ne (by decide)]; exact g.c11
  | refit hs a seq v c hp hpt hd hlt hf ih =>
    exfalso
    simp only [List.length_cons] at hl
    obtain ⟨x, y, z, g, h1, h2, h3, h4, h5, h6, h7⟩ := ih (by omega) (fun w hw => hv w (List.mem_cons_of_mem _ hw))
    have hl' : (hs.length : ℚ) ≤ 8191 := by
      have : hs.length ≤ 8191 := by omega
      exact_mod_cast this
    rcases hv v (by simp) with rfl | rfl
    · obtain ⟨r, hr, hb⟩ := sub_one hfp (x := x) (by linarith) (by linarith)
      rw [abs_le] at hb
      rw [g.c01, hr] at hlt
      have : r < 0 := by simpa [FP.lt] using hlt
      linarith
    · obtain ⟨r, hr, hb⟩ := sub_one hfp (x := y) (by linarith) (by linarith)
      rw [abs_le] at hb
      rw [g.c10, hr] at hlt
      have : r < 0 := by simpa [FP.lt] using hlt
      linarith

/-- **C100**: `qisi` fails on this problem. -/
theorem slow_fails (hsg : fp = FP.exact ∨ ∃ sqrt, fp = FP.ieee sqrt) (lm : Libm) (skips : Int) :
    ¬ ∃ x, qisi fp lm [2, 2] slowProb (fun v => .fin (slowSeed v)) skips = .ok x ∧ x.conv = true := by
  rintro ⟨x, hx, hconv⟩
  have hfp : fp.Good := by
    rcases hsg with rfl | ⟨sqrt, rfl⟩
    · exact FP.exact_good
    · exact FP.ieee_good sqrt
  have hp := properProb_of_disjoint slow_ok.toProbShape slow_nodup
  obtain ⟨vs, a, E, hpl, hlen, harr, -, -⟩ := C42_points_partial hfp slow_ok (by norm_num) hp hx
  have hlen' : vs.length = 32768 := by exact_mod_cast hlen
  -- nobody is in the first or the last cell
  obtain ⟨f, hf, -, -, -, hcv⟩ := C41_population_conv hfp slow_ok (by norm_num) hp hx
  have hm := hcv.mp hconv
  have hz := C43_zeros hsg slow_ok (by norm_num) hp (sd := fun v => .fin (slowSeed v)) (fun v _ => by
    show FP.le (.fin 0) (.fin (slowSeed v)) = true
    unfold slowSeed
    split <;> decide) hx hf
  have f00 : f [0, 0] = 0 := hz [0, 0] (by decide) (by simp [slowSeed])
  obtain ⟨s1, -, -, s4⟩ := sums22 f
  have r0 := hm ([0], fun _ => 16384) (by simp [slowProb]) [0] (by decide)
  have k1 := hm ([1], fun _ => 16384) (by simp [slowProb]) [1] (by decide)
  simp only [s1, s4] at r0 k1
  rw [hf] at harr
  have fc : ∀ v, InRange [2, 2] v → f v = (vs.count v : Int) := fun v hv => arr_inj harr v hv
  have n00 : [0, 0] ∉ vs := by
    rw [← List.count_eq_zero]
    have := fc [0, 0] (by decide)
    omega
  have n11 : [1, 1] ∉ vs := by
    rw [← List.count_eq_zero]
    have := fc [1, 1] (by decide)
    omega
  have hvs : ∀ v ∈ vs, v = [0, 1] ∨ v = [1, 0] := by
    intro v hv
    rcases inRange22 (hpl.range v hv) with rfl | rfl | rfl | rfl
    · exact absurd hv n00
    · exact Or.inl rfl
    · exact Or.inr rfl
    · exact absurd hv n11
  -- the point that goes wrong
  obtain ⟨n, ⟨-, hn, ⟨x0, hx0, hx1, -⟩, y0, hy0, hy1, -⟩, -⟩ := C63_first_two (dim := 2) (a := 11) (b := 2) (j := 0) (u := 2047) (v := 3)
    le_rfl (by norm_num) (by norm_num) (by norm_num) (by norm_num) (by norm_num)
  norm_num at hn hx1 hy1
  rcases hx0 with ⟨-, rfl⟩ | ⟨p, hp0, rfl⟩
  · omega
  rcases hy0 with ⟨-, rfl⟩ | ⟨p', hp1, rfl⟩
  · omega
  have hn0 := hp0.1
  obtain ⟨i, rfl⟩ : ∃ i, n = i + 1 := ⟨n - 1, by omega⟩
  obtain ⟨l, v, hs', a', seq, e1, e2, e3, e4, e5⟩ := placed_step hpl (k := i) (by omega)
  have p1 : p = seq := pointAt_unique (by norm_num) (isPoint_at hp0).1 e4
  have p2 : p' = seq := pointAt_unique (by norm_num) (isPoint_at hp1).1 e4
  rw [p1] at hx1
  rw [p2] at hy1
  obtain ⟨x, y, z, g, h1, h2, h3, h4, h5, h6, h7⟩ := slow_tables hfp e3 (by omega)
    (fun w hw => hvs w (by rw [e1]; simp [hw]))
  rw [e2] at h3 h4 h5 h6 h7
  have hi' : (i : ℚ) ≤ 8191 := by
    have : i ≤ 8191 := by omega
    exact_mod_cast this
  have := slow_draw hfp g e5 (by omega) (by omega) (by linarith) (by linarith) (by linarith) (by linarith) h1 h2 (by linarith)
  refine n11 ?_
  rw [e1, ← this]
  simp

end HL

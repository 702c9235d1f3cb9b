import Verif.Proof.IntegeriseArray
import Verif.Proof.IntegeriseWitness

/-
Integerisation of an array with one dimension.
-/

namespace HL
namespace Integerise
variable {fp : FP}

theorem map_allIdx_one {α : Type} (xs : List α) (d : α) :
    (allIdx [xs.length]).map (fun j => xs.getD (j.getD 0 0).toNat d) = xs := by
  rw [allIdx_one, List.map_map]
  apply List.ext_getElem
  · simp
  · intro i h1 h2
    simp only [List.length_map, List.length_range] at h1
    simp [h1]

theorem vec_sum (fp : FP) (xs : List ℚ) :
    sumArr (numFl fp) (vec xs) = .ok (sumVec (numFl fp) (xs.map Fl.fin)) := by
  unfold vec
  rw [sumArr_eq]
  congr 1
  unfold sumVec
  conv_rhs => rw [← map_allIdx_one xs 0]
  rw [List.map_map, List.foldl_map]
  rfl

theorem filter_one {n i : Nat} (h : i < n) :
    (allIdx [n]).filter (fun v => proj [0] v = [(i : Int)]) = [[(i : Int)]] := by
  rw [allIdx_one, List.filter_map]
  have : (List.range n).filter ((fun v => decide (proj [0] v = [(i : Int)])) ∘ fun k : Nat => [(k : Int)]) =
      (List.range n).filter (fun k => k = i) := by
    apply List.filter_congr
    intro k _
    simp [proj]
  rw [this]
  clear this
  have : (List.range n).filter (fun k => decide (k = i)) = [i] := by
    induction n with
    | zero => omega
    | succ n ih =>
      rw [List.range_succ, List.filter_append]
      by_cases hi : i < n
      · rw [ih hi, List.filter_eq_nil_iff.mpr (by intro k hk; simp at hk ⊢; omega), List.append_nil]
      · have : i = n := by omega
        subst this
        rw [List.filter_eq_nil_iff.mpr (by intro k hk; simp at hk ⊢; omega)]
        simp
  rw [this]
  rfl

theorem vec_reduce {xs : List ℚ} (hne : xs ≠ []) (hr : ∀ x ∈ xs, fp.rnd x = .fin x) :
    reduce1 (numFl fp) (vec xs) 0 = .ok (xs.map Fl.fin) := by
  have hp : 0 < xs.length := List.length_pos_iff.mpr hne
  unfold vec
  rw [reduce1_fsum ⟨by simp, by simpa using hp⟩ _ (by simp)]
  congr 1
  apply List.ext_getElem
  · simp
  · intro i h1 h2
    have hi : i < xs.length := by simpa using h2
    rw [List.getElem_map, List.getElem_map, List.getElem_range]
    unfold fsum
    rw [filter_one hi]
    show fp.rnd (0 + xs.getD (([(i : Int)] : List Int).getD 0 0).toNat 0) = _
    rw [zero_add]
    have : xs.getD (([(i : Int)] : List Int).getD 0 0).toNat 0 = xs[i] := by simp [hi]
    rw [this]
    exact hr _ (List.getElem_mem hi)

theorem intVec_copy {f : List Int} (hne : f ≠ []) :
    (NDArray.empty.resize [f.length] >>= fun a : NDArray Int => a.copyIn f) = .ok (intVec f) := by
  have hp : 0 < f.length := List.length_pos_iff.mpr hne
  rw [resize_eq (s := [f.length]) ⟨by simp, by simpa using hp⟩ (by simpa [NDArray.empty, prodSizes] using hp), Out.ok_bind]
  conv_lhs => rw [← map_allIdx_one f 0]
  rw [List.length_map, show (allIdx [f.length]).length = f.length by simp [length_allIdx, prodSizes], copyIn_eq]
  rfl

/-- The constructor on a 1-d array. -/
theorem run_vec (dbg : Bool) (lm : Libm) {xs : List ℚ} (hne : xs ≠ []) (hr : ∀ x ∈ xs, fp.rnd x = .fin x) :
    run dbg fp lm (vec xs) = (do
      let _ ← checkedRound fp (sumVec (numFl fp) (xs.map Fl.fin))
      let pop ← FP.toInt32 (sumVec (numFl fp) (xs.map Fl.fin))
      let t ← marginal fp ((xs.map Fl.fin).map (fun x => fp.div x (fp.ofInt pop))) pop
      let a ← NDArray.empty.resize [t.1.length]
      let a ← a.copyIn t.1
      pure ⟨a, true, t.2⟩) := by
  unfold run
  rw [vec_sum, Out.ok_bind]
  congr 1
  funext _
  rw [if_pos (by rfl)]
  unfold vector
  rw [vec_reduce hne hr, Out.ok_bind, vec_sum, Out.ok_bind]

/-- When everything up to the distribution of the total works out. -/
theorem run_vec_ok (dbg : Bool) (lm : Libm) {xs : List ℚ} (hne : xs ≠ []) (hr : ∀ x ∈ xs, fp.rnd x = .fin x) {n pop : Int}
    (h1 : checkedRound fp (sumVec (numFl fp) (xs.map Fl.fin)) = .ok n)
    (h2 : FP.toInt32 (sumVec (numFl fp) (xs.map Fl.fin)) = .ok pop) {f : List Int} {e : Fl}
    (h3 : marginal fp ((xs.map Fl.fin).map (fun x => fp.div x (fp.ofInt pop))) pop = .ok (f, e)) (hf : f.length = xs.length) :
    run dbg fp lm (vec xs) = .ok ⟨intVec f, true, e⟩ := by
  rw [run_vec dbg lm hne hr, h1, Out.ok_bind, h2, Out.ok_bind, h3, Out.ok_bind]
  have hf0 : f ≠ [] := by
    rw [← List.length_pos_iff, hf]; exact List.length_pos_iff.mpr hne
  have := intVec_copy hf0
  obtain ⟨b, hb, hb'⟩ := Out.bind_eq_ok.mp this
  simp only [hb, Out.ok_bind, hb']
  rfl

theorem checkedRound_of {q : ℚ} {n : Int} (hn : NearInt fp (.fin q) n) (hb : |q| ≤ 2 ^ 62) : checkedRound fp (.fin q) = .ok n := by
  rcases checkedRound_cases (fp := fp) hb with ⟨m, hm⟩ | ⟨-, hm⟩
  · rw [hm, nearInt_unique (checkedRound_inv hm) hn]
  · exact absurd hn (hm n)

/-- In exact arithmetic, when the total is not below the integer it is near to. -/
theorem run_vec_exact (dbg : Bool) (sqrt : Fl → Fl) (lm : Libm) {xs : List ℚ} (hx : ∀ x ∈ xs, 0 ≤ x) {N : Int} (hN0 : 1 ≤ N)
    (hN : N < 2 ^ 31) (hs1 : (N : ℚ) ≤ xs.sum) (hs2 : xs.sum ≤ N + 1 / 10 ^ 4) :
    ∃ f e, run dbg (FP.exactWith sqrt) lm (vec xs) = .ok ⟨intVec f, true, e⟩ ∧ f.length = xs.length ∧ (∀ k ∈ f, 0 ≤ k) ∧
      f.sum = N ∧ (∀ i, |(f.getD i 0 : ℚ) - xs.getD i 0| < 1) := by
  have hNq : (1 : ℚ) ≤ N := by exact_mod_cast hN0
  have hNq' : (N : ℚ) + 1 ≤ 2 ^ 31 := by exact_mod_cast hN
  have hne : xs ≠ [] := by
    rintro rfl
    rw [List.sum_nil] at hs1; linarith
  have hn0 : (N : ℚ) ≠ 0 := by linarith
  set p := xs.map (fun x => x / (N : ℚ)) with hp
  have hps : p.sum = xs.sum / N := by rw [hp, sum_div]
  have hmul : p.sum * N = xs.sum := by rw [hps]; field_simp
  obtain ⟨f, g1, g2, g3, g4, g5, -⟩ := exact_spec sqrt (p := p) (pop := N) (by omega) hN (by simpa [hp] using hne)
    (by
      intro x hxm
      obtain ⟨y, hy, rfl⟩ := List.mem_map.mp hxm
      exact div_nonneg (hx y hy) (by linarith))
    (by rw [hmul]; linarith) (by rw [hmul]; linarith)
  have hl : p.length = xs.length := by simp [hp]
  rw [hl] at g2
  refine ⟨f, sqrt (.fin (sqDev N p f / p.length)), run_vec_ok dbg lm hne (fun _ _ => rfl) (n := N) (pop := N) ?_ ?_ ?_ g2, g2, g3, g4, ?_⟩
  · rw [sumVec_exact]
    refine checkedRound_of ?_ ?_
    · have : NearInt FP.exact (.fin xs.sum) N := nearInt_exact.mpr (by rw [abs_le]; constructor <;> linarith)
      exact this
    · rw [abs_le]; constructor
      · linarith
      · have : (2 : ℚ) ^ 31 ≤ 2 ^ 62 := by norm_num
        linarith
  · rw [sumVec_exact, toInt32_nonneg (by linarith) (by linarith)]
    congr 1
    rw [Int.floor_eq_iff]; constructor <;> linarith
  · have : (xs.map Fl.fin).map (fun x => (FP.exactWith sqrt).div x ((FP.exactWith sqrt).ofInt N)) = p.map Fl.fin := by
      rw [hp, List.map_map, List.map_map]
      apply List.map_congr_left
      intro x _
      show (if (N : ℚ) = 0 then FP.infOfSign x else Fl.fin (x / N)) = _
      rw [if_neg hn0]; rfl
    rw [this]
    exact g1
  · intro i
    have := g5 i
    have hi : p.getD i 0 = xs.getD i 0 / N := by
      rw [hp]
      have := List.getD_map (n := i) xs (0 : ℚ) (fun x : ℚ => x / N)
      rw [zero_div] at this
      exact this
    rw [hi, div_mul_cancel₀ _ hn0] at this
    exact this

/-- In rounded arithmetic, when the computed total is an integer. -/
theorem run_vec_rounded (dbg : Bool) (h : fp.Good) (lm : Libm) {xs : List ℚ} {N : Int} (hN0 : 1 ≤ N) (hN : N < 2 ^ 31)
    (hn : (N + 2) * (xs.length + 3) ≤ 2 ^ 53) (hr : ∀ x ∈ xs, fp.rnd x = .fin x)
    (hx : ∀ x ∈ xs, x = 0 ∨ tinyQ ≤ x) (hs1 : xs.sum ≤ hugeQ) (hs : sumVec (numFl fp) (xs.map Fl.fin) = .fin N) :
    0 < xs.sum ∧ ∃ f e, run dbg fp lm (vec xs) = .ok ⟨intVec f, true, e⟩ ∧ f.length = xs.length ∧ (∀ k ∈ f, 0 ≤ k) ∧ f.sum = N ∧
      oneD fp (xs.map Fl.fin) N = .ok (f, e) := by
  have hne : xs ≠ [] := by
    rintro rfl
    have : Fl.fin 0 = .fin (N : ℚ) := hs
    injection this with this
    have : (0 : Int) = N := by exact_mod_cast this
    omega
  have tiny := tinyQ_pos
  have hx0 : ∀ x ∈ xs, 0 ≤ x := by
    intro x hxm
    rcases hx x hxm with rfl | h
    · exact le_rfl
    · linarith
  have hpos : 0 < xs.sum := by
    rcases (List.sum_nonneg hx0).lt_or_eq with h0 | h0
    · exact h0
    · exfalso
      have hz : ∀ x ∈ xs, x = 0 := by
        intro x hxm
        have := List.single_le_sum hx0 x hxm
        linarith [hx0 x hxm]
      have : ∀ l : List ℚ, (∀ x ∈ l, x = 0) → (l.map Fl.fin).foldl fp.add (.fin 0) = .fin 0 := by
        intro l
        induction l with
        | nil => intro _; rfl
        | cons x l ih =>
          intro hl
          rw [List.map_cons, List.foldl_cons, hl x (by simp)]
          have : fp.add (.fin 0) (.fin 0) = .fin 0 := by
            show fp.rnd (0 + 0) = _
            rw [zero_add, rnd_zero h]
          rw [this]
          exact ih (fun y hy => hl y (by simp [hy]))
      have h1 := (this xs hz).symm.trans hs
      injection h1 with h1
      have : (0 : Int) = N := by exact_mod_cast h1
      omega
  obtain ⟨f, e, g1, g2, g3, g4⟩ := oneD_rounded h (by omega) hN hn hr hx hpos hs1
  have hNr : fp.ofInt N = .fin N := by
    unfold FP.ofInt
    have := h.dyadic N 0 (by rw [abs_of_nonneg (by omega)]; omega) (by norm_num)
    simpa using this
  refine ⟨hpos, f, e, run_vec_ok dbg lm hne hr (n := N) (pop := N) ?_ ?_ ?_ g2, g2, g3, g4, g1⟩
  · rw [hs]
    refine checkedRound_of ⟨?_, ?_⟩ ?_
    · rw [round_fin, roundHalfAway_eq (n := N) (by simp)]
    · have : fp.sub (.fin N) (.fin N) = .fin 0 := by
        show fp.rnd (N + -N) = _
        rw [add_neg_cancel, rnd_zero h]
      rw [this]
      obtain ⟨t, ht, h0⟩ : ∃ t, fp.rnd (1 / 10 ^ 4) = .fin t ∧ 0 ≤ t := by
        obtain ⟨t, ht, -⟩ := h.near (1 / 10 ^ 4) (by
            have : (2 : ℚ) ^ (-1022 : ℤ) ≤ 2 ^ (-20 : ℤ) := zpow_le_zpow_right₀ (by norm_num) (by norm_num)
            refine this.trans ?_
            rw [abs_of_pos (by norm_num)]
            norm_num) (by
            rw [abs_of_pos (by norm_num)]
            have : (1 : ℚ) ≤ 2 ^ 1023 := one_le_pow₀ (by norm_num)
            refine le_trans ?_ this
            norm_num)
        exact ⟨t, ht, h.mono 0 (1 / 10 ^ 4) 0 t (by norm_num) (rnd_zero h) ht⟩
      rw [ht]
      simp [FP.abs, FP.lt, h0]
    · rw [abs_of_nonneg (by exact_mod_cast (by omega : (0 : Int) ≤ N))]
      exact_mod_cast (by omega : N ≤ 2 ^ 62)
  · rw [hs, toInt32_nonneg (by exact_mod_cast (by omega : (0 : Int) ≤ N)) (by exact_mod_cast hN), Int.floor_intCast]
  · have : oneD fp (xs.map Fl.fin) N = marginal fp ((xs.map Fl.fin).map (fun x => fp.div x (fp.ofInt N))) N := by
      unfold oneD
      rw [if_neg (by omega), hs, hNr]
    rw [← this]
    exact g1

/-- The total is truncated, not rounded: the array `[2 - 2^-14]`. -/
theorem run_vec_truncated (dbg : Bool) (h : fp.Good) (lm : Libm) :
    ∃ e, run dbg fp lm (vec [2 - 1 / 2 ^ 14]) = .ok ⟨intVec [1], true, e⟩ := by
  have hrep : fp.rnd (2 - 1 / 2 ^ 14) = .fin (2 - 1 / 2 ^ 14) := by
    have := h.dyadic (2 ^ 15 - 1) 14 (by norm_num) (by norm_num)
    norm_num at this ⊢
    exact this
  have hs : sumVec (numFl fp) ([(2 - 1 / 2 ^ 14 : ℚ)].map Fl.fin) = .fin (2 - 1 / 2 ^ 14) := by
    show fp.rnd (0 + (2 - 1 / 2 ^ 14)) = _
    rw [zero_add, hrep]
  have hone : fp.ofInt 1 = .fin 1 := by
    unfold FP.ofInt
    have := h.dyadic 1 0 (by norm_num) (by norm_num)
    simpa using this
  have hfl : ⌊(2 - 1 / 2 ^ 14 : ℚ)⌋ = 1 := by rw [Int.floor_eq_iff]; norm_num
  have hd : fp.div (.fin (2 - 1 / 2 ^ 14)) (.fin 1) = .fin (2 - 1 / 2 ^ 14) := by
    show (if (1 : ℚ) = 0 then FP.infOfSign (2 - 1 / 2 ^ 14) else fp.rnd ((2 - 1 / 2 ^ 14) / 1)) = _
    rw [if_neg (by norm_num), div_one, hrep]
  have hm : fp.mul (.fin (2 - 1 / 2 ^ 14)) (.fin 1) = .fin (2 - 1 / 2 ^ 14) := by
    show fp.rnd ((2 - 1 / 2 ^ 14) * 1) = _
    rw [mul_one, hrep]
  have hmar : ∃ e, marginal fp [Fl.fin (2 - 1 / 2 ^ 14)] 1 = .ok ([1], e) := by
    refine ⟨rmse fp [fp.sub (.fin (2 - 1 / 2 ^ 14)) (fp.ofInt 1)], ?_⟩
    unfold marginal start
    rw [Integerise.mapM_ok (h := fun _ => ((1 : Int), fp.sub (.fin (2 - 1 / 2 ^ 14)) (fp.ofInt 1)))]
    · rw [Out.ok_bind]
      simp only [List.map_cons, List.map_nil]
      rw [total_ok (by simp) (by norm_num), Out.ok_bind, loop_exit (by simp), Out.ok_bind]
      rfl
    · intro x hx
      rw [List.mem_singleton] at hx
      subst hx
      rw [hone, hm, toInt32_nonneg (by norm_num) (by norm_num), hfl, Out.ok_bind]
      rw [hone]; rfl
  obtain ⟨e, he⟩ := hmar
  refine ⟨e, run_vec_ok dbg lm (by simp) (by simpa using hrep) (n := 2) (pop := 1) ?_ ?_ ?_ rfl⟩
  · rw [hs]
    refine checkedRound_of ⟨?_, ?_⟩ ?_
    · rw [round_fin, roundHalfAway_eq (n := 2) (by norm_num)]
    · have e1 : fp.sub (.fin (2 - 1 / 2 ^ 14)) (.fin ((2 : Int) : ℚ)) = .fin (-1 / 2 ^ 14) := by
        show fp.rnd (2 - 1 / 2 ^ 14 + -((2 : Int) : ℚ)) = _
        have := h.dyadic (-1) 14 (by norm_num) (by norm_num)
        norm_num at this ⊢
        exact this
      rw [e1]
      obtain ⟨t, ht, htn⟩ := h.near (1 / 10 ^ 4) (by
            have : (2 : ℚ) ^ (-1022 : ℤ) ≤ 2 ^ (-20 : ℤ) := zpow_le_zpow_right₀ (by norm_num) (by norm_num)
            refine this.trans ?_
            rw [abs_of_pos (by norm_num)]
            norm_num) (by
            rw [abs_of_pos (by norm_num)]
            have : (1 : ℚ) ≤ 2 ^ 1023 := one_le_pow₀ (by norm_num)
            refine le_trans ?_ this
            norm_num)
      rw [ht]
      simp only [FP.abs, FP.lt, decide_eq_false_iff_not, not_lt]
      have := (abs_le.mp htn).1
      rw [abs_of_pos (by norm_num)] at this
      norm_num at this ⊢
      linarith
    · rw [abs_of_pos (by norm_num)]; norm_num
  · rw [hs, toInt32_nonneg (by norm_num) (by norm_num), hfl]
  · rw [hone]
    show marginal fp [fp.div (.fin (2 - 1 / 2 ^ 14)) (.fin 1)] 1 = _
    rw [hd]; exact he

/-- A total truncated to zero: the division by it makes the conversion to `int` undefined. -/
theorem run_vec_zero (dbg : Bool) (h : fp.Good) (lm : Libm) {xs : List ℚ} (hne : xs ≠ []) (hr : ∀ x ∈ xs, fp.rnd x = .fin x)
    {S : ℚ} (hs : sumVec (numFl fp) (xs.map Fl.fin) = .fin S) (h0 : 0 ≤ S) (h1 : S < 1) {n : Int} (hn : NearInt fp (.fin S) n) :
    run dbg fp lm (vec xs) = .ub .badCast := by
  rw [run_vec dbg lm hne hr, hs, checkedRound_of hn (by rw [abs_of_nonneg h0]; linarith), Out.ok_bind,
    toInt32_nonneg h0 (by linarith), Out.ok_bind]
  have hf : ⌊S⌋ = 0 := by rw [Int.floor_eq_iff]; constructor <;> push_cast <;> linarith
  rw [hf]
  have hz : fp.ofInt 0 = .fin 0 := by
    show fp.rnd ((0 : Int) : ℚ) = _
    rw [Int.cast_zero, rnd_zero h]
  have : marginal fp ((xs.map Fl.fin).map (fun x => fp.div x (fp.ofInt 0))) 0 = .ub .badCast := by
    cases xs with
    | nil => exact absurd rfl hne
    | cons x xs =>
      unfold marginal
      rw [List.map_cons, List.map_cons, List.mapM_cons]
      have : start fp 0 (fp.div (.fin x) (fp.ofInt 0)) = .ub .badCast := by
        unfold start
        rw [hz]
        have hd : fp.div (.fin x) (.fin 0) = FP.infOfSign x := by
          show (if (0 : ℚ) = 0 then FP.infOfSign x else fp.rnd (x / 0)) = _
          rw [if_pos rfl]
        have hm : fp.mul (FP.infOfSign x) (.fin 0) = .nan := by
          unfold FP.infOfSign
          split
          · rfl
          · split <;> simp [FP.mul, FP.sgn, FP.infOfSign]
        rw [hd, hm]; rfl
      rw [this]; rfl
  rw [this]; rfl

/-! ### The doubles nearest to 0.7, 0.1 and 0.2 -/

theorem rne_of {q : ℚ} {n : Int} (h : |q - n| < 1 / 2) : FP.rne q = n := by
  obtain ⟨h1, h2⟩ := abs_lt.mp h
  obtain ⟨h3, h4⟩ := abs_le.mp (FP.rne_abs_sub q)
  have h5 : (FP.rne q : ℚ) < n + 1 := by linarith
  have h6 : (n : ℚ) < FP.rne q + 1 := by linarith
  have h5' : FP.rne q < n + 1 := by exact_mod_cast h5
  have h6' : n < FP.rne q + 1 := by exact_mod_cast h6
  omega

theorem rne_tie {n : Int} (hn : n % 2 = 0) : FP.rne ((n : ℚ) + 1 / 2) = n := by
  unfold FP.rne
  have hf : ⌊(n : ℚ) + 1 / 2⌋ = n := by
    rw [Int.floor_eq_iff]; constructor <;> linarith
  simp only [hf]
  rw [if_neg (by linarith), if_neg (by linarith), if_pos hn]

theorem rnd_val' {q : ℚ} {e : ℤ} {n : ℤ} (h1 : (2 : ℚ) ^ e ≤ q) (h2 : q < (2 : ℚ) ^ (e + 1)) (he : -1022 ≤ e) (he' : e ≤ 0)
    (hr : FP.rne (q / 2 ^ (e - 52)) = n) : FP.rndIeee q = .fin ((n : ℚ) * 2 ^ (e - 52)) := by
  rw [rnd_at h1 h2 he, hr]
  have hn := FP.rne_abs_sub (q / 2 ^ (e - 52))
  rw [hr] at hn ⊢
  have hu : (0 : ℚ) < 2 ^ (e - 52) := by positivity
  have hle : (2 : ℚ) ^ (e - 52) ≤ 1 := zpow_le_one_of_nonpos₀ (by norm_num) (by omega)
  have h4 : (2 : ℚ) ^ (e + 1) ≤ 2 := by
    calc (2 : ℚ) ^ (e + 1) ≤ 2 ^ (1 : ℤ) := zpow_le_zpow_right₀ (by norm_num) (by omega)
      _ = 2 := by norm_num
  apply lt_big
  have h5 := (abs_le.mp hn).2
  have h6 : (n : ℚ) ≤ q / 2 ^ (e - 52) + 1 / 2 := by linarith
  calc (n : ℚ) * 2 ^ (e - 52) ≤ (q / 2 ^ (e - 52) + 1 / 2) * 2 ^ (e - 52) := by gcongr
    _ = q + 1 / 2 * 2 ^ (e - 52) := by field_simp
    _ ≤ 4 := by linarith

theorem rnd_val {q : ℚ} {e : ℤ} {n : ℤ} (h1 : (2 : ℚ) ^ e ≤ q) (h2 : q < (2 : ℚ) ^ (e + 1)) (he : -1022 ≤ e) (he' : e ≤ 0)
    (hn : |q / 2 ^ (e - 52) - n| < 1 / 2) : FP.rndIeee q = .fin ((n : ℚ) * 2 ^ (e - 52)) :=
  rnd_val' h1 h2 he he' (rne_of hn)

theorem rnd_07 : FP.rndIeee (7 / 10) = .fin (6305039478318694 / 2 ^ 53) := by
  rw [rnd_val (e := -1) (n := 6305039478318694)] <;> norm_num [abs_lt]

theorem rnd_01 : FP.rndIeee (1 / 10) = .fin (3602879701896397 / 2 ^ 55) := by
  rw [rnd_val (e := -4) (n := 7205759403792794)] <;> norm_num [abs_lt]

theorem rnd_02 : FP.rndIeee (2 / 10) = .fin (3602879701896397 / 2 ^ 54) := by
  rw [rnd_val (e := -3) (n := 7205759403792794)] <;> norm_num [abs_lt]

theorem run_07 (dbg : Bool) (sqrt : Fl → Fl) (lm : Libm) :
    run dbg (FP.ieee sqrt) lm (vec [6305039478318694 / 2 ^ 53, 3602879701896397 / 2 ^ 54, 3602879701896397 / 2 ^ 55]) =
      .ub .badCast := by
  have g := FP.ieee_good sqrt
  have r1 : (FP.ieee sqrt).rnd (6305039478318694 / 2 ^ 53) = .fin (6305039478318694 / 2 ^ 53) := by
    have := g.dyadic 6305039478318694 53 (by norm_num) (by norm_num)
    norm_num at this ⊢
    exact this
  have r2 : (FP.ieee sqrt).rnd (3602879701896397 / 2 ^ 55) = .fin (3602879701896397 / 2 ^ 55) := by
    have := g.dyadic 3602879701896397 55 (by norm_num) (by norm_num)
    norm_num at this ⊢
    exact this
  have r3 : (FP.ieee sqrt).rnd (3602879701896397 / 2 ^ 54) = .fin (3602879701896397 / 2 ^ 54) := by
    have := g.dyadic 3602879701896397 54 (by norm_num) (by norm_num)
    norm_num at this ⊢
    exact this
  have a1 : FP.rndIeee (6305039478318694 / 2 ^ 53 + 3602879701896397 / 2 ^ 54) = .fin (8106479329266892 / 2 ^ 53) := by
    have ht := rne_tie (n := 8106479329266892) (by norm_num)
    rw [rnd_val' (e := -1) (n := 8106479329266892)]
    · norm_num
    · norm_num
    · norm_num
    · norm_num
    · norm_num
    · rw [← ht]
      congr 1
      norm_num
  have a2 : FP.rndIeee (8106479329266892 / 2 ^ 53 + 3602879701896397 / 2 ^ 55) = .fin (9007199254740991 / 2 ^ 53) := by
    rw [rnd_val (e := -1) (n := 9007199254740991)] <;> norm_num [abs_lt]
  have hs : sumVec (numFl (FP.ieee sqrt)) (List.map Fl.fin
      [6305039478318694 / 2 ^ 53, 3602879701896397 / 2 ^ 54, 3602879701896397 / 2 ^ 55]) = .fin (9007199254740991 / 2 ^ 53) := by
    have e0 : (FP.ieee sqrt).add (.fin 0) (.fin (6305039478318694 / 2 ^ 53)) = .fin (6305039478318694 / 2 ^ 53) := by
      show (FP.ieee sqrt).rnd (0 + 6305039478318694 / 2 ^ 53) = _
      rw [zero_add, r1]
    show (FP.ieee sqrt).add ((FP.ieee sqrt).add ((FP.ieee sqrt).add (.fin 0) (.fin (6305039478318694 / 2 ^ 53)))
      (.fin (3602879701896397 / 2 ^ 54))) (.fin (3602879701896397 / 2 ^ 55)) = _
    rw [e0]
    have e1 : (FP.ieee sqrt).add (.fin (6305039478318694 / 2 ^ 53)) (.fin (3602879701896397 / 2 ^ 54)) =
      .fin (8106479329266892 / 2 ^ 53) := a1
    rw [e1]
    exact a2
  apply run_vec_zero dbg g lm (by simp) _ hs (by norm_num) (by norm_num) (n := 1)
  · refine ⟨by rw [round_fin, roundHalfAway_eq (n := 1) (by norm_num [abs_lt])], ?_⟩
    have e1 : (FP.ieee sqrt).sub (.fin (9007199254740991 / 2 ^ 53)) (.fin ((1 : Int) : ℚ)) = .fin (-1 / 2 ^ 53) := by
      show (FP.ieee sqrt).rnd (9007199254740991 / 2 ^ 53 + -((1 : Int) : ℚ)) = _
      have := g.dyadic (-1) 53 (by norm_num) (by norm_num)
      norm_num at this ⊢
      exact this
    rw [e1]
    have e2 : (FP.ieee sqrt).rnd (1 / 10 ^ 4) = .fin (7378697629483821 * 2 ^ (-66 : ℤ)) := by
      show FP.rndIeee _ = _
      rw [rnd_val (e := -14) (n := 7378697629483821)] <;> norm_num [abs_lt]
    rw [e2]
    simp only [FP.abs, FP.lt, decide_eq_false_iff_not, not_lt]
    norm_num [abs_of_neg]
  · intro x hx
    simp only [List.mem_cons, List.not_mem_nil, or_false] at hx
    rcases hx with rfl | rfl | rfl
    · exact r1
    · exact r3
    · exact r2

/-! ### A large constant array -/

theorem marginalSum_const {n d : Nat} (hd : d < 2) {i : Nat} (hi : i < n) (k : ℚ) :
    marginalSum [n, n] [d] (fun _ => k) [(i : Int)] = n * k := by
  have hlist : marginalSum [n, n] [d] (fun _ => k) [(i : Int)] =
      ((allIdx [n, n]).map (fun v => if v.getD d 0 = (i : Int) then k else 0)).sum := by
    unfold marginalSum
    rw [sum_allIdx, Finset.sum_filter]
    apply Finset.sum_congr rfl
    intro v _
    simp [proj]
  rw [hlist]
  have h1 := sum_allIdx_append [n] [n] (fun v => if v.getD d 0 = (i : Int) then k else 0)
  rw [show [n] ++ [n] = [n, n] from rfl] at h1
  rw [h1]
  have hone : ∀ g : List Int → ℚ, ((allIdx [n]).map g).sum = ∑ j ∈ Finset.range n, g [(j : Int)] := by
    intro g
    rw [sum_allIdx, cells_one, Finset.sum_image]
    intro i _ j _ h
    simpa using h
  simp only [hone]
  interval_cases d
  · simp only [List.cons_append, List.nil_append, List.getD_cons_zero, Nat.cast_inj]
    rw [Finset.sum_comm]
    simp [hi]
  · simp only [List.cons_append, List.nil_append, List.getD_cons_succ, List.getD_cons_zero, Nat.cast_inj]
    simp [hi]

theorem large_run (lm : Libm) (n : Nat) (hn : n = 10000) :
    ∃ (r : Result) (f : List Int → Int), 0 < (1 + 1 / 10 ^ 4 : ℚ) / 10 ^ 4 ∧
      ∑ _v ∈ cells [n, n], (1 + 1 / 10 ^ 4 : ℚ) / 10 ^ 4 = 10001 ∧
      run false FP.exact lm (arr [n, n] (fun _ => .fin ((1 + 1 / 10 ^ 4 : ℚ) / 10 ^ 4))) = .ok r ∧ r.conv = true ∧
      r.result = arr [n, n] f ∧ ∑ v ∈ cells [n, n], f v = 10000 := by
  set k : ℚ := (1 + 1 / 10 ^ 4 : ℚ) / 10 ^ 4 with hk
  have hk0 : 0 < k := by rw [hk]; norm_num
  have hnq : (n : ℚ) = 10000 := by rw [hn]; norm_num
  have hg : GoodShape [n, n] := ⟨by simp, by simp; omega⟩
  have hrow : ∀ d < 2, ∀ i < n, marginalSum [n, n] [d] (fun _ => k) [(i : Int)] = 1 + 1 / 10 ^ 4 := by
    intro d hd i hi
    rw [marginalSum_const hd hi, hnq, hk]; norm_num
  have hT : ∑ _v ∈ cells [n, n], k = 10001 := by
    rw [← sum_allIdx, List.map_const', List.sum_replicate, length_allIdx, nsmul_eq_mul]
    simp only [prodSizes]
    push_cast
    rw [hnq, hk]; norm_num
  have hag : Agree [n, n] (fun _ => .fin k) (fun _ => k) := fun _ _ => rfl
  have hlen : ∀ d < ([n, n] : List Nat).length, ([n, n] : List Nat).getD d 0 = n := by
    intro d hd
    simp only [List.length_cons, List.length_nil] at hd
    interval_cases d <;> rfl
  have hck : ∀ d < ([n, n] : List Nat).length, ∀ i < ([n, n] : List Nat).getD d 0,
      checkedRound FP.exact (fsum FP.exact [n, n] [d] (fun _ => .fin k) [(i : Int)]) = .ok ((fun _ _ => 1 : Nat → Nat → Int) d i) := by
    intro d hd i hi
    rw [hlen d hd] at hi
    rw [fsum_exact hag, hrow d (by simpa using hd) i hi]
    exact checkedRound_of (nearInt_exact.mpr (by norm_num [abs_of_pos])) (by norm_num [abs_of_pos])
  have hsum1 : ∀ d < ([n, n] : List Nat).length, ∑ i ∈ Finset.range (([n, n] : List Nat).getD d 0), (fun _ _ => 1 : Nat → Nat → Int) d i = n := by
    intro d hd
    rw [hlen d hd]; simp
  have hok : ProbOK [n, n] (roundProb [n, n] (fun _ _ => 1)) 10000 := by
    refine ⟨roundProb_shape hg (by simp) _, ?_, ?_, ?_⟩
    · intro p hp j _
      obtain ⟨d, -, rfl⟩ := List.mem_map.mp hp
      show (0 : Int) ≤ 1
      norm_num
    · intro p hp
      obtain ⟨d, hd, rfl⟩ := List.mem_map.mp hp
      have := roundProb_sum (s := [n, n]) (N := fun _ _ => 1) (d := d)
      refine this.trans ?_
      rw [hsum1 d (List.mem_range.mp hd), hn]; norm_num
    · intro p hp q hq a b d hpa hqb x _
      obtain ⟨d1, -, rfl⟩ := List.mem_map.mp hp
      obtain ⟨d2, -, rfl⟩ := List.mem_map.mp hq
      have e1 : a = 0 ∧ d1 = d := by
        cases a with
        | zero => simpa using hpa
        | succ a => simp at hpa
      have e2 : b = 0 ∧ d2 = d := by
        cases b with
        | zero => simpa using hqb
        | succ b => simp at hqb
      obtain ⟨rfl, rfl⟩ := e1
      obtain ⟨rfl, rfl⟩ := e2
      rfl
  obtain ⟨x, hx, hconv⟩ := C44_disjoint lm hok (by norm_num) (roundProb_flatten _ _) (by simp) hk0 (skips := 0) le_rfl (by norm_num)
  obtain ⟨f, hf1, -, hf3, hf4, -⟩ := C41_population_conv FP.exact_good hok (by norm_num)
    (properProb_of_disjoint hok.toProbShape (roundProb_flatten _ _)) hx
  obtain ⟨e, he⟩ := sqErr_ok (fp := FP.exact) hg f (fun _ => .fin k)
  refine ⟨⟨arr [n, n] f, x.conv, FP.exact.sqrt (FP.exact.div e (FP.exact.ofInt (arr [n, n] f).storageSize))⟩, f, hk0, hT, ?_, hconv, rfl,
    by rw [hf3, hf4]⟩
  rw [run_array (by simp), seqSum_fin, hT, checkedRound_of (n := 10001) (nearInt_exact.mpr (by norm_num)) (by norm_num [abs_of_pos]),
    Out.ok_bind, array_eq hg lm hck, hx, Out.ok_bind, hf1, copy_empty hg, Out.ok_bind, he]
  rfl

end Integerise
end HL

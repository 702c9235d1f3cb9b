import Verif.Proof.IntegeriseRmse
import Verif.Props.Integerise
import Verif.Props.IntegeriseClosest

/-
The error reported by `integerise`, and how `integerise` of an array is related to `qisi`.
-/

namespace HL
open Integerise

/-! ### C128 -/

/-- **C128**, arrays with two or more dimensions, exact arithmetic: the reported `rmse` is the square root of the mean of the
squares of the differences between the returned array and the given one. -/
theorem C128_array (sqrt : Fl → Fl) {lm : Libm} {s : List Nat} (hg : GoodShape s) (h2 : 2 ≤ s.length) {a : List Int → ℚ} {r : Result}
    (h : run false (FP.exactWith sqrt) lm (arr s (fun v => .fin (a v))) = .ok r) {f : List Int → Int} (hf : r.result = arr s f) :
    r.rmse = sqrt (.fin (sqDist s f a / prodSizes s)) := by
  have hn1 : prodSizes s ≠ 0 := by
    obtain ⟨v, hv⟩ := exists_inRange hg.2
    rw [← length_allIdx s]
    exact (List.length_pos_of_mem (mem_allIdx.mpr hv)).ne'
  have hn0 : (prodSizes s : ℚ) ≠ 0 := by exact_mod_cast hn1
  rw [run_rmse hg h2 h hf, foldl_sqErr, zero_add, sum_allIdx]
  show sqrt (if (((prodSizes s : Nat) : Int) : ℚ) = 0 then _ else Fl.fin (_ / (((prodSizes s : Nat) : Int) : ℚ))) = _
  rw [Int.cast_natCast, if_neg hn0]
  rfl

/-- The 3 x 3 table of C75: the reported error is the root of 61/225. -/
example (lm : Libm) : ∃ r, run false (FP.exactWith (fun x => x)) lm (arr [3, 3] (fun v => .fin (tab3 t0 v))) = .ok r ∧
    r.rmse = .fin (61 / 225) := by
  obtain ⟨r, h1, -, h3⟩ := run3 lm
  have h1 : run false (FP.exactWith (fun x => x)) lm (arr [3, 3] (fun v => .fin (tab3 t0 v))) = .ok r := h1
  refine ⟨r, h1, ?_⟩
  rw [C128_array (fun x => x) ⟨by simp, by simp⟩ (by simp) h1 h3]
  have : sqDist [3, 3] res3 (tab3 t0) / (prodSizes [3, 3] : Nat) = 61 / 225 := by
    have h1 : sqDist [3, 3] res3 (tab3 t0) = 61 / 25 := by
      unfold sqDist
      simp only [pow_two]
      decide +kernel
    rw [h1]
    norm_num [prodSizes]
  rw [this]

/-- **C128**, every rounded arithmetic, in particular binary64: the number whose square root is reported is within an explicit
number of roundings of the mean square difference, when the entries of the array and of the result are below 2^53. -/
theorem C128_rounded {fp : FP} (hfp : fp.Good) {lm : Libm} {s : List Nat} (hg : GoodShape s) (h2 : 2 ≤ s.length)
    {a : List Int → ℚ} {r : Result} (h : run false fp lm (arr s (fun v => .fin (a v))) = .ok r) {f : List Int → Int}
    (hf : r.result = arr s f) (ha : ∀ v, InRange s v → |a v| ≤ 2 ^ 53) (hfb : ∀ v, InRange s v → |f v| ≤ 2 ^ 53)
    (hsz : prodSizes s + 5 ≤ 2 ^ 52) :
    ∃ m : ℚ, r.rmse = fp.sqrt (.fin m) ∧ 0 ≤ m ∧ ∀ M : ℚ, M = sqDist s f a / prodSizes s →
      (1 - (prodSizes s + 5) / 2 ^ 53) * M - 1 / 2 ^ 80 ≤ m ∧ (1 - (prodSizes s + 5) / 2 ^ 53) * m - 1 / 2 ^ 80 ≤ M := by
  obtain ⟨m, h1, h0, h3⟩ := meanSq_bound hfp hg (f := f) (a := a) hfb (by
    intro v hv
    have h1 : |(f v : ℚ)| ≤ 2 ^ 53 := by exact_mod_cast hfb v hv
    have h4 := abs_sub (f v : ℚ) (a v)
    have h5 := ha v hv
    have : (2 : ℚ) ^ 54 = 2 ^ 53 + 2 ^ 53 := by norm_num
    linarith) hsz
  refine ⟨m, ?_, h0, ?_⟩
  · rw [run_rmse hg h2 h hf, h1]
  · intro M hM
    have hM0 : 0 ≤ M := by
      rw [hM]
      exact div_nonneg (Finset.sum_nonneg (fun _ _ => sq_nonneg _)) (by positivity)
    have h3 : RelA (prodSizes s + 5) (1 / 2 ^ 80) m M := by rw [hM]; exact h3
    have hlow : (1 - (prodSizes s + 5) / 2 ^ 53 : ℚ) ≤ uu ^ (prodSizes s + 5) := by
      have := uu_pow_ge (prodSizes s + 5)
      push_cast at this
      linarith
    have h5 := mul_le_mul_of_nonneg_right hlow hM0
    have h6 := mul_le_mul_of_nonneg_right hlow h0
    exact ⟨by linarith [h3.1], by linarith [h3.2]⟩

/-- The hypotheses of `C128_rounded` hold of that table. -/
example (lm : Libm) : ∃ r f, run false FP.exact lm (arr [3, 3] (fun v => .fin (tab3 t0 v))) = .ok r ∧ r.result = arr [3, 3] f ∧
    (∀ v, InRange [3, 3] v → |tab3 t0 v| ≤ 2 ^ 53) ∧ (∀ v, InRange [3, 3] v → |f v| ≤ 2 ^ 53) ∧ prodSizes [3, 3] + 5 ≤ 2 ^ 52 := by
  obtain ⟨r, h1, -, h3⟩ := run3 lm
  refine ⟨r, res3, h1, h3, ?_, ?_, by decide⟩
  · have : ∀ v ∈ allIdx [3, 3], |tab3 t0 v| ≤ 2 ^ 53 := by decide +kernel
    exact fun v hv => this v (mem_allIdx.mpr hv)
  · have : ∀ v ∈ allIdx [3, 3], |res3 v| ≤ 2 ^ 53 := by decide +kernel
    exact fun v hv => this v (mem_allIdx.mpr hv)

/-- **C128**, one dimension, exact arithmetic: the same. -/
theorem C128_vector (dbg : Bool) (sqrt : Fl → Fl) (lm : Libm) {xs : List ℚ} (hx : ∀ x ∈ xs, 0 ≤ x) {N : Int} (hN0 : 1 ≤ N)
    (hN : N < 2 ^ 31) (hs1 : (N : ℚ) ≤ xs.sum) (hs2 : xs.sum ≤ N + 1 / 10 ^ 4) :
    ∃ f : List Int, f.length = xs.length ∧ run dbg (FP.exactWith sqrt) lm (vec xs) = .ok ⟨intVec f, true,
      sqrt (.fin ((∑ i ∈ Finset.range xs.length, ((f.getD i 0 : ℚ) - xs.getD i 0) ^ 2) / xs.length))⟩ := by
  have hNq : (1 : ℚ) ≤ N := by exact_mod_cast hN0
  have hNq' : (N : ℚ) + 1 ≤ 2 ^ 31 := by exact_mod_cast hN
  have hne : xs ≠ [] := by
    rintro rfl
    rw [List.sum_nil] at hs1; linarith
  have hn0 : (N : ℚ) ≠ 0 := by linarith
  set p := xs.map (fun x => x / (N : ℚ)) with hp
  have hps : p.sum = xs.sum / N := by rw [hp, sum_div]
  have hmul : p.sum * N = xs.sum := by rw [hps]; field_simp
  obtain ⟨f, g1, g2, -⟩ := exact_spec sqrt (p := p) (pop := N) (by omega) hN (by simpa [hp] using hne)
    (by
      intro x hxm
      obtain ⟨y, hy, rfl⟩ := List.mem_map.mp hxm
      exact div_nonneg (hx y hy) (by linarith))
    (by rw [hmul]; linarith) (by rw [hmul]; linarith)
  have hl : p.length = xs.length := by simp [hp]
  have hg2 := g2
  rw [hl] at g2
  refine ⟨f, g2, ?_⟩
  have he : (∑ i ∈ Finset.range xs.length, ((f.getD i 0 : ℚ) - xs.getD i 0) ^ 2) = sqDev N p f := by
    rw [sqDev_eq N p f hg2, hl]
    apply Finset.sum_congr rfl
    intro i _
    have hi : p.getD i 0 = xs.getD i 0 / N := by
      rw [hp]
      have := List.getD_map (n := i) xs (0 : ℚ) (fun x : ℚ => x / N)
      rw [zero_div] at this
      exact this
    rw [hi, div_mul_cancel₀ _ hn0]
  rw [he, ← hl]
  refine run_vec_ok dbg lm hne (fun _ _ => rfl) (n := N) (pop := N) ?_ ?_ ?_ g2
  · rw [sumVec_exact]
    refine checkedRound_of ?_ ?_
    · have : NearInt FP.exact (.fin xs.sum) N := nearInt_exact.mpr (by rw [abs_le]; constructor <;> linarith)
      exact this
    · rw [abs_le]; constructor
      · linarith
      · have : (2 : ℚ) ^ 31 ≤ 2 ^ 62 := by norm_num
        linarith
  · rw [sumVec_exact, toInt32_nonneg (by linarith) (by linarith)]
    congr 1
    rw [Int.floor_eq_iff]; constructor <;> linarith
  · have : (xs.map Fl.fin).map (fun x => (FP.exactWith sqrt).div x ((FP.exactWith sqrt).ofInt N)) = p.map Fl.fin := by
      rw [hp, List.map_map, List.map_map]
      apply List.map_congr_left
      intro x _
      show (if (N : ℚ) = 0 then FP.infOfSign x else Fl.fin (x / N)) = _
      rw [if_neg hn0]; rfl
    rw [this]
    exact g1

example : (∀ x ∈ [(3 / 2 : ℚ), 3 / 4, 3 / 4], 0 ≤ x) ∧ ((3 : Int) : ℚ) ≤ [(3 / 2 : ℚ), 3 / 4, 3 / 4].sum ∧
    [(3 / 2 : ℚ), 3 / 4, 3 / 4].sum ≤ (3 : Int) + 1 / 10 ^ 4 := by norm_num

/-- **C128**, every arithmetic: integerising an array with two or more dimensions whose total and 1-d sums are near the integers
`T` and `N d i` is calling `qisi` with those integers as the 1-d marginals and the array as the seed: the outcome is the same,
an exception if `qisi` raises one, and otherwise `result` and `conv` are those of `qisi`. -/
theorem C128_qisi {fp : FP} (lm : Libm) {s : List Nat} (hg : GoodShape s) (h2 : 2 ≤ s.length) {a : List Int → ℚ} {S : Nat → Nat → ℚ}
    {tot : ℚ} {T : Int} {N : Nat → Nat → Int} (ht : seqSum (numFl fp) s (fun v => .fin (a v)) = .fin tot) (htb : |tot| ≤ 2 ^ 62)
    (htn : NearInt fp (.fin tot) T)
    (hS : ∀ d < s.length, ∀ i < s.getD d 0, fsum fp s [d] (fun v => .fin (a v)) [(i : Int)] = .fin (S d i) ∧ |S d i| ≤ 2 ^ 62 ∧
      NearInt fp (.fin (S d i)) (N d i)) (ind : List (List Int)) (hind : ind = (List.range s.length).map (fun d : Nat => [(d : Int)]))
    (ms : List (NDArray Int)) (hms : ms = (List.range s.length).map (fun d : Nat => arr [s.getD d 0] (fun j => N d (j.getD 0 0).toNat))) :
    (∀ x, QISI.run false fp lm ind ms (arr s (fun v => .fin (a v))) 0 = .ok x → ∀ f : List Int → Int, x.micro.array = arr s f →
      ∃ r, run false fp lm (arr s (fun v => .fin (a v))) = .ok r ∧ r.result = x.micro.array ∧ r.conv = x.conv) ∧
    (∀ e, QISI.run false fp lm ind ms (arr s (fun v => .fin (a v))) 0 = .thrown e →
      run false fp lm (arr s (fun v => .fin (a v))) = .thrown e) ∧
    (∀ u, QISI.run false fp lm ind ms (arr s (fun v => .fin (a v))) 0 = .ub u →
      run false fp lm (arr s (fun v => .fin (a v))) = .ub u) ∧
    (QISI.run false fp lm ind ms (arr s (fun v => .fin (a v))) 0 = .diverges →
      run false fp lm (arr s (fun v => .fin (a v))) = .diverges) := by
  have hN : ∀ d < s.length, ∀ i < s.getD d 0, checkedRound fp (fsum fp s [d] (fun v => .fin (a v)) [(i : Int)]) = .ok (N d i) := by
    intro d hd i hi
    obtain ⟨e1, e2, e3⟩ := hS d hd i hi
    rw [e1]
    exact checkedRound_of e3 e2
  have key : run false fp lm (arr s (fun v => .fin (a v))) = (do
      let x ← QISI.run false fp lm ind ms (arr s (fun v => .fin (a v))) 0
      let b ← NDArray.copy x.micro.array NDArray.empty
      let e ← sqErr fp b (arr s (fun v => .fin (a v)))
      pure ⟨b, x.conv, fp.sqrt (fp.div e (fp.ofInt b.storageSize))⟩) := by
    rw [run_array h2, ht, checkedRound_of htn htb, Out.ok_bind, array_eq hg lm hN, qisi, roundProb_indices, roundProb_marginals,
      hind, hms]
  rw [key]
  refine ⟨?_, ?_, ?_, ?_⟩
  · intro x hx f hf
    rw [hx, Out.ok_bind, hf, copy_empty hg, Out.ok_bind, sqErr_eq hg]
    exact ⟨_, rfl, rfl, rfl⟩
  · intro e he; rw [he]; rfl
  · intro u hu; rw [hu]; rfl
  · intro hd; rw [hd]; rfl

/-- The hypotheses of `C128_qisi` hold of the 3 x 3 table, whose 1-d sums are all 1 and whose total is 3. -/
example : seqSum (numFl FP.exact) [3, 3] (fun v => .fin (tab3 t0 v)) = .fin 3 ∧ |(3 : ℚ)| ≤ 2 ^ 62 ∧ NearInt FP.exact (.fin 3) 3 ∧
    ∀ d < 2, ∀ i < 3, fsum FP.exact [3, 3] [d] (fun v => .fin (tab3 t0 v)) [((i : Nat) : Int)] = .fin 1 ∧ |(1 : ℚ)| ≤ 2 ^ 62 ∧
      NearInt FP.exact (.fin 1) 1 := by
  refine ⟨?_, by norm_num [abs_of_pos], nearInt_exact.mpr (by norm_num), ?_⟩
  · have := seqSum_fin (t := [3, 3]) (g := tab3 t0)
    rw [show ∑ v ∈ cells [3, 3], tab3 t0 v = 3 by decide +kernel] at this
    exact this
  · intro d hd i hi
    have : ∀ d < 2, ∀ i < 3, marginalSum [3, 3] [d] (tab3 t0) [((i : Nat) : Int)] = 1 := by decide +kernel
    rw [fsum_exact (b := tab3 t0) (fun _ _ => rfl), this d hd i hi]
    exact ⟨rfl, by norm_num, nearInt_exact.mpr (by norm_num)⟩

end HL

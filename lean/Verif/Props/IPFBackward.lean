import Verif.Proof.IPFBackward
import Verif.Props.IPFClosest
import Verif.Props.IPFDouble

/-
C94: what table `ipf` computes in double precision.  See RegularSpec.lean for the runs considered and EntropySpec.lean for
closeness of tables.
-/

namespace HL
open Micro Integerise Ent
variable {fp : FP}

theorem closest_of_factored {s : List Nat} {Q : Prob ℚ} (h : ProbShape s Q) {b c : List Int → ℚ} (hc : ∀ v, InRange s v → 0 ≤ c v)
    (hF : Factored s Q b c) {t : List Int → ℝ} (ht : NonnegTable s t)
    (htm : ∀ q ∈ Q, ∀ j, InRange (projSizes q.1 s) j → marginalSum s q.1 t j = marginalSum s q.1 (realTable c) j)
    (htb : VanishesWith s t (realTable b)) :
    relEntropy s (realTable c) (realTable b) ≤ relEntropy s t (realTable b) ∧
      (relEntropy s t (realTable b) = relEntropy s (realTable c) (realTable b) → ∀ v, InRange s v → t v = c v) := by
  have hdims : ∀ q ∈ Q, ∀ d ∈ q.1, d < s.length := fun q hq => (h.dims q hq).2
  have hcr : NonnegTable s (realTable c) := fun v h => Rat.cast_nonneg.mpr (hc v h)
  obtain ⟨h1, h2⟩ := factored_pythagoras hdims hc hF ht htm htb
  have htot : total s t = total s (realTable c) := by
    obtain ⟨q, hq⟩ : ∃ q, q ∈ Q := List.exists_mem_of_ne_nil Q (by rintro rfl; have := h.lists; simp at this)
    exact total_eq (q := (q.1, fun j => (q.2 j : ℝ))) (hdims q hq) (htm q hq)
  have h3 := entropy_nonneg ht hcr h1 htot
  refine ⟨by linarith, ?_⟩
  intro he v hv
  exact eq_of_sum_log_zero (cells s) (fun v hv => ht v (mem_cells.mp hv)) (fun v hv => hcr v (mem_cells.mp hv))
    (fun v hv => h1 v (mem_cells.mp hv)) htot (by unfold relEntropy at h2 he; unfold relEntropy at h3; linarith) v (mem_cells.mpr hv)

theorem ipf_backward (hfp : fp.Good) {s : List Nat} {Q : Prob ℚ} (h : ProbShape s Q) (hp : ProperProb s Q) {b : List Int → ℚ}
    (hb : ∀ v, InRange s v → 0 ≤ b v) {r : IPF Fl}
    (hr : IPF.run false fp (numFl fp) (indicesOf (finProb Q)) (marginalsOf s (finProb Q)) (finArr s b) = .ok r)
    (hreg : RegularRun fp s Q b r.iters) :
    ∃ c b' : List Int → ℚ, r.micro.array = finArr s c ∧ (∀ v, InRange s v → 0 ≤ c v) ∧
      (∀ v, InRange s v → 0 ≤ b' v ∧ Rel (r.iters * Q.length) (b' v) (b v)) ∧ Factored s Q b' c := by
  obtain ⟨pop, n, hok, h1, -, -, -, rfl⟩ := ipf_run fp (numFl fp) (minOK_fl _) (probShape_congr (fst_finProb Q).symm h)
    (properProb_fin hp) _ hr
  have hq : ∀ q ∈ Q, ∀ j, InRange (projSizes q.1 s) j → 0 ≤ q.2 j := by
    intro q hq j hj
    have := hok.nonneg (q.1, fun j => .fin (q.2 j)) (mem_finProb.mpr ⟨q, hq, rfl⟩) j hj
    simpa [numFl, FP.lt] using this
  obtain ⟨c, b', h2, h3, h4, h5⟩ := backward_seed hfp (fun q hq => (h.dims q hq).2) hq hb (n := n) h1 hreg
  exact ⟨c, b', arr_congr h2, h3, h4, h5⟩

/-- **C94.**  `ipf` in double precision, for every accepted problem and every non-negative seed, as long as no number in the run
comes near the ends of the range of doubles: the table returned is the exact answer for a slightly different seed.  There is a
non-negative seed `b'`, each cell of which is the given one within a rounding per marginal and iteration (a relative error of at
most `iters |Q| / 2^53`), such that the table returned vanishes where `b'` does and is, among all non-negative tables with its
own marginal sums that vanish where `b'` does, the one closest to `b'`, and the only closest one.  (The marginal sums are the
requested ones within the tolerance when `conv` is true: `C29_conv_ieee`.)  The number of cells and the rounding errors of the
sums do not enter, and errors of one sweep are not amplified by later sweeps. -/
theorem C94_closest (hfp : fp.Good) {s : List Nat} {Q : Prob ℚ} (h : ProbShape s Q) (hp : ProperProb s Q) {b : List Int → ℚ}
    (hb : ∀ v, InRange s v → 0 ≤ b v) {r : IPF Fl}
    (hr : IPF.run false fp (numFl fp) (indicesOf (finProb Q)) (marginalsOf s (finProb Q)) (finArr s b) = .ok r)
    (hreg : RegularRun fp s Q b r.iters) :
    ∃ c b' : List Int → ℚ, r.micro.array = finArr s c ∧ NonnegTable s (realTable c) ∧
      (∀ v, InRange s v → (1 - (r.iters * Q.length : Nat) / 2 ^ 53) * b v ≤ b' v ∧
        (1 - (r.iters * Q.length : Nat) / 2 ^ 53) * b' v ≤ b v) ∧
      VanishesWith s (realTable c) (realTable b') ∧
      ∀ t, NonnegTable s t →
        (∀ q ∈ Q, ∀ j, InRange (projSizes q.1 s) j → marginalSum s q.1 t j = marginalSum s q.1 (realTable c) j) →
        VanishesWith s t (realTable b') →
        relEntropy s (realTable c) (realTable b') ≤ relEntropy s t (realTable b') ∧
        (relEntropy s t (realTable b') = relEntropy s (realTable c) (realTable b') → ∀ v, InRange s v → t v = c v) := by
  obtain ⟨c, b', h1, h2, h3, h4⟩ := ipf_backward hfp h hp hb hr hreg
  refine ⟨c, b', h1, fun v hv => Rat.cast_nonneg.mpr (h2 v hv), ?_, ?_, fun t ht htm htb => closest_of_factored h h2 h4 ht htm htb⟩
  · intro v hv
    obtain ⟨h5, h6⟩ := h3 v hv
    have hu := uu_pow_ge (r.iters * Q.length)
    exact ⟨(mul_le_mul_of_nonneg_right hu (hb v hv)).trans h6.1, (mul_le_mul_of_nonneg_right hu h5).trans h6.2⟩
  · intro v hv h0
    obtain ⟨F, hF⟩ := h4
    have : b' v = 0 := Rat.cast_eq_zero.mp h0
    show ((c v : ℚ) : ℝ) = 0
    rw [hF v hv, this]
    norm_num

/-- **C94**, odds ratios: for dimensions `d`, `e` that no marginal has in common, the cross-product ratio of any 2x2 subtable
along `d` and `e` of the table returned is that of the seed, within four roundings per marginal and iteration. -/
theorem C94_odds_ratios (hfp : fp.Good) {s : List Nat} {Q : Prob ℚ} (h : ProbShape s Q) (hp : ProperProb s Q) {b : List Int → ℚ}
    (hb : ∀ v, InRange s v → 0 ≤ b v) {r : IPF Fl}
    (hr : IPF.run false fp (numFl fp) (indicesOf (finProb Q)) (marginalsOf s (finProb Q)) (finArr s b) = .ok r)
    (hreg : RegularRun fp s Q b r.iters) {d e : Nat} (hne : d ≠ e) (hde : ∀ q ∈ Q, d ∉ q.1 ∨ e ∉ q.1) :
    ∃ c : List Int → ℚ, r.micro.array = finArr s c ∧ ∀ (v : List Int) (i i' j j' : Int),
      InRange s ((v.set d i).set e j) → InRange s ((v.set d i).set e j') →
      InRange s ((v.set d i').set e j) → InRange s ((v.set d i').set e j') →
      ∀ x y : ℚ,
        x = c ((v.set d i).set e j) * c ((v.set d i').set e j') * (b ((v.set d i).set e j') * b ((v.set d i').set e j)) →
        y = c ((v.set d i).set e j') * c ((v.set d i').set e j) * (b ((v.set d i).set e j) * b ((v.set d i').set e j')) →
        (1 - (4 * (r.iters * Q.length) : Nat) / 2 ^ 53) * x ≤ y ∧ (1 - (4 * (r.iters * Q.length) : Nat) / 2 ^ 53) * y ≤ x := by
  obtain ⟨c, b', h1, h2, h3, h4⟩ := ipf_backward hfp h hp hb hr hreg
  refine ⟨c, h1, ?_⟩
  intro v i i' j j' g11 g12 g21 g22 x y hx hy
  have ho := h4.odds hde v i i' j j' hne g11 g12 g21 g22
  set K := r.iters * Q.length with hK
  have hcc : ∀ {u w : List Int}, InRange s u → InRange s w → 0 ≤ c u * c w := fun hu hw => mul_nonneg (h2 _ hu) (h2 _ hw)
  have hbb : ∀ {u w : List Int}, InRange s u → InRange s w → 0 ≤ b u * b w := fun hu hw => mul_nonneg (hb _ hu) (hb _ hw)
  have hbb' : ∀ {u w : List Int}, InRange s u → InRange s w → 0 ≤ b' u * b' w :=
    fun hu hw => mul_nonneg (h3 _ hu).1 (h3 _ hw).1
  have hprod : ∀ {u w : List Int}, InRange s u → InRange s w → Rel (K + K) (b' u * b' w) (b u * b w) :=
    fun hu hw => (h3 _ hu).2.mul (h3 _ hw).2 (h3 _ hu).1 (hb _ hu) (h3 _ hw).1 (hb _ hw)
  have r1 := (Rel.refl (c ((v.set d i).set e j) * c ((v.set d i').set e j'))).mul (hprod g12 g21).symm (hcc g11 g22) (hcc g11 g22)
    (hbb g12 g21) (hbb' g12 g21)
  have r2 := (Rel.refl (c ((v.set d i).set e j') * c ((v.set d i').set e j))).mul (hprod g11 g22) (hcc g12 g21) (hcc g12 g21)
    (hbb' g11 g22) (hbb g11 g22)
  rw [ho] at r1
  have r3 := r1.trans r2
  rw [← hx, ← hy] at r3
  have hx0 : 0 ≤ x := by rw [hx]; exact mul_nonneg (hcc g11 g22) (hbb g12 g21)
  have hy0 : 0 ≤ y := by rw [hy]; exact mul_nonneg (hcc g12 g21) (hbb g11 g22)
  have e : 0 + (K + K) + (0 + (K + K)) = 4 * K := by ring
  rw [e] at r3
  have hu := uu_pow_ge (4 * K)
  exact ⟨(mul_le_mul_of_nonneg_right hu hx0).trans r3.2, (mul_le_mul_of_nonneg_right hu hy0).trans r3.1⟩

/-! ### The hypotheses are met, in binary64: rows `[400, 600]` thousand, columns `[300, 700]` thousand, a seed of ones. -/

def midStage (i : Nat) (v : List Int) : Fl :=
  sweep (FP.ieee id) (numFl (FP.ieee id)) [2, 2] ((finProb (ratProb midProb)).take i) (fun _ => .fin 1) v

def regularFl : Fl → Bool
  | .fin x => decide (1 ≤ x) && decide (x ≤ 1000000)
  | _ => false

theorem regularFl_regular {x : Fl} (h : regularFl x = true) : ∃ q, x = .fin q ∧ Regular q := by
  cases x with
  | fin q =>
    simp only [regularFl, Bool.and_eq_true, decide_eq_true_eq] at h
    refine ⟨q, rfl, ?_, ?_⟩
    · refine le_trans ?_ h.1
      exact zpow_le_one_of_nonpos₀ (by norm_num) (by norm_num)
    · refine h.2.trans (le_trans ?_ (pow_le_pow_right₀ (show (1 : ℚ) ≤ 2 by norm_num) (show 20 ≤ 1021 by norm_num)))
      norm_num
  | _ => simp [regularFl] at h

theorem mid_stages : ∀ i ∈ List.range 3, ∀ v ∈ allIdx [2, 2], regularFl (midStage i v) = true := by decide +kernel

theorem mid_regular (sqrt : Fl → Fl) : RegularRun (FP.ieee sqrt) [2, 2] (ratProb midProb) (fun _ => 1) 1 := by
  intro m hm i hi v hv
  obtain rfl : m = 0 := by omega
  have hi' : i ≤ 2 := hi
  obtain ⟨x, h1, h2⟩ := regularFl_regular (mid_stages i (List.mem_range.mpr (by omega)) v (mem_allIdx.mpr hv))
  exact ⟨x, h1, Or.inl h2⟩

example (sqrt : Fl → Fl) : ∃ r, IPF.run false (FP.ieee sqrt) (numFl (FP.ieee sqrt)) (indicesOf (finProb (ratProb midProb)))
    (marginalsOf [2, 2] (finProb (ratProb midProb))) (finArr [2, 2] (fun _ => 1)) = .ok r ∧
    RegularRun (FP.ieee sqrt) [2, 2] (ratProb midProb) (fun _ => 1) r.iters := by
  obtain ⟨r, h1, -, h3⟩ := mid_run sqrt
  rw [fin_ratProb]
  exact ⟨r, h1, by rw [h3]; exact mid_regular sqrt⟩

end HL

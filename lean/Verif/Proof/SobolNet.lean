import Verif.Proof.SobolPoly
import Verif.Proof.SobolLemmas
import Mathlib.RingTheory.Polynomial.Basic
import Mathlib.LinearAlgebra.Matrix.Rank
import Mathlib.GroupTheory.Index
import Mathlib.Data.Set.Card

/-
Joint equidistribution of the coordinates of a Sobol sequence.

Bit `r` of the direction numbers of one coordinate is a sequence of bits, in which the polynomial of the coordinate,
evaluated at the shift operator, gives row `r - d` (the `d`-th row above), or zero if there is none.  So the first `j * d` rows are in
the kernel of the `j`-th power of the polynomial.
-/

namespace HL
open Polynomial

/-- The shift operator on sequences of bits. -/
def shiftL : (ℕ → ZMod 2) →ₗ[ZMod 2] (ℕ → ZMod 2) where
  toFun f n := f (n + 1)
  map_add' _ _ := rfl
  map_smul' _ _ := rfl

theorem shiftL_pow (k : ℕ) : ∀ (f : ℕ → ZMod 2) (n : ℕ), (shiftL ^ k) f n = f (n + k) := by
  induction k with
  | zero => intro f n; rfl
  | succ k ih =>
    intro f n
    rw [pow_succ, Module.End.mul_apply, ih]
    show f (n + k + 1) = _
    rfl

theorem aeval_shift (p : (ZMod 2)[X]) (f : ℕ → ZMod 2) (n : ℕ) :
    aeval shiftL p f n = ∑ k ∈ Finset.range (p.natDegree + 1), p.coeff k * f (n + k) := by
  rw [Polynomial.aeval_eq_sum_range, LinearMap.sum_apply, Finset.sum_apply]
  apply Finset.sum_congr rfl
  intro k _
  rw [LinearMap.smul_apply, Pi.smul_apply, shiftL_pow, smul_eq_mul]

/-- A recurrence with zeros to start with is zero. -/
theorem eq_zero_of_recurrence {q : (ZMod 2)[X]} (hq : q.Monic) {f : ℕ → ZMod 2} (h : aeval shiftL q f = 0)
    (h0 : ∀ c < q.natDegree, f c = 0) : f = 0 := by
  funext n
  induction n using Nat.strong_induction_on with
  | _ n ih =>
    by_cases hn : n < q.natDegree
    · exact h0 n hn
    · have := congrFun h (n - q.natDegree)
      rw [aeval_shift, Finset.sum_range_succ, Finset.sum_eq_zero, zero_add,
        show n - q.natDegree + q.natDegree = n by omega, hq.coeff_natDegree, one_mul] at this
      · exact this
      · intro k hk
        rw [ih (n - q.natDegree + k) (by have := Finset.mem_range.mp hk; omega)]
        simp

/-- Sequences in the kernels of coprime polynomials are independent. -/
theorem eq_zero_of_coprime {ι : Type} [DecidableEq ι] {I : Finset ι} {Q : ι → (ZMod 2)[X]}
    (hco : ∀ i ∈ I, ∀ j ∈ I, i ≠ j → IsCoprime (Q i) (Q j)) {f : ι → ℕ → ZMod 2}
    (hf : ∀ i ∈ I, aeval shiftL (Q i) (f i) = 0) (hs : ∑ i ∈ I, f i = 0) : ∀ i ∈ I, f i = 0 := by
  intro i hi
  have hc : IsCoprime (Q i) (∏ j ∈ I.erase i, Q j) := by
    apply IsCoprime.prod_right
    intro j hj
    rw [Finset.mem_erase] at hj
    exact hco i hi j hj.2 (Ne.symm hj.1)
  have hd := Polynomial.disjoint_ker_aeval_of_isCoprime shiftL hc
  have h1 : f i = - ∑ j ∈ I.erase i, f j := by
    rw [← Finset.add_sum_erase _ _ hi] at hs
    exact eq_neg_of_add_eq_zero_left hs
  apply (Submodule.disjoint_def.mp hd) (f i) (hf i hi)
  rw [LinearMap.mem_ker, h1, map_neg, map_sum, neg_eq_zero]
  apply Finset.sum_eq_zero
  intro j hj
  rw [← Finset.prod_erase_mul _ _ hj, map_mul, Module.End.mul_apply, hf j (Finset.mem_of_mem_erase hj), map_zero]

/-- The rows of the bits of the direction numbers of a coordinate. -/
structure Rows (P : (ZMod 2)[X]) (U : ℕ → ℕ → ZMod 2) : Prop where
  monic : P.Monic
  pos : 0 < P.natDegree
  step : ∀ r < 32, aeval shiftL P (U r) = if r < P.natDegree then 0 else U (r - P.natDegree)
  tri : ∀ r < 32, ∀ c < r, U r c = 0
  diag : ∀ r < 32, U r r = 1

theorem Rows.pow {P : (ZMod 2)[X]} {U : ℕ → ℕ → ZMod 2} (h : Rows P U) : ∀ (j r : ℕ), r < 32 → r < j * P.natDegree →
    aeval shiftL (P ^ j) (U r) = 0
  | 0, r, _, hr => by omega
  | j + 1, r, h32, hr => by
    rw [pow_succ, map_mul, Module.End.mul_apply, h.step r h32]
    by_cases hd : r < P.natDegree
    · rw [if_pos hd, map_zero]
    · rw [if_neg hd]
      exact h.pow j _ (by omega) (by rw [Nat.add_mul] at hr; omega)

theorem Rows.comb {P : (ZMod 2)[X]} {U : ℕ → ℕ → ZMod 2} (h : Rows P U) {e j : ℕ} (he : e ≤ 32)
    (hj : e ≤ j * P.natDegree) (w : ℕ → ZMod 2) :
    aeval shiftL (P ^ j) (∑ r ∈ Finset.range e, w r • U r) = 0 := by
  rw [map_sum]
  apply Finset.sum_eq_zero
  intro r hr
  have := Finset.mem_range.mp hr
  rw [map_smul, h.pow j r (by omega) (by omega), smul_zero]

theorem Rows.free {P : (ZMod 2)[X]} {U : ℕ → ℕ → ZMod 2} (h : Rows P U) {e : ℕ} (he : e ≤ 32) (w : ℕ → ZMod 2)
    (hw : ∑ r ∈ Finset.range e, w r • U r = 0) : ∀ r < e, w r = 0 := by
  intro r
  induction r using Nat.strong_induction_on with
  | _ r ih =>
    intro hr
    have := congrFun hw r
    rw [Finset.sum_apply, Finset.sum_eq_single r] at this
    · rw [Pi.smul_apply, h.diag r (by omega)] at this
      simpa using this
    · intro q hq hne
      have hq := Finset.mem_range.mp hq
      rw [Pi.smul_apply]
      rcases Nat.lt_or_gt_of_ne hne with hlt | hgt
      · rw [ih q hlt hq, zero_smul]
      · rw [h.tri q (by omega) r hgt, smul_zero]
    · intro hn
      exact absurd (Finset.mem_range.mpr hr) hn

theorem rows_indep {I : Finset ℕ} {P : ℕ → (ZMod 2)[X]} {U : ℕ → ℕ → ℕ → ZMod 2} (h : ∀ i ∈ I, Rows (P i) (U i))
    (hco : ∀ i ∈ I, ∀ j ∈ I, i ≠ j → IsCoprime (P i) (P j)) {e J : ℕ → ℕ} (he : ∀ i ∈ I, e i ≤ 32)
    (hJ : ∀ i ∈ I, e i ≤ J i * (P i).natDegree) {k : ℕ} (hk : ∑ i ∈ I, J i * (P i).natDegree ≤ k)
    (w : ℕ → ℕ → ZMod 2) (hw : ∀ c < k, ∑ i ∈ I, ∑ r ∈ Finset.range (e i), w i r * U i r c = 0) :
    ∀ i ∈ I, ∀ r < e i, w i r = 0 := by
  have hker : ∀ i ∈ I, aeval shiftL (P i ^ J i) (∑ r ∈ Finset.range (e i), w i r • U i r) = 0 :=
    fun i hi => (h i hi).comb (he i hi) (hJ i hi) (w i)
  have hsum : ∑ i ∈ I, ∑ r ∈ Finset.range (e i), w i r • U i r = 0 := by
    apply eq_zero_of_recurrence (q := ∏ i ∈ I, P i ^ J i)
    · exact Polynomial.monic_prod_of_monic _ _ (fun i hi => (h i hi).monic.pow _)
    · rw [map_sum]
      apply Finset.sum_eq_zero
      intro i hi
      rw [← Finset.prod_erase_mul _ _ hi, map_mul, Module.End.mul_apply, hker i hi, map_zero]
    · intro c hc
      rw [Polynomial.natDegree_prod_of_monic _ _ (fun i hi => (h i hi).monic.pow _)] at hc
      have hc' : c < k := by
        refine lt_of_lt_of_le hc (le_trans (le_of_eq ?_) hk)
        apply Finset.sum_congr rfl
        intro i hi
        rw [(h i hi).monic.natDegree_pow]
      rw [← hw c hc', Finset.sum_apply]
      apply Finset.sum_congr rfl
      intro i _
      rw [Finset.sum_apply]
      rfl
  have hz := eq_zero_of_coprime (fun i hi j hj hij => (hco i hi j hj hij).pow) hker hsum
  intro i hi
  exact (h i hi).free (he i hi) (w i) (hz i hi)

/-! ### the rows of a coordinate -/

/-- The polynomial of a coordinate: `x` for the first one. -/
def coordPoly (i : ℕ) : ℕ := if i = 0 then 2 else sobolA.getD (i - 1) 0

theorem coordPoly_range {i : ℕ} (hi : i < 1111) : 2 ≤ coordPoly i ∧ coordPoly i < 2 ^ 14 := by
  unfold coordPoly
  by_cases h0 : i = 0
  · rw [if_pos h0]; omega
  · rw [if_neg h0]
    have hl := sobolA_length
    rw [List.getD_eq_getElem _ _ (by omega)]
    exact sobolA_ok _ (List.getElem_mem _)

theorem irreducible_coord {i : ℕ} (hi : i < 1111) : Irreducible (poly (coordPoly i)) := by
  obtain ⟨h1, h2⟩ := coordPoly_range hi
  apply irrCheck_sound h1 h2
  unfold coordPoly
  by_cases h0 : i = 0
  · rw [if_pos h0]; decide
  · rw [if_neg h0]
    have hl := sobolA_length
    rw [List.getD_eq_getElem _ _ (by omega)]
    exact sobolA_irr _ (List.getElem_mem _)

theorem two_not_mem : 2 ∉ sobolA := by
  have : sobolA.all (fun a => Nat.ble 3 a) = true := by decide +kernel
  intro h
  exact absurd (List.all_eq_true.mp this 2 h) (by decide)

theorem coordPoly_inj {i j : ℕ} (hi : i < 1111) (hj : j < 1111) (h : coordPoly i = coordPoly j) : i = j := by
  have hl := sobolA_length
  have hmem : ∀ q, q ≠ 0 → q < 1111 → coordPoly q = sobolA.getD (q - 1) 0 ∧ sobolA.getD (q - 1) 0 ∈ sobolA := by
    intro q h0 hq
    refine ⟨if_neg h0, ?_⟩
    rw [List.getD_eq_getElem _ _ (by omega)]
    exact List.getElem_mem _
  by_cases h0 : i = 0 <;> by_cases h0' : j = 0
  · omega
  · have := hmem j h0' hj
    rw [this.1, h0] at h
    exact absurd (show coordPoly 0 ∈ sobolA from h ▸ this.2) two_not_mem
  · have := hmem i h0 hi
    rw [this.1, h0'] at h
    exact absurd (show coordPoly 0 ∈ sobolA from h ▸ this.2) two_not_mem
  · rw [(hmem i h0 hi).1, (hmem j h0' hj).1, List.getD_eq_getElem _ _ (by omega), List.getD_eq_getElem _ _ (by omega)] at h
    have := (List.Nodup.getElem_inj_iff sobolA_distinct).mp h
    omega

theorem coprime_coord {i j : ℕ} (hi : i < 1111) (hj : j < 1111) (hij : i ≠ j) :
    IsCoprime (poly (coordPoly i)) (poly (coordPoly j)) := by
  obtain ⟨h1, h2⟩ := coordPoly_range hi
  obtain ⟨h3, h4⟩ := coordPoly_range hj
  rw [(irreducible_coord hi).coprime_iff_not_dvd]
  intro hd
  have := Polynomial.eq_of_monic_of_associated (monic_poly (by omega) (by omega)) (monic_poly (by omega) (by omega))
    ((irreducible_coord hi).associated_of_dvd (irreducible_coord hj) hd)
  exact hij (coordPoly_inj hi hj (poly_inj (by omega) (by omega) this))

/-- The direction numbers, placed, and continued by the recurrence beyond the last one the code computes. -/
def extend (a d : ℕ) (m : ℕ → BitVec 32) (c : ℕ) : BitVec 32 :=
  if c < 32 then m c <<< (31 - c)
  else if h : d = 0 ∨ 32 < d then 0
  else (extend a d m (c - d) >>> d) ^^^
    xorSum (fun k => if h : k < d then if a.testBit k then extend a d m (c - d + k) else 0 else 0) d
termination_by c
decreasing_by all_goals omega

theorem shift_split {m : BitVec 32} {s d : ℕ} (hm : ∀ b, 32 - (s + d) ≤ b → m.getLsbD b = false) :
    m <<< s = (m <<< (s + d)) >>> d := by
  apply BitVec.eq_of_getLsbD_eq
  intro b hb
  rw [BitVec.getLsbD_ushiftRight, BitVec.getLsbD_shiftLeft, BitVec.getLsbD_shiftLeft]
  by_cases h1 : b < s
  · have h2 : d + b < s + d := by omega
    simp [h1, h2]
  · rw [show d + b - (s + d) = b - s by omega]
    by_cases h2 : d + b < 32
    · have h3 : ¬ d + b < s + d := by omega
      simp [hb, h2, h1, h3]
    · rw [hm (b - s) (by omega)]
      simp

theorem xorSum_shiftLeft (f : ℕ → BitVec 32) (s : ℕ) : ∀ k, xorSum f k <<< s = xorSum (fun i => f i <<< s) k
  | 0 => by simp [xorSum]
  | k + 1 => by
    unfold xorSum
    rw [BitVec.shiftLeft_xor_distrib, xorSum_shiftLeft f s k]

theorem extend_low {a d : ℕ} {m : ℕ → BitVec 32} {c : ℕ} (hc : c < 32) : extend a d m c = m c <<< (31 - c) := by
  unfold extend
  rw [if_pos hc]

theorem extend_rec {a d : ℕ} (hd : 0 < d) (hd32 : d ≤ 32) {m : ℕ → BitVec 32}
    (hm : ∀ j < 32, (m j).getLsbD 0 = true ∧ ∀ b, j < b → (m j).getLsbD b = false)
    (hrec : ∀ j < 32, d ≤ j → m j = m (j - d) ^^^
      xorSum (fun k => if a.testBit k then m (j - d + k) <<< (d - k) else 0) d) (c : ℕ) :
    extend a d m (c + d) = (extend a d m c >>> d) ^^^
      xorSum (fun k => if a.testBit k then extend a d m (c + k) else 0) d := by
  by_cases hc : c + d < 32
  · rw [extend_low hc, hrec _ hc (by omega), BitVec.shiftLeft_xor_distrib, extend_low (by omega : c < 32), xorSum_shiftLeft]
    congr 1
    · rw [show c + d - d = c by omega, show 31 - c = (31 - (c + d)) + d by omega]
      apply shift_split
      intro b hb
      exact (hm c (by omega)).2 b (by omega)
    · apply xorSum_congr
      intro k hk
      by_cases ht : a.testBit k = true
      · rw [if_pos ht, if_pos ht, extend_low (by omega), ← BitVec.shiftLeft_add,
          show c + d - d + k = c + k by omega, show d - k + (31 - (c + d)) = 31 - (c + k) by omega]
      · rw [if_neg ht, if_neg ht]; simp
  · conv_lhs => unfold extend
    rw [if_neg hc, dif_neg (by omega), show c + d - d = c by omega]
    congr 1
    apply xorSum_congr
    intro k hk
    rw [dif_pos hk]

/-- Row `r` of the bits. -/
def rowsOf' (a d : ℕ) (m : ℕ → BitVec 32) (r c : ℕ) : ZMod 2 := b2f ((extend a d m c).getLsbD (31 - r))

theorem b2f_xorSum (f : ℕ → BitVec 32) (b : ℕ) : ∀ k,
    b2f ((xorSum f k).getLsbD b) = ∑ i ∈ Finset.range k, b2f ((f i).getLsbD b)
  | 0 => by simp [xorSum, b2f]
  | k + 1 => by
    unfold xorSum
    rw [BitVec.getLsbD_xor, b2f_xor, b2f_xorSum f b k, Finset.sum_range_succ]

theorem add_self2 (x : ZMod 2) : x + x = 0 := by revert x; decide

theorem rows_coord {i : ℕ} (hi : i < 1111) {m : ℕ → BitVec 32} (hdir : IsDirection i m) :
    Rows (poly (coordPoly i)) (rowsOf' (coordPoly i) (Nat.log2 (coordPoly i)) m) := by
  obtain ⟨h1, h2⟩ := coordPoly_range hi
  have hm := isDirection_shape hi hdir
  have hrec : ∀ j < 32, Nat.log2 (coordPoly i) ≤ j → m j = m (j - Nat.log2 (coordPoly i)) ^^^
      xorSum (fun k => if (coordPoly i).testBit k then
        m (j - Nat.log2 (coordPoly i) + k) <<< (Nat.log2 (coordPoly i) - k) else 0) (Nat.log2 (coordPoly i)) := by
    cases i with
    | zero =>
      have e1 : coordPoly 0 = 2 := rfl
      have e2 : Nat.log2 2 = 1 := by decide
      rw [e1, e2]
      intro j hj hj1
      have e3 : (2 : ℕ).testBit 0 = false := by decide
      rw [hdir j hj, hdir (j - 1) (by omega)]
      simp [xorSum]
    | succ i =>
      have e1 : coordPoly (i + 1) = sobolA.getD i 0 := rfl
      rw [e1]
      exact hdir.2
  have hd : 0 < Nat.log2 (coordPoly i) := by
    have : 1 ≤ Nat.log2 (coordPoly i) := by rw [Nat.le_log2 (by omega)]; omega
    exact this
  have hd32 : Nat.log2 (coordPoly i) ≤ 32 := by
    have := (Nat.log2_lt (n := coordPoly i) (k := 14) (by omega)).mpr h2
    omega
  have hdeg : (poly (coordPoly i)).natDegree = Nat.log2 (coordPoly i) := natDegree_poly (by omega) (by omega)
  have hext := extend_rec hd hd32 hm hrec
  have hbit := testBit_log2 (a := coordPoly i) (by omega)
  have ha32 : coordPoly i < 2 ^ 32 := by omega
  generalize coordPoly i = a at *
  generalize hdd : Nat.log2 a = d at *
  refine ⟨monic_poly (by omega) ha32, by rw [hdeg]; exact hd, ?_, ?_, ?_⟩
  · intro r hr
    rw [hdeg]
    funext c
    rw [aeval_shift, hdeg, Finset.sum_range_succ, coeff_poly ha32, hbit]
    have hc := congrArg (fun v : BitVec 32 => b2f (v.getLsbD (31 - r))) (hext c)
    simp only [BitVec.getLsbD_xor, b2f_xor, b2f_xorSum, BitVec.getLsbD_ushiftRight] at hc
    have hsum : ∑ k ∈ Finset.range d, (poly a).coeff k * rowsOf' a d m r (c + k) =
        ∑ k ∈ Finset.range d, b2f ((if a.testBit k then extend a d m (c + k) else 0).getLsbD (31 - r)) := by
      apply Finset.sum_congr rfl
      intro k _
      rw [coeff_poly ha32]
      cases a.testBit k <;> simp [b2f, rowsOf']
    rw [hsum]
    have hrow : rowsOf' a d m r (c + d) = b2f ((extend a d m (c + d)).getLsbD (31 - r)) := rfl
    rw [hrow, hc]
    have : b2f true = 1 := rfl
    rw [this, one_mul, add_comm, add_assoc, add_self2, add_zero]
    by_cases hrd : r < d
    · rw [if_pos hrd]
      rw [BitVec.getLsbD_of_ge _ _ (by omega)]
      rfl
    · rw [if_neg hrd]
      show _ = b2f _
      rw [show d + (31 - r) = 31 - (r - d) by omega]
  · intro r hr c hc
    show b2f _ = 0
    rw [extend_low (by omega), b2f_eq_zero]
    exact (shifted_bits hm (by omega)).2 _ (by omega)
  · intro r hr
    show b2f _ = 1
    rw [extend_low hr, (shifted_bits hm hr).1]
    rfl

/-! ### counting -/

theorem rows_surjective {I : Finset ℕ} {e : ℕ → ℕ} {k : ℕ} {A : (i : ℕ) → ℕ → ℕ → ZMod 2}
    (hind : ∀ w : ℕ → ℕ → ZMod 2, (∀ c < k, ∑ i ∈ I, ∑ r ∈ Finset.range (e i), w i r * A i r c = 0) →
      ∀ i ∈ I, ∀ r < e i, w i r = 0) (t : ℕ → ℕ → ZMod 2) :
    Nat.card {x : Fin k → ZMod 2 // ∀ i ∈ I, ∀ r < e i, ∑ c : Fin k, A i r c * x c = t i r} =
      2 ^ (k - ∑ i ∈ I, e i) := by
  classical
  let M : Matrix ((i : I) × Fin (e i)) (Fin k) (ZMod 2) := fun p c => A p.1 p.2 c
  have hcard : Fintype.card ((i : I) × Fin (e i)) = ∑ i ∈ I, e i := by
    rw [Fintype.card_sigma]
    simp only [Fintype.card_fin]
    exact Finset.sum_coe_sort I e
  have hli : LinearIndependent (ZMod 2) M.row := by
    rw [Fintype.linearIndependent_iff]
    intro g hg p
    have := hind (fun i r => if h : i ∈ I ∧ r < e i then g ⟨⟨i, h.1⟩, ⟨r, h.2⟩⟩ else 0) (by
      intro c hc
      have hc' := congrFun hg ⟨c, hc⟩
      rw [Finset.sum_apply, Fintype.sum_sigma] at hc'
      rw [← Finset.sum_coe_sort I]
      refine Eq.trans ?_ hc'
      apply Finset.sum_congr rfl
      intro i _
      rw [← Fin.sum_univ_eq_sum_range (fun r => (if h : i.1 ∈ I ∧ r < e i then g ⟨⟨i, h.1⟩, ⟨r, h.2⟩⟩ else 0) * A i r c)]
      apply Finset.sum_congr rfl
      intro r _
      rw [dif_pos ⟨i.2, r.2⟩]
      rfl) p.1 p.1.2 p.2 p.2.2
    rw [dif_pos ⟨p.1.2, p.2.2⟩] at this
    exact this
  have hrank := hli.rank_matrix
  have hsurj : Function.Surjective M.mulVecLin := by
    rw [← LinearMap.range_eq_top]
    apply Submodule.eq_top_of_finrank_eq
    rw [Module.finrank_pi]
    exact hrank
  have hle : ∑ i ∈ I, e i ≤ k := by
    rw [← hcard, ← hrank]
    simpa using M.rank_le_card_width
  let target : (i : I) × Fin (e i) → ZMod 2 := fun p => t p.1 p.2
  have hfib : ∀ y, Fintype.card {x // M.mulVecLin x = y} = Fintype.card {x // M.mulVecLin x = target} := by
    intro y
    rw [Fintype.card_subtype, Fintype.card_subtype]
    exact AddMonoidHom.card_fiber_eq_of_mem_range M.mulVecLin.toAddMonoidHom (hsurj y) (hsurj target)
  have htot : Fintype.card (Fin k → ZMod 2) = ∑ y : (i : I) × Fin (e i) → ZMod 2, Fintype.card {x // M.mulVecLin x = y} := by
    rw [← Fintype.card_sigma]
    exact (Fintype.card_congr (Equiv.sigmaFiberEquiv M.mulVecLin)).symm
  simp only [hfib, Finset.sum_const, Finset.card_univ, smul_eq_mul, Fintype.card_fun, ZMod.card, Fintype.card_fin, hcard] at htot
  have hset : Nat.card {x : Fin k → ZMod 2 // ∀ i ∈ I, ∀ r < e i, ∑ c : Fin k, A i r c * x c = t i r} =
      Fintype.card {x // M.mulVecLin x = target} := by
    rw [← Nat.card_eq_fintype_card]
    apply Nat.card_congr
    apply Equiv.subtypeEquivRight
    intro x
    constructor
    · intro h
      funext p
      exact h p.1 p.1.2 p.2 p.2.2
    · intro h i hi r hr
      exact congrFun h ⟨⟨i, hi⟩, ⟨r, hr⟩⟩
  rw [hset]
  have h2 : (2 : ℕ) ^ k = 2 ^ (∑ i ∈ I, e i) * 2 ^ (k - ∑ i ∈ I, e i) := by
    rw [← Nat.pow_add, Nat.add_sub_cancel' hle]
  rw [h2] at htot
  exact (Nat.eq_of_mul_eq_mul_left (by positivity) htot).symm

theorem coordDegree_eq {i : ℕ} (hi : i < 1111) : (poly (coordPoly i)).natDegree = coordDegree i := by
  obtain ⟨h1, h2⟩ := coordPoly_range hi
  rw [natDegree_poly (by omega) (by omega)]
  unfold coordPoly coordDegree
  by_cases h0 : i = 0
  · rw [if_pos h0, if_pos h0]; decide
  · rw [if_neg h0, if_neg h0]

theorem value_bit (a d : ℕ) (m : ℕ → BitVec 32) (n : ℕ) (r : ℕ) :
    b2f ((sobolValue m n).getLsbD (31 - r)) =
      ∑ c ∈ Finset.range 32, rowsOf' a d m r c * b2f ((gray n).testBit c) := by
  unfold sobolValue
  rw [b2f_xorSum]
  apply Finset.sum_congr rfl
  intro c hc
  have hc := Finset.mem_range.mp hc
  show _ = b2f _ * _
  rw [extend_low hc]
  cases (gray n).testBit c <;> simp [b2f]

theorem div_eq_iff_bits {v t e : ℕ} (hv : v < 2 ^ 32) (he : e ≤ 32) (ht : t < 2 ^ e) :
    v / 2 ^ (32 - e) = t ↔ ∀ r < e, v.testBit (31 - r) = t.testBit (e - 1 - r) := by
  constructor
  · rintro rfl r hr
    rw [Nat.testBit_div_two_pow]
    congr 1
    omega
  · intro h
    apply Nat.eq_of_testBit_eq
    intro i
    rw [Nat.testBit_div_two_pow]
    by_cases hi : i < e
    · have := h (e - 1 - i) (by omega)
      rw [show e - 1 - (e - 1 - i) = i by omega] at this
      rw [← this]
      congr 1
      omega
    · rw [Nat.testBit_lt_two_pow (lt_of_lt_of_le ht (Nat.pow_le_pow_right (by omega) (by omega))),
        Nat.testBit_lt_two_pow (lt_of_lt_of_le hv (Nat.pow_le_pow_right (by omega) (by omega)))]

theorem gray_high {n n' k : ℕ} (h : n / 2 ^ k = n' / 2 ^ k) {c : ℕ} (hc : k ≤ c) :
    (gray n).testBit c = (gray n').testBit c := by
  have hb : ∀ c, k ≤ c → n.testBit c = n'.testBit c := by
    intro c hc
    have := congrArg (fun x => x.testBit (c - k)) h
    simp only [Nat.testBit_div_two_pow] at this
    rwa [show c - k + k = c by omega] at this
  unfold gray
  rw [Nat.testBit_xor, Nat.testBit_xor, Nat.testBit_shiftRight, Nat.testBit_shiftRight, hb c hc, hb (1 + c) (by omega)]

theorem count_block {I : Finset ℕ} {m : ℕ → ℕ → BitVec 32} (hI : ∀ i ∈ I, i < 1111) (hm : ∀ i ∈ I, IsDirection i (m i))
    {e J t : ℕ → ℕ} (he : ∀ i ∈ I, e i ≤ J i * coordDegree i) (ht : ∀ i ∈ I, t i < 2 ^ e i) {k j : ℕ} (hk : k ≤ 32)
    (hj : (j + 1) * 2 ^ k ≤ 2 ^ 32) (hJ : ∑ i ∈ I, J i * coordDegree i ≤ k) :
    Set.ncard {n | j * 2 ^ k ≤ n ∧ n < (j + 1) * 2 ^ k ∧ ∀ i ∈ I, (sobolValue (m i) n).toNat / 2 ^ (32 - e i) = t i} =
      2 ^ (k - ∑ i ∈ I, e i) := by
  have hposk : 0 < 2 ^ k := Nat.two_pow_pos _
  have he32 : ∀ i ∈ I, e i ≤ 32 := by
    intro i hi
    have h1 := Finset.single_le_sum (f := fun i => J i * coordDegree i) (fun _ _ => Nat.zero_le _) hi
    have h2 := he i hi
    omega
  have hsplit : (j + 1) * 2 ^ k = j * 2 ^ k + 2 ^ k := by ring
  have hdiv : ∀ r, r < 2 ^ k → (j * 2 ^ k + r) / 2 ^ k = j := by
    intro r hr
    rw [Nat.mul_comm, Nat.mul_add_div hposk, Nat.div_eq_of_lt hr, Nat.add_zero]
  have hbase : j * 2 ^ k / 2 ^ k = j := by simpa using hdiv 0 hposk
  let U : ℕ → ℕ → ℕ → ZMod 2 := fun i => rowsOf' (coordPoly i) (Nat.log2 (coordPoly i)) (m i)
  let K : ℕ → ℕ → ZMod 2 := fun i r =>
    ∑ c ∈ Finset.range (32 - k), U i r (k + c) * b2f ((gray (j * 2 ^ k)).testBit (k + c))
  let φ : Fin (2 ^ k) → Fin k → ZMod 2 := fun l c => b2f ((gray (j * 2 ^ k + l)).testBit c)
  have hinj : Function.Injective φ := by
    intro l l' h
    have hb : ∀ c < 32, (gray (j * 2 ^ k + l)).testBit c = (gray (j * 2 ^ k + l')).testBit c := by
      intro c hc
      by_cases hck : c < k
      · have := congrFun h ⟨c, hck⟩
        simp only [φ] at this
        revert this
        cases (gray (j * 2 ^ k + l)).testBit c <;> cases (gray (j * 2 ^ k + l')).testBit c <;> decide
      · exact gray_high (k := k) (by rw [hdiv l l.isLt, hdiv l' l'.isLt]) (by omega)
    have := gray_inj (by have := l.isLt; omega) (by have := l'.isLt; omega) hb
    exact Fin.ext (by omega)
  have hbij : Function.Bijective φ := by
    rw [Fintype.bijective_iff_injective_and_card]
    exact ⟨hinj, by simp [ZMod.card]⟩
  have hbit : ∀ i ∈ I, ∀ l : Fin (2 ^ k), (sobolValue (m i) (j * 2 ^ k + l)).toNat / 2 ^ (32 - e i) = t i ↔
      ∀ r < e i, ∑ c : Fin k, U i r c * φ l c = b2f ((t i).testBit (e i - 1 - r)) - K i r := by
    intro i hi l
    rw [div_eq_iff_bits (BitVec.isLt _) (he32 i hi) (ht i hi)]
    refine forall₂_congr fun r hr => ?_
    have hv := value_bit (coordPoly i) (Nat.log2 (coordPoly i)) (m i) (j * 2 ^ k + l) r
    have h32 : Finset.range 32 = Finset.range (k + (32 - k)) := by rw [Nat.add_sub_cancel' hk]
    rw [h32, Finset.sum_range_add] at hv
    have hK : ∑ c ∈ Finset.range (32 - k), rowsOf' (coordPoly i) (Nat.log2 (coordPoly i)) (m i) r (k + c) *
        b2f ((gray (j * 2 ^ k + l)).testBit (k + c)) = K i r := by
      apply Finset.sum_congr rfl
      intro c _
      rw [gray_high (k := k) (n := j * 2 ^ k + l) (n' := j * 2 ^ k) (by rw [hdiv l l.isLt, hbase]) (by omega)]
    rw [hK, ← Fin.sum_univ_eq_sum_range (fun c => rowsOf' (coordPoly i) (Nat.log2 (coordPoly i)) (m i) r c *
        b2f ((gray (j * 2 ^ k + l)).testBit c))] at hv
    have hlhs : ∑ c : Fin k, U i r c * φ l c = b2f ((sobolValue (m i) (j * 2 ^ k + l)).getLsbD (31 - r)) - K i r := by
      rw [hv, add_sub_cancel_right]
    rw [hlhs, sub_left_inj, BitVec.testBit_toNat]
    cases (sobolValue (m i) (j * 2 ^ k + ↑l)).getLsbD (31 - r) <;> cases (t i).testBit (e i - 1 - r) <;> decide
  have hrows := rows_indep (I := I) (P := fun i => poly (coordPoly i)) (U := U) (fun i hi => rows_coord (hI i hi) (hm i hi))
    (fun i hi j hj hij => coprime_coord (hI i hi) (hI j hj) hij) (e := e) (J := J) he32
    (fun i hi => by rw [coordDegree_eq (hI i hi)]; exact he i hi) (k := k)
    (le_trans (le_of_eq (Finset.sum_congr rfl (fun i hi => by rw [coordDegree_eq (hI i hi)]))) hJ)
  rw [← rows_surjective (I := I) (e := e) (k := k) (A := U) hrows (fun i r => b2f ((t i).testBit (e i - 1 - r)) - K i r),
    ← Nat.card_coe_set_eq]
  apply Nat.card_congr
  symm
  refine Equiv.trans ?_ (Equiv.ofBijective (fun l : {l : Fin (2 ^ k) // ∀ i ∈ I, (sobolValue (m i) (j * 2 ^ k + l)).toNat / 2 ^ (32 - e i) = t i} =>
    (⟨j * 2 ^ k + l.1, by omega, by have := l.1.isLt; omega, l.2⟩ : {n | j * 2 ^ k ≤ n ∧ n < (j + 1) * 2 ^ k ∧
      ∀ i ∈ I, (sobolValue (m i) n).toNat / 2 ^ (32 - e i) = t i})) ⟨?_, ?_⟩)
  · refine ((Equiv.ofBijective φ hbij).subtypeEquiv ?_).symm
    intro l
    exact forall₂_congr fun i hi => hbit i hi l
  · intro l l' h
    have := congrArg Subtype.val h
    simp only at this
    exact Subtype.ext (Fin.ext (by omega))
  · rintro ⟨n, h1, h2, h3⟩
    refine ⟨⟨⟨n - j * 2 ^ k, by omega⟩, ?_⟩, ?_⟩
    · simp only [show j * 2 ^ k + (n - j * 2 ^ k) = n by omega]
      exact h3
    · apply Subtype.ext
      simp only
      omega

end HL

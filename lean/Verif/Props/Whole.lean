import Verif.Proof.QISIInt
import Verif.Proof.IntDouble
import Verif.Props.QISI
import Verif.Props.Integerise

/-
C72 and C73: whole numbers.  Every theorem here holds in every arithmetic that is exact on whole numbers (`FP.Good`), so
in IEEE double arithmetic as well as in exact arithmetic.

`intFl g` is the table of whole numbers `g` as doubles, `dblProb P` the problem `P` with its marginals as doubles.
-/

namespace HL
open Integerise
variable {fp : FP}

/-! ### C72 -/

/-- **C72** for `ipf`: a seed of whole numbers that meets the marginals is returned unchanged after one iteration. -/
theorem C72_ipf (hfp : fp.Good) {s : List Nat} {P : Prob Int} {pop : Int} (h : ProbOK s P pop) (hpop : pop < 2 ^ 52)
    (hp : ProperProb s P) {g : List Int → Int} (hn : ∀ v, InRange s v → 0 ≤ g v)
    (hm : ∀ p ∈ P, ∀ j, InRange (projSizes p.1 s) j → marginalSum s p.1 g j = p.2 j) :
    ∃ r, IPF.run false fp (numFl fp) (indicesOf (dblProb P)) (marginalsOf s (dblProb P)) (arr s (intFl g)) = .ok r ∧
      r.micro.array = arr s (intFl g) ∧ r.conv = true ∧ r.iters = 1 ∧ r.maxError = .fin 0 := by
  obtain ⟨r, hr⟩ := ipf_run_ok fp (numFl fp) (minOK_fl fp) (dblProb_ok hfp h hpop) (dblProb_proper hp) (intFl g)
  obtain ⟨h1, h2, h3, h4⟩ := ipf_run_int hfp (minOK_fl fp) (dblProb_shape h.toProbShape) (dblProb_proper hp) hn
    (by rw [total_of_marginals h hm]; omega) (by
      intro p hpp j hj
      obtain ⟨q, hq, rfl⟩ := mem_dblProb.mp hpp
      show intFl q.2 j = _
      rw [hm q hq j hj]; rfl) hr
  exact ⟨r, hr, h4, h1, h2, h3⟩

/-- **C72** for `qisi`: with a seed of whole numbers that meets the marginals it returns that table, whatever the number of
skips, reports success, and the expectation is the same table. -/
theorem C72_qisi (hfp : fp.Good) (lm : Libm) {s : List Nat} {P : Prob Int} {pop : Int} (h : ProbOK s P pop)
    (hpop : pop ≤ 2 ^ 32 - 1) (hp : ProperProb s P) (hd : s.length ≤ 1111) {g : List Int → Int}
    (hn : ∀ v, InRange s v → 0 ≤ g v)
    (hm : ∀ p ∈ P, ∀ j, InRange (projSizes p.1 s) j → marginalSum s p.1 g j = p.2 j) {skips : Int} (h0 : 0 ≤ skips)
    (h1 : skips ≤ 2 ^ 31) :
    ∃ x, qisi fp lm s P (intFl g) skips = .ok x ∧ x.micro.array = arr s g ∧ x.conv = true ∧ x.expected = arr s (intFl g) :=
  qisi_int hfp lm h hpop hp hd hn hm h0 h1

/-- the table with rows `1, 0, 0` and `0, 1, 1` meets the marginals `[1, 2]`, `[1, 1, 1]` -/
def exWhole (v : List Int) : Int := if v = [0, 0] ∨ v = [1, 1] ∨ v = [1, 2] then 1 else 0

example : ProbOK [2, 3] exProb 3 ∧ ProperProb [2, 3] exProb ∧ (∀ v, InRange [2, 3] v → 0 ≤ exWhole v) ∧
    ∀ p ∈ exProb, ∀ j, InRange (projSizes p.1 [2, 3]) j → marginalSum [2, 3] p.1 exWhole j = p.2 j := by
  refine ⟨exProb_ok, exProb_proper, fun v _ => by unfold exWhole; split <;> omega, ?_⟩
  have key : ∀ p ∈ exProb, ∀ j ∈ allIdx (projSizes p.1 [2, 3]), marginalSum [2, 3] p.1 exWhole j = p.2 j := by decide
  exact fun p hp j hj => key p hp j (mem_allIdx.mpr hj)

/-- **C72** for `integerise`: an array of two or more dimensions of whole numbers is returned unchanged, with `conv` true and
an `rmse` of the square root of zero. -/
theorem C72_integerise (hfp : fp.Good) (lm : Libm) {s : List Nat} (hg : GoodShape s) (h2 : 2 ≤ s.length) (hd : s.length ≤ 1111)
    {g : List Int → Int} (hn : ∀ v, InRange s v → 0 ≤ g v) (hb : ∑ v ∈ cells s, g v ≤ 2 ^ 32 - 1)
    (hsz : prodSizes s ≤ 2 ^ 53) :
    run false fp lm (arr s (intFl g)) = .ok ⟨arr s g, true, fp.sqrt (.fin 0)⟩ := by
  have hck : ∀ n : Int, 0 ≤ n → n ≤ 2 ^ 32 - 1 → checkedRound fp (.fin (n : ℚ)) = .ok n := by
    intro n h0 h1
    refine checkedRound_of ⟨?_, ?_⟩ ?_
    · rw [round_fin, roundHalfAway_eq (n := n) (by simp)]
    · have : fp.sub (.fin (n : ℚ)) (.fin (n : ℚ)) = .fin 0 := by
        show fp.rnd ((n : ℚ) + -n) = _
        rw [add_neg_cancel, rnd_zero hfp]
      rw [this]
      obtain ⟨t, ht, ht0⟩ := rnd_nonneg hfp (q := 1 / 10 ^ 4) (by norm_num)
        (by have := hugeQ_ge; norm_num at this ⊢; linarith)
      rw [ht]
      simpa [FP.abs, FP.lt] using ht0
    · rw [abs_of_nonneg (by exact_mod_cast h0)]
      have : (n : ℚ) ≤ 2 ^ 32 - 1 := by exact_mod_cast h1
      linarith
  have htn : 0 ≤ ∑ v ∈ cells s, g v := Finset.sum_nonneg (fun v hv => hn v (mem_cells.mp hv))
  set N : Nat → Nat → Int := fun d i => marginalSum s [d] g [(i : Int)] with hN
  have hN0 : ∀ d i, 0 ≤ N d i := fun d i => int_marginalSum_nonneg hn _
  have hfs : ∀ d i : Nat, fsum fp s [d] (intFl g) [(i : Int)] = .fin ((N d i : Int) : ℚ) := fun d i => fsum_int hfp hn (by omega) _
  have hrow : ∀ d < s.length, ∀ j, InRange (projSizes [d] s) j → N d (j.getD 0 0).toNat = marginalSum s [d] g j := by
    intro d hd j hj
    have hj' : InRange [s.getD d 0] j := hj
    cases hj' with
    | cons hi hnil =>
      cases hnil
      simp only [hN, List.getD_cons_zero, Int.toNat_of_nonneg hi.1]
  have hok : ProbOK s (roundProb s N) (∑ v ∈ cells s, g v) := by
    refine ⟨roundProb_shape hg h2 N, ?_, ?_, ?_⟩
    · intro p hp j _
      obtain ⟨d, hd, rfl⟩ := List.mem_map.mp hp
      exact hN0 _ _
    · intro p hp
      obtain ⟨d, hd, rfl⟩ := List.mem_map.mp hp
      have hd := List.mem_range.mp hd
      simp only
      rw [Finset.sum_congr rfl (fun j hj => hrow d hd j (mem_cells.mp hj))]
      unfold marginalSum
      exact Finset.sum_fiberwise_of_maps_to (g := proj [d]) (t := cells (projSizes [d] s))
        (fun v hv => mem_cells.mpr (inRange_proj (by simpa using hd) (mem_cells.mp hv))) _
    · intro p hp q hq a b d ha hb x _
      obtain ⟨d1, -, rfl⟩ := List.mem_map.mp hp
      obtain ⟨d2, -, rfl⟩ := List.mem_map.mp hq
      simp only at ha hb ⊢
      rw [List.getElem?_singleton] at ha hb
      split at ha <;> split at hb <;> simp_all
  rw [run_array h2]
  have hsum : seqSum (numFl fp) s (intFl g) = .fin ((∑ v ∈ cells s, g v : Int) : ℚ) := seqSum_dbl hfp hn (by omega)
  rw [hsum, hck _ htn hb, Out.ok_bind, array_eq hg lm (N := N) (by
    intro d _ i _
    rw [hfs]
    exact hck _ (hN0 d i) ((int_marginalSum_le hn _).trans hb))]
  obtain ⟨x, hx, hx1, hx2, -⟩ := C72_qisi hfp lm hok hb (properProb_of_disjoint hok.toProbShape (roundProb_flatten s N)) hd hn (by
    intro p hp j hj
    obtain ⟨d, hd, rfl⟩ := List.mem_map.mp hp
    exact (hrow d (List.mem_range.mp hd) j hj).symm) (skips := 0) le_rfl (by norm_num)
  rw [hx, Out.ok_bind, hx1, copy_empty hg, Out.ok_bind, sqErr_whole hfp hg hn (by omega), Out.ok_bind, hx2]
  have hpos : 0 < (arr s g).storageSize := by
    rw [show (arr s g).storageSize = prodSizes s from rfl]
    exact prodSizes_pos hg.2
  have : fp.div (.fin 0) (fp.ofInt (arr s g).storageSize) = .fin 0 := by
    rw [ofInt_exact hfp (by
      rw [abs_of_nonneg (Int.natCast_nonneg _)]
      exact_mod_cast hsz)]
    show (if _ = 0 then _ else fp.rnd _) = _
    rw [if_neg (by exact_mod_cast hpos.ne'), zero_div, rnd_zero hfp]
  rw [this]
  rfl

/-- The array with rows `1, 0, 0` and `0, 1, 1` in IEEE arithmetic. -/
example (sqrt : Fl → Fl) (lm : Libm) :
    run false (FP.ieee sqrt) lm (arr [2, 3] (intFl exWhole)) = .ok ⟨arr [2, 3] exWhole, true, sqrt (.fin 0)⟩ :=
  C72_integerise (FP.ieee_good sqrt) lm ⟨by decide, by decide⟩ (by decide) (by decide)
    (fun v _ => by unfold exWhole; split <;> omega) (by decide) (by decide)

/-! ### C73 -/

/-- **C73**: the expectation reported by `qisi` is, bit for bit, the table that `ipf` returns for the same seed and the same
marginals given as doubles. -/
theorem C73_expectation (hfp : fp.Good) {lm : Libm} {s : List Nat} {P : Prob Int} {pop : Int} (h : ProbOK s P pop)
    (hpop : pop < 2 ^ 52) (hp : ProperProb s P) {sd : List Int → Fl} {skips : Int} {x : QISI}
    (hx : qisi fp lm s P sd skips = .ok x) :
    ∃ r, IPF.run false fp (numFl fp) (indicesOf (dblProb P)) (marginalsOf s (dblProb P)) (arr s sd) = .ok r ∧
      x.expected = r.micro.array := by
  obtain ⟨E, a, vs, hs⟩ := qisi_run_ok hfp h hpop hp hx
  obtain ⟨r, hr, hra⟩ := hs.fit
  obtain ⟨r', hr'⟩ := ipf_run_ok fp (numFl fp) (minOK_fl fp) (dblProb_ok hfp h hpop) (dblProb_proper hp) sd
  refine ⟨r', hr', ?_⟩
  rw [hs.expected, ← hra]
  exact (ipf_same (minOK_int fp) (minOK_fl fp) h.toProbShape (dblProb_shape h.toProbShape) hp (dblProb_proper hp)
    (same_dblProb hfp h hpop) hr hr').1

example (lm : Libm) : ∃ x, qisi FP.exact lm [2, 3] exProb (fun _ => .fin 1) 0 = .ok x := by
  obtain ⟨x, hx, -⟩ := exProb_qisi lm le_rfl (by norm_num)
  exact ⟨x, hx⟩

end HL

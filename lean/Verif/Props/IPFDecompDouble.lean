import Verif.Proof.IPFDecompRound
import Verif.Props.IPFDecomp
import Verif.Props.IPFDouble

/-
C103: C101 in double precision.
-/

namespace HL
open Micro Integerise Rate
variable {fp : FP}

/-- **C103**: a constant seed and whole-number marginals as in C101.  With `K` marginals and at most `f` cells in the sum for one
marginal value, when `pop ((2^K - 1) (f + 2) + f)` is at most 89 million, `ipf` in double precision converges in one
iteration, and every cell is the table of the chain rule within `(2^K - 1) (f + 2)` roundings. -/
theorem C103_double (hfp : fp.Good) {s : List Nat} {P : Prob Int} {pop : Int} (h : ProbOK s P pop) (h0 : 0 < pop)
    (hp : ProperProb s P) (ht : Decomposable s P) (hbig : (pop : ℚ) ^ P.length * prodSizes s ≤ 2 ^ 90) {f : Nat}
    (hf : ∀ p ∈ P, ∀ j, ((cells s).filter (fun v => proj p.1 v = j)).card ≤ f)
    (hsmall : pop * (((2 ^ P.length - 1) * (f + 2) + f : Nat) : Int) ≤ 89000000) {c : ℚ} (hc : 1 / 2 ^ 100 ≤ c)
    (hc' : c ≤ 2 ^ 100) :
    ∃ (r : IPF Fl) (E : List Int → ℚ), IPF.run false fp (numFl fp) (indicesOf (dblProb P)) (marginalsOf s (dblProb P)) (arr s (fun _ => .fin c)) = .ok r ∧
      r.conv = true ∧ r.iters = 1 ∧ r.micro.array = arr s (fun v => .fin (E v)) ∧
      ∀ v, InRange s v → ∀ e : ℚ, e = pop * chainAt s [] (ratProb P) v →
        (1 - ((2 ^ P.length - 1) * (f + 2) : Nat) / 2 ^ 53) * e ≤ E v ∧
        (1 - ((2 ^ P.length - 1) * (f + 2) : Nat) / 2 ^ 53) * E v ≤ e := by
  set R := (2 ^ P.length - 1) * (f + 2) with hR
  have hlists : 2 ≤ P.length := h.lists
  have h2K : 4 ≤ 2 ^ P.length := by
    calc 4 = 2 ^ 2 := by norm_num
      _ ≤ _ := Nat.pow_le_pow_right (by norm_num) hlists
  have hR1 : 2 ^ P.length * (f + 2) ≤ 2 * R := by
    rw [hR, ← mul_assoc]
    exact Nat.mul_le_mul_right _ (by omega)
  have hRp : 1 ≤ R := by nlinarith
  have hRf : R + f ≤ 89000000 := by
    have h1 : (0 : Int) ≤ ((R + f : Nat) : Int) := by positivity
    have : ((R + f : Nat) : Int) ≤ 89000000 := by nlinarith
    exact_mod_cast this
  have hpop : pop < 2 ^ 52 := by
    have : (1 : Int) ≤ ((R + f : Nat) : Int) := by exact_mod_cast (by omega : 1 ≤ R + f)
    nlinarith
  have hQs : ProbShape s (ratProb P) := probShape_congr (fst_ratProb P).symm h.toProbShape
  have hw := whole_ratProb h
  have hlen : (ratProb P).length = P.length := by simp [ratProb]
  have hT : (1 : ℚ) ≤ pop := by exact_mod_cast h0
  have hT' : (pop : ℚ) ≤ 2 ^ 52 := by exact_mod_cast hpop.le
  have hz : DSize s (ratProb P) pop f := by
    refine ⟨hT, by rw [hlen]; exact hbig, ?_, by rw [hlen]; omega⟩
    intro q hq j
    obtain ⟨p, hp, rfl⟩ := List.mem_map.mp hq
    exact hf p hp j
  have htq := decomposable_rat ht
  have hc0 : 0 < c := lt_of_lt_of_le (by positivity) hc
  have hsw := round_sweep_decomp hfp hQs hw hz htq hc hc'
  rw [hlen, fin_ratProb, ← hR] at hsw
  obtain ⟨hx0, hxm, hxf⟩ := sweep_decomp hQs (fun q hq j hj => hw.nonneg hq hj) htq hw.tot hc0
  have hlow : ∀ v, InRange s v → qsweep s (ratProb P) (fun _ => c) v = 0 ∨ 1 / 2 ^ 90 ≤ qsweep s (ratProb P) (fun _ => c) v := by
    intro v hv
    rw [hxf v hv]
    rcases chain_lower hT hv (seen := []) hw (fun q hq => (hQs.dims q hq).2) with h4 | h4
    · left; rw [h4, mul_zero]
    · right
      have h5 := prodSizes_one h.toProbShape.pos
      rw [hlen] at h4
      have h6 : (0 : ℚ) < (pop : ℚ) ^ P.length := pow_pos (by linarith) _
      have h7 : 1 / (2 : ℚ) ^ 90 ≤ 1 / (pop : ℚ) ^ P.length := one_div_le_one_div_of_le h6 (by nlinarith)
      have h8 : 0 ≤ chainAt s [] (ratProb P) v := le_trans (by positivity) h4
      exact h7.trans (h4.trans (le_mul_of_one_le_left h8 hT))
  have hall : ∀ v, ∃ E : ℚ, InRange s v → sweep fp (numFl fp) s (dblProb P) (fun _ => .fin c) v = .fin E ∧
      Rel R E (qsweep s (ratProb P) (fun _ => c) v) := by
    intro v
    by_cases hv : InRange s v
    · obtain ⟨x, h1, h2⟩ := hsw v hv
      exact ⟨x, fun _ => ⟨h1, h2⟩⟩
    · exact ⟨0, fun h => absurd h hv⟩
  choose E hE using hall
  obtain ⟨r, hr⟩ := ipf_run_ok fp (numFl fp) (minOK_fl fp) (dblProb_ok hfp h hpop) (dblProb_proper hp) (fun _ => .fin c)
  refine ⟨r, E, hr, ?_⟩
  obtain ⟨pop', n, -, h1, -, -, h3, rfl⟩ := ipf_run fp (numFl fp) (minOK_fl fp) (dblProb_shape h.toProbShape) (dblProb_proper hp) _ hr
  have hcv : convAt fp (numFl fp) s (dblProb P) ((sweep fp (numFl fp) s (dblProb P))^[1] (fun _ => .fin c)) := by
    unfold convAt
    apply maxDev_lt' _ _ _ (lt_tol8 hfp)
    intro p' hp' j hj
    obtain ⟨p, hp, rfl⟩ := mem_dblProb.mp hp'
    have hq : (p.1, fun j => (p.2 j : ℚ)) ∈ ratProb P := List.mem_map.mpr ⟨p, hp, rfl⟩
    have hms := hxm _ hq j hj
    have hm0 : (0 : ℚ) ≤ p.2 j := hw.nonneg hq hj
    have hmT : (p.2 j : ℚ) ≤ pop := hw.le hq hj
    obtain ⟨S, hS1, hS2⟩ := fsum_rel hfp (s := s) (ds := p.1) (j := j) (K := R) (f := f)
      (a := (sweep fp (numFl fp) s (dblProb P))^[1] (fun _ => .fin c))
      (y := qsweep s (ratProb P) (fun _ => c)) (lo := 1 / 2 ^ 90) (B := (p.2 j : ℚ))
      (by
        refine (mul_le_mul_of_nonneg_left tinyQ_le' (by norm_num)).trans ?_
        rw [mul_one_div, div_le_div_iff₀ (by positivity) (by positivity), one_mul, ← pow_succ']
        exact pow_le_pow_right₀ (by norm_num) (by norm_num))
      (by have := hugeQ_ge; norm_num at this hT' ⊢; linarith)
      (fun v hv => ⟨E v, (hE v hv).1, (hE v hv).2, hlow v hv⟩)
      (hf p hp j) (by omega) (le_of_eq hms)
    rw [hms] at hS2
    show FP.lt (FP.abs (fp.sub (fsum fp s p.1 _ j) (.fin (p.2 j : ℚ)))) (tol8 fp) = true
    rw [hS1]
    exact dev_small hfp hS2 hm0 hmT hT (by exact_mod_cast hsmall)
  have hn : n = 1 := by
    by_contra hne
    exact h3 1 le_rfl (by omega) hcv
  subst hn
  refine ⟨hcv, rfl, arr_congr (fun v hv => (hE v hv).1), ?_⟩
  intro v hv e he
  rw [he, ← hxf v hv]
  have hr := (hE v hv).2
  have hu := uu_pow_ge R
  exact ⟨(mul_le_mul_of_nonneg_right hu (hx0 v hv)).trans hr.1, (mul_le_mul_of_nonneg_right hu (hr.nonneg (hx0 v hv))).trans hr.2⟩

/-- the hypotheses are met: two marginals over three dimensions each, with two in common, and a seed of ones -/
example (sqrt : Fl → Fl) : ∃ r : IPF Fl, IPF.run false (FP.ieee sqrt) (numFl (FP.ieee sqrt)) (indicesOf (dblProb bandProb))
    (marginalsOf [2, 2, 2, 2] (dblProb bandProb)) (arr [2, 2, 2, 2] (fun _ => .fin 1)) = .ok r ∧ r.conv = true ∧ r.iters = 1 := by
  obtain ⟨r, E, h1, h2, h3, -⟩ := C103_double (FP.ieee_good sqrt) bandProb_ok (by norm_num) bandProb_inRange bandProb_decomposable
    (by norm_num [bandProb, prodSizes]) (f := 16) (fun p _ j => by
      refine (Finset.card_le_card (Finset.filter_subset _ _)).trans ?_
      have := card_cells [2, 2, 2, 2]
      have h16 : prodSizes [2, 2, 2, 2] = 16 := by decide
      omega) (by norm_num [bandProb]) (c := 1) (by norm_num) (by norm_num)
  exact ⟨r, h1, h2, h3⟩

end HL

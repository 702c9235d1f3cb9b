import Verif.Proof.IPFUnitRound
import Verif.Props.IPF
import Verif.Proof.QISIExact

/-
C93: ipf from a constant seed in double precision.
-/

namespace HL
open Micro Integerise
variable {fp : FP} {α : Type}

theorem proper_of_disjoint {s : List Nat} {P : Prob α} (h : ProbShape s P) (hd : (P.map Prod.fst).flatten.Nodup) : ProperProb s P := by
  have hlen : (P.map Prod.fst).flatten.length = s.length := by
    have hperm : (P.map Prod.fst).flatten.Perm (List.range s.length) :=
      (List.perm_ext_iff_of_nodup hd List.nodup_range).mpr (fun d => by
        simp only [List.mem_range]
        constructor
        · intro hdm
          obtain ⟨l, hl, hdl⟩ := List.mem_flatten.mp hdm
          obtain ⟨q, hq, rfl⟩ := List.mem_map.mp hl
          exact (h.dims q hq).2 d hdl
        · intro hdn
          obtain ⟨q, hq, hdq⟩ := h.cover d hdn
          exact List.mem_flatten.mpr ⟨q.1, List.mem_map.mpr ⟨q, hq, rfl⟩, hdq⟩)
    simpa using hperm.length_eq
  intro q hq
  obtain ⟨A, B, hQ⟩ := List.append_of_mem hq
  refine properDims_of_nodup ((List.nodup_flatten.mp hd).1 q.1 (List.mem_map.mpr ⟨q, hq, rfl⟩)) ?_
  have h2 := h.lists
  rw [← hlen, hQ]
  simp only [List.map_append, List.map_cons, List.flatten_append, List.flatten_cons, List.length_append]
  have hne : ∀ (L : Prob α), L ≠ [] → (∀ q ∈ L, q ∈ P) → 0 < ((L.map Prod.fst).flatten).length := by
    intro L hL hsub
    obtain ⟨q', hq'⟩ := List.exists_mem_of_ne_nil L hL
    obtain ⟨d, hd⟩ := List.exists_mem_of_ne_nil q'.1 (h.dims q' (hsub q' hq')).1
    exact List.length_pos_of_mem (List.mem_flatten.mpr ⟨q'.1, List.mem_map.mpr ⟨q', hq', rfl⟩, hd⟩)
  by_cases hA : A = []
  · have hB : B ≠ [] := by
      rintro rfl
      rw [hQ, hA] at h2
      simp at h2
    have := hne B hB (fun q hq => by rw [hQ]; simp [hq])
    omega
  · have := hne A hA (fun q hq => by rw [hQ]; simp [hq])
    omega

theorem fin_ratProb (P : Prob Int) : finProb (ratProb P) = dblProb P := by
  simp only [ratProb, finProb, dblProb, List.map_map]
  rfl

theorem whole_ratProb {s : List Nat} {P : Prob Int} {pop : Int} (h : ProbOK s P pop) : Whole s (ratProb P) pop := by
  constructor
  · intro q hq j hj
    obtain ⟨p, hp, rfl⟩ := List.mem_map.mp hq
    have h0 := h.nonneg p hp j hj
    rcases h0.lt_or_eq with h1 | h1
    · right
      show (1 : ℚ) ≤ (p.2 j : ℚ)
      exact_mod_cast h1
    · left
      show (p.2 j : ℚ) = 0
      exact_mod_cast h1.symm
  · intro q hq
    obtain ⟨p, hp, rfl⟩ := List.mem_map.mp hq
    show ∑ j ∈ cells (projSizes p.1 s), (p.2 j : ℚ) = pop
    rw [← h.total p hp]
    push_cast
    rfl

/-- **C93**, the part that holds: a population of `pop`, whole-number marginals on disjoint groups of dimensions and a constant
seed.  With `K` marginals and at most `f` cells in the sum for one marginal value, when `pop (K (2 f + 2 K + 1) + f)` is at most
89 million, `ipf` in double precision converges in one iteration, and every cell is the independence table (the product of
the marginal values divided by `pop^(K-1)`) within `K (2 f + 2 K + 1)` roundings. -/
theorem C93_unit_partial (hfp : fp.Good) {s : List Nat} {P : Prob Int} {pop : Int} (h : ProbOK s P pop) (h0 : 0 < pop)
    (hd : (P.map Prod.fst).flatten.Nodup) (hbig : (pop : ℚ) ^ P.length * prodSizes s ≤ 2 ^ 800) {f : Nat}
    (hf : ∀ p ∈ P, ∀ j, ((cells s).filter (fun v => proj p.1 v = j)).card ≤ f)
    (hsmall : pop * (P.length * (2 * f + 2 * P.length + 1) + f) ≤ 89000000) {c : ℚ} (hc : 1 / 2 ^ 100 ≤ c)
    (hc' : c ≤ 2 ^ 100) :
    ∃ (r : IPF Fl) (E : List Int → ℚ), IPF.run false fp (numFl fp) (indicesOf (dblProb P)) (marginalsOf s (dblProb P)) (arr s (fun _ => .fin c)) = .ok r ∧
      r.conv = true ∧ r.iters = 1 ∧ r.micro.array = arr s (fun v => .fin (E v)) ∧
      ∀ v, InRange s v → ∀ e : ℚ, e = (P.map (fun p => (p.2 (proj p.1 v) : ℚ))).prod / (pop : ℚ) ^ (P.length - 1) →
        (1 - (P.length * (2 * f + 2 * P.length + 1) : Nat) / 2 ^ 53) * e ≤ E v ∧
        (1 - (P.length * (2 * f + 2 * P.length + 1) : Nat) / 2 ^ 53) * E v ≤ e := by
  set R := P.length * (2 * f + 2 * P.length + 1) with hR
  have hlists : 2 ≤ P.length := h.lists
  have hR1 : 1 ≤ R := by rw [hR]; nlinarith
  have hsmallN : pop * ((R + f : Nat) : Int) ≤ 89000000 := by rw [hR]; push_cast; exact hsmall
  have hRf : ((R + f : Nat) : Int) ≤ 89000000 := by
    have : (0 : Int) ≤ ((R + f : Nat) : Int) := by positivity
    nlinarith
  have hpop : pop < 2 ^ 52 := by
    have : (1 : Int) ≤ ((R + f : Nat) : Int) := by exact_mod_cast (by omega : 1 ≤ R + f)
    nlinarith
  have hQs : ProbShape s (ratProb P) := probShape_congr (fst_ratProb P).symm h.toProbShape
  have hs : Splits s (ratProb P) := by
    refine ⟨by rw [fst_ratProb]; exact hd, ?_, ?_⟩
    · intro d hdm
      obtain ⟨l, hl, hdl⟩ := List.mem_flatten.mp hdm
      obtain ⟨q, hq, rfl⟩ := List.mem_map.mp hl
      exact (hQs.dims q hq).2 d hdl
    · intro d hdn
      obtain ⟨q, hq, hdq⟩ := hQs.cover d hdn
      exact List.mem_flatten.mpr ⟨q.1, List.mem_map.mpr ⟨q, hq, rfl⟩, hdq⟩
  have hw := whole_ratProb h
  have hlen : (ratProb P).length = P.length := by simp [ratProb]
  have hT : (1 : ℚ) ≤ pop := by exact_mod_cast h0
  have hT' : (pop : ℚ) ≤ 2 ^ 52 := by exact_mod_cast hpop.le
  have hp := proper_of_disjoint h.toProbShape hd
  have hf' : ∀ q ∈ ratProb P, ∀ j, ((cells s).filter (fun v => proj q.1 v = j)).card ≤ f := by
    intro q hq j
    obtain ⟨p, hp, rfl⟩ := List.mem_map.mp hq
    exact hf p hp j
  have hsw := unit_sweep hfp hQs hs hw hT hT' (by rw [hlen, bigQ_eq]; exact hbig) (f := f) (c := c)
    (by rw [hlen, ← hR]; have : R + f ≤ 89000000 := by exact_mod_cast hRf
        omega) hf' (ratProb P) [] rfl
    (by intro he; rw [he] at hlen; simp at hlen; omega) c _ (unit_start f hc hc')
  rw [hlen, fin_ratProb, ← hR] at hsw
  have hall : ∀ v, ∃ E : ℚ, InRange s v → sweep fp (numFl fp) s (dblProb P) (fun _ => .fin c) v = .fin E ∧
      Rel R E (prodAt (ratProb P) v / (pop : ℚ) ^ (P.length - 1)) := by
    intro v
    by_cases hv : InRange s v
    · obtain ⟨x, h1, h2⟩ := hsw v hv
      exact ⟨x, fun _ => ⟨h1, h2⟩⟩
    · exact ⟨0, fun h => absurd h hv⟩
  choose E hE using hall
  have hT0 : (0 : ℚ) < (pop : ℚ) ^ (P.length - 1) := pow_pos (by linarith) _
  have hP := fun v hv => hw.prodAt (v := v) hv (fun q hq => (hQs.dims q hq).2)
  have he0 : ∀ v, InRange s v → 0 ≤ prodAt (ratProb P) v / (pop : ℚ) ^ (P.length - 1) := by
    intro v hv
    have : 0 ≤ prodAt (ratProb P) v := by rcases (hP v hv).1 with h | h <;> linarith
    positivity
  obtain ⟨r, hr⟩ := ipf_run_ok fp (numFl fp) (minOK_fl fp) (dblProb_ok hfp h hpop) (dblProb_proper hp) (fun _ => .fin c)
  refine ⟨r, E, hr, ?_⟩
  obtain ⟨pop', n, -, h1, -, -, h3, rfl⟩ := ipf_run fp (numFl fp) (minOK_fl fp) (dblProb_shape h.toProbShape) (dblProb_proper hp) _ hr
  have hcv : convAt fp (numFl fp) s (dblProb P) ((sweep fp (numFl fp) s (dblProb P))^[1] (fun _ => .fin c)) := by
    unfold convAt
    apply maxDev_lt' _ _ _ (lt_tol8 hfp)
    intro p' hp' j hj
    obtain ⟨p, hp, rfl⟩ := mem_dblProb.mp hp'
    have hq : (p.1, fun j => (p.2 j : ℚ)) ∈ ratProb P := List.mem_map.mpr ⟨p, hp, rfl⟩
    have hms : marginalSum s p.1 (fun v => prodAt (ratProb P) v / (pop : ℚ) ^ (P.length - 1)) j = (p.2 j : ℚ) := by
      have := marginalSum_product hs (T := pop) (by linarith) hw.tot hq hj
      rwa [hlen] at this
    have hm0 : (0 : ℚ) ≤ p.2 j := hw.nonneg hq hj
    have hmT : (p.2 j : ℚ) ≤ pop := hw.le hq hj
    have hb1 := big_one
    have hbp := bigQ_pos
    have htp := tinyQ_pos
    have hTb : (pop : ℚ) ^ (P.length - 1) ≤ bigQ := by
      rw [bigQ_eq]
      refine le_trans ?_ hbig
      have h5 : (1 : ℚ) ≤ prodSizes s := by
        rw [← card_cells]
        obtain ⟨v, hv⟩ := exists_inRange h.toProbShape.pos
        exact_mod_cast Finset.card_pos.mpr ⟨v, mem_cells.mpr hv⟩
      have h6 : (pop : ℚ) ^ (P.length - 1) ≤ (pop : ℚ) ^ P.length := pow_le_pow_right₀ hT (by omega)
      nlinarith
    obtain ⟨S, hS1, hS2⟩ := fsum_rel hfp (s := s) (ds := p.1) (j := j) (K := R) (f := f)
      (a := (sweep fp (numFl fp) s (dblProb P))^[1] (fun _ => .fin c))
      (y := fun v => prodAt (ratProb P) v / (pop : ℚ) ^ (P.length - 1)) (lo := 1 / bigQ) (B := (p.2 j : ℚ))
      (by
        rw [le_div_iff₀ hbp]
        have h7 := big_tiny
        have h8 : tinyQ * (bigQ * 2) ≤ tinyQ * (bigQ * 2 ^ 200) :=
          mul_le_mul_of_nonneg_left (mul_le_mul_of_nonneg_left (by norm_num) hbp.le) htp.le
        linarith)
      (by have := hugeQ_ge; norm_num at this hT' ⊢; linarith)
      (by
        intro v hv
        refine ⟨E v, (hE v hv).1, (hE v hv).2, ?_⟩
        rcases (hP v hv).1 with h4 | h4
        · left; rw [h4, zero_div]
        · right
          exact (one_div_le_one_div_of_le hT0 hTb).trans (div_le_div_of_nonneg_right h4 hT0.le))
      (hf p hp j) (by have : R + f ≤ 89000000 := by exact_mod_cast hRf
                      omega) (le_of_eq hms)
    rw [hms] at hS2
    show FP.lt (FP.abs (fp.sub (fsum fp s p.1 _ j) (.fin (p.2 j : ℚ)))) (tol8 fp) = true
    rw [hS1]
    exact dev_small hfp hS2 hm0 hmT hT (by exact_mod_cast hsmallN)
  have hn : n = 1 := by
    by_contra hne
    exact h3 1 le_rfl (by omega) hcv
  subst hn
  refine ⟨hcv, rfl, arr_congr (fun v hv => (hE v hv).1), ?_⟩
  intro v hv e he
  have hee : e = prodAt (ratProb P) v / (pop : ℚ) ^ (P.length - 1) := by
    rw [he]; simp [prodAt, ratProb, Function.comp_def]
  rw [hee]
  have hr := (hE v hv).2
  have hu := uu_pow_ge R
  exact ⟨(mul_le_mul_of_nonneg_right hu (he0 v hv)).trans hr.1, (mul_le_mul_of_nonneg_right hu (hr.nonneg (he0 v hv))).trans hr.2⟩

/-! ### The part that does not hold -/

/-- the marginals: 60 and 120 million; 20 and 160 million -/
def stuckRows (j : List Int) : Int := if j = [0] then 60000000 else 120000000
def stuckCols (j : List Int) : Int := if j = [0] then 20000000 else 160000000
def stuckProb : Prob Int := [([0], stuckRows), ([1], stuckCols)]

theorem stuckProb_ok : ProbOK [2, 2] stuckProb 180000000 where
  lists := by simp [stuckProb]
  two := by decide
  pos := by decide
  dims := by simp [stuckProb]
  cover := by
    intro d hd
    simp only [List.length_cons, List.length_nil] at hd
    interval_cases d <;> simp [stuckProb]
  nonneg := by
    intro p hp j _
    simp only [stuckProb, List.mem_cons, List.not_mem_nil, or_false] at hp
    rcases hp with rfl | rfl
    · show 0 ≤ stuckRows j
      unfold stuckRows; split <;> norm_num
    · show 0 ≤ stuckCols j
      unfold stuckCols; split <;> norm_num
  total := by
    simp only [stuckProb, List.mem_cons, List.not_mem_nil, or_false, forall_eq_or_imp, forall_eq]
    decide
  partials := by
    intro p hp q hq a b d h1 h2
    simp only [stuckProb, List.mem_cons, List.not_mem_nil, or_false] at hp hq
    rcases hp with rfl | rfl <;> rcases hq with rfl | rfl <;> rcases a with _ | a <;> rcases b with _ | b <;>
      simp at h1 h2 <;> intro x hx <;> first | rfl | omega

def stuckAt (v : List Int) : Fl := sweep (FP.ieee id) (numFl (FP.ieee id)) [2, 2] (dblProb stuckProb) (fun _ => .fin 1) v

theorem stuck_fixed : ∀ v ∈ allIdx [2, 2],
    sweep (FP.ieee id) (numFl (FP.ieee id)) [2, 2] (dblProb stuckProb) stuckAt v = stuckAt v := by decide +kernel

theorem stuck_dev : maxDev (FP.ieee id) (numFl (FP.ieee id)) [2, 2] (dblProb stuckProb) stuckAt (.fin (-dblMax)) = .fin (1 / 2 ^ 26) := by
  decide +kernel

theorem stuck_conv : FP.lt (.fin (1 / 2 ^ 26)) (tol8 (FP.ieee id)) = false := by decide +kernel

theorem stuck_iter (sqrt : Fl → Fl) (n : Nat) : ∀ v, InRange [2, 2] v →
    (sweep (FP.ieee sqrt) (numFl (FP.ieee sqrt)) [2, 2] (dblProb stuckProb))^[n + 1] (fun _ => .fin 1) v = stuckAt v := by
  have e : sweep (FP.ieee sqrt) (numFl (FP.ieee sqrt)) [2, 2] (dblProb stuckProb) =
    sweep (FP.ieee id) (numFl (FP.ieee id)) [2, 2] (dblProb stuckProb) := rfl
  induction n with
  | zero => intro v _; rw [e]; rfl
  | succ n ih =>
    intro v hv
    rw [Function.iterate_succ_apply', e]
    rw [e] at ih
    rw [sweep_congr _ _ _ ih v hv]
    exact stuck_fixed v (mem_allIdx.mpr hv)

/-- **C93** fails for larger populations: rows of 60 and 120 million, columns of 20 and 160 million and a seed of ones.  The
problem is accepted and has the whole-population table `rows x columns / 180 million` as its solution, which `ipf` in exact
arithmetic finds in one iteration; in double precision the first sweep gives a table that further sweeps do not change, with
a column sum that is off by `2^-26`, about `1.5e-8`: `ipf` runs its 1000 iterations and reports that it did not converge. -/
theorem C93_stuck (sqrt : Fl → Fl) :
    (∃ r, ipfExact [2, 2] (ratProb stuckProb) (fun _ => 1) = .ok r ∧ r.conv = true ∧ r.iters = 1 ∧ r.maxError = .fin 0) ∧
    ∃ r, IPF.run false (FP.ieee sqrt) (numFl (FP.ieee sqrt)) (indicesOf (dblProb stuckProb)) (marginalsOf [2, 2] (dblProb stuckProb))
        (arr [2, 2] (fun _ => .fin 1)) = .ok r ∧
      r.conv = false ∧ r.iters = 1000 ∧ r.maxError = .fin (1 / 2 ^ 26) := by
  have hd : (stuckProb.map Prod.fst).flatten.Nodup := by decide
  constructor
  · have hw := whole_ratProb stuckProb_ok
    obtain ⟨r, h1, h2, h3, h4, -⟩ := C34_independence (s := [2, 2]) (Q := ratProb stuckProb) (pop := 180000000)
      ⟨probShape_congr (fst_ratProb stuckProb).symm stuckProb_ok.toProbShape, fun p hp j hj => hw.nonneg hp hj, hw.tot, by
        intro p hp q hq a b d h1 h2
        simp only [ratProb, stuckProb, List.map_cons, List.map_nil, List.mem_cons, List.not_mem_nil, or_false] at hp hq
        rcases hp with rfl | rfl <;> rcases hq with rfl | rfl <;> rcases a with _ | a <;> rcases b with _ | b <;>
          simp at h1 h2 <;> intro x hx <;> first | rfl | omega⟩ (by norm_num) (by norm_num)
      (by rw [fst_ratProb]; exact hd) (c := 1) one_pos
    exact ⟨r, h1, h2, h3, h4⟩
  · have hp := proper_of_disjoint stuckProb_ok.toProbShape hd
    obtain ⟨r, hr⟩ := ipf_run_ok (FP.ieee sqrt) (numFl (FP.ieee sqrt)) (minOK_fl _)
      (dblProb_ok (FP.ieee_good sqrt) stuckProb_ok (by norm_num)) (dblProb_proper hp) (fun _ => .fin 1)
    refine ⟨r, hr, ?_⟩
    obtain ⟨pop', n, -, h1, -, h2, -, rfl⟩ := ipf_run _ _ (minOK_fl _) (dblProb_shape stuckProb_ok.toProbShape) (dblProb_proper hp) _ hr
    obtain ⟨m, rfl⟩ : ∃ m, n = m + 1 := ⟨n - 1, by omega⟩
    have hm : maxDev (FP.ieee sqrt) (numFl (FP.ieee sqrt)) [2, 2] (dblProb stuckProb)
        ((sweep (FP.ieee sqrt) (numFl (FP.ieee sqrt)) [2, 2] (dblProb stuckProb))^[m + 1] (fun _ => .fin 1)) (.fin (-dblMax)) =
        .fin (1 / 2 ^ 26) := by
      rw [maxDev_congr _ _ _ (stuck_iter sqrt m)]
      exact stuck_dev
    have hnc : FP.lt (.fin (1 / 2 ^ 26)) (tol8 (FP.ieee sqrt)) = false := stuck_conv
    have hn : m + 1 = 1000 := by
      rcases h2 with h2 | h2
      · unfold convAt at h2
        rw [hm, hnc] at h2
        exact absurd h2 (by simp)
      · exact h2
    refine ⟨?_, hn, hm⟩
    show FP.lt (maxDev _ _ _ _ _ _) _ = false
    rw [hm, hnc]

/-- the hypotheses of `C93_unit_partial` are met, in binary64: rows `[400, 600]`, columns `[300, 700]` thousand -/
def midRows (j : List Int) : Int := if j = [0] then 400000 else 600000
def midCols (j : List Int) : Int := if j = [0] then 300000 else 700000
def midProb : Prob Int := [([0], midRows), ([1], midCols)]

theorem midProb_ok : ProbOK [2, 2] midProb 1000000 where
  lists := by simp [midProb]
  two := by decide
  pos := by decide
  dims := by simp [midProb]
  cover := by
    intro d hd
    simp only [List.length_cons, List.length_nil] at hd
    interval_cases d <;> simp [midProb]
  nonneg := by
    intro p hp j _
    simp only [midProb, List.mem_cons, List.not_mem_nil, or_false] at hp
    rcases hp with rfl | rfl
    · show 0 ≤ midRows j
      unfold midRows; split <;> norm_num
    · show 0 ≤ midCols j
      unfold midCols; split <;> norm_num
  total := by
    simp only [midProb, List.mem_cons, List.not_mem_nil, or_false, forall_eq_or_imp, forall_eq]
    decide
  partials := by
    intro p hp q hq a b d h1 h2
    simp only [midProb, List.mem_cons, List.not_mem_nil, or_false] at hp hq
    rcases hp with rfl | rfl <;> rcases hq with rfl | rfl <;> rcases a with _ | a <;> rcases b with _ | b <;>
      simp at h1 h2 <;> intro x hx <;> first | rfl | omega

theorem mid_run (sqrt : Fl → Fl) : ∃ r, IPF.run false (FP.ieee sqrt) (numFl (FP.ieee sqrt)) (indicesOf (dblProb midProb))
    (marginalsOf [2, 2] (dblProb midProb)) (arr [2, 2] (fun _ => .fin 1)) = .ok r ∧ r.conv = true ∧ r.iters = 1 := by
  obtain ⟨r, -, h1, h2, h3, -⟩ := C93_unit_partial (FP.ieee_good sqrt) midProb_ok (by norm_num) (by decide) (f := 2) (by
      have : prodSizes [2, 2] = 4 := by decide
      rw [this]
      show ((1000000 : Int) : ℚ) ^ 2 * _ ≤ _
      refine le_trans ?_ (pow_le_pow_right₀ (show (1 : ℚ) ≤ 2 by norm_num) (show 100 ≤ 800 by norm_num))
      norm_num) (by
      intro p hp j
      have hp : p.1 = [0] ∨ p.1 = [1] := by
        simp only [midProb, List.mem_cons, List.not_mem_nil, or_false] at hp
        rcases hp with rfl | rfl <;> simp
      have key : ∀ d ∈ [0, 1], ∀ j, ((cells [2, 2]).filter (fun v => proj [d] v = j)).card ≤ 2 := by
        intro d hd j
        by_cases hj : j = [0] ∨ j = [1]
        · rcases hj with rfl | rfl <;> revert d <;> decide
        · have : (cells [2, 2]).filter (fun v => proj [d] v = j) = ∅ := by
            rw [Finset.filter_eq_empty_iff]
            intro v hv he
            have h1 : ∀ v ∈ cells [2, 2], ∀ d ∈ [0, 1], proj [d] v = [0] ∨ proj [d] v = [1] := by decide
            rw [← he] at hj
            exact hj (h1 v hv d hd)
          rw [this]; simp
      rcases hp with h | h <;> rw [h] <;> exact key _ (by simp) j) (by decide) (c := 1) (by norm_num) (by norm_num)
  exact ⟨r, h1, h2, h3⟩

end HL

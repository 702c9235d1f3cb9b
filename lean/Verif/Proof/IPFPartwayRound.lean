import Verif.NoTinySpec
import Verif.Proof.IPFUnitRound
import Verif.Proof.IPFBackward
import Verif.Proof.IPFDecomp

/-
One scaling in double precision, numbers of moderate size.
-/

namespace HL
open Micro Integerise
variable {fp : FP}

set_option exponentiation.threshold 800

theorem tinyQ_le_mid : tinyQ ≤ 1 / 2 ^ 700 := by
  rw [tinyQ_eq]
  have : (2 : ℚ) ^ (-1022 : ℤ) ≤ 2 ^ (-700 : ℤ) := zpow_le_zpow_right₀ (by norm_num) (by norm_num)
  refine this.trans (le_of_eq ?_)
  rw [zpow_neg, one_div]
  norm_cast

theorem hugeQ_ge_mid : 2 ^ 700 ≤ hugeQ := by
  rw [hugeQ_eq]
  exact pow_le_pow_right₀ (by norm_num) (by norm_num)

/-- one scaling -/
theorem scaled_rel (hfp : fp.Good) {s ds : List Nat} {m x : List Int → ℚ} {a : List Int → Fl} {f : Nat} {v : List Int}
    (hv : InRange s v) (ha : Agree s a x) (hx : ∀ v, InRange s v → (x v = 0 ∨ 1 / 2 ^ 200 ≤ x v) ∧ x v ≤ 2 ^ 201)
    (hm : m (proj ds v) = 0 ∨ MidSize (m (proj ds v)))
    (hf : ((cells s).filter (fun w => proj ds w = proj ds v)).card ≤ f) (hf' : f ≤ 2 ^ 50) :
    ∃ y, scaled fp (numFl fp) s ds (fun j => .fin (m j)) a v = .fin y ∧ Rel (f + 2) y (qscaled s ds m x v) := by
  have ht := tinyQ_le_mid
  have hh := hugeQ_ge_mid
  have hp : ∀ k : Nat, (0 : ℚ) < 2 ^ k := fun k => by positivity
  have hx0 : ∀ v, InRange s v → 0 ≤ x v := fun v hv => by
    rcases (hx v hv).1 with h | h
    · rw [h]
    · exact le_trans (by positivity) h
  set j := proj ds v with hj
  set E := marginalSum s ds x j with hE
  have hE0 : 0 ≤ E := marginalSum_nonneg hx0 _
  have hE1 : E ≤ 2 ^ 251 := by
    have h1 : E ≤ ((cells s).filter (fun w => proj ds w = j)).card • (2 : ℚ) ^ 201 :=
      Finset.sum_le_card_nsmul _ _ _ (fun w hw => (hx w (mem_cells.mp (Finset.mem_filter.mp hw).1)).2)
    rw [nsmul_eq_mul] at h1
    have h2 : ((((cells s).filter (fun w => proj ds w = j)).card : ℕ) : ℚ) ≤ 2 ^ 50 := by exact_mod_cast hf.trans hf'
    refine h1.trans ((mul_le_mul_of_nonneg_right h2 (hp 201).le).trans (le_of_eq ?_))
    rw [← pow_add]
  obtain ⟨S, hS, hSE⟩ := fsum_rel hfp (s := s) (ds := ds) (j := j) (K := 0) (f := f) (a := a) (y := x) (lo := 1 / 2 ^ 200) (B := 2 ^ 251)
    (by
      have : (2 : ℚ) * (1 / 2 ^ 700) ≤ 1 / 2 ^ 200 := by norm_num
      linarith)
    (by
      have : (2 : ℚ) * 2 ^ 251 ≤ 2 ^ 700 := by norm_num
      linarith)
    (fun w hw => ⟨x w, ha w hw, Rel.refl _, (hx w hw).1⟩) hf (by omega) hE1
  rw [Nat.zero_add] at hSE
  have hS0 : 0 ≤ S := hSE.nonneg hE0
  unfold scaled qscaled
  rw [← hj, hS, ← hE]
  by_cases hz : E = 0
  · rw [if_pos hz, if_pos (by rw [(hSE.zero_iff hE0).mpr hz]; simp [FP.feq])]
    exact ⟨0, rfl, by simp [Rel]⟩
  have hSne : S ≠ 0 := fun h => hz ((hSE.zero_iff hE0).mp h)
  have hEp : 0 < E := lt_of_le_of_ne hE0 (Ne.symm hz)
  have hSp : 0 < S := lt_of_le_of_ne hS0 (Ne.symm hSne)
  rw [if_neg hz, if_neg (by simpa [FP.feq] using hSne), ha v hv]
  show ∃ y, fp.mul (.fin (x v)) (if S = 0 then _ else fp.rnd (m j / S)) = _ ∧ _
  rw [if_neg hSne]
  rcases hm with hm | hm
  · rw [hm, zero_div, rnd_zero' hfp]
    refine ⟨0, ?_, by simp [Rel]⟩
    show fp.rnd (x v * 0) = _
    rw [mul_zero, rnd_zero' hfp]
  -- the quotient
  have hElo : 1 / 2 ^ 200 ≤ E := by
    obtain ⟨w, hw, hwne⟩ := Finset.exists_ne_zero_of_sum_ne_zero hz
    have hw' := mem_cells.mp (Finset.mem_filter.mp hw).1
    refine ((hx w hw').1.resolve_left hwne).trans ?_
    exact Finset.single_le_sum (fun u hu => hx0 u (mem_cells.mp (Finset.mem_filter.mp hu).1)) hw
  have hSup : S ≤ 2 ^ 252 := by
    have := hSE.upper (by omega) hS0
    have h2 : (2 : ℚ) * 2 ^ 251 = 2 ^ 252 := by norm_num
    linarith
  have hSlo : 1 / 2 ^ 201 ≤ S := by
    have := hSE.lower (by omega) hE0
    have h2 : (1 : ℚ) / 2 ^ 200 / 2 = 1 / 2 ^ 201 := by norm_num
    linarith
  have hq1 : 1 / 2 ^ 452 ≤ m j / S := by
    rw [le_div_iff₀ hSp]
    refine le_trans ?_ hm.1
    have h3 := mul_le_mul_of_nonneg_left hSup (show (0 : ℚ) ≤ 1 / 2 ^ 452 by positivity)
    have h2 : (1 : ℚ) / 2 ^ 452 * 2 ^ 252 = 1 / 2 ^ 200 := by norm_num
    linarith
  have hq2 : m j / S ≤ 2 ^ 401 := by
    rw [div_le_iff₀ hSp]
    refine hm.2.trans ?_
    have h3 := mul_le_mul_of_nonneg_left hSlo (show (0 : ℚ) ≤ 2 ^ 401 by positivity)
    have h2 : (2 : ℚ) ^ 401 * (1 / 2 ^ 201) = 2 ^ 200 := by norm_num
    linarith
  have hq0 : 0 ≤ m j / S := le_trans (by positivity) hq1
  obtain ⟨g, hg, hgr⟩ := rel_rnd hfp (q := m j / S) (.inr ⟨by
    have : (1 : ℚ) / 2 ^ 700 ≤ 1 / 2 ^ 452 := by norm_num
    linarith, by
    have : (2 : ℚ) ^ 401 ≤ 2 ^ 700 := by norm_num
    linarith⟩)
  rw [hg]
  show ∃ y, fp.rnd (x v * g) = _ ∧ _
  have hg0 := hgr.nonneg hq0
  have hglo := hgr.lower (by norm_num) hq0
  have hgup := hgr.upper (by norm_num) hg0
  obtain ⟨y, hy, hyr⟩ := rel_rnd hfp (q := x v * g) (by
    rcases (hx v hv).1 with h | h
    · left; rw [h, zero_mul]
    · right
      constructor
      · have h1 : (1 : ℚ) / 2 ^ 200 * (1 / 2 ^ 453) ≤ x v * g := by
          refine mul_le_mul h ?_ (by positivity) (hx0 v hv)
          have h2 : (1 : ℚ) / 2 ^ 452 / 2 = 1 / 2 ^ 453 := by norm_num
          linarith
        have h2 : (1 : ℚ) / 2 ^ 700 ≤ 1 / 2 ^ 200 * (1 / 2 ^ 453) := by norm_num
        linarith
      · have h1 : x v * g ≤ 2 ^ 201 * 2 ^ 402 := by
          refine mul_le_mul (hx v hv).2 ?_ hg0 (by positivity)
          have h2 : (2 : ℚ) * 2 ^ 401 = 2 ^ 402 := by norm_num
          linarith
        have h2 : (2 : ℚ) ^ 201 * 2 ^ 402 ≤ 2 ^ 700 := by norm_num
        linarith)
  refine ⟨y, hy, ?_⟩
  have h1 : Rel (0 + 1) (x v * g) (x v * (m j / S)) := (Rel.refl (x v)).mul hgr (hx0 v hv) (hx0 v hv) hg0 hq0
  have hmn : 0 ≤ m j := le_trans (by positivity) hm.1
  have h2 : Rel (0 + f) (m j / S) (m j / E) := (Rel.refl (m j)).div hSE hmn hmn hSp hEp
  have h3 : Rel (0 + (0 + f)) (x v * (m j / S)) (x v * (m j / E)) :=
    (Rel.refl (x v)).mul h2 (hx0 v hv) (hx0 v hv) hq0 (div_nonneg hmn hE0)
  have h4 := (hyr.trans h1).trans h3
  rwa [show 1 + (0 + 1) + (0 + (0 + f)) = f + 2 by omega] at h4

theorem qscaled_le {s ds : List Nat} {m x : List Int → ℚ} {v : List Int} (hv : InRange s v)
    (hx : ∀ v, InRange s v → 0 ≤ x v) (hm : 0 ≤ m (proj ds v)) : qscaled s ds m x v ≤ m (proj ds v) := by
  unfold qscaled
  split
  · exact hm
  · rename_i hne
    have h0 := marginalSum_nonneg hx (ds := ds) (proj ds v)
    have hp : 0 < marginalSum s ds x (proj ds v) := lt_of_le_of_ne h0 (Ne.symm hne)
    have hle : x v ≤ marginalSum s ds x (proj ds v) :=
      Finset.single_le_sum (f := x) (fun u hu => hx u (mem_cells.mp (Finset.mem_filter.mp hu).1))
        (Finset.mem_filter.mpr ⟨mem_cells.mpr hv, rfl⟩)
    rw [mul_div_assoc', div_le_iff₀ hp, mul_comm]
    exact mul_le_mul_of_nonneg_left hle hm

theorem qscaled_ne_zero {s ds : List Nat} {m x : List Int → ℚ} {v : List Int} (hv : InRange s v)
    (hx : ∀ v, InRange s v → 0 ≤ x v) (h0 : x v ≠ 0) (hm : m (proj ds v) ≠ 0) : qscaled s ds m x v ≠ 0 := by
  unfold qscaled
  have hle : x v ≤ marginalSum s ds x (proj ds v) :=
    Finset.single_le_sum (f := x) (fun u hu => hx u (mem_cells.mp (Finset.mem_filter.mp hu).1))
      (Finset.mem_filter.mpr ⟨mem_cells.mpr hv, rfl⟩)
  have hp : 0 < x v := lt_of_le_of_ne (hx v hv) (Ne.symm h0)
  have hne : marginalSum s ds x (proj ds v) ≠ 0 := by linarith
  rw [if_neg hne]
  exact mul_ne_zero h0 (div_ne_zero hm hne)

/-- what the tables of the run keep -/
structure MidTable (s : List Nat) (Q : Prob ℚ) (b : List Int → ℚ) (a : List Int → Fl) (x : List Int → ℚ) : Prop where
  agree : Agree s a x
  size : ∀ v, InRange s v → (x v = 0 ∨ 1 / 2 ^ 200 ≤ x v) ∧ x v ≤ 2 ^ 201
  live : ∀ v, InRange s v → b v ≠ 0 → (∀ q ∈ Q, q.2 (proj q.1 v) ≠ 0) → x v ≠ 0

theorem MidTable.nonneg {s : List Nat} {Q : Prob ℚ} {b : List Int → ℚ} {a : List Int → Fl} {x : List Int → ℚ} (h : MidTable s Q b a x) :
    ∀ v, InRange s v → 0 ≤ x v := fun v hv => by
  rcases (h.size v hv).1 with h | h
  · rw [h]
  · exact le_trans (by positivity) h

section
variable {s : List Nat} {Q : Prob ℚ} {b : List Int → ℚ} {f : Nat}
  (hd : ∀ q ∈ Q, ∀ d ∈ q.1, d < s.length) (hm : ∀ q ∈ Q, ∀ j, InRange (projSizes q.1 s) j → q.2 j = 0 ∨ MidSize (q.2 j))
  (hf : ∀ q ∈ Q, ∀ j, ((cells s).filter (fun w => proj q.1 w = j)).card ≤ f) (hf' : f ≤ 2 ^ 50)
include hd hm hf hf'

theorem mid_step (hfp : fp.Good) {a : List Int → Fl} {x : List Int → ℚ} (h : MidTable s Q b a x) {q : List Nat × (List Int → ℚ)}
    (hq : q ∈ Q) (hn : ∀ v, InRange s v → ∀ y, scaled fp (numFl fp) s q.1 (fun j => .fin (q.2 j)) a v = .fin y →
      y = 0 ∨ 1 / 2 ^ 200 ≤ y) :
    ∃ y, MidTable s Q b (scaled fp (numFl fp) s q.1 (fun j => .fin (q.2 j)) a) y ∧
      ∀ v, InRange s v → Rel (f + 2) (y v) (qscaled s q.1 q.2 x v) := by
  have hmq : ∀ v, InRange s v → 0 ≤ q.2 (proj q.1 v) ∧ q.2 (proj q.1 v) ≤ 2 ^ 200 := by
    intro v hv
    rcases hm q hq _ (inRange_proj (hd q hq) hv) with h | h
    · rw [h]; exact ⟨le_rfl, by positivity⟩
    · exact ⟨le_trans (by positivity) h.1, h.2⟩
  have key : ∀ v, ∃ y : ℚ, InRange s v → scaled fp (numFl fp) s q.1 (fun j => .fin (q.2 j)) a v = .fin y ∧
      Rel (f + 2) y (qscaled s q.1 q.2 x v) := by
    intro v
    by_cases hv : InRange s v
    · obtain ⟨y, h1, h2⟩ := scaled_rel hfp hv h.agree h.size (hm q hq _ (inRange_proj (hd q hq) hv)) (hf q hq _) hf'
      exact ⟨y, fun _ => ⟨h1, h2⟩⟩
    · exact ⟨0, fun h => absurd h hv⟩
  choose y hy using key
  have hqn : ∀ v, InRange s v → 0 ≤ qscaled s q.1 q.2 x v := qscaled_nonneg (hd q hq)
    (fun j hj => by
      rcases hm q hq j hj with h | h
      · rw [h]
      · exact le_trans (by positivity) h.1) h.nonneg
  refine ⟨y, ⟨fun v hv => (hy v hv).1, fun v hv => ⟨hn v hv _ (hy v hv).1, ?_⟩, ?_⟩, fun v hv => (hy v hv).2⟩
  · have h1 := (hy v hv).2.upper (by omega) ((hy v hv).2.nonneg (hqn v hv))
    have h2 := qscaled_le hv h.nonneg (hmq v hv).1
    have h3 := (hmq v hv).2
    have h4 : (2 : ℚ) * 2 ^ 200 = 2 ^ 201 := by norm_num
    linarith
  · intro v hv hb hQ h0
    exact qscaled_ne_zero hv h.nonneg (h.live v hv hb hQ) (hQ q hq) (((hy v hv).2.zero_iff (hqn v hv)).mp h0)

theorem mid_take (hfp : fp.Good) {a : List Int → Fl} {x : List Int → ℚ} (h : MidTable s Q b a x)
    (hn : ∀ i ≤ Q.length, ∀ v, InRange s v → ∀ y, sweep fp (numFl fp) s ((finProb Q).take i) a v = .fin y → y = 0 ∨ 1 / 2 ^ 200 ≤ y) :
    ∀ i ≤ Q.length, ∃ y, MidTable s Q b (sweep fp (numFl fp) s ((finProb Q).take i) a) y
  | 0, _ => ⟨x, by simpa [sweep] using h⟩
  | i + 1, hi => by
    obtain ⟨y, hy⟩ := mid_take hfp h hn i (by omega)
    have hlen : (finProb Q).length = Q.length := by simp [finProb]
    have e := sweep_take fp (numFl fp) s (finProb Q) i (by omega) a
    have e2 : (finProb Q)[i]'(by omega) = (Q[i].1, fun j => .fin (Q[i].2 j)) := by simp [finProb]
    rw [e2] at e
    have h1 := hn (i + 1) hi
    rw [e] at h1 ⊢
    obtain ⟨z, hz, -⟩ := mid_step hd hm hf hf' hfp hy (List.getElem_mem (by omega : i < Q.length)) h1
    exact ⟨z, hz⟩

theorem mid_run' (hfp : fp.Good) (hb : ∀ v, InRange s v → b v = 0 ∨ MidSize (b v)) : ∀ n, NoTiny fp s Q b n →
    ∃ y, MidTable s Q b ((sweep fp (numFl fp) s (finProb Q))^[n] (fun v => .fin (b v))) y
  | 0, _ => ⟨b, fun _ _ => rfl, fun v hv => by
      rcases hb v hv with h | h
      · exact ⟨.inl h, by rw [h]; positivity⟩
      · exact ⟨.inr h.1, h.2.trans (by norm_num)⟩, fun v _ h _ => h⟩
  | n + 1, h => by
    obtain ⟨x, hx⟩ := mid_run' hfp hb n (fun m hm => h m (by omega))
    obtain ⟨y, hy⟩ := mid_take hd hm hf hf' hfp hx (h n (by omega)) Q.length le_rfl
    have hlen : (finProb Q).length = Q.length := by simp [finProb]
    rw [List.take_of_length_le (by omega), ← Function.iterate_succ_apply' (sweep fp (numFl fp) s (finProb Q))] at hy
    exact ⟨y, hy⟩

end

end HL

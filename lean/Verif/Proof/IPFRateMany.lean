import Verif.Proof.Birkhoff
import Verif.Proof.IPFRate
import Verif.Proof.IPFBoxRun
import Verif.Props.IPFRate

/-
Any number of marginals without common dimensions: how fast the factors of the scalings approach one (for C134).
-/

namespace HL.Rate
open HL

/-- the marginal of scaling number `i` -/
def stepQ (Q : Prob ℚ) (i : Nat) : List Nat × (List Int → ℚ) := Q.getD (i % Q.length) ([], fun _ => 0)

/-- the table after `i` scalings -/
def steps (s : List Nat) (Q : Prob ℚ) (b : List Int → ℚ) : Nat → List Int → ℚ
  | 0 => b
  | i + 1 => qscaled s (stepQ Q i).1 (stepQ Q i).2 (steps s Q b i)

/-- the factors of scaling number `i` -/
def fac (s : List Nat) (Q : Prob ℚ) (b : List Int → ℚ) (i : Nat) (j : List Int) : ℚ :=
  if marginalSum s (stepQ Q i).1 (steps s Q b i) j = 0 then 1 else (stepQ Q i).2 j / marginalSum s (stepQ Q i).1 (steps s Q b i) j

variable {s : List Nat} {Q : Prob ℚ} {b : List Int → ℚ}

theorem stepQ_add (i : Nat) : stepQ Q (i + Q.length) = stepQ Q i := by
  unfold stepQ; rw [Nat.add_mod_right]

theorem stepQ_eq (hK : 0 < Q.length) (i : Nat) : stepQ Q i = Q[i % Q.length]'(Nat.mod_lt _ hK) := by
  unfold stepQ
  rw [List.getD_eq_getElem]

theorem stepQ_mem (hK : 0 < Q.length) (i : Nat) : stepQ Q i ∈ Q := by
  rw [stepQ_eq hK]; exact List.getElem_mem _

theorem steps_take (n : Nat) : ∀ i ≤ Q.length, steps s Q b (n * Q.length + i) = qsweep s (Q.take i) (steps s Q b (n * Q.length))
  | 0, _ => by simp [qsweep]
  | i + 1, hi => by
    have hi' : i < Q.length := by omega
    rw [← add_assoc, steps, steps_take n i (by omega), List.take_succ_eq_append_getElem hi']
    unfold qsweep
    rw [List.foldl_append]
    have e : stepQ Q (n * Q.length + i) = Q[i] := by
      rw [stepQ_eq (by omega)]
      congr 1
      rw [Nat.mul_add_mod', Nat.mod_eq_of_lt hi']
    rw [e]
    rfl

theorem steps_sweep : ∀ n, steps s Q b (n * Q.length) = (qsweep s Q)^[n] b
  | 0 => by simp [steps]
  | n + 1 => by
    rw [Function.iterate_succ_apply', ← steps_sweep n, Nat.succ_mul, steps_take n Q.length le_rfl, List.take_length]

/-- the dimensions of the other marginals -/
def others (Q : Prob ℚ) (k : Nat) : List Nat := ((Q.eraseIdx k).map Prod.fst).flatten

theorem perm_others {k : Nat} (hk : k < Q.length) : (Q[k].1 ++ others Q k).Perm (Q.map Prod.fst).flatten := by
  have h := (List.getElem_cons_eraseIdx_perm hk).map Prod.fst
  rw [List.map_cons] at h
  have := h.flatten
  rwa [List.flatten_cons] at this

theorem two_others (hs : Splits s Q) {k : Nat} (hk : k < Q.length) : Two s Q[k].1 (others Q k) :=
  ⟨(perm_others hk).nodup_iff.mpr hs.nodup, fun d hd => hs.lt d ((perm_others hk).mem_iff.mp hd),
    fun d hd => (perm_others hk).mem_iff.mpr (hs.all d hd)⟩

theorem stepQ_others (hK : 0 < Q.length) {i t : Nat} (h : t % Q.length ≠ i % Q.length) :
    ∀ d ∈ (stepQ Q t).1, d ∈ others Q (i % Q.length) := by
  intro d hd
  refine List.mem_flatten.mpr ⟨(stepQ Q t).1, List.mem_map_of_mem ?_, hd⟩
  rw [stepQ_eq hK, List.mem_eraseIdx_iff_getElem]
  exact ⟨t % Q.length, Nat.mod_lt _ hK, fun e => h e, rfl⟩

theorem mod_ne {K i u : Nat} (hu : u + 1 < K) : (i + 1 + u) % K ≠ i % K := by
  intro h
  have h1 : (i + 1 + u) ≡ i [MOD K] := h
  have h2 : (1 + u) ≡ 0 [MOD K] := by
    have : i + (1 + u) ≡ i + 0 [MOD K] := by rw [← add_assoc]; simpa using h1
    exact Nat.ModEq.add_left_cancel' i this
  have h3 := (Nat.modEq_zero_iff_dvd).mp h2
  exact absurd (Nat.le_of_dvd (by omega) h3) (by omega)

theorem proj_sub {l d : List Nat} (h : ∀ x ∈ l, x ∈ d) {v w : List Int} (he : proj d v = proj d w) : proj l v = proj l w := by
  unfold proj at he ⊢
  exact List.map_inj_left.mpr (fun x hx => List.map_inj_left.mp he x (h x hx))

/-! ### Positive cells -/

/-- a cell all of whose marginal values are positive -/
def AllPos (Q : Prob ℚ) (v : List Int) : Prop := ∀ q ∈ Q, 0 < q.2 (proj q.1 v)

section run
variable {T ρ : ℚ} (hs : Splits s Q) (hK : 2 ≤ Q.length)
  (hn : ∀ q ∈ Q, ∀ j, InRange (projSizes q.1 s) j → 0 ≤ q.2 j) (hT : ∀ q ∈ Q, ∑ j ∈ cells (projSizes q.1 s), q.2 j = T) (hT0 : 0 < T)
  (hb : ∀ v, InRange s v → 0 < b v)

include hs in
theorem dims_lt : ∀ q ∈ Q, ∀ d ∈ q.1, d < s.length := fun q hq d hd =>
  hs.lt d (List.mem_flatten.mpr ⟨q.1, List.mem_map_of_mem hq, hd⟩)

include hs hn hT hT0 in
theorem live_cell {q : List Nat × (List Int → ℚ)} (hq : q ∈ Q) {j : List Int} (hj : InRange (projSizes q.1 s) j) (hp : 0 < q.2 j) :
    ∃ v, InRange s v ∧ proj q.1 v = j ∧ AllPos Q v := by
  obtain ⟨A, B, e⟩ := List.append_of_mem hq
  have h1 := marginalSum_prodAt (e ▸ hs) hj
  have hprod : ∀ {C : Prob ℚ}, (∀ q ∈ C, q ∈ Q) → 0 < (C.map (fun q => ∑ j ∈ cells (projSizes q.1 s), q.2 j)).prod := by
    intro C hC
    refine List.prod_pos ?_
    intro a ha
    obtain ⟨c, hc, rfl⟩ := List.mem_map.mp ha
    rw [hT c (hC c hc)]; exact hT0
  have h2 : 0 < marginalSum s q.1 (prodAt Q) j := by
    rw [e, h1]
    exact mul_pos (mul_pos (hprod (fun q hq => by rw [e]; simp [hq])) hp) (hprod (fun q hq => by rw [e]; simp [hq]))
  obtain ⟨v, hv, hv2⟩ := Finset.exists_lt_of_sum_lt (s := (cells s).filter (fun v => proj q.1 v = j)) (f := fun _ => (0 : ℚ))
    (g := prodAt Q) (by rw [Finset.sum_const_zero]; exact h2)
  obtain ⟨hv3, hv4⟩ := Finset.mem_filter.mp hv
  have hvr := mem_cells.mp hv3
  refine ⟨v, hvr, hv4, ?_⟩
  intro q' hq'
  refine lt_of_le_of_ne (hn q' hq' _ (inRange_proj (dims_lt hs q' hq') hvr)) ?_
  intro h0
  have : prodAt Q v = 0 := List.prod_eq_zero (List.mem_map.mpr ⟨q', hq', h0.symm⟩)
  rw [this] at hv2
  exact lt_irrefl _ hv2

include hs hK hn hT hT0 hb

omit hT hT0 in
theorem steps_sign : ∀ i v, InRange s v → 0 ≤ steps s Q b i v ∧ (AllPos Q v → 0 < steps s Q b i v)
  | 0, v, hv => ⟨(hb v hv).le, fun _ => hb v hv⟩
  | i + 1, v, hv => by
    have hq := stepQ_mem (Q := Q) (by omega) i
    have hj := inRange_proj (dims_lt hs _ hq) hv
    refine ⟨qscaled_nonneg (dims_lt hs _ hq) (hn _ hq) (fun v hv => (steps_sign i v hv).1) v hv, ?_⟩
    intro hp
    have hm : 0 < marginalSum s (stepQ Q i).1 (steps s Q b i) (proj (stepQ Q i).1 v) :=
      Finset.sum_pos' (fun w hw => (steps_sign i w (mem_cells.mp (Finset.mem_filter.mp hw).1)).1)
        ⟨v, Finset.mem_filter.mpr ⟨mem_cells.mpr hv, rfl⟩, (steps_sign i v hv).2 hp⟩
    rw [steps, qscaled, if_neg hm.ne']
    exact mul_pos ((steps_sign i v hv).2 hp) (div_pos (hp _ hq) hm)

theorem steps_margin_pos (i : Nat) {q : List Nat × (List Int → ℚ)} (hq : q ∈ Q) {j : List Int} (hj : InRange (projSizes q.1 s) j)
    (hp : 0 < q.2 j) : 0 < marginalSum s q.1 (steps s Q b i) j := by
  obtain ⟨v, h1, h2, h3⟩ := live_cell hs hn hT hT0 hq hj hp
  have hsg := fun v hv => steps_sign hs hK hn hb i v hv
  exact Finset.sum_pos' (fun w hw => (hsg w (mem_cells.mp (Finset.mem_filter.mp hw).1)).1)
    ⟨v, Finset.mem_filter.mpr ⟨mem_cells.mpr h1, h2⟩, (hsg v h1).2 h3⟩

theorem steps_meets (i : Nat) {j : List Int} (hj : InRange (projSizes (stepQ Q i).1 s) j) :
    marginalSum s (stepQ Q i).1 (steps s Q b (i + 1)) j = (stepQ Q i).2 j := by
  have hq := stepQ_mem (Q := Q) (by omega) i
  refine qscaled_meets (fun h0 => ?_)
  by_contra hne
  exact absurd h0 (steps_margin_pos hs hK hn hT hT0 hb i hq hj (lt_of_le_of_ne (hn _ hq j hj) (Ne.symm hne))).ne'

theorem steps_total (i : Nat) : ∑ v ∈ cells s, steps s Q b (i + 1) v = T := by
  have hq := stepQ_mem (Q := Q) (by omega) i
  rw [← hT _ hq, ← Finset.sum_fiberwise_of_maps_to (t := cells (projSizes (stepQ Q i).1 s)) (g := proj (stepQ Q i).1)
    (fun v hv => mem_cells.mpr (inRange_proj (dims_lt hs _ hq) (mem_cells.mp hv)))]
  exact Finset.sum_congr rfl fun j hj => steps_meets hs hK hn hT hT0 hb i (mem_cells.mp hj)

theorem steps_fac (i : Nat) {v : List Int} (hv : InRange s v) :
    steps s Q b (i + 1) v = steps s Q b i v * fac s Q b i (proj (stepQ Q i).1 v) := by
  rw [steps, qscaled, fac]
  split_ifs with h0
  · have := (Finset.sum_eq_zero_iff_of_nonneg (fun w hw => (steps_sign hs hK hn hb i w
      (mem_cells.mp (Finset.mem_filter.mp hw).1)).1)).mp h0 v (Finset.mem_filter.mpr ⟨mem_cells.mpr hv, rfl⟩)
    rw [this]; ring
  · rfl

theorem fac_nonneg (i : Nat) {j : List Int} (hj : InRange (projSizes (stepQ Q i).1 s) j) : 0 ≤ fac s Q b i j := by
  have hq := stepQ_mem (Q := Q) (by omega) i
  unfold fac
  split_ifs
  · exact zero_le_one
  · exact div_nonneg (hn _ hq j hj) (marginalSum_nonneg (fun v hv => (steps_sign hs hK hn hb i v hv).1) j)

/-- the product of the factors of `n` scalings after number `i` -/
def facs (s : List Nat) (Q : Prob ℚ) (b : List Int → ℚ) (i n : Nat) (v : List Int) : ℚ :=
  ∏ u ∈ Finset.range n, fac s Q b (i + 1 + u) (proj (stepQ Q (i + 1 + u)).1 v)

theorem steps_facs (i : Nat) {v : List Int} (hv : InRange s v) : ∀ n, steps s Q b (i + 1 + n) v = steps s Q b (i + 1) v * facs s Q b i n v
  | 0 => by simp [facs]
  | n + 1 => by
    rw [← add_assoc, steps_fac hs hK hn hT hT0 hb _ hv, steps_facs i hv n, facs, facs, Finset.prod_range_succ, mul_assoc]

/-- an empty category stays empty -/
theorem steps_dead (i n : Nat) {v : List Int} (hv : InRange s v) (h0 : (stepQ Q i).2 (proj (stepQ Q i).1 v) = 0) :
    steps s Q b (i + 1 + n) v = 0 := by
  have hq := stepQ_mem (Q := Q) (by omega) i
  have h1 := steps_meets hs hK hn hT hT0 hb i (inRange_proj (dims_lt hs _ hq) hv)
  rw [h0] at h1
  have := (Finset.sum_eq_zero_iff_of_nonneg (fun w hw => (steps_sign hs hK hn hb (i + 1) w
      (mem_cells.mp (Finset.mem_filter.mp hw).1)).1)).mp h1 v (Finset.mem_filter.mpr ⟨mem_cells.mpr hv, rfl⟩)
  rw [steps_facs hs hK hn hT hT0 hb i hv n, this, zero_mul]

theorem fac_dead {i : Nat} {j : List Int} (h0 : (stepQ Q (i + Q.length)).2 j = 0) : fac s Q b (i + Q.length) j = 1 := by
  unfold fac
  rw [if_pos]
  refine Finset.sum_eq_zero fun v hv => ?_
  obtain ⟨h1, rfl⟩ := Finset.mem_filter.mp hv
  rw [stepQ_add] at h0
  have e : i + Q.length = i + 1 + (Q.length - 1) := by omega
  rw [e]
  exact steps_dead hs hK hn hT hT0 hb i _ (mem_cells.mp h1) h0

theorem fac_pos {i : Nat} (hi : Q.length ≤ i) {j : List Int} (hj : InRange (projSizes (stepQ Q i).1 s) j) : 0 < fac s Q b i j := by
  have hq := stepQ_mem (Q := Q) (by omega) i
  obtain ⟨i, rfl⟩ : ∃ k, i = k + Q.length := ⟨i - Q.length, by omega⟩
  rcases eq_or_lt_of_le (hn _ hq j hj) with h0 | h0
  · rw [fac_dead hs hK hn hT hT0 hb h0.symm]; exact one_pos
  · have := steps_margin_pos hs hK hn hT hT0 hb (i + Q.length) hq hj h0
    unfold fac
    rw [if_neg this.ne']
    exact div_pos h0 this

/-! ### Cross-product ratios -/

omit hT hT0 hb in
theorem steps_odds {R : ℚ} {k : Nat} (hk : k < Q.length) (hb : ∀ v, InRange s v → 0 ≤ b v)
    (hR : OddsAtMost R s Q[k].1 (others Q k) b) : ∀ i, (∀ v, InRange s v → 0 ≤ steps s Q b i v) ∧
      OddsAtMost R s Q[k].1 (others Q k) (steps s Q b i)
  | 0 => ⟨hb, hR⟩
  | i + 1 => by
    obtain ⟨h1, h2⟩ := steps_odds hk hb hR i
    have hq := stepQ_mem (Q := Q) (by omega) i
    refine ⟨qscaled_nonneg (dims_lt hs _ hq) (hn _ hq) h1, ?_⟩
    set c : List Int → ℚ := fun j => if marginalSum s (stepQ Q i).1 (steps s Q b i) j = 0 then 0
      else (stepQ Q i).2 j / marginalSum s (stepQ Q i).1 (steps s Q b i) j with hc
    have hst : ∀ v, steps s Q b (i + 1) v = steps s Q b i v * c (proj (stepQ Q i).1 v) := by
      intro v
      rw [steps, qscaled, hc]
      dsimp only
      split_ifs
      · ring
      · rfl
    have hc0 : ∀ j, InRange (projSizes (stepQ Q i).1 s) j → 0 ≤ c j := by
      intro j hj
      rw [hc]
      dsimp only
      split_ifs
      · exact le_rfl
      · exact div_nonneg (hn _ hq j hj) (marginalSum_nonneg h1 j)
    intro v v' w w' hv hv' hw hw' e1 e2 e3 e4
    rw [hst, hst, hst, hst]
    have hcc : c (proj (stepQ Q i).1 v) * c (proj (stepQ Q i).1 v') = c (proj (stepQ Q i).1 w) * c (proj (stepQ Q i).1 w') := by
      by_cases hik : i % Q.length = k
      · have : (stepQ Q i).1 = Q[k].1 := by rw [stepQ_eq (by omega)]; simp [hik]
        rw [this, e1, e3]
      · have hsub := stepQ_others (Q := Q) (by omega) (i := k) (t := i) (by rwa [Nat.mod_eq_of_lt hk])
        rw [Nat.mod_eq_of_lt hk] at hsub
        rw [proj_sub hsub e2, proj_sub hsub e4, mul_comm]
    have h3 := mul_le_mul_of_nonneg_right (h2 v v' w w' hv hv' hw hw' e1 e2 e3 e4)
      (mul_nonneg (hc0 _ (inRange_proj (dims_lt hs _ hq) hv)) (hc0 _ (inRange_proj (dims_lt hs _ hq) hv')))
    calc _ = steps s Q b i v * steps s Q b i v' * (c (proj (stepQ Q i).1 v) * c (proj (stepQ Q i).1 v')) := by ring
      _ ≤ _ := h3
      _ = _ := by rw [hcc]; ring

/-! ### The spread of the factors -/

/-- the factors of scaling number `i` differ by at most a factor `e^L` -/
def Spread (s : List Nat) (Q : Prob ℚ) (b : List Int → ℚ) (i : Nat) (L : ℝ) : Prop :=
  ∀ j j', InRange (projSizes (stepQ Q i).1 s) j → InRange (projSizes (stepQ Q i).1 s) j' →
    (fac s Q b i j : ℝ) ≤ Real.exp L * fac s Q b i j'

omit hs hK hn hT hT0 hb in
theorem facs_congr (hK : 0 < Q.length) {i n : Nat} (hnK : n < Q.length) {v w : List Int}
    (he : proj (others Q (i % Q.length)) v = proj (others Q (i % Q.length)) w) : facs s Q b i n v = facs s Q b i n w := by
  refine Finset.prod_congr rfl fun u hu => ?_
  have hu' := Finset.mem_range.mp hu
  rw [proj_sub (stepQ_others hK (mod_ne (K := Q.length) (by omega))) he]

/-- enough to look at the categories that are not empty -/
theorem spread_of_live {i : Nat} {L : ℝ} (hL : 0 ≤ L) (h : ∀ j j', InRange (projSizes (stepQ Q i).1 s) j → InRange (projSizes (stepQ Q i).1 s) j' →
    0 < (stepQ Q i).2 j → 0 < (stepQ Q i).2 j' → (fac s Q b (i + Q.length) j : ℝ) ≤ Real.exp L * fac s Q b (i + Q.length) j') :
    Spread s Q b (i + Q.length) L ∧ ∀ j, InRange (projSizes (stepQ Q i).1 s) j →
      (fac s Q b (i + Q.length) j : ℝ) ≤ Real.exp L ∧ 1 ≤ Real.exp L * fac s Q b (i + Q.length) j := by
  have hq := stepQ_mem (Q := Q) (by omega) i
  set f := fac s Q b (i + Q.length) with hf
  set y := steps s Q b (i + Q.length) with hy
  set q := stepQ Q i with hqd
  have hE : 1 ≤ Real.exp L := Real.one_le_exp hL
  have hdead : ∀ j, q.2 j = 0 → f j = 1 := fun j h0 => fac_dead hs hK hn hT hT0 hb (by rw [stepQ_add]; exact h0)
  have hprod : ∀ j, InRange (projSizes q.1 s) j → f j * marginalSum s q.1 y j = q.2 j := by
    intro j hj
    rcases eq_or_lt_of_le (hn _ hq j hj) with h0 | h0
    · have hz : marginalSum s q.1 y j = 0 := by
        refine Finset.sum_eq_zero fun v hv => ?_
        obtain ⟨h1, h2⟩ := Finset.mem_filter.mp hv
        have e : i + Q.length = i + 1 + (Q.length - 1) := by omega
        rw [hy, e]
        exact steps_dead hs hK hn hT hT0 hb i _ (mem_cells.mp h1) (by rw [← hqd, h2, h0])
      rw [hz, mul_zero, ← h0]
    · have := steps_margin_pos hs hK hn hT hT0 hb (i + Q.length) hq hj h0
      rw [hf]
      unfold fac
      rw [stepQ_add, ← hqd, ← hy, if_neg this.ne', div_mul_cancel₀ _ this.ne']
  have hy0 : ∀ j, 0 ≤ marginalSum s q.1 y j := fun j =>
    marginalSum_nonneg (fun v hv => (steps_sign hs hK hn hb (i + Q.length) v hv).1) j
  have htot : ∑ j ∈ cells (projSizes q.1 s), marginalSum s q.1 y j = T := by
    have e : i + Q.length = (i + Q.length - 1) + 1 := by omega
    have h1 := steps_total hs hK hn hT hT0 hb (i + Q.length - 1)
    rw [← e] at h1
    rw [← h1]
    exact (Finset.sum_fiberwise_of_maps_to (fun v hv => mem_cells.mpr (inRange_proj (dims_lt hs _ hq) (mem_cells.mp hv))) y)
  have hT' : (0 : ℝ) < T := by exact_mod_cast hT0
  have htotR : ∑ j ∈ cells (projSizes q.1 s), ((marginalSum s q.1 y j : ℚ) : ℝ) = T := by exact_mod_cast htot
  have hsumR : ∑ j ∈ cells (projSizes q.1 s), (q.2 j : ℝ) = T := by exact_mod_cast hT q hq
  have hprodR : ∀ j, InRange (projSizes q.1 s) j → (f j : ℝ) * ((marginalSum s q.1 y j : ℚ) : ℝ) = q.2 j := fun j hj => by exact_mod_cast hprod j hj
  -- a category with nothing in it has no weight
  have hw0 : ∀ j, InRange (projSizes q.1 s) j → q.2 j = 0 → ((marginalSum s q.1 y j : ℚ) : ℝ) = 0 := by
    intro j hj h0
    have := hprodR j hj
    rw [hdead j h0, h0] at this
    simpa using this
  have near : ∀ j, InRange (projSizes q.1 s) j → (f j : ℝ) ≤ Real.exp L ∧ 1 ≤ Real.exp L * f j := by
    intro j hj
    rcases eq_or_lt_of_le (hn _ hq j hj) with h0 | h0
    · rw [hdead j h0.symm]
      simp only [Rat.cast_one, mul_one]
      exact ⟨hE, hE⟩
    · constructor
      · refine le_of_mul_le_mul_right ?_ hT'
        calc (f j : ℝ) * T = ∑ j' ∈ cells (projSizes q.1 s), (f j : ℝ) * ((marginalSum s q.1 y j' : ℚ) : ℝ) := by rw [← Finset.mul_sum, htotR]
          _ ≤ ∑ j' ∈ cells (projSizes q.1 s), Real.exp L * (q.2 j' : ℝ) := by
            refine Finset.sum_le_sum fun j' hj' => ?_
            have hj' := mem_cells.mp hj'
            rcases eq_or_lt_of_le (hn _ hq j' hj') with h0' | h0'
            · rw [hw0 j' hj' h0'.symm, ← h0']; simp
            · have hy' : (0 : ℝ) ≤ ((marginalSum s q.1 y j' : ℚ) : ℝ) := by exact_mod_cast hy0 j'
              have := mul_le_mul_of_nonneg_right (h j j' hj hj' h0 h0') hy'
              rwa [mul_assoc, hprodR j' hj'] at this
          _ = Real.exp L * T := by rw [← Finset.mul_sum, hsumR]
      · refine le_of_mul_le_mul_right ?_ hT'
        calc 1 * (T : ℝ) = ∑ j' ∈ cells (projSizes q.1 s), (q.2 j' : ℝ) := by rw [one_mul, hsumR]
          _ ≤ ∑ j' ∈ cells (projSizes q.1 s), Real.exp L * f j * ((marginalSum s q.1 y j' : ℚ) : ℝ) := by
            refine Finset.sum_le_sum fun j' hj' => ?_
            have hj' := mem_cells.mp hj'
            rcases eq_or_lt_of_le (hn _ hq j' hj') with h0' | h0'
            · rw [hw0 j' hj' h0'.symm, ← h0']; simp
            · have hy' : (0 : ℝ) ≤ ((marginalSum s q.1 y j' : ℚ) : ℝ) := by exact_mod_cast hy0 j'
              have := mul_le_mul_of_nonneg_right (h j' j hj' hj h0' h0) hy'
              rwa [hprodR j' hj'] at this
          _ = Real.exp L * f j * T := by rw [← Finset.mul_sum, htotR]
  refine ⟨?_, near⟩
  intro j j' hj hj'
  rw [stepQ_add] at hj hj'
  rcases eq_or_lt_of_le (hn _ hq j hj) with h0 | h0
  · have : fac s Q b (i + Q.length) j = 1 := hdead j h0.symm
    rw [this, Rat.cast_one]
    exact (near j' hj').2
  · rcases eq_or_lt_of_le (hn _ hq j' hj') with h0' | h0'
    · have : fac s Q b (i + Q.length) j' = 1 := hdead j' h0'.symm
      rw [this, Rat.cast_one, mul_one]
      exact (near j hj).1
    · exact h j j' hj hj' h0 h0'

/-- the margin before a marginal is scaled again -/
theorem margin_again (i : Nat) {j : List Int} (hj : InRange (projSizes (stepQ Q i).1 s) j) :
    marginalSum s (stepQ Q i).1 (steps s Q b (i + Q.length)) j =
      ∑ w ∈ cells (projSizes (others Q (i % Q.length)) s),
        steps s Q b (i + 1) (glue s (stepQ Q i).1 (others Q (i % Q.length)) j w) *
          facs s Q b i (Q.length - 1) (glue s (stepQ Q i).1 (others Q (i % Q.length)) j w) := by
  have hk : i % Q.length < Q.length := Nat.mod_lt _ (by omega)
  have h2 := two_others hs hk
  have eq := stepQ_eq (Q := Q) (by omega) i
  rw [← eq] at h2
  rw [h2.rowSum _ hj]
  refine Finset.sum_congr rfl fun w hw => ?_
  have e : i + Q.length = i + 1 + (Q.length - 1) := by omega
  rw [e]
  exact steps_facs hs hK hn hT hT0 hb i (h2.glue_inRange hj (mem_cells.mp hw)) _

section contraction
variable {ρ : ℚ} (hρ : 1 ≤ ρ) (hR : ∀ k (hk : k < Q.length), OddsAtMost (ρ ^ 2) s Q[k].1 (others Q k) b)
include hρ hR

/-- the factors of a scaling and those of the same marginal one iteration later -/
theorem fac_ratio (i : Nat) {j j' : List Int} (hj : InRange (projSizes (stepQ Q i).1 s) j) (hj' : InRange (projSizes (stepQ Q i).1 s) j')
    (h0 : 0 < (stepQ Q i).2 j) (h0' : 0 < (stepQ Q i).2 j') :
    ((fac s Q b (i + Q.length) j : ℚ) : ℝ) ≤ ((ρ ^ 2 : ℚ) : ℝ) * fac s Q b (i + Q.length) j' ∧
    ∀ L : ℝ, (∀ v, InRange s v → 0 < facs s Q b i (Q.length - 1) v) →
      (∀ v w, InRange s v → InRange s w →
        ((facs s Q b i (Q.length - 1) v : ℚ) : ℝ) ≤ Real.exp L * facs s Q b i (Q.length - 1) w) →
      ((fac s Q b (i + Q.length) j : ℚ) : ℝ) ≤ Real.exp (((ρ : ℝ) - 1) / (ρ + 1) * L) * fac s Q b (i + Q.length) j' := by
  have hq := stepQ_mem (Q := Q) (by omega) i
  have hk : i % Q.length < Q.length := Nat.mod_lt _ (by omega)
  have h2 := two_others hs hk
  have eq := stepQ_eq (Q := Q) (by omega) i
  have hodds := (steps_odds hs hK hn hk (fun v hv => (hb v hv).le) (hR _ hk) (i + 1)).2
  rw [← eq] at h2 hodds
  set O := others Q (i % Q.length) with hO
  set d := (stepQ Q i).1 with hd
  set W := cells (projSizes O s) with hW
  set y := steps s Q b (i + 1) with hy
  set G := facs s Q b i (Q.length - 1) with hG
  have hy0 : ∀ v, InRange s v → 0 ≤ y v := fun v hv => (steps_sign hs hK hn hb (i + 1) v hv).1
  have hGg : ∀ w ∈ W, G (glue s d O j' w) = G (glue s d O j w) := by
    intro w hw
    refine facs_congr (by omega) (by omega) ?_
    rw [← hO, (h2.proj_app hj' (mem_cells.mp hw)).2, (h2.proj_app hj (mem_cells.mp hw)).2]
  -- sums
  have s1 : ∑ w ∈ W, y (glue s d O j w) = (stepQ Q i).2 j := by
    rw [← h2.rowSum y hj]; exact steps_meets hs hK hn hT hT0 hb i hj
  have s2 : ∑ w ∈ W, y (glue s d O j' w) = (stepQ Q i).2 j' := by
    rw [← h2.rowSum y hj']; exact steps_meets hs hK hn hT hT0 hb i hj'
  have s3 := margin_again hs hK hn hT hT0 hb i hj
  have s4 : marginalSum s d (steps s Q b (i + Q.length)) j' = ∑ w ∈ W, y (glue s d O j' w) * G (glue s d O j w) := by
    rw [margin_again hs hK hn hT hT0 hb i hj']
    exact Finset.sum_congr rfl (fun w hw => by rw [← hGg w hw])
  have p3 := steps_margin_pos hs hK hn hT hT0 hb (i + Q.length) hq hj h0
  have p4 := steps_margin_pos hs hK hn hT hT0 hb (i + Q.length) hq hj' h0'
  have f3 : fac s Q b (i + Q.length) j = (stepQ Q i).2 j / marginalSum s d (steps s Q b (i + Q.length)) j := by
    unfold fac; rw [stepQ_add, if_neg p3.ne']
  have f4 : fac s Q b (i + Q.length) j' = (stepQ Q i).2 j' / marginalSum s d (steps s Q b (i + Q.length)) j' := by
    unfold fac; rw [stepQ_add, if_neg p4.ne']
  rw [f3, f4]
  set A := marginalSum s d (steps s Q b (i + Q.length)) j with hA
  set B := marginalSum s d (steps s Q b (i + Q.length)) j' with hB
  set μ : List Int → ℝ := fun w => ((y (glue s d O j' w) : ℚ) : ℝ)
  set ν : List Int → ℝ := fun w => ((y (glue s d O j w) : ℚ) : ℝ)
  set GR : List Int → ℝ := fun w => ((G (glue s d O j w) : ℚ) : ℝ)
  have r1 : ∑ w ∈ W, ν w = (((stepQ Q i).2 j : ℚ) : ℝ) := by rw [← s1]; push_cast; rfl
  have r2 : ∑ w ∈ W, μ w = (((stepQ Q i).2 j' : ℚ) : ℝ) := by rw [← s2]; push_cast; rfl
  have r3 : ∑ w ∈ W, ν w * GR w = ((A : ℚ) : ℝ) := by rw [s3]; push_cast; rfl
  have r4 : ∑ w ∈ W, μ w * GR w = ((B : ℚ) : ℝ) := by rw [s4]; push_cast; rfl
  have hμ : ∀ w ∈ W, 0 ≤ μ w := fun w hw => by
    exact Rat.cast_nonneg.mpr (hy0 _ (h2.glue_inRange hj' (mem_cells.mp hw)))
  have hν : ∀ w ∈ W, 0 ≤ ν w := fun w hw => by
    exact Rat.cast_nonneg.mpr (hy0 _ (h2.glue_inRange hj (mem_cells.mp hw)))
  have hc : ∀ w ∈ W, ∀ w' ∈ W, μ w * ν w' ≤ (ρ : ℝ) ^ 2 * (μ w' * ν w) := by
    intro w hw w' hw'
    have hw := mem_cells.mp hw
    have hw' := mem_cells.mp hw'
    have := hodds (glue s d O j' w) (glue s d O j w') (glue s d O j' w') (glue s d O j w)
      (h2.glue_inRange hj' hw) (h2.glue_inRange hj hw') (h2.glue_inRange hj' hw') (h2.glue_inRange hj hw)
      ((h2.proj_app hj' hw').1.trans (h2.proj_app hj' hw).1.symm) ((h2.proj_app hj' hw').2.trans (h2.proj_app hj hw').2.symm)
      ((h2.proj_app hj hw).1.trans (h2.proj_app hj hw').1.symm) ((h2.proj_app hj hw).2.trans (h2.proj_app hj' hw).2.symm)
    simp only [μ, ν]
    exact_mod_cast this
  have A0 : (0 : ℝ) < ((A : ℚ) : ℝ) := by exact_mod_cast p3
  have B0 : (0 : ℝ) < ((B : ℚ) : ℝ) := by exact_mod_cast p4
  have m0 : (0 : ℝ) < (((stepQ Q i).2 j : ℚ) : ℝ) := by exact_mod_cast h0
  have m0' : (0 : ℝ) < (((stepQ Q i).2 j' : ℚ) : ℝ) := by exact_mod_cast h0'
  have fin : ∀ c : ℝ, (∑ w ∈ W, μ w * GR w) * (∑ w ∈ W, ν w) ≤ c * ((∑ w ∈ W, ν w * GR w) * (∑ w ∈ W, μ w)) →
      (((stepQ Q i).2 j / A : ℚ) : ℝ) ≤ c * (((stepQ Q i).2 j' / B : ℚ) : ℝ) := by
    intro c h
    rw [r1, r2, r3, r4] at h
    push_cast
    rw [← mul_div_assoc, div_le_div_iff₀ A0 B0]
    linarith
  constructor
  · refine fin _ ?_
    have := mean_ratio_le (S := W) (μ := μ) (ν := ν) (ρ := (ρ : ℝ)) hc (G := GR) (fun w hw => by
      have h5 : 0 ≤ G (glue s d O j w) := Finset.prod_nonneg (fun u _ => fac_nonneg hs hK hn hT hT0 hb _
        (inRange_proj (dims_lt hs _ (stepQ_mem (by omega) _)) (h2.glue_inRange hj (mem_cells.mp hw))))
      exact Rat.cast_nonneg.mpr h5)
    push_cast
    exact this
  · intro L hG0 hGL
    refine fin _ (mean_ratio (by exact_mod_cast hρ) hμ hν (by rw [r2]; exact m0') (by rw [r1]; exact m0) hc ?_ ?_)
    · intro w hw
      exact Rat.cast_pos.mpr (hG0 _ (h2.glue_inRange hj (mem_cells.mp hw)))
    · intro w hw w' hw'
      exact hGL _ _ (h2.glue_inRange hj (mem_cells.mp hw)) (h2.glue_inRange hj (mem_cells.mp hw'))

/-- the bound on the logarithm of the spread of scaling number `t` -/
noncomputable def bound (K : Nat) (ρ : ℚ) (t : Nat) : ℝ :=
  ((K - 1 : Nat) * (((ρ : ℝ) - 1) / (ρ + 1))) ^ ((t - K) / (K - 1)) * (2 * Real.log ρ)

variable (hlam : ((Q.length - 1 : Nat) : ℚ) * ((ρ - 1) / (ρ + 1)) ≤ 1)
include hlam

omit hs hK hn hT hT0 hb hR in
theorem bound_nonneg (t : Nat) : 0 ≤ bound Q.length ρ t := by
  have h1 : (1 : ℝ) ≤ ρ := by exact_mod_cast hρ
  unfold bound
  have h2 := Real.log_nonneg h1
  have h3 : 0 ≤ ((ρ : ℝ) - 1) / (ρ + 1) := div_nonneg (by linarith) (by linarith)
  positivity

omit hs hK hn hT hT0 hb hR in
theorem bound_anti {t' e : Nat} (ht : e ≤ (t' - Q.length) / (Q.length - 1)) :
    bound Q.length ρ t' ≤ ((Q.length - 1 : Nat) * (((ρ : ℝ) - 1) / (ρ + 1))) ^ e * (2 * Real.log ρ) := by
  have h1 : (1 : ℝ) ≤ ρ := by exact_mod_cast hρ
  have h2 := Real.log_nonneg h1
  have h3 : 0 ≤ ((ρ : ℝ) - 1) / (ρ + 1) := div_nonneg (by linarith) (by linarith)
  have h4 : ((Q.length - 1 : Nat) : ℝ) * (((ρ : ℝ) - 1) / (ρ + 1)) ≤ 1 := by exact_mod_cast hlam
  unfold bound
  exact mul_le_mul_of_nonneg_right (pow_le_pow_of_le_one (by positivity) h4 ht) (by positivity)

theorem spread_bound : ∀ t, Q.length ≤ t → Spread s Q b t (bound Q.length ρ t) ∧
    ∀ j, InRange (projSizes (stepQ Q t).1 s) j →
      ((fac s Q b t j : ℚ) : ℝ) ≤ Real.exp (bound Q.length ρ t) ∧ 1 ≤ Real.exp (bound Q.length ρ t) * fac s Q b t j := by
  intro t
  induction t using Nat.strong_induction_on with
  | _ t ih =>
    intro ht
    obtain ⟨i, rfl⟩ : ∃ k, t = k + Q.length := ⟨t - Q.length, by omega⟩
    have h1 : (1 : ℝ) ≤ ρ := by exact_mod_cast hρ
    have hb0 := bound_nonneg (Q := Q) hρ hlam
    rw [stepQ_add]
    refine spread_of_live hs hK hn hT hT0 hb (hb0 _) ?_
    intro j j' hj hj' h0 h0'
    obtain ⟨c1, c2⟩ := fac_ratio hs hK hn hT hT0 hb hρ hR i hj hj' h0 h0'
    by_cases hi : i + 1 < Q.length
    · have e : bound Q.length ρ (i + Q.length) = 2 * Real.log ρ := by
        unfold bound
        rw [Nat.add_sub_cancel, Nat.div_eq_of_lt (by omega), pow_zero, one_mul]
      rw [e, two_mul, Real.exp_add, Real.exp_log (by linarith)]
      push_cast at c1
      rwa [pow_two] at c1
    · have hqt : ∀ u, stepQ Q (i + 1 + u) ∈ Q := fun u => stepQ_mem (by omega) _
      have c3 := c2 (∑ u ∈ Finset.range (Q.length - 1), bound Q.length ρ (i + 1 + u))
        (fun v hv => Finset.prod_pos (fun u _ => fac_pos hs hK hn hT hT0 hb (by omega)
          (inRange_proj (dims_lt hs _ (hqt u)) hv))) (by
        intro v w hv hw
        unfold facs
        push_cast
        rw [Real.exp_sum, ← Finset.prod_mul_distrib]
        refine Finset.prod_le_prod (fun u _ => ?_) (fun u hu => ?_)
        · have := (fac_pos hs hK hn hT hT0 hb (i := i + 1 + u) (by omega) (inRange_proj (dims_lt hs _ (hqt u)) hv)).le
          exact_mod_cast this
        · have hu := Finset.mem_range.mp hu
          exact (ih (i + 1 + u) (by omega) (by omega)).1 _ _ (inRange_proj (dims_lt hs _ (hqt u)) hv)
            (inRange_proj (dims_lt hs _ (hqt u)) hw))
      refine c3.trans (mul_le_mul_of_nonneg_right (Real.exp_le_exp.mpr ?_) ?_)
      · have h3 : 0 ≤ ((ρ : ℝ) - 1) / (ρ + 1) := div_nonneg (by linarith) (by linarith)
        have hpos : 0 < Q.length - 1 := by omega
        have hdiv : 1 ≤ i / (Q.length - 1) := (Nat.le_div_iff_mul_le hpos).mpr (by omega)
        have h4 : ∀ u ∈ Finset.range (Q.length - 1), bound Q.length ρ (i + 1 + u) ≤
            ((Q.length - 1 : Nat) * (((ρ : ℝ) - 1) / (ρ + 1))) ^ (i / (Q.length - 1) - 1) * (2 * Real.log ρ) := by
          intro u _
          refine bound_anti hρ hlam ?_
          have e1 : i / (Q.length - 1) - 1 = (i - (Q.length - 1)) / (Q.length - 1) := by
            have := Nat.sub_mul_div i (Q.length - 1) 1
            rw [mul_one] at this
            exact this.symm
          rw [e1]
          exact Nat.div_le_div_right (by omega)
        have h5 := Finset.sum_le_card_nsmul _ _ _ h4
        rw [Finset.card_range, nsmul_eq_mul] at h5
        have h6 := mul_le_mul_of_nonneg_left h5 h3
        refine h6.trans (le_of_eq ?_)
        unfold bound
        rw [Nat.add_sub_cancel]
        obtain ⟨m, hm⟩ : ∃ m, i / (Q.length - 1) = m + 1 := ⟨i / (Q.length - 1) - 1, by omega⟩
        rw [hm, Nat.add_sub_cancel, pow_succ]
        ring
      · have := (fac_pos hs hK hn hT hT0 hb (i := i + Q.length) (by omega) (j := j') (by rw [stepQ_add]; exact hj')).le
        exact_mod_cast this

/-- the marginals after `n + 2` iterations -/
theorem many_error (n : Nat) {q : List Nat × (List Int → ℚ)} (hq : q ∈ Q) {j : List Int} (hj : InRange (projSizes q.1 s) j) :
    |((marginalSum s q.1 ((qsweep s Q)^[n + 2] b) j - q.2 j : ℚ) : ℝ)| ≤
      T * (Real.exp ((Q.length - 1 : Nat) * (((Q.length - 1 : Nat) * (((ρ : ℝ) - 1) / (ρ + 1))) ^ ((n * Q.length + 1) / (Q.length - 1)) *
        (2 * Real.log ρ))) - 1) := by
  obtain ⟨k, hk, rfl⟩ := List.getElem_of_mem hq
  set i := (n + 1) * Q.length + k with hi
  have hmod : i % Q.length = k := by rw [hi, Nat.mul_add_mod', Nat.mod_eq_of_lt hk]
  have eq : stepQ Q i = Q[k] := by rw [stepQ_eq (by omega)]; simp [hmod]
  rw [← eq] at hj ⊢
  have hexp : (n + 2) * Q.length = i + 1 + (Q.length - 1 - k) := by
    have : (n + 2) * Q.length = (n + 1) * Q.length + Q.length := by ring
    omega
  rw [← steps_sweep, hexp]
  set N := Q.length - 1 - k with hN
  set δ := ((Q.length - 1 : Nat) * (((ρ : ℝ) - 1) / (ρ + 1))) ^ ((n * Q.length + 1) / (Q.length - 1)) * (2 * Real.log ρ) with hδ
  have h1 : (1 : ℝ) ≤ ρ := by exact_mod_cast hρ
  have hδ0 : 0 ≤ δ := by
    have h2 := Real.log_nonneg h1
    have h3 : 0 ≤ ((ρ : ℝ) - 1) / (ρ + 1) := div_nonneg (by linarith) (by linarith)
    rw [hδ]; positivity
  set X := (Q.length - 1 : Nat) * δ with hX
  have hX0 : 0 ≤ X := by rw [hX]; positivity
  have hNX : (N : ℝ) * δ ≤ X := by
    rw [hX]
    refine mul_le_mul_of_nonneg_right ?_ hδ0
    exact_mod_cast (by omega : N ≤ Q.length - 1)
  have hfac : ∀ u ∈ Finset.range N, ∀ v, InRange s v →
      ((fac s Q b (i + 1 + u) (proj (stepQ Q (i + 1 + u)).1 v) : ℚ) : ℝ) ≤ Real.exp δ ∧
      Real.exp (-δ) ≤ fac s Q b (i + 1 + u) (proj (stepQ Q (i + 1 + u)).1 v) := by
    intro u _ v hv
    have hge : Q.length ≤ i + 1 + u := by
      have : (n + 1) * Q.length = n * Q.length + Q.length := by ring
      omega
    have hb1 := (spread_bound hs hK hn hT hT0 hb hρ hR hlam (i + 1 + u) hge).2 _
      (inRange_proj (dims_lt hs _ (stepQ_mem (by omega) _)) hv)
    have hle : bound Q.length ρ (i + 1 + u) ≤ δ := by
      refine bound_anti hρ hlam (Nat.div_le_div_right ?_)
      have : (n + 1) * Q.length = n * Q.length + Q.length := by ring
      omega
    have hle' := Real.exp_le_exp.mpr hle
    refine ⟨hb1.1.trans hle', ?_⟩
    rw [Real.exp_neg, inv_le_iff_one_le_mul₀ (Real.exp_pos _), mul_comm]
    refine hb1.2.trans (mul_le_mul_of_nonneg_right hle' ?_)
    have := (fac_pos hs hK hn hT hT0 hb hge (inRange_proj (dims_lt hs _ (stepQ_mem (by omega) _)) hv)).le
    exact_mod_cast this
  have hfacs : ∀ v, InRange s v → ((facs s Q b i N v : ℚ) : ℝ) ≤ Real.exp X ∧ Real.exp (-X) ≤ facs s Q b i N v := by
    intro v hv
    unfold facs
    push_cast
    constructor
    · have := Finset.prod_le_prod (s := Finset.range N) (fun u hu => (Real.exp_pos _).le.trans (hfac u hu v hv).2)
        (fun u hu => (hfac u hu v hv).1)
      refine this.trans ?_
      rw [Finset.prod_const, Finset.card_range, ← Real.exp_nat_mul]
      exact Real.exp_le_exp.mpr hNX
    · have := Finset.prod_le_prod (s := Finset.range N) (fun u _ => (Real.exp_pos (-δ)).le) (fun u hu => (hfac u hu v hv).2)
      refine le_trans ?_ this
      rw [Finset.prod_const, Finset.card_range, ← Real.exp_nat_mul]
      exact Real.exp_le_exp.mpr (by linarith)
  set m : ℝ := (((stepQ Q i).2 j : ℚ) : ℝ) with hm
  have hsq := stepQ_mem (Q := Q) (by omega) i
  have hm0 : 0 ≤ m := by have := hn _ hsq j hj; rw [hm]; exact_mod_cast this
  have hmT : m ≤ T := by
    have h4 : (stepQ Q i).2 j ≤ T := by
      rw [← hT _ hsq]
      exact Finset.single_le_sum (f := (stepQ Q i).2) (fun j hj => hn _ hsq j (mem_cells.mp hj)) (mem_cells.mpr hj)
    rw [hm]; exact_mod_cast h4
  have hsum : ∑ v ∈ (cells s).filter (fun v => proj (stepQ Q i).1 v = j), ((steps s Q b (i + 1) v : ℚ) : ℝ) = m := by
    have := steps_meets hs hK hn hT hT0 hb i hj
    rw [hm, ← this]
    unfold marginalSum
    push_cast
    rfl
  have hmar : ((marginalSum s (stepQ Q i).1 (steps s Q b (i + 1 + N)) j : ℚ) : ℝ) =
      ∑ v ∈ (cells s).filter (fun v => proj (stepQ Q i).1 v = j), ((steps s Q b (i + 1) v : ℚ) : ℝ) * ((facs s Q b i N v : ℚ) : ℝ) := by
    unfold marginalSum
    push_cast
    refine Finset.sum_congr rfl fun v hv => ?_
    rw [steps_facs hs hK hn hT hT0 hb i (mem_cells.mp (Finset.mem_filter.mp hv).1) N]
    push_cast
    rfl
  have hst0 : ∀ v ∈ (cells s).filter (fun v => proj (stepQ Q i).1 v = j), (0 : ℝ) ≤ ((steps s Q b (i + 1) v : ℚ) : ℝ) := by
    intro v hv
    have := (steps_sign hs hK hn hb (i + 1) v (mem_cells.mp (Finset.mem_filter.mp hv).1)).1
    exact_mod_cast this
  have hup : ((marginalSum s (stepQ Q i).1 (steps s Q b (i + 1 + N)) j : ℚ) : ℝ) ≤ m * Real.exp X := by
    rw [hmar, ← hsum, Finset.sum_mul]
    exact Finset.sum_le_sum fun v hv => mul_le_mul_of_nonneg_left (hfacs v (mem_cells.mp (Finset.mem_filter.mp hv).1)).1 (hst0 v hv)
  have hlow : m * Real.exp (-X) ≤ ((marginalSum s (stepQ Q i).1 (steps s Q b (i + 1 + N)) j : ℚ) : ℝ) := by
    rw [hmar, ← hsum, Finset.sum_mul]
    exact Finset.sum_le_sum fun v hv => mul_le_mul_of_nonneg_left (hfacs v (mem_cells.mp (Finset.mem_filter.mp hv).1)).2 (hst0 v hv)
  have hE1 : 1 ≤ Real.exp X := Real.one_le_exp hX0
  have hE2 : 2 - Real.exp X ≤ Real.exp (-X) := by
    have := Real.add_one_le_exp (-X)
    have h6 : Real.exp X * Real.exp (-X) = 1 := by rw [← Real.exp_add]; simp
    nlinarith [Real.exp_pos (-X)]
  push_cast
  rw [abs_le]
  have hmE : m * (Real.exp X - 1) ≤ T * (Real.exp X - 1) := mul_le_mul_of_nonneg_right hmT (by linarith)
  have hmE2 := mul_le_mul_of_nonneg_left hE2 hm0
  constructor <;> linarith

end contraction

end run

end HL.Rate

import Verif.Proof.IPFDecomp
import Verif.Proof.IPFRateRound

/-
C101 in rounded arithmetic.
-/

namespace HL
open Micro Integerise Rate
variable {fp : FP}

/-- scaling two tables that are a few roundings apart -/
theorem qscaled_rel {s ds : List Nat} {m Y b : List Int → ℚ} {k : Nat} (hd : ∀ d ∈ ds, d < s.length)
    (hm : ∀ j, InRange (projSizes ds s) j → 0 ≤ m j) (hb : ∀ v, InRange s v → 0 ≤ b v) (h : ∀ v, InRange s v → Rel k (Y v) (b v))
    {v : List Int} (hv : InRange s v) : Rel (2 * k) (qscaled s ds m Y v) (qscaled s ds m b v) := by
  have hY : ∀ v, InRange s v → 0 ≤ Y v := fun v hv => (h v hv).nonneg (hb v hv)
  have hS : Rel k (marginalSum s ds Y (proj ds v)) (marginalSum s ds b (proj ds v)) :=
    HL.Rel.sum (fun w hw => h w (mem_cells.mp (Finset.mem_filter.mp hw).1))
  have hS0 : 0 ≤ marginalSum s ds b (proj ds v) := marginalSum_nonneg hb _
  have hS0' : 0 ≤ marginalSum s ds Y (proj ds v) := marginalSum_nonneg hY _
  unfold qscaled
  by_cases h0 : marginalSum s ds b (proj ds v) = 0
  · rw [if_pos h0, if_pos ((hS.zero_iff hS0).mpr h0)]
    simp [Rel]
  · have h0' : marginalSum s ds Y (proj ds v) ≠ 0 := fun hc => h0 ((hS.zero_iff hS0).mp hc)
    rw [if_neg h0, if_neg h0', two_mul]
    have hm0 := hm _ (inRange_proj hd hv)
    have h1 := (Rel.refl (m (proj ds v))).div hS hm0 hm0 (lt_of_le_of_ne hS0' (Ne.symm h0')) (lt_of_le_of_ne hS0 (Ne.symm h0))
    rw [zero_add] at h1
    exact (h v hv).mul h1 (hY v hv) (hb v hv) (div_nonneg hm0 hS0') (div_nonneg hm0 hS0)

theorem weightOn_le {s : List Nat} {p : List Nat × (List Int → ℚ)} (hnn : ∀ j, InRange (projSizes p.1 s) j → 0 ≤ p.2 j)
    (S : List Nat) (v : List Int) : weightOn s p S v ≤ ∑ j ∈ cells (projSizes p.1 s), p.2 j :=
  Finset.sum_le_sum_of_subset_of_nonneg (Finset.filter_subset _ _) (fun j hj _ => hnn j (mem_cells.mp hj))

theorem le_weightOn {s : List Nat} {p : List Nat × (List Int → ℚ)} (hp : ∀ d ∈ p.1, d < s.length)
    (hnn : ∀ j, InRange (projSizes p.1 s) j → 0 ≤ p.2 j) (S : List Nat) {v : List Int} (hv : InRange s v) :
    p.2 (proj p.1 v) ≤ weightOn s p S v := by
  unfold weightOn
  refine Finset.single_le_sum (f := p.2) (fun j hj => hnn j (mem_cells.mp (Finset.mem_filter.mp hj).1)) ?_
  refine Finset.mem_filter.mpr ⟨mem_cells.mpr (inRange_proj hp hv), fun a ha _ => ?_⟩
  simp [proj, List.getD_eq_getElem?_getD, ha]

/-- the table of the chain rule is zero or not too small -/
theorem chain_lower {s : List Nat} {T : ℚ} (hT : 1 ≤ T) {v : List Int} (hv : InRange s v) : ∀ {L : Prob ℚ} {seen : List Nat}, Whole s L T →
    (∀ q ∈ L, ∀ d ∈ q.1, d < s.length) → chainAt s seen L v = 0 ∨ 1 / T ^ L.length ≤ chainAt s seen L v
  | [], _, _, _ => by simp [chainAt]
  | p :: L, seen, h, hd => by
    have ih := chain_lower hT hv (L := L) (seen := seen ++ p.1) ⟨fun q hq => h.ent q (by simp [hq]), fun q hq => h.tot q (by simp [hq])⟩
      (fun q hq => hd q (by simp [hq]))
    have hj := inRange_proj (hd p (by simp)) hv
    simp only [chainAt]
    rcases h.ent p (by simp) _ hj with h0 | h1
    · left; rw [h0]; simp
    · rcases ih with ih | ih
      · left; rw [ih, mul_zero]
      · right
        have hnn : ∀ j, InRange (projSizes p.1 s) j → 0 ≤ p.2 j := fun j hj => h.nonneg (by simp) hj
        have hW1 := le_weightOn (hd p (by simp)) hnn (p.1.filter (fun d => d ∈ seen)) hv
        have hW2 := weightOn_le hnn (p.1.filter (fun d => d ∈ seen)) v
        rw [h.tot p (by simp)] at hW2
        have hW0 : 0 < weightOn s p (p.1.filter (fun d => d ∈ seen)) v := by linarith
        rw [List.length_cons, pow_succ', ← one_div_mul_one_div]
        refine mul_le_mul ?_ ih (by positivity) (by positivity)
        exact div_le_div₀ (by linarith) h1 hW0 hW2

theorem cnt_le {s : List Nat} (A : Finset ℕ) : cnt s A ≤ prodSizes s := by
  unfold cnt sumFix
  rw [Finset.sum_const, nsmul_eq_mul, mul_one, ← card_cells]
  exact_mod_cast Finset.card_le_card (Finset.filter_subset _ _)

/-- the rounded table is a few roundings away from the exact one -/
structure RSwept (s : List Nat) (L : Prob ℚ) (T : ℚ) (k : Nat) (b : List Int → ℚ) (a : List Int → Fl) : Prop where
  swept : Swept s L T b
  val : ∀ v, InRange s v → ∃ x, a v = .fin x ∧ Rel k x (b v)

/-- the size of a decomposable problem -/
structure DSize (s : List Nat) (Q : Prob ℚ) (T : ℚ) (f : Nat) : Prop where
  one : 1 ≤ T
  big : T ^ Q.length * prodSizes s ≤ 2 ^ 90
  fib : ∀ q ∈ Q, ∀ j, ((cells s).filter (fun v => proj q.1 v = j)).card ≤ f
  rnd : 2 ^ Q.length * (f + 2) ≤ 2 ^ 50

theorem prodSizes_one {s : List Nat} (hpos : ∀ n ∈ s, 0 < n) : (1 : ℚ) ≤ prodSizes s := by
  rw [← card_cells]
  obtain ⟨v, hv⟩ := exists_inRange hpos
  exact_mod_cast Finset.card_pos.mpr ⟨v, mem_cells.mpr hv⟩

theorem DSize.le {s : List Nat} {Q : Prob ℚ} {T : ℚ} {f : Nat} (h : DSize s Q T f) (hpos : ∀ n ∈ s, 0 < n) (hl : 1 ≤ Q.length) :
    T ≤ 2 ^ 90 ∧ (prodSizes s : ℚ) ≤ 2 ^ 90 := by
  have h1 := prodSizes_one hpos
  have h2 : T ≤ T ^ Q.length := le_self_pow₀ h.one (by omega)
  have h3 := h.one
  have h4 := h.big
  constructor <;> nlinarith

theorem Swept.lower {s : List Nat} (hpos : ∀ n ∈ s, 0 < n) {L : Prob ℚ} {T : ℚ} {b : List Int → ℚ} (h : Swept s L T b) {K : Nat}
    (hw : Whole s L T) (hd : ∀ q ∈ L, ∀ d ∈ q.1, d < s.length) (hT : 1 ≤ T) (hK : L.length ≤ K) (hbig : T ^ K * prodSizes s ≤ 2 ^ 90)
    {v : List Int} (hv : InRange s v) : b v = 0 ∨ 1 / 2 ^ 90 ≤ b v := by
  have hf := h.form v hv
  have hc := cnt_pos hpos (dimsOf L).toFinset
  have hc' := cnt_le (s := s) (dimsOf L).toFinset
  have e : b v = T * chainAt s [] L v / cnt s (dimsOf L).toFinset := by rw [eq_div_iff hc.ne']; exact hf
  have hp1 := prodSizes_one hpos
  rcases chain_lower hT hv (seen := []) hw hd with h0 | h0
  · left; rw [e, h0]; simp
  · right
    have hTp : 0 < T ^ L.length := by positivity
    have h1 : 1 / (T ^ L.length * prodSizes s) ≤ b v := by
      rw [e, one_div, mul_inv, ← one_div, div_eq_mul_inv]
      refine mul_le_mul ?_ (inv_anti₀ hc hc') (by positivity) ?_
      · exact h0.trans (le_mul_of_one_le_left (le_trans (by positivity) h0) hT)
      · exact mul_nonneg (by linarith) (le_trans (by positivity) h0)
    refine le_trans ?_ h1
    refine one_div_le_one_div_of_le (by positivity) (le_trans ?_ hbig)
    exact mul_le_mul_of_nonneg_right (pow_le_pow_right₀ hT hK) (by linarith)

/-- one marginal, rounded -/
theorem round_scale (hfp : fp.Good) {s : List Nat} {Q : Prob ℚ} {T : ℚ} {f : Nat} (hpos : ∀ n ∈ s, 0 < n) (hz : DSize s Q T f)
    (hw : Whole s Q T) {p : List Nat × (List Int → ℚ)} (hp : p ∈ Q) (hd : ∀ d ∈ p.1, d < s.length) {b : List Int → ℚ} {a : List Int → Fl} {k : Nat}
    (hk : k ≤ 2 ^ 50) (hb : ∀ v, InRange s v → b v = 0 ∨ 1 / 2 ^ 100 ≤ b v) (hB : ∀ v, InRange s v → b v ≤ 2 ^ 100)
    (ha : ∀ v, InRange s v → ∃ x, a v = .fin x ∧ Rel k x (b v)) :
    ∀ v, InRange s v → ∃ x, scaled fp (numFl fp) s p.1 (fun j => .fin (p.2 j)) a v = .fin x ∧ Rel (2 * k + f + 2) x (qscaled s p.1 p.2 b v) := by
  have hb0 : ∀ v, InRange s v → 0 ≤ b v := fun v hv => by
    rcases hb v hv with h | h
    · rw [h]
    · exact le_trans (by positivity) h
  have hq1 : 1 ≤ Q.length := List.length_pos_of_mem hp
  obtain ⟨hT, hsz⟩ := hz.le hpos hq1
  have hall : ∀ v, ∃ x : ℚ, InRange s v → a v = .fin x ∧ Rel k x (b v) := by
    intro v
    by_cases hv : InRange s v
    · obtain ⟨x, h1, h2⟩ := ha v hv
      exact ⟨x, fun _ => ⟨h1, h2⟩⟩
    · exact ⟨0, fun h => absurd h hv⟩
  choose Y hY using hall
  have hY0 : ∀ v, InRange s v → 0 ≤ Y v := fun v hv => (hY v hv).2.nonneg (hb0 v hv)
  have hYu : ∀ v, InRange s v → Y v ≤ 2 ^ 101 := fun v hv => by
    have := (hY v hv).2.upper (by omega) (hY0 v hv)
    have h2 := hB v hv
    norm_num at h2 ⊢
    linarith
  obtain ⟨X, φ, hX⟩ := scaled_rel hfp (f := f) (m := p.2) (a := a) (Y := Y) range_ok hd (fun v hv => (hY v hv).1) (fun v hv => by
      rcases hb v hv with h | h
      · left; exact ((hY v hv).2.zero_iff (hb0 v hv)).mpr h
      · right
        have := (hY v hv).2.lower (by omega) (hb0 v hv)
        refine le_trans ?_ this
        refine le_trans ?_ (div_le_div_of_nonneg_right h (by norm_num))
        rw [div_div, ← pow_succ]
        exact one_div_le_one_div_of_le (by positivity) (pow_le_pow_right₀ (by norm_num) (by norm_num)))
    (fun j hj => by
      have h1 : marginalSum s p.1 Y j ≤ ∑ v ∈ cells s, (2 : ℚ) ^ 101 :=
        (Finset.sum_le_sum_of_subset_of_nonneg (Finset.filter_subset _ _) (fun v hv _ => hY0 v (mem_cells.mp hv))).trans
          (Finset.sum_le_sum (fun v hv => hYu v (mem_cells.mp hv)))
      refine h1.trans ?_
      rw [Finset.sum_const, nsmul_eq_mul, card_cells]
      refine (mul_le_mul_of_nonneg_right hsz (by positivity)).trans ?_
      rw [← pow_add]
      exact pow_le_pow_right₀ (by norm_num) (by norm_num))
    (fun j hj => by
      rcases hw.ent p hp j hj with h | h
      · exact Or.inl h
      · exact Or.inr ⟨h, (hw.le hp hj).trans (hT.trans (pow_le_pow_right₀ (by norm_num) (by norm_num)))⟩)
    (hz.fib p hp) (by
      have := hz.rnd
      have h2 : 1 ≤ 2 ^ Q.length := Nat.one_le_two_pow
      nlinarith)
  intro v hv
  obtain ⟨h1, h2, -⟩ := hX v hv
  refine ⟨X v, h1, ?_⟩
  have h3 := qscaled_rel (k := k) hd (fun j hj => hw.nonneg hp hj) hb0 (fun v hv => (hY v hv).2) hv
  have := h2.trans h3
  rwa [show f + 2 + 2 * k = 2 * k + f + 2 by omega] at this

theorem rswept_all (hfp : fp.Good) {s : List Nat} (hpos : ∀ n ∈ s, 0 < n) {Q : Prob ℚ} (hd : ∀ r ∈ Q, ∀ d ∈ r.1, d < s.length)
    {T : ℚ} {f : Nat} (hw : Whole s Q T) (hz : DSize s Q T f) (ht : Decomposable s Q) :
    ∀ (L2 L1 : Prob ℚ), Q = L1 ++ L2 → L1 ≠ [] → ∀ b a, RSwept s L1 T ((2 ^ L1.length - 1) * (f + 2)) b a →
      RSwept s Q T ((2 ^ Q.length - 1) * (f + 2)) (qsweep s L2 b) (sweep fp (numFl fp) s (finProb L2) a)
  | [], L1, hQ, _, b, a, hb => by rw [hQ, List.append_nil]; exact hb
  | p :: L2, L1, hQ, hne, b, a, hb => by
    have hpQ : p ∈ Q := by rw [hQ]; simp
    have hlen : L1.length ≤ Q.length := by rw [hQ]; simp
    have hL1 : Whole s L1 T := ⟨fun q hq => hw.ent q (by rw [hQ]; simp [hq]), fun q hq => hw.tot q (by rw [hQ]; simp [hq])⟩
    have hnn := fun j hj => hw.nonneg hpQ (j := j) hj
    obtain ⟨hnd, h | ⟨q, hq, hall, hag⟩⟩ := ht L1 p L2 hQ
    · exact absurd h hne
    have hsw := swept_step hpos hb.swept (fun r hr => hd r (by rw [hQ]; simp [hr])) (hd p hpQ) hnd hnn hq hall hag
    have hkb : (2 ^ L1.length - 1) * (f + 2) ≤ 2 ^ 50 := by
      refine le_trans (Nat.mul_le_mul_right _ ?_) hz.rnd
      exact (Nat.sub_le _ _).trans (Nat.pow_le_pow_right (by norm_num) hlen)
    have hT90 := (hz.le hpos (List.length_pos_of_mem hpQ)).1
    have hBd : ∀ v, InRange s v → b v ≤ T := by
      intro v hv
      have hqQ : q ∈ Q := by rw [hQ]; simp [hq]
      have h1 : b v ≤ marginalSum s q.1 b (proj q.1 v) :=
        Finset.single_le_sum (f := b) (fun w hw => hb.swept.nonneg w (mem_cells.mp (Finset.mem_filter.mp hw).1))
          (Finset.mem_filter.mpr ⟨mem_cells.mpr hv, rfl⟩)
      rw [hb.swept.meets q hq _ (inRange_proj (hd q hqQ) hv)] at h1
      exact h1.trans (hw.le hqQ (inRange_proj (hd q hqQ) hv))
    have hr := round_scale hfp hpos hz hw hpQ (hd p hpQ) hkb (fun v hv => by
      rcases hb.swept.lower hpos hL1 (fun r hr => hd r (by rw [hQ]; simp [hr])) hz.one hlen hz.big hv with h | h
      · exact Or.inl h
      · right
        exact le_trans (one_div_le_one_div_of_le (by positivity) (pow_le_pow_right₀ (by norm_num) (by norm_num))) h)
      (fun v hv => (hBd v hv).trans (hT90.trans (pow_le_pow_right₀ (by norm_num) (by norm_num)))) hb.val
    refine rswept_all hfp hpos hd hw hz ht L2 (L1 ++ [p]) (by simp [hQ]) (by simp) _ _ ⟨hsw, fun v hv => ?_⟩
    obtain ⟨x, h1, h2⟩ := hr v hv
    refine ⟨x, h1, ?_⟩
    have e : (2 ^ (L1 ++ [p]).length - 1) * (f + 2) = 2 * ((2 ^ L1.length - 1) * (f + 2)) + f + 2 := by
      rw [List.length_append, List.length_singleton, pow_succ]
      obtain ⟨m, hm⟩ : ∃ m, 2 ^ L1.length = m + 1 := ⟨2 ^ L1.length - 1, by have := Nat.one_le_two_pow (n := L1.length); omega⟩
      rw [hm, show (m + 1) * 2 - 1 = 2 * m + 1 by omega, Nat.add_sub_cancel]
      ring
    rw [e]; exact h2

/-- **C101** for one sweep in rounded arithmetic -/
theorem round_sweep_decomp (hfp : fp.Good) {s : List Nat} {Q : Prob ℚ} (h : ProbShape s Q) {T : ℚ} {f : Nat} (hw : Whole s Q T)
    (hz : DSize s Q T f) (ht : Decomposable s Q) {c : ℚ} (hc : 1 / 2 ^ 100 ≤ c) (hc' : c ≤ 2 ^ 100) :
    ∀ v, InRange s v → ∃ x, sweep fp (numFl fp) s (finProb Q) (fun _ => .fin c) v = .fin x ∧
      Rel ((2 ^ Q.length - 1) * (f + 2)) x (qsweep s Q (fun _ => c) v) := by
  obtain ⟨p, L2, rfl⟩ : ∃ p L2, Q = p :: L2 := by
    cases Q with
    | nil => have := h.lists; simp at this
    | cons p L2 => exact ⟨p, L2, rfl⟩
  have hc0 : 0 < c := lt_of_lt_of_le (by positivity) hc
  have hd : ∀ r ∈ p :: L2, ∀ d ∈ r.1, d < s.length := fun r hr => (h.dims r hr).2
  have hr := round_scale hfp h.pos hz hw (p := p) (by simp) (hd p (by simp)) (b := fun _ => c) (a := fun _ => .fin c) (k := 0) (by norm_num)
    (fun v _ => Or.inr hc) (fun v _ => hc') (fun v _ => ⟨c, rfl, Rel.refl c⟩)
  have hst : RSwept s [p] T ((2 ^ [p].length - 1) * (f + 2)) (qscaled s p.1 p.2 (fun _ => c))
      (scaled fp (numFl fp) s p.1 (fun j => .fin (p.2 j)) (fun _ => .fin c)) :=
    ⟨swept_start h.pos (hd p (by simp)) (ht [] p L2 rfl).1 (fun j hj => hw.nonneg (by simp) hj) (hw.tot p (by simp)) hc0,
      fun v hv => by
        obtain ⟨x, h1, h2⟩ := hr v hv
        refine ⟨x, h1, ?_⟩
        simpa using h2⟩
  exact (rswept_all hfp h.pos hd hw hz ht L2 [p] rfl (by simp) _ _ hst).val

end HL

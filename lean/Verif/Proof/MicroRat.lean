import Verif.Proof.IPFDiverge
import Verif.Proof.IPFProduct

namespace HL
open Micro
variable {α : Type}

/-! ### Rational problems are accepted in exact arithmetic -/

theorem reads_fin (s : List Nat) : ∀ Q : Prob ℚ, Reads (numFl FP.exact) s (finProb Q) Q
  | [] => .nil
  | q :: Q => .cons ⟨rfl, fun _ _ => rfl⟩ (reads_fin s Q)

theorem fst_finProb (Q : Prob ℚ) : (finProb Q).map Prod.fst = Q.map Prod.fst := by
  simp [finProb, Function.comp_def]

theorem mem_finProb {Q : Prob ℚ} {p : List Nat × (List Int → Fl)} :
    p ∈ finProb Q ↔ ∃ q ∈ Q, p = (q.1, fun j => .fin (q.2 j)) := by
  simp [finProb, eq_comm]

theorem properProb_fin {s : List Nat} {Q : Prob ℚ} (h : ProperProb s Q) : ProperProb s (finProb Q) := by
  intro p hp
  obtain ⟨q, hq, rfl⟩ := mem_finProb.mp hp
  exact h q hq

theorem seqSum_fin (t : List Nat) (g : List Int → ℚ) :
    seqSum (numFl FP.exact) t (fun j => .fin (g j)) = .fin (∑ j ∈ cells t, g j) := by
  unfold seqSum
  have := foldl_exact (fun j => Fl.fin (g j)) g (allIdx t) (fun _ _ => rfl) 0
  rw [zero_add, sum_allIdx] at this
  exact this

theorem seqSums1_fin (t : List Nat) (g : List Int → ℚ) (d : Nat) :
    seqSums1 (numFl FP.exact) t (fun j => .fin (g j)) d =
      (List.range (t.getD d 0)).map (fun x : Nat => Fl.fin (marginalSum t [d] g [(x : Int)])) := by
  unfold seqSums1
  apply List.map_congr_left
  intro x _
  have := foldl_exact (fun j => Fl.fin (g j)) g ((allIdx t).filter (fun v => v.getD d 0 = (x : Int))) (fun _ _ => rfl) 0
  rw [zero_add, sum_filter_allIdx] at this
  refine this.trans ?_
  unfold marginalSum
  congr 2
  apply Finset.filter_congr
  intro v _
  simp [proj]

theorem allclose_refl (l : List ℚ) : (numFl FP.exact).allclose (l.map Fl.fin) (l.map Fl.fin) = true := by
  show (if _ ≠ _ then false else allcloseLoop FP.exact (l.map Fl.fin) (l.map Fl.fin)) = true
  rw [if_neg (by simp)]
  induction l with
  | nil => rfl
  | cons x l ih =>
    simp only [List.map_cons, allcloseLoop]
    rw [if_neg, ih]
    simp only [tol8, FP.exact, FP.sub, FP.neg, FP.add, FP.abs, FP.lt, decide_eq_true_eq]
    norm_num

theorem ratOK_accepted {s : List Nat} {Q : Prob ℚ} {pop : Int} (h : RatOK s Q pop) (hpop : pop < 2 ^ 62) :
    ProbOKG FP.exact (numFl FP.exact) s (finProb Q) pop := by
  have hsh : ProbShape s (finProb Q) := probShape_congr (fst_finProb Q).symm h.toProbShape
  refine ⟨hsh, ?_, ?_, ?_⟩
  · intro p hp j hj
    obtain ⟨q, hq, rfl⟩ := mem_finProb.mp hp
    have := h.nonneg q hq j hj
    simpa [numFl, FP.lt] using this
  · intro p hp
    obtain ⟨q, hq, rfl⟩ := mem_finProb.mp hp
    simp only
    rw [seqSum_fin, h.total q hq]
    have h0 : 0 ≤ pop := by
      have : (0 : ℚ) ≤ pop := by
        rw [← h.total q hq]; exact Finset.sum_nonneg (fun j hj => h.nonneg q hq j (mem_cells.mp hj))
      exact_mod_cast this
    show FP.toInt64 (.fin ((pop : ℚ) + 1 / 2)) = _
    unfold FP.toInt64
    simp only [truncQ_half_nonneg h0]
    rw [if_pos (by omega)]
  · intro d hd p q hp hq
    have hp' : p ∈ places d 0 ((finProb Q).map Prod.fst) := List.mem_of_mem_head? (by rw [hp]; rfl)
    have hq' : q ∈ places d 0 ((finProb Q).map Prod.fst) := List.mem_of_mem_tail hq
    have hs : ∀ x ∈ places d 0 ((finProb Q).map Prod.fst), ∃ m ∈ Q, m.1[x.2]? = some d ∧
        sumsAt (numFl FP.exact) s (finProb Q) x =
          ((List.range (s.getD d 0)).map (fun i : Nat => marginalSum (projSizes m.1 s) [x.2] m.2 [(i : Int)])).map Fl.fin := by
      intro x hx
      obtain ⟨m, hm, hmd⟩ := mem_places_prob.mp hx
      obtain ⟨q, hqm, hqe⟩ := mem_finProb.mp (List.mem_of_getElem? hm)
      subst hqe
      refine ⟨q, hqm, hmd, ?_⟩
      unfold sumsAt
      simp only [hm]
      rw [seqSums1_fin, projSizes_getD hmd, List.map_map]
      rfl
    obtain ⟨m, hm, hmd, e1⟩ := hs p hp'
    obtain ⟨m', hm', hmd', e2⟩ := hs q hq'
    rw [e1, e2]
    have : (List.range (s.getD d 0)).map (fun i : Nat => marginalSum (projSizes m'.1 s) [q.2] m'.2 [(i : Int)]) =
        (List.range (s.getD d 0)).map (fun i : Nat => marginalSum (projSizes m.1 s) [p.2] m.2 [(i : Int)]) := by
      apply List.map_congr_left
      intro x hx
      exact h.partials m' hm' m hm _ _ d hmd' hmd x (List.mem_range.mp hx)
    rw [this]
    exact allclose_refl _

/-- a proper accepted problem is solved -/
theorem ipf_run_ok (fp : FP) (N : Num α) (hN : MinOK N) {s : List Nat} {P : Prob α} {pop : Int}
    (h : ProbOKG fp N s P pop) (hp : ProperProb s P) (a : List Int → Fl) :
    ∃ r, IPF.run false fp N (indicesOf P) (marginalsOf s P) (arr s a) = .ok r := by
  obtain ⟨x, hx1, hx2⟩ := ipf_new_obj (micro_new_ok (β := Fl) fp N hN h)
  obtain ⟨n, -, -, -, -, h6⟩ := ipf_solve fp N h.toProbShape hp hx2 a
  refine ⟨(ipfState fp N s P pop ((sweep fp N s P)^[n] a) n).1, ?_⟩
  unfold IPF.run
  rw [hx1]
  simp only [Out.ok_bind]
  exact h6

theorem nonneg_of_ok {s : List Nat} {Q : Prob ℚ} {pop : Int}
    (h : ProbOKG FP.exact (numFl FP.exact) s (finProb Q) pop) :
    ∀ q ∈ Q, ∀ j, InRange (projSizes q.1 s) j → 0 ≤ q.2 j := by
  intro q hq j hj
  have := h.nonneg (q.1, fun j => .fin (q.2 j)) (mem_finProb.mpr ⟨q, hq, rfl⟩) j hj
  simpa [numFl, FP.lt] using this

/-- one call of `ipf` with finite doubles, in exact arithmetic -/
theorem ipf_exact_fin {s : List Nat} {Q : Prob ℚ} (h : ProbShape s Q) (hp : ProperProb s Q) {b : List Int → ℚ}
    {r : IPF Fl}
    (hr : IPF.run false FP.exact (numFl FP.exact) (indicesOf (finProb Q)) (marginalsOf s (finProb Q))
      (arr s (fun v => .fin (b v))) = .ok r) :
    ∃ pop n, ProbOKG FP.exact (numFl FP.exact) s (finProb Q) pop ∧ 1 ≤ n ∧ n ≤ 1000 ∧
      (qmax s Q ((qsweep s Q)^[n] b) < 1 / 10 ^ 8 ∨ n = 1000) ∧
      (∀ m, 1 ≤ m → m < n → 1 / 10 ^ 8 ≤ qmax s Q ((qsweep s Q)^[m] b)) ∧
      r.micro = { mkMicro Fl s (finProb Q) pop with array := arr s (fun v => .fin ((qsweep s Q)^[n] b v)) } ∧
      r.iters = n ∧ r.conv = decide (qmax s Q ((qsweep s Q)^[n] b) < 1 / 10 ^ 8) ∧
      r.maxError = .fin (qmax s Q ((qsweep s Q)^[n] b)) :=
  ipf_exact (minOK_fl _) (probShape_congr (fst_finProb Q).symm h) (properProb_fin hp) (reads_fin s Q)
    (fun _ _ => rfl) hr

/-! ### Debug builds -/

theorem exists_proj {s ds : List Nat} (hpos : ∀ n ∈ s, 0 < n) (hn : Loose s ds) (hd : ∀ d ∈ ds, d < s.length) {j : List Int}
    (hj : InRange (projSizes ds s) j) : ∃ v, InRange s v ∧ proj ds v = j := by
  refine ⟨writeAt ds j (zerosI s.length), ?_, ?_⟩
  · rw [inRange_iff_getD]
    refine ⟨by simp [zerosI], ?_⟩
    intro d hd'
    by_cases hm : d ∈ ds
    · obtain ⟨k, hk, hkd⟩ := List.mem_iff_getElem.mp hm
      have hmw := map_writeAt' (idx := zerosI s.length) hn hj (by simpa [zerosI] using hd)
      have h1 : (writeAt ds j (zerosI s.length)).getD d 0 = j.getD k 0 := by
        have := congrArg (fun l => l.getD k 0) hmw
        simpa [List.getD_eq_getElem?_getD, hk, hkd] using this
      have h2 := inRange_getD hj (d := k) (by simpa [projSizes] using hk)
      rw [h1]
      rwa [show (projSizes ds s).getD k 0 = s.getD d 0 by
        simp [projSizes, List.getD_eq_getElem?_getD, hk, hkd]] at h2
    · rw [writeAt_getD_not_mem hm, zerosI_getD]
      exact ⟨le_rfl, by exact_mod_cast hpos _ (getD_mem hd')⟩
  · exact map_writeAt' hn hj (by simpa [zerosI] using hd)

theorem marginalSum_eq_zero {s ds : List Nat} {b : List Int → ℚ} {j : List Int}
    (hz : ∀ v, InRange s v → proj ds v = j → b v = 0) : marginalSum s ds b j = 0 :=
  Finset.sum_eq_zero (fun v hv => by
    obtain ⟨h1, h2⟩ := Finset.mem_filter.mp hv
    exact hz v (mem_cells.mp h1) h2)

theorem rScale_debug {N : Num α} {s : List Nat} (hg : GoodShape s) : ∀ {P : Prob α} {Q : Prob ℚ},
    (∀ p ∈ P, p.1 ≠ [] ∧ ∀ d ∈ p.1, d < s.length) → ProperProb s P → (∀ p ∈ P, p.1.length < s.length) → Reads N s P Q →
    ∀ {a : List Int → Fl} {b : List Int → ℚ}, Agree s a b →
    (∃ q ∈ Q, ∃ j, InRange (projSizes q.1 s) j ∧ q.2 j ≠ 0 ∧ ∀ v, InRange s v → proj q.1 v = j → b v = 0) →
    rScale true FP.exact N (arr s a) (indicesOf P) (marginalsOf s P) = .thrown .div0
  | [], _, _, _, _, h, _, _, _, hb => by
    cases h
    obtain ⟨q, hq, -⟩ := hb
    simp at hq
  | p :: P, _, hd, hp, hl, h, a, b, hab, hb => by
    cases h with
    | @cons _ q _ Q hq hQ =>
      have h1 := hd p (by simp)
      have h2 := hp p (by simp)
      have h3 := hl p (by simp)
      simp only [indicesOf, marginalsOf, List.map_cons, rScale]
      by_cases hbl : ∃ v, InRange s v ∧ Blocked FP.exact N s p.1 p.2 a (proj p.1 v)
      · rw [scaleOne_blocked FP.exact N hg a h1.1 h2 h1.2 h3 p.2 hbl]
        rfl
      · rw [scaleOne_ok true FP.exact N hg a h1.1 h2 h1.2 (fun _ => h3) p.2 (fun _ v hv hc => hbl ⟨v, hv, hc⟩)]
        simp only [Out.ok_bind]
        have hag := scaled_exact (N := N) h1.2 hq.2 hab
        refine rScale_debug hg (fun p' hp' => hd p' (by simp [hp'])) (fun p' hp' => hp p' (by simp [hp']))
          (fun p' hp' => hl p' (by simp [hp'])) hQ hag ?_
        obtain ⟨q', hq', j, hj, hne, hz⟩ := hb
        rcases List.mem_cons.mp hq' with rfl | hq'
        · exfalso
          apply hbl
          rw [← hq.1] at hj hz
          obtain ⟨v, hv, hvj⟩ := exists_proj hg.2 h2.2.2 h1.2 hj
          refine ⟨v, hv, ?_⟩
          unfold Blocked
          rw [fsum_exact hab, hvj, show N.toFl (p.2 j) = .fin (q'.2 j) from hq.2 j hj, marginalSum_eq_zero hz]
          simp [FP.feq, hne]
        · exact ⟨q', hq', j, hj, hne, fun v hv hvj => qscaled_zero (hz v hv hvj)⟩

/-! ### binary64 -/

theorem ieee_zero (sqrt : Fl → Fl) : (FP.ieee sqrt).rnd 0 = .fin 0 := FP.rndIeee_zero

theorem ieee_nonneg (sqrt : Fl → Fl) : RndNonneg (FP.ieee sqrt) := by
  intro q hq
  show NonNegNan (FP.rndIeee q)
  rcases hq.eq_or_lt with rfl | hq
  · rw [FP.rndIeee_zero]; exact Or.inr (by simp [FP.le])
  · cases hr : FP.rndIeee q with
    | fin a =>
      have := (FP.fin_pos_bounds hq hr).2
      exact Or.inr (by simpa [FP.le] using this)
    | pinf => exact Or.inr rfl
    | ninf => rw [FP.rndIeee_pos hq] at hr; split at hr <;> cases hr
    | nan => exact Or.inl rfl

theorem exact_nonneg : RndNonneg FP.exact := by
  intro q hq
  exact Or.inr (by simpa [FP.exact, FP.le] using hq)

end HL

import Verif.Proof.IntTable
import Verif.Proof.MicroRat
import Verif.Proof.IntegeriseArray

/-
Whole-number marginals as 64-bit integers and as doubles.
-/

namespace HL
open Micro
variable {fp : FP} {α β : Type}

theorem fst_dblProb (P : Prob Int) : (dblProb P).map Prod.fst = P.map Prod.fst := by
  simp [dblProb, Function.comp_def]

theorem mem_dblProb {P : Prob Int} {p : List Nat × (List Int → Fl)} : p ∈ dblProb P ↔ ∃ q ∈ P, p = (q.1, intFl q.2) := by
  simp [dblProb, eq_comm]

theorem dblProb_shape {s : List Nat} {P : Prob Int} (h : ProbShape s P) : ProbShape s (dblProb P) :=
  probShape_congr (fst_dblProb P).symm h

theorem dblProb_proper {s : List Nat} {P : Prob Int} (h : ProperProb s P) : ProperProb s (dblProb P) := by
  intro p hp
  obtain ⟨q, hq, rfl⟩ := mem_dblProb.mp hp
  exact h q hq

theorem allclose_fin (hfp : fp.Good) (l : List ℚ) : (numFl fp).allclose (l.map Fl.fin) (l.map Fl.fin) = true := by
  show (if _ ≠ _ then false else allcloseLoop fp (l.map Fl.fin) (l.map Fl.fin)) = true
  rw [if_neg (by simp)]
  obtain ⟨t, ht, ht0⟩ := tol8_good hfp
  induction l with
  | nil => rfl
  | cons x l ih =>
    simp only [List.map_cons, allcloseLoop]
    rw [if_neg, ih]
    have : fp.sub (.fin x) (.fin x) = .fin 0 := by
      show fp.rnd (x + -x) = _
      rw [add_neg_cancel, rnd_zero hfp]
    rw [this, ht]
    simp [FP.abs, FP.lt]
    exact ht0.le

theorem seqSum_dbl (hfp : fp.Good) {t : List Nat} {g : List Int → Int} (hn : ∀ v, InRange t v → 0 ≤ g v)
    (hb : ∑ v ∈ cells t, g v ≤ 2 ^ 53) : seqSum (numFl fp) t (intFl g) = .fin ((∑ v ∈ cells t, g v : Int) : ℚ) := by
  have := foldl_intFl hfp g (allIdx t) 0 (fun v hv => hn v (mem_allIdx.mp hv)) le_rfl (by rw [zero_add, sum_allIdx]; exact hb)
  rw [zero_add, sum_allIdx, Int.cast_zero] at this
  exact this

theorem seqSums1_dbl (hfp : fp.Good) {t : List Nat} {g : List Int → Int} (hn : ∀ v, InRange t v → 0 ≤ g v)
    (hb : ∑ v ∈ cells t, g v ≤ 2 ^ 53) (d : Nat) :
    seqSums1 (numFl fp) t (intFl g) d =
      (List.range (t.getD d 0)).map (fun x : Nat => Fl.fin ((marginalSum t [d] g [(x : Int)] : Int) : ℚ)) := by
  unfold seqSums1
  apply List.map_congr_left
  intro x _
  rw [← fsum_int hfp hn hb]
  unfold fsum
  simp only [proj, List.map_cons, List.map_nil, List.cons.injEq, and_true]
  rfl

/-- a consistent whole-number problem is accepted when its marginals are given as doubles -/
theorem dblProb_ok (hfp : fp.Good) {s : List Nat} {P : Prob Int} {pop : Int} (h : ProbOK s P pop) (hpop : pop < 2 ^ 52) :
    ProbOKG fp (numFl fp) s (dblProb P) pop := by
  have hb : ∀ q ∈ P, ∑ j ∈ cells (projSizes q.1 s), q.2 j ≤ 2 ^ 53 := by
    intro q hq; rw [h.total q hq]; omega
  refine ⟨dblProb_shape h.toProbShape, ?_, ?_, ?_⟩
  · intro p hp j hj
    obtain ⟨q, hq, rfl⟩ := mem_dblProb.mp hp
    have := h.nonneg q hq j hj
    simpa [numFl, FP.lt, intFl] using this
  · intro p hp
    obtain ⟨q, hq, rfl⟩ := mem_dblProb.mp hp
    simp only
    rw [seqSum_dbl hfp (h.nonneg q hq) (hb q hq), h.total q hq, ← ofInt_exact hfp (by rw [abs_of_nonneg h.pop_nonneg]; omega)]
    exact rounded_int hfp h.pop_nonneg hpop
  · intro d hd p q hp hq
    have hp' : p ∈ places d 0 ((dblProb P).map Prod.fst) := List.mem_of_mem_head? (by rw [hp]; rfl)
    have hq' : q ∈ places d 0 ((dblProb P).map Prod.fst) := List.mem_of_mem_tail hq
    have hs : ∀ x ∈ places d 0 ((dblProb P).map Prod.fst), ∃ m ∈ P, m.1[x.2]? = some d ∧
        sumsAt (numFl fp) s (dblProb P) x =
          ((List.range (s.getD d 0)).map (fun i : Nat => ((marginalSum (projSizes m.1 s) [x.2] m.2 [(i : Int)] : Int) : ℚ))).map Fl.fin := by
      intro x hx
      obtain ⟨m, hm, hmd⟩ := mem_places_prob.mp hx
      obtain ⟨q, hqm, hqe⟩ := mem_dblProb.mp (List.mem_of_getElem? hm)
      subst hqe
      refine ⟨q, hqm, hmd, ?_⟩
      unfold sumsAt
      simp only [hm]
      rw [seqSums1_dbl hfp (h.nonneg q hqm) (hb q hqm), projSizes_getD hmd, List.map_map]
      rfl
    obtain ⟨m, hm, hmd, e1⟩ := hs p hp'
    obtain ⟨m', hm', hmd', e2⟩ := hs q hq'
    rw [e1, e2]
    have : (List.range (s.getD d 0)).map (fun i : Nat => ((marginalSum (projSizes m'.1 s) [q.2] m'.2 [(i : Int)] : Int) : ℚ)) =
        (List.range (s.getD d 0)).map (fun i : Nat => ((marginalSum (projSizes m.1 s) [p.2] m.2 [(i : Int)] : Int) : ℚ)) := by
      apply List.map_congr_left
      intro x hx
      rw [h.partials m' hm' m hm _ _ d hmd' hmd x (List.mem_range.mp hx)]
    rw [this]
    exact allclose_fin hfp _

/-! ### The same numbers, the same fit -/

/-- two problems whose marginals are the same doubles -/
def SameFl (N : Num α) (M : Num β) (s : List Nat) (P : Prob α) (Q : Prob β) : Prop :=
  List.Forall₂ (fun p q => p.1 = q.1 ∧ ∀ j, InRange (projSizes p.1 s) j → N.toFl (p.2 j) = M.toFl (q.2 j)) P Q

theorem sweep_same (N : Num α) (M : Num β) {s : List Nat} : ∀ {P : Prob α} {Q : Prob β},
    (∀ p ∈ P, ∀ d ∈ p.1, d < s.length) → SameFl N M s P Q →
    ∀ {a b : List Int → Fl}, (∀ v, InRange s v → a v = b v) → ∀ v, InRange s v → sweep fp N s P a v = sweep fp M s Q b v
  | [], [], _, _, _, _, hab, v, hv => hab v hv
  | p :: P, q :: Q, hd, .cons ⟨h1, h2⟩ ht, a, b, hab, v, hv => by
    refine sweep_same N M (P := P) (Q := Q) (fun p hp => hd p (by simp [hp])) ht (a := scaled fp N s p.1 p.2 a)
      (b := scaled fp M s q.1 q.2 b) ?_ v hv
    intro w hw
    rw [scaled_congr fp N hab w hw]
    unfold scaled
    rw [h2 _ (inRange_proj (hd p (by simp)) hw), h1]

theorem maxDev_same (N : Num α) (M : Num β) {s : List Nat} (a : List Int → Fl) : ∀ {P : Prob α} {Q : Prob β},
    SameFl N M s P Q → ∀ mx, maxDev fp N s P a mx = maxDev fp M s Q a mx
  | [], [], _, _ => rfl
  | p :: P, q :: Q, .cons ⟨h1, h2⟩ ht, mx => by
    unfold maxDev
    rw [List.foldl_cons, List.foldl_cons]
    have : ∀ (l : List (List Int)), (∀ j ∈ l, InRange (projSizes p.1 s) j) → ∀ mx,
        l.foldl (fun mx j => IPF.stdMax mx (FP.abs (dev fp N s a p j))) mx =
          l.foldl (fun mx j => IPF.stdMax mx (FP.abs (dev fp M s a q j))) mx := by
      intro l
      induction l with
      | nil => intro _ _; rfl
      | cons j l ih =>
        intro hl mx
        rw [List.foldl_cons, List.foldl_cons, ih (fun k hk => hl k (by simp [hk]))]
        congr 2
        unfold dev
        rw [h2 j (hl j (by simp)), h1]
    rw [this _ (fun j hj => mem_allIdx.mp hj), h1]
    exact maxDev_same N M a ht _

theorem iterate_same (N : Num α) (M : Num β) {s : List Nat} {P : Prob α} {Q : Prob β}
    (hd : ∀ p ∈ P, ∀ d ∈ p.1, d < s.length) (h : SameFl N M s P Q) (a : List Int → Fl) : ∀ (n : Nat) (v : List Int),
    InRange s v → (sweep fp N s P)^[n] a v = (sweep fp M s Q)^[n] a v
  | 0, _, _ => rfl
  | n + 1, v, hv => by
    rw [Function.iterate_succ_apply', Function.iterate_succ_apply']
    exact sweep_same N M hd h (iterate_same N M hd h a n) v hv

theorem convAt_same (N : Num α) (M : Num β) {s : List Nat} {P : Prob α} {Q : Prob β}
    (hd : ∀ p ∈ P, ∀ d ∈ p.1, d < s.length) (h : SameFl N M s P Q) (a : List Int → Fl) (n : Nat) :
    maxDev fp N s P ((sweep fp N s P)^[n] a) (.fin (-dblMax)) = maxDev fp M s Q ((sweep fp M s Q)^[n] a) (.fin (-dblMax)) := by
  rw [maxDev_congr fp N P (iterate_same N M hd h a n), maxDev_same N M _ h]

/-- the fit depends on the marginals only as doubles -/
theorem ipf_same {N : Num α} {M : Num β} (hN : MinOK N) (hM : MinOK M) {s : List Nat} {P : Prob α} {Q : Prob β} (hP : ProbShape s P)
    (hQ : ProbShape s Q) (hpP : ProperProb s P) (hpQ : ProperProb s Q) (h : SameFl N M s P Q) {a : List Int → Fl} {r : IPF α}
    {r' : IPF β} (hr : IPF.run false fp N (indicesOf P) (marginalsOf s P) (arr s a) = .ok r)
    (hr' : IPF.run false fp M (indicesOf Q) (marginalsOf s Q) (arr s a) = .ok r') :
    r.micro.array = r'.micro.array ∧ r.conv = r'.conv ∧ r.iters = r'.iters ∧ r.maxError = r'.maxError := by
  have hd : ∀ p ∈ P, ∀ d ∈ p.1, d < s.length := fun p hp => (hP.dims p hp).2
  obtain ⟨pop, n, -, h1, h2, h3, h4, rfl⟩ := ipf_run fp N hN hP hpP _ hr
  obtain ⟨pop', n', -, h1', h2', h3', h4', rfl⟩ := ipf_run fp M hM hQ hpQ _ hr'
  have hc : ∀ k, convAt fp N s P ((sweep fp N s P)^[k] a) ↔ convAt fp M s Q ((sweep fp M s Q)^[k] a) := by
    intro k
    unfold convAt
    rw [convAt_same N M hd h]
  have hnn : n = n' := by
    rcases lt_trichotomy n n' with hlt | he | hlt
    · rcases h3 with h3 | h3
      · exact absurd ((hc n).mp h3) (h4' n h1 hlt)
      · omega
    · exact he
    · rcases h3' with h3' | h3'
      · exact absurd ((hc n').mpr h3') (h4 n' h1' hlt)
      · omega
  subst hnn
  refine ⟨arr_congr (iterate_same N M hd h a n), ?_, rfl, convAt_same N M hd h a n⟩
  show FP.lt (maxDev _ _ _ _ _ _) _ = FP.lt (maxDev _ _ _ _ _ _) _
  rw [convAt_same N M hd h]

theorem same_dblProb (hfp : fp.Good) {s : List Nat} {P : Prob Int} {pop : Int} (h : ProbOK s P pop) (hpop : pop < 2 ^ 52) :
    SameFl (numInt fp) (numFl fp) s P (dblProb P) := by
  unfold SameFl dblProb
  rw [List.forall₂_map_right_iff, List.forall₂_same]
  intro p hp
  refine ⟨rfl, fun j hj => ?_⟩
  have h0 := h.nonneg p hp j hj
  have h1 : p.2 j ≤ pop := by
    rw [← h.total p hp]
    exact Finset.single_le_sum (f := p.2) (fun w hw => h.nonneg p hp w (mem_cells.mp hw)) (mem_cells.mpr hj)
  exact ofInt_exact hfp (by rw [abs_of_nonneg h0]; omega)

theorem sqErr_whole (hfp : fp.Good) {s : List Nat} (hg : GoodShape s) {g : List Int → Int} (hn : ∀ v, InRange s v → 0 ≤ g v)
    (hb : ∑ v ∈ cells s, g v ≤ 2 ^ 53) : Integerise.sqErr fp (arr s g) (arr s (intFl g)) = .ok (.fin 0) := by
  unfold Integerise.sqErr
  rw [show (arr s g).sizes = s from rfl, forIndex_eq hg]
  have : ∀ (l : List (List Int)), (∀ v ∈ l, InRange s v) → l.foldlM (fun acc idx => do
      let x ← (arr s g).get idx
      let y ← (arr s (intFl g)).get idx
      pure (fp.add acc (fp.mul (fp.sub (fp.ofInt x) y) (fp.sub (fp.ofInt x) y)))) (.fin 0) = .ok (.fin 0) := by
    intro l
    induction l with
    | nil => intro _; rfl
    | cons v l ih =>
      intro hl
      have hv := hl v (by simp)
      have hgle : g v ≤ ∑ v ∈ cells s, g v :=
        Finset.single_le_sum (f := g) (fun w hw => hn w (mem_cells.mp hw)) (mem_cells.mpr hv)
      have h0 := hn v hv
      rw [List.foldlM_cons, get_arr hv, get_arr hv]
      simp only [Out.ok_bind]
      have e1 : fp.sub (fp.ofInt (g v)) (intFl g v) = .fin 0 := by
        rw [ofInt_exact hfp (by rw [abs_of_nonneg h0]; omega)]
        show fp.rnd ((g v : ℚ) + -(g v : ℚ)) = _
        rw [add_neg_cancel, rnd_zero hfp]
      have e2 : fp.add (.fin 0) (fp.mul (.fin 0) (.fin 0)) = .fin 0 := by
        show fp.add (.fin 0) (fp.rnd (0 * 0)) = _
        rw [zero_mul, rnd_zero hfp]
        show fp.rnd (0 + 0) = _
        rw [zero_add, rnd_zero hfp]
      rw [e1, e2]
      exact ih (fun w hw => hl w (by simp [hw]))
  exact this _ (fun v hv => mem_allIdx.mp hv)

end HL

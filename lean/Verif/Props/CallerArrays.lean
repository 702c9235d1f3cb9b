import Verif.Props.QIS
import Verif.Props.QISI
import Verif.Props.PyApi

/-
C122: what a call leaves in the marginals the caller passed.  `Microsynthesis` keeps a reference to the caller's list
(Microsynthesis.h:30-31), so `micro.marginals` of the object after the call is what the caller's list holds then.
-/

namespace HL

variable {α : Type} {fp : FP}

theorem ipf_step_keeps {dbg : Bool} {N : Num α} {t r : IPF α × List (NDArray Fl)} (h : IPF.step dbg fp N t = .ok r) :
    r.1.micro.marginals = t.1.micro.marginals ∧ r.1.micro.indices = t.1.micro.indices ∧ r.1.iters = t.1.iters + 1 := by
  unfold IPF.step at h
  obtain ⟨a, -, h⟩ := Out.bind_eq_ok.mp h
  obtain ⟨d, -, h⟩ := Out.bind_eq_ok.mp h
  obtain ⟨x, hx, h⟩ := Out.bind_eq_ok.mp h
  unfold IPF.computeErrors at hx
  obtain ⟨e, -, hx⟩ := Out.bind_eq_ok.mp hx
  injection hx with hx
  injection h with h
  subst hx
  subst h
  exact ⟨rfl, rfl, rfl⟩

theorem ipf_loop_keeps {dbg : Bool} {N : Num α} : ∀ (n : Nat) {t r : IPF α × List (NDArray Fl)}, IPF.maxIter - t.1.iters ≤ n →
    loop IPF.continues (IPF.step dbg fp N) t = .ok r →
    r.1.micro.marginals = t.1.micro.marginals ∧ r.1.micro.indices = t.1.micro.indices
  | n, t, r, hn, h => by
    rw [loop_unfold] at h
    split at h
    · rename_i hc
      have hlt : t.1.iters < IPF.maxIter := by
        unfold IPF.continues at hc
        simp only [Bool.and_eq_true, decide_eq_true_eq] at hc
        exact hc.2
      obtain ⟨u, hu, h⟩ := Out.bind_eq_ok.mp h
      obtain ⟨h1, h2, h3⟩ := ipf_step_keeps hu
      match n with
      | 0 => omega
      | n + 1 =>
        have := ipf_loop_keeps n (t := u) (by omega) h
        exact ⟨this.1.trans h1, this.2.trans h2⟩
    · injection h with h
      subst h
      exact ⟨rfl, rfl⟩

theorem ipf_solve_keeps {dbg : Bool} {N : Num α} {x r : IPF α} {seed : NDArray Fl} (h : IPF.solve dbg fp N x seed = .ok r) :
    r.micro.marginals = x.micro.marginals ∧ r.micro.indices = x.micro.indices := by
  unfold IPF.solve at h
  obtain ⟨_, -, h⟩ := Out.bind_eq_ok.mp h
  obtain ⟨_, -, h⟩ := Out.bind_eq_ok.mp h
  obtain ⟨_, -, h⟩ := Out.bind_eq_ok.mp h
  obtain ⟨t, ht, h⟩ := Out.bind_eq_ok.mp h
  obtain ⟨u, hu, h⟩ := Out.bind_eq_ok.mp h
  injection h with h
  subst h
  have := ipf_loop_keeps _ le_rfl hu
  unfold IPF.start at ht
  obtain ⟨_, -, ht⟩ := Out.bind_eq_ok.mp ht
  obtain ⟨_, -, ht⟩ := Out.bind_eq_ok.mp ht
  obtain ⟨_, -, ht⟩ := Out.bind_eq_ok.mp ht
  obtain ⟨_, -, ht⟩ := Out.bind_eq_ok.mp ht
  injection ht with ht
  subst ht
  exact this

theorem micro_new_keeps {β : Type} {N : Num α} {ix : List (List Int)} {ms : List (NDArray α)} {m : Micro β α}
    (h : Micro.new fp N ix ms = .ok m) : m.marginals = ms ∧ m.indices = ix := by
  unfold Micro.new at h
  split at h
  · cases h
  obtain ⟨d, -, h⟩ := Out.bind_eq_ok.mp h
  split at h
  · cases h
  obtain ⟨_, -, h⟩ := Out.bind_eq_ok.mp h
  obtain ⟨_, -, h⟩ := Out.bind_eq_ok.mp h
  obtain ⟨_, -, h⟩ := Out.bind_eq_ok.mp h
  match ms with
  | [] => cases h
  | a :: rest =>
    obtain ⟨_, -, h⟩ := Out.bind_eq_ok.mp h
    obtain ⟨_, -, h⟩ := Out.bind_eq_ok.mp h
    obtain ⟨_, -, h⟩ := Out.bind_eq_ok.mp h
    obtain ⟨_, -, h⟩ := Out.bind_eq_ok.mp h
    injection h with h
    subst h
    exact ⟨rfl, rfl⟩

theorem ipf_new_keeps {N : Num α} {ix : List (List Int)} {ms : List (NDArray α)} {x : IPF α} (h : IPF.new fp N ix ms = .ok x) :
    x.micro.marginals = ms ∧ x.micro.indices = ix := by
  unfold IPF.new at h
  obtain ⟨m, hm, h⟩ := Out.bind_eq_ok.mp h
  injection h with h
  subst h
  exact micro_new_keeps hm

/-- **C122**, `ipf`: whatever the inputs and the arithmetic, when `ipf` returns the caller's marginals are as they were. -/
theorem C122_ipf {dbg : Bool} {N : Num α} {ix : List (List Int)} {ms : List (NDArray α)} {seed : NDArray Fl} {r : IPF α}
    (h : IPF.run dbg fp N ix ms seed = .ok r) : r.micro.marginals = ms ∧ r.micro.indices = ix := by
  unfold IPF.run at h
  obtain ⟨x, hx, h⟩ := Out.bind_eq_ok.mp h
  obtain ⟨h1, h2⟩ := ipf_new_keeps hx
  obtain ⟨h3, h4⟩ := ipf_solve_keeps h
  exact ⟨h3.trans h1, h4.trans h2⟩

/-- **C122**, `ipf` from Python, where the marginals are views of the memory of the caller's numpy arrays: when the call
returns, every view still holds what it held when the call was made. -/
theorem C122_py_ipf {dbg : Bool} {seed : PyObj Fl} {ilist : List (PyObj Int)} {mlist : List (PyObj Fl)} {r : IPF Fl}
    (h : pyIpf dbg fp seed ilist mlist = .ok r) :
    List.Forall₂ (fun m a => ∃ np : NpArray Fl, (m = .array np ∧ np.asNDArray = .ok a) ∨ (m = .other np ∧ np.dangling = .ok a))
      mlist r.micro.marginals := by
  unfold pyIpf at h
  split at h
  · cases h
  rename_i hl
  have hl : ilist.length = mlist.length := by omega
  obtain ⟨args, ha, h⟩ := Out.bind_eq_ok.mp h
  obtain ⟨x, hx, h⟩ := Out.bind_eq_ok.mp h
  obtain ⟨sd, -, h⟩ := Out.bind_eq_ok.mp h
  rw [(ipf_solve_keeps h).1, (ipf_new_keeps hx).1]
  clear * - ha hl
  induction mlist generalizing ilist args with
  | nil =>
    rw [List.zip_nil_right] at ha
    injection ha with ha
    subst ha
    exact .nil
  | cons m ms ih =>
    match ilist, hl with
    | i :: is, hl =>
      rw [List.zip_cons_cons, List.mapM_cons] at ha
      obtain ⟨q, hq, ha⟩ := Out.bind_eq_ok.mp ha
      obtain ⟨qs, hqs, ha⟩ := Out.bind_eq_ok.mp ha
      injection ha with ha
      subst ha
      refine .cons ?_ (ih (by simpa using hl) qs hqs)
      unfold ipfArgs at hq
      obtain ⟨_, -, hq⟩ := Out.bind_eq_ok.mp hq
      cases m with
      | array np =>
        obtain ⟨a, haa, hq⟩ := Out.bind_eq_ok.mp hq
        injection hq with hq
        subst hq
        exact ⟨np, Or.inl ⟨rfl, haa⟩⟩
      | other np =>
        obtain ⟨a, haa, hq⟩ := Out.bind_eq_ok.mp hq
        injection hq with hq
        subst hq
        exact ⟨np, Or.inr ⟨rfl, haa⟩⟩

theorem marginalsOf_left {s : List Nat} {P : Prob Int} {vs : List (List Int)} (hr : ∀ v ∈ vs, InRange s v) :
    marginalsOf s (remaining vs P) = marginalsOf s (P.map (fun p =>
      (p.1, fun j => p.2 j - marginalSum s p.1 (fun v => (vs.count v : Int)) j))) := by
  simp only [marginalsOf, remaining, List.map_map]
  apply List.map_congr_left
  intro p _
  simp only [Function.comp_apply]
  congr 1
  funext j
  rw [marginalSum_count hr]

theorem marginalsOf_zero {s : List Nat} {P : Prob Int} {f : List Int → Int} :
    marginalsOf s (P.map (fun p => (p.1, fun j => p.2 j - marginalSum s p.1 f j))) = marginalsOf s (P.map (fun p => (p.1, fun _ => 0))) ↔
      ∀ p ∈ P, ∀ j, InRange (projSizes p.1 s) j → marginalSum s p.1 f j = p.2 j := by
  simp only [marginalsOf, List.map_map]
  rw [List.map_inj_left]
  refine forall₂_congr ?_
  intro p _
  simp only [Function.comp_apply]
  constructor
  · intro h j hj
    have := arr_inj h j hj
    omega
  · intro h
    apply arr_congr
    intro j hj
    rw [h j hj]
    omega

/-- **C122**, `qis`: when it returns, every one of the caller's marginals has been reduced by what the result holds of it,
so that `conv` is true exactly when the caller is left with zeros. -/
theorem C122_qis (hfp : fp.Good) {lm : Libm} {s : List Nat} {P : Prob Int} {pop : Int} (h : ProbOK s P pop)
    (hpop : pop < 2 ^ 52) {skips : Int} {x : QIS} (hx : qis fp lm s P skips = .ok x) :
    ∃ f, x.micro.array = arr s f ∧
      x.micro.marginals = marginalsOf s (P.map (fun p => (p.1, fun j => p.2 j - marginalSum s p.1 f j))) ∧
      (x.conv = true ↔ x.micro.marginals = marginalsOf s (P.map (fun p => (p.1, fun _ => 0)))) := by
  obtain ⟨c, vs, -, -, hs⟩ := run_ok hfp h hpop hx
  have ha : x.micro.array = arr s (fun v => (vs.count v : Int)) := by rw [hs.at_.micro]
  have hm := marginalsOf_left (P := P) hs.range
  rw [show marginalsOf s (remaining vs P) = x.micro.marginals by rw [hs.at_.micro]] at hm
  refine ⟨_, ha, hm, ?_⟩
  rw [C22_conv hfp h hpop hx ha, hm]
  exact marginalsOf_zero.symm

/-- **C122**, `qisi`: the same. -/
theorem C122_qisi (hfp : fp.Good) {lm : Libm} {s : List Nat} {P : Prob Int} {pop : Int} (h : ProbOK s P pop)
    (hpop : pop < 2 ^ 52) (hp : ProperProb s P) {sd : List Int → Fl} {skips : Int} {x : QISI}
    (hx : qisi fp lm s P sd skips = .ok x) :
    ∃ f, x.micro.array = arr s f ∧
      x.micro.marginals = marginalsOf s (P.map (fun p => (p.1, fun j => p.2 j - marginalSum s p.1 f j))) ∧
      (x.conv = true ↔ x.micro.marginals = marginalsOf s (P.map (fun p => (p.1, fun _ => 0)))) := by
  obtain ⟨E, a, vs, hs⟩ := qisi_run_ok hfp h hpop hp hx
  have ha : x.micro.array = arr s (fun v => (vs.count v : Int)) := by rw [hs.at_.micro]
  have hm := marginalsOf_left (P := P) hs.placed.range
  rw [show marginalsOf s (remaining vs P) = x.micro.marginals by rw [hs.at_.micro]] at hm
  refine ⟨_, ha, hm, ?_⟩
  rw [hs.conv, unspent_iff h hs.placed.range hs.size, hm]
  exact marginalsOf_zero.symm

theorem probOK_zero {s : List Nat} {P : Prob Int} {pop : Int} (h : ProbOK s P pop) :
    ProbOK s (P.map (fun p => (p.1, fun _ => 0))) 0 := by
  have hfst : P.map Prod.fst = (P.map (fun p => (p.1, fun (_ : List Int) => (0 : Int)))).map Prod.fst := by
    rw [List.map_map]
    rfl
  refine { probShape_congr hfst h.toProbShape with nonneg := ?_, total := ?_, partials := ?_ }
  · intro p hp j _
    obtain ⟨q, -, rfl⟩ := List.mem_map.mp hp
    exact le_rfl
  · intro p hp
    obtain ⟨q, -, rfl⟩ := List.mem_map.mp hp
    simp
  · intro p hp q hq a b d _ _ x _
    obtain ⟨p', -, rfl⟩ := List.mem_map.mp hp
    obtain ⟨q', -, rfl⟩ := List.mem_map.mp hq
    simp [marginalSum]

/-- **C122**: so a C++ caller who passes the same list to `qis` again, after a call that converged, gets the empty population. -/
theorem C122_qis_again (hfp : fp.Good) {lm : Libm} {s : List Nat} {P : Prob Int} {pop : Int} (h : ProbOK s P pop)
    (hpop : pop < 2 ^ 52) {skips : Int} {x : QIS} (hx : qis fp lm s P skips = .ok x) (hc : x.conv = true) {skips' : Int} {y : QIS}
    (hy : QIS.run fp lm (indicesOf P) x.micro.marginals skips' = .ok y) :
    y.micro.array = arr s (fun _ => 0) ∧ y.micro.population = 0 := by
  obtain ⟨f, -, -, hz⟩ := C122_qis hfp h hpop hx
  rw [hz.mp hc] at hy
  have hi : indicesOf P = indicesOf (P.map (fun p => (p.1, fun _ => (0 : Int)))) := by
    simp only [indicesOf, List.map_map]
    rfl
  rw [hi] at hy
  obtain ⟨g, h1, h2, h3, h4⟩ := C21_population hfp (probOK_zero h) (by norm_num) (show qis fp lm s _ skips' = .ok y from hy)
  rw [h4] at h3
  refine ⟨?_, h4⟩
  rw [h1]
  apply arr_congr
  intro v hv
  exact (Finset.sum_eq_zero_iff_of_nonneg (fun v hv => h2 v (mem_cells.mp hv))).mp h3 v (mem_cells.mpr hv)

/-- The hypotheses are met: `qis` of a problem with rows and columns returns with `conv` true, so that the caller is left with
zeros. -/
example (sqrt : Fl → Fl) (lm : Libm) : ∃ x, qis (FP.ieee sqrt) lm [2, 3] exProb 0 = .ok x ∧ x.conv = true ∧
    x.micro.marginals = marginalsOf [2, 3] (exProb.map (fun p => (p.1, fun _ => 0))) := by
  obtain ⟨x, hx, hc⟩ := exProb_run (FP.ieee_good sqrt) lm
  obtain ⟨f, -, -, h⟩ := C122_qis (FP.ieee_good sqrt) exProb_ok (by norm_num) hx
  exact ⟨x, hx, hc, h.mp hc⟩

/-- So does `qisi`. -/
example (lm : Libm) : ∃ x, qisi FP.exact lm [2, 3] exProb (fun _ => .fin 1) 7 = .ok x ∧ ProperProb [2, 3] exProb :=
  (exProb_qisi lm (skips := 7) (by norm_num) (by norm_num)).imp fun _ h => ⟨h.1, exProb_proper⟩

/-- And `ipf`: the marginals it leaves can be used again. -/
example (b : List Int → ℚ) : ∃ r, IPF.run false FP.exact (numFl FP.exact) (indicesOf (finProb exQ))
      (marginalsOf [2, 3] (finProb exQ)) (finArr [2, 3] b) = .ok r ∧
    IPF.run false FP.exact (numFl FP.exact) r.micro.indices r.micro.marginals (finArr [2, 3] b) = .ok r := by
  obtain ⟨r, hr⟩ := exQ_run b
  refine ⟨r, hr, ?_⟩
  rw [(C122_ipf hr).1, (C122_ipf hr).2]
  exact hr

end HL

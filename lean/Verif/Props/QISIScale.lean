import Verif.Props.QISI
import Verif.Props.IPFPowTwo
import Verif.Proof.QISRound

/-
C90: `qisi` does not depend on the scale of the seed.
-/

namespace HL
open QISI
variable {fp : FP}

/-! ### The seed enters only through the fits -/

/-- the seeds `sd` and `sd'` give the same outcome of every fit to what individuals can leave of the marginals -/
def SameFits (fp : FP) (s : List Nat) (P : Prob Int) (pop : Int) (sd sd' : List Int → Fl) : Prop :=
  ∀ hs : List (List Int), (∀ v ∈ hs, InRange s v) → (hs.length : Int) ≤ pop →
    IPF.run false fp (numInt fp) (indicesOf P) (marginalsOf s (remaining hs P)) (arr s sd) =
      IPF.run false fp (numInt fp) (indicesOf P) (marginalsOf s (remaining hs P)) (arr s sd')

theorem recompute_congr {s : List Nat} {P : Prob Int} {pop : Int} {sd sd' : List Int → Fl} (hf : SameFits fp s P pop sd sd')
    {hs : List (List Int)} (hr : ∀ v ∈ hs, InRange s v) (hl : (hs.length : Int) ≤ pop) {x : QISI}
    (hi : x.micro.indices = indicesOf P) (hm : x.micro.marginals = marginalsOf s (remaining hs P)) :
    recomputeIPF false fp (arr s sd) x = recomputeIPF false fp (arr s sd') x := by
  unfold recomputeIPF
  rw [hi, hm, hf hs hr hl]

theorem individual_congr {s : List Nat} {P : Prob Int} {pop : Int} (h : ProbOK s P pop) {sd sd' : List Int → Fl}
    (hf : SameFits fp s P pop sd sd') {hs : List (List Int)} {a : List Int → Fl} {t : Loop}
    (ht : LoopAt fp s P pop sd hs a t) (hl : (hs.length : Int) < pop) :
    individual false fp (arr s sd) (mapsOf s P) t = individual false fp (arr s sd') (mapsOf s P) t := by
  have hg := h.toProbShape.good
  have h2 := h.toProbShape.two
  unfold individual
  by_cases hn : hs.length = 2 ^ 32 - 1
  · have hgen := ht.gen
    rw [hn] at hgen
    rw [next_end hgen]
    rfl
  obtain ⟨sb, seq, h1, h3, h4, -, -⟩ := next_ok ht.gen (lt_of_le_of_ne ht.gen.bound hn)
  rw [h1]
  simp only [Out.ok_bind]
  have e1 : t.obj.ipf.sizes.length - 2 = s.length - 2 := by rw [ht.obj.ipf]; rfl
  rw [e1, ht.obj.ipf]
  rcases getIndex_cases (fp := fp) (seq := seq) (s.length - 2) s a t.idx hg (by omega) (by rw [h4.1]) (by rw [ht.idx]) with
    ⟨hd, -⟩ | ⟨v, hd, hgi⟩
  · rw [hd]; rfl
  have hv := hd.inRange
  have hgi' : getIndex fp seq (s.length - 2) (arr s a) t.idx = .ok v := by
    rw [hgi, List.drop_eq_nil_of_le (by rw [ht.idx]), List.append_nil]
  rw [hgi']
  simp only [Out.ok_bind]
  obtain ⟨x', hx1, hx2, -, -, -⟩ := place_ok h.toProbShape ht.obj hv
  rw [hx1]
  simp only [Out.ok_bind]
  have hr : ∀ w ∈ v :: hs, InRange s w := by
    intro w hw
    rcases List.mem_cons.mp hw with rfl | hw
    · exact hv
    · exact ht.placed.range w hw
  have e2 : takeOut false fp (arr s sd) v x' = takeOut false fp (arr s sd') v x' := by
    unfold takeOut
    rw [hx2.ipf, modify_arr hv]
    simp only [Out.ok_bind]
    rw [recompute_congr hf hr (by simp; omega) (by simp only [hx2.micro]; rfl) (by simp only [hx2.micro])]
  rw [e2]

theorem individuals_congr (hfp : fp.Good) {s : List Nat} {P : Prob Int} {pop : Int} (h : ProbOK s P pop) (hpop : pop < 2 ^ 52)
    (hp : ProperProb s P) {sd sd' : List Int → Fl} (hf : SameFits fp s P pop sd sd') :
    ∀ (k : Nat) {hs : List (List Int)} {a : List Int → Fl} {t : Loop}, LoopAt fp s P pop sd hs a t →
    (hs.length + k : Int) ≤ pop →
    individuals false fp (arr s sd) (mapsOf s P) k t = individuals false fp (arr s sd') (mapsOf s P) k t
  | 0, hs, a, t, ht, _ => rfl
  | k + 1, hs, a, t, ht, hl => by
    unfold individuals
    have hl' : (hs.length : Int) < pop := by push_cast at hl; omega
    have e := individual_congr h hf ht hl'
    rw [← e]
    rcases individual_cases' hfp h hpop hp ht hl' with
      ⟨-, hi⟩ | ⟨seq, -, ⟨-, hi⟩ | ⟨v, -, ⟨-, -, e, hi⟩ | ⟨a1, t1, hi, h1, -, -, -⟩⟩⟩
    · rw [hi]; rfl
    · rw [hi]; rfl
    · rw [hi]; rfl
    · rw [hi]
      simp only [Out.ok_bind]
      exact individuals_congr hfp h hpop hp hf k h1 (by simp; push_cast at hl; omega)

theorem begin_congr {s : List Nat} {P : Prob Int} {pop : Int} (h : ProbOK s P pop) {sd sd' : List Int → Fl}
    (hf : SameFits fp s P pop sd sd') {n : Nat} {x : QISI} (hx : QISIObj s P pop n x) :
    QISI.begin false fp (arr s sd) x = QISI.begin false fp (arr s sd') x := by
  obtain ⟨g, hm⟩ := hx.micro
  have er : remaining [] P = P := by simp [remaining]
  have key : ∀ p e, recomputeIPF false fp (arr s sd) { x with ipf := p, expected := e } =
      recomputeIPF false fp (arr s sd') { x with ipf := p, expected := e } := fun p e =>
    recompute_congr hf (hs := []) (by simp) (by simpa using h.pop_nonneg) (by simp only [hm]; rfl) (by simp only [hm, er]; rfl)
  unfold QISI.begin
  simp only [key]

theorem solve_congr (hfp : fp.Good) (lm : Libm) {s : List Nat} {P : Prob Int} {pop : Int} (h : ProbOK s P pop)
    (hpop : pop < 2 ^ 52) (hp : ProperProb s P) {sd sd' : List Int → Fl} (hf : SameFits fp s P pop sd sd')
    (hd : s.length ≤ 1111) {n : Nat} {x : QISI} (hx : QISIObj s P pop n x) :
    QISI.solve false fp lm x (arr s sd) false = QISI.solve false fp lm x (arr s sd') false := by
  have hg := h.toProbShape.good
  have h2 := h.toProbShape.two
  obtain ⟨c, x', hb, hc, h3, -, -, -⟩ := qisi_begin hfp h hpop hp sd hx
  obtain ⟨gen, hgen, hat, -⟩ := new_ok (dim := s.length) (by omega) hd
  have hb' := begin_congr h hf hx
  rw [hb] at hb'
  have hl : LoopAt fp s P pop sd [] c ⟨x', gen, List.replicate s.length 0⟩ := ⟨h3, hat, by simp, .start c hc⟩
  have h0 := h.pop_nonneg
  have hi := individuals_congr hfp h hpop hp hf pop.toNat hl (by simp; omega)
  unfold mapsOf at hi
  have e2 : x'.micro.array.sizes = s := by rw [h3.micro]; rfl
  have e3 : x'.micro.indices = indicesOf P := by rw [h3.micro]; rfl
  have e4 : x'.micro.population = pop := by rw [h3.micro]; rfl
  have e5 : x'.micro.dim = s.length := by rw [h3.micro]; rfl
  have e6 : resetIf false x.sobol = .ok x.sobol := rfl
  have e7 : (arr s sd).sizes = (arr s sd').sizes := rfl
  have hmp := mappings_ok (s := s) (P := P) (fun p hp => (h.dims p hp).2)
  have e8 : ({ x with sobol := x.sobol } : QISI) = x := rfl
  unfold QISI.solve
  rw [e6, e7]
  simp only [Out.ok_bind, e8]
  rw [hb, ← hb']
  simp only [Out.ok_bind]
  rw [e2, e3, e4, e5, index_new hg.1]
  simp only [Out.ok_bind]
  rw [show (zerosI s.length) = List.replicate s.length 0 from rfl, hmp]
  simp only [Out.ok_bind]
  rw [hgen]
  simp only [Out.ok_bind]
  rw [hi]

theorem qisi_congr (hfp : fp.Good) (lm : Libm) {s : List Nat} {P : Prob Int} {pop : Int} (h : ProbOK s P pop) (hpop : pop < 2 ^ 52)
    (hp : ProperProb s P) {sd sd' : List Int → Fl} (hf : SameFits fp s P pop sd sd') (skips : Int) :
    qisi fp lm s P sd skips = qisi fp lm s P sd' skips := by
  unfold qisi QISI.run
  cases hn : QISI.new fp (indicesOf P) (marginalsOf s P) skips with
  | ok x =>
    simp only [Out.ok_bind]
    have hrun : QISI.run false fp lm (indicesOf P) (marginalsOf s P) NDArray.empty skips =
        QISI.solve false fp lm x NDArray.empty false := by
      unfold QISI.run
      rw [hn, Out.ok_bind]
    have hthr : QISI.solve false fp lm x NDArray.empty false = .thrown .seedDims := by
      have hn' := hn
      unfold QISI.new at hn'
      rw [micro_new_int hfp h hpop, Out.ok_bind] at hn'
      obtain ⟨g1, -, hn'⟩ := Out.bind_eq_ok.mp hn'
      obtain ⟨g2, -, hn'⟩ := Out.bind_eq_ok.mp hn'
      have e1 : x.micro = mkMicro Int s P pop := by
        simp only [Out.pure_eq, Out.ok.injEq] at hn'
        rw [← hn']
      have e2 : x.micro.array.sizes = s := by rw [e1]; rfl
      have e3 : (NDArray.empty : NDArray Fl).sizes = [] := rfl
      have h2 := h.toProbShape.two
      unfold QISI.solve IPF.checkSeed
      rw [e2, e3, if_pos (by simp; omega), Out.thrown_bind]
    rw [hthr] at hrun
    rcases qisi_run_eq hfp lm h hpop NDArray.empty skips with hx | hx | ⟨c, x0, hd, -, hx, hnew, -⟩
    · obtain ⟨-, e, he, he'⟩ := hx
      rw [hrun] at he
      injection he with he
      subst he
      rcases he' with he' | he' <;> cases he'
    · rw [hrun] at hx
      cases hx.2.2
    · rw [hn] at hnew
      injection hnew with hnew
      subst hnew
      exact solve_congr hfp lm h hpop hp hf hd hx
  | thrown e => rw [Out.thrown_bind, Out.thrown_bind]
  | ub u => rw [Out.ub_bind, Out.ub_bind]
  | diverges => rw [Out.diverges_bind, Out.diverges_bind]

/-! ### C90 -/

/-- **C90**: multiplying the seed by a non-zero constant changes nothing in what `qisi` does, whatever the skips: the same
population, expectation and statistics, or the same exception (exact arithmetic). -/
theorem C90_seed_scale (lm : Libm) {s : List Nat} {P : Prob Int} {pop : Int} (h : ProbOK s P pop) (hpop : pop < 2 ^ 52)
    (hp : ProperProb s P) (b : List Int → ℚ) {k : ℚ} (hk : k ≠ 0) (skips : Int) :
    qisi FP.exact lm s P (fun v => .fin (k * b v)) skips = qisi FP.exact lm s P (fun v => .fin (b v)) skips := by
  apply qisi_congr FP.exact_good lm h hpop hp
  intro hs hr hl
  have hsh := shape_remaining h.toProbShape hs
  have hne : ratProb (remaining hs P) ≠ [] := by
    intro he
    have := hsh.lists
    unfold ratProb at he
    rw [List.map_eq_nil_iff] at he
    rw [he] at this
    simp at this
  have hd : ∀ p ∈ remaining hs P, ∀ d ∈ p.1, d < s.length := fun p hp => (hsh.dims p hp).2
  rw [← indicesOf_remaining hs P]
  unfold IPF.run
  cases hx : IPF.new FP.exact (numInt FP.exact) (indicesOf (remaining hs P)) (marginalsOf s (remaining hs P)) with
  | ok x =>
    simp only [Out.ok_bind]
    have hx' := hx
    unfold IPF.new at hx'
    obtain ⟨m, hm, hx'⟩ := Out.bind_eq_ok.mp hx'
    obtain ⟨pop', -, rfl⟩ := (new_ok_iff _ _ (minOK_int _) hsh).mp hm
    obtain ⟨x', hx1, hx2⟩ := ipf_new_obj hm
    rw [hx] at hx1
    injection hx1 with hx1
    subst hx1
    apply ipf_solve_congr _ _ hsh (properProb_remaining hp hs) hx2 hx2
    intro v hv
    rw [sweep_exact hd (reads_rat s _) (a := fun v => .fin (k * b v)) (b := fun v => k * b v) (fun _ _ => rfl) v hv,
      sweep_exact hd (reads_rat s _) (a := fun v => .fin (b v)) (b := b) (fun _ _ => rfl) v hv, qsweep_smul hne hk]
  | thrown e => rfl
  | ub u => rfl
  | diverges => rfl

theorem new_overdrawn (hfp : fp.Good) {s : List Nat} {P : Prob Int} {pop : Int} (h : ProbOK s P pop) (hpop : pop < 2 ^ 52)
    {hs : List (List Int)} (hr : ∀ v ∈ hs, InRange s v) (hl : (hs.length : Int) ≤ pop) (ho : Overdrawn s P hs) :
    ∃ e, IPF.new fp (numInt fp) (indicesOf P) (marginalsOf s (remaining hs P)) = .thrown e := by
  have hsh := shape_remaining h.toProbShape hs
  have h0 := h.pop_nonneg
  have htot := remaining_total h.toProbShape h.total hr
  have hsm : ∀ p ∈ remaining hs P, |∑ j ∈ cells (projSizes p.1 s), p.2 j| < 2 ^ 52 := by
    intro p hp
    rw [htot p hp, abs_lt]; omega
  rcases new_shape (β := Fl) fp (numInt fp) (minOK_int fp) hsh (fun p hp => by
    unfold roundedTotal
    rw [seqSum_int]
    exact rounded_int_ok hfp (hsm p hp)) with ⟨pop', h4, -⟩ | ⟨⟨e, he⟩, -⟩
  · obtain ⟨p, hp, j, hj, hlt⟩ := ho
    have := ((probOK_iff hfp hsm).mp h4).nonneg p hp j hj
    omega
  · refine ⟨e, ?_⟩
    unfold IPF.new
    rw [← indicesOf_remaining hs P, he, Out.thrown_bind]

/-- **C90** in binary64: if the cells of the seed are zero or between `2^-400` and `2^400`, multiplying the seed by `2^k`,
`|k| ≤ 400`, changes nothing in what `qisi` does, not a single bit. -/
theorem C90_power_of_two (sqrt : Fl → Fl) (lm : Libm) {s : List Nat} {P : Prob Int} {pop : Int} (h : ProbOK s P pop)
    (hpop : pop < 2 ^ 52) (hp : ProperProb s P) (hcells : (allIdx s).length ≤ 2 ^ 53) {b : List Int → ℚ}
    (hb : ∀ v, InRange s v → Moderate (-400) 400 (b v)) {k : ℤ} (hk : |k| ≤ 400) (skips : Int) :
    qisi (FP.ieee sqrt) lm s P (fun v => .fin (2 ^ k * b v)) skips = qisi (FP.ieee sqrt) lm s P (fun v => .fin (b v)) skips := by
  apply qisi_congr (FP.ieee_good sqrt) lm h hpop hp
  intro hs hr hl
  by_cases ho : Overdrawn s P hs
  · obtain ⟨e, he⟩ := new_overdrawn (FP.ieee_good sqrt) h hpop hr hl ho
    unfold IPF.run
    rw [he, Out.thrown_bind, Out.thrown_bind]
  · have hok := probOK_remaining_all h hr ho
    rw [← indicesOf_remaining hs P]
    refine C35_power_of_two sqrt (numInt _) (minOK_int _) hok.toProbShape (properProb_remaining hp hs) hcells ?_ hb hk
    intro p hp' j hj
    have hp' := List.mem_of_mem_head? (Option.mem_def.mpr hp')
    have h1 := hok.nonneg p hp' j hj
    have h2 : p.2 j ≤ pop := (entry_le hok hp' hj).trans (by omega)
    refine ⟨(p.2 j : ℚ), ?_, ?_⟩
    · exact ofInt_exact (FP.ieee_good sqrt) (by rw [abs_of_nonneg h1]; omega)
    · by_cases hz : p.2 j = 0
      · left; rw [hz]; rfl
      · right
        have h3 : (1 : ℚ) ≤ p.2 j := by exact_mod_cast (by omega : 1 ≤ p.2 j)
        have h4 : (p.2 j : ℚ) ≤ 2 ^ 52 := by exact_mod_cast (by omega : p.2 j ≤ 2 ^ 52)
        constructor
        · exact (zpow_le_one_of_nonpos₀ (by norm_num) (by norm_num)).trans h3
        · refine h4.trans ?_
          rw [show (2 : ℚ) ^ 52 = 2 ^ (52 : ℤ) from (zpow_ofNat _ _).symm]
          exact zpow_le_zpow_right₀ (by norm_num) (by norm_num)

/-- The hypotheses are met by the example problem and a seed of ones multiplied by 1024. -/
example : ProbOK [2, 3] exProb 3 ∧ ProperProb [2, 3] exProb ∧ (allIdx [2, 3]).length ≤ 2 ^ 53 ∧
    (∀ v, InRange [2, 3] v → Moderate (-400) 400 (1 : ℚ)) ∧ |(10 : ℤ)| ≤ 400 :=
  ⟨exProb_ok, properProb_of_disjoint exProb_ok.toProbShape (by decide), by decide,
    fun _ _ => Or.inr ⟨zpow_le_one_of_nonpos₀ (by norm_num) (by norm_num), one_le_zpow₀ (by norm_num) (by norm_num)⟩, by norm_num⟩

end HL

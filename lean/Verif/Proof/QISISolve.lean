import Verif.Proof.QISILoop
import Verif.Proof.QISMore

/-
QISI::solve and the whole of `qisi`.
-/

namespace HL
open QISI
variable {fp : FP}

/-- An object ready to be solved. -/
structure QISIObj (s : List Nat) (P : Prob Int) (pop : Int) (n : Nat) (x : QISI) : Prop where
  micro : ∃ g, x.micro = { mkMicro Int s P pop with array := arrO s g }
  sobol : SobolAt s.length n x.sobol
  ipf : x.ipf = NDArray.empty ∨ ∃ g, x.ipf = arrO s g
  expected : x.expected = NDArray.empty ∨ ∃ g, x.expected = arrO s g

theorem resize_either {s : List Nat} (hg : GoodShape s) {a : NDArray Fl} (h : a = NDArray.empty ∨ ∃ g, a = arrO s g) :
    ∃ g, a.resize s = .ok (arrO s g) := by
  rcases h with rfl | ⟨g, rfl⟩
  · exact ⟨_, resize_eq hg (prodSizes_pos hg.2)⟩
  · exact ⟨_, resize_same hg g⟩

theorem qisi_begin (hfp : fp.Good) {s : List Nat} {P : Prob Int} {pop : Int} (h : ProbOK s P pop) (hpop : pop < 2 ^ 52)
    (hp : ProperProb s P) (sd : List Int → Fl) {n : Nat} {x : QISI} (hx : QISIObj s P pop n x) :
    ∃ c x', QISI.begin false fp (arr s sd) x = .ok x' ∧ Fit fp s P sd c ∧ QISIAt s P pop [] c x' ∧
      x'.expected = arr s c ∧ x'.conv = true ∧ x'.sobol = x.sobol := by
  have hg := h.toProbShape.good
  obtain ⟨g, hm⟩ := hx.micro
  obtain ⟨g1, h1⟩ := resize_either hg hx.ipf
  obtain ⟨g2, h2⟩ := resize_either hg hx.expected
  have e1 : x.micro.array.sizes = s := by rw [hm]; rfl
  have er : remaining [] P = P := by simp [remaining]
  unfold QISI.begin
  rw [e1, h1]
  simp only [Out.ok_bind]
  rw [h2]
  simp only [Out.ok_bind]
  rcases recompute_cases hfp h hpop hp (hs := []) (by simp) (by simpa using h.pop_nonneg) sd
    (x := { x with ipf := arrO s g1, expected := arrO s g2 }) (by simp only [hm]; rfl)
    (by simp only [hm, er]; rfl) rfl with ⟨⟨p, hp', j, hj, hlt⟩, -⟩ | ⟨c, hc, hr⟩
  · rw [er] at hp'
    have := h.nonneg p hp' j hj
    omega
  · rw [hr]
    simp only [Out.ok_bind]
    rw [copy_same hg]
    simp only [Out.ok_bind]
    rw [show x.micro.array = arrO s g by rw [hm], assign_eq]
    simp only [Out.ok_bind]
    rw [er] at hc
    refine ⟨c, _, rfl, hc, ⟨?_, rfl⟩, rfl, rfl, rfl⟩
    simp only [hm, er]
    unfold mkMicro
    simp

theorem qisi_solve_eq (hfp : fp.Good) (lm : Libm) {s : List Nat} {P : Prob Int} {pop : Int} (h : ProbOK s P pop) (hpop : pop < 2 ^ 52)
    (hp : ProperProb s P) (hd : s.length ≤ 1111) (sd : List Int → Fl) {n : Nat} {x : QISI} (hx : QISIObj s P pop n x) (reset : Bool) :
    ∃ c t, Fit fp s P sd c ∧ LoopAt fp s P pop sd [] c t ∧ t.obj.expected = arr s c ∧ t.obj.conv = true ∧
      SobolAt s.length (if reset then 0 else n) t.obj.sobol ∧
      QISI.solve false fp lm x (arr s sd) reset =
        (individuals false fp (arr s sd) (mapsOf s P) pop.toNat t >>= fun t => QISI.stats fp lm t.obj) := by
  have hg := h.toProbShape.good
  have h2 := h.toProbShape.two
  obtain ⟨g, hm⟩ := hx.micro
  have hsb : ∃ sb, resetIf reset x.sobol = .ok sb ∧ SobolAt s.length (if reset then 0 else n) sb := by
    cases reset with
    | false => exact ⟨x.sobol, rfl, hx.sobol⟩
    | true =>
      obtain ⟨sb, h1, h2, -⟩ := reset_ok hx.sobol
      exact ⟨sb, h1, h2⟩
  obtain ⟨sb, hsb1, hsb2⟩ := hsb
  obtain ⟨c, x', hb, hc, h3, h4, h5, h6⟩ := qisi_begin hfp h hpop hp sd (x := { x with sobol := sb })
    ⟨⟨g, hm⟩, hsb2, hx.ipf, hx.expected⟩
  obtain ⟨gen, hgen, hat, -⟩ := new_ok (dim := s.length) (by omega) hd
  have e1 : x.micro.array.sizes = s := by rw [hm]; rfl
  refine ⟨c, ⟨x', gen, List.replicate s.length 0⟩, hc, ⟨h3, hat, by simp, .start c hc⟩, h4, h5, by rw [h6]; exact hsb2, ?_⟩
  unfold QISI.solve IPF.checkSeed
  rw [e1, show (arr s sd).sizes = s from rfl, if_neg (by simp), if_neg (by simp)]
  simp only [Out.ok_bind]
  rw [hsb1]
  simp only [Out.ok_bind]
  rw [hb]
  simp only [Out.ok_bind]
  have e2 : x'.micro.array.sizes = s := by rw [h3.micro]; rfl
  have e3 : x'.micro.indices = indicesOf P := by rw [h3.micro]; rfl
  have e4 : x'.micro.population = pop := by rw [h3.micro]; rfl
  have e5 : x'.micro.dim = s.length := by rw [h3.micro]; rfl
  rw [e2, e3, e4, e5, index_new hg.1]
  simp only [Out.ok_bind]
  have hmp := mappings_ok (s := s) (P := P) (fun p hp => (h.dims p hp).2)
  rw [show (zerosI s.length) = List.replicate s.length 0 from rfl, hmp]
  simp only [Out.ok_bind]
  rw [hgen]
  rfl

/-- What `qisi` returns. -/
structure SolvedI (fp : FP) (lm : Libm) (s : List Nat) (P : Prob Int) (pop : Int) (sd E a : List Int → Fl)
    (vs : List (List Int)) (x : QISI) : Prop where
  size : vs.length = pop.toNat
  fit : Fit fp s P sd E
  placed : Placed fp s P sd vs a
  at_ : QISIAt s P pop vs a x
  expected : x.expected = arr s E
  conv : x.conv = true ↔ Unspent P vs
  chiSq : x.chiSq = chiSqVal fp s (fun v => (vs.count v : Int)) E
  pValue : x.pValue = tablePValue fp lm s x.chiSq
  degeneracy : x.degeneracy = degeneracyVal fp lm s (fun v => (vs.count v : Int))
  bound : vs.length ≤ 2 ^ 32 - 1

theorem qisi_stats (lm : Libm) {s : List Nat} (hg : GoodShape s) {x : QISI} {f : List Int → Int} {E : List Int → Fl}
    (h1 : x.micro.array = arr s f) (h2 : x.expected = arr s E) :
    QISI.stats fp lm x = .ok { x with chiSq := chiSqVal fp s f E, pValue := tablePValue fp lm s (chiSqVal fp s f E), degeneracy := degeneracyVal fp lm s f } := by
  unfold QISI.stats
  rw [h1, h2, chiSq_eq hg]
  simp only [Out.ok_bind]
  rw [degeneracy_eq lm hg]
  rfl

theorem qisi_finish (lm : Libm) {s : List Nat} {P : Prob Int} {pop : Int} (h : ProbOK s P pop) {sd E a : List Int → Fl}
    {vs : List (List Int)} {t : Loop} (hE : Fit fp s P sd E) (hl : vs.length = pop.toNat) (ht : LoopAt fp s P pop sd vs a t)
    (he : t.obj.expected = arr s E) (hc : t.obj.conv = true ↔ Unspent P vs) :
    ∃ x, QISI.stats fp lm t.obj = .ok x ∧ SolvedI fp lm s P pop sd E a vs x ∧ x.sobol = t.obj.sobol := by
  have ha : t.obj.micro.array = arr s (fun v => (vs.count v : Int)) := by rw [ht.obj.micro]
  rw [qisi_stats lm h.toProbShape.good ha he]
  exact ⟨_, rfl, ⟨hl, hE, ht.placed, ⟨ht.obj.micro, ht.obj.ipf⟩, he, hc, rfl, rfl, rfl, ht.gen.bound⟩, rfl⟩

theorem qisi_solve_cases (hfp : fp.Good) (lm : Libm) {s : List Nat} {P : Prob Int} {pop : Int} (h : ProbOK s P pop) (hpop : pop < 2 ^ 52)
    (hp : ProperProb s P) (hd : s.length ≤ 1111) (sd : List Int → Fl) {n : Nat} {x : QISI} (hx : QISIObj s P pop n x) (reset : Bool) :
    (∃ e, QISI.solve false fp lm x (arr s sd) reset = .thrown e) ∨
    ∃ E a vs x', QISI.solve false fp lm x (arr s sd) reset = .ok x' ∧ SolvedI fp lm s P pop sd E a vs x' := by
  obtain ⟨c, t, hc, ht, h1, h2, -, he⟩ := qisi_solve_eq hfp lm h hpop hp hd sd hx reset
  rw [he]
  have h0 := h.pop_nonneg
  rcases individuals_cases' hfp h hpop hp pop.toNat ht (by simp; omega) (by simp [h2, Unspent]) with
    ⟨e, hi⟩ | ⟨vs, a, t', g1, g2, g3, g4, g5, g6⟩
  · left; rw [hi]; exact ⟨e, rfl⟩
  · right
    rw [List.append_nil] at g3 g6
    rw [g2]
    simp only [Out.ok_bind]
    obtain ⟨x', hx', hs, -⟩ := qisi_finish lm h hc g1 g3 (g4.trans h1) g6
    exact ⟨c, a, vs, x', hx', hs⟩

theorem qisi_run_eq (hfp : fp.Good) (lm : Libm) {s : List Nat} {P : Prob Int} {pop : Int} (h : ProbOK s P pop) (hpop : pop < 2 ^ 52)
    (seed : NDArray Fl) (skips : Int) :
    (1111 < s.length ∧ ∃ e, QISI.run false fp lm (indicesOf P) (marginalsOf s P) seed skips = .thrown e ∧ (e = .sobolDim ∨ e = .lengthError)) ∨
    (s.length ≤ 1111 ∧ 2 ^ 31 < skips % 2 ^ 32 ∧ QISI.run false fp lm (indicesOf P) (marginalsOf s P) seed skips = .diverges) ∨
    ∃ c x, s.length ≤ 1111 ∧ skipCount (skips % 2 ^ 32).toNat = .ok c ∧ QISIObj s P pop c x ∧
      QISI.new fp (indicesOf P) (marginalsOf s P) skips = .ok x ∧
      QISI.run false fp lm (indicesOf P) (marginalsOf s P) seed skips = QISI.solve false fp lm x seed false := by
  have h2 := h.two
  by_cases hd : s.length ≤ 1111
  · right
    obtain ⟨sb, hsb, ha, -⟩ := new_ok (dim := s.length) (by omega) hd
    rcases skipCount_cases (skips % 2 ^ 32).toNat with ⟨c, hc, hc'⟩ | ⟨hc, hc'⟩
    · right
      obtain ⟨sb', hsk, ha', -⟩ := skip_ok ha hc
      rw [show min (0 + c) (2 ^ 32 - 1) = c by omega] at ha'
      have hnew : ∃ x, QISI.new fp (indicesOf P) (marginalsOf s P) skips = .ok x ∧ QISIObj s P pop c x := by
        unfold QISI.new
        rw [micro_new_int hfp h hpop]
        simp only [Out.ok_bind]
        rw [show (mkMicro Int s P pop).dim = s.length from rfl, hsb]
        simp only [Out.ok_bind]
        rw [hsk]
        exact ⟨_, rfl, ⟨_, rfl⟩, ha', Or.inl rfl, Or.inl rfl⟩
      obtain ⟨x, hx, ho⟩ := hnew
      refine ⟨c, x, hd, hc, ho, hx, ?_⟩
      unfold QISI.run
      rw [hx]; rfl
    · left
      refine ⟨hd, by omega, ?_⟩
      unfold QISI.run QISI.new
      rw [micro_new_int hfp h hpop]
      simp only [Out.ok_bind]
      rw [show (mkMicro Int s P pop).dim = s.length from rfl, hsb]
      simp only [Out.ok_bind]
      unfold Sobol.skip sobolSkip
      rw [hc']
      rfl
  · left
    refine ⟨by omega, ?_⟩
    unfold QISI.run QISI.new
    rw [micro_new_int hfp h hpop]
    simp only [Out.ok_bind]
    rw [show (mkMicro Int s P pop).dim = s.length from rfl]
    unfold Sobol.new
    by_cases h61 : 2 ^ 61 ≤ s.length
    · rw [if_pos h61]; exact ⟨_, rfl, Or.inr rfl⟩
    · rw [if_neg h61, if_pos (by omega)]; exact ⟨_, rfl, Or.inl rfl⟩

theorem qisi_run_ok (hfp : fp.Good) {lm : Libm} {s : List Nat} {P : Prob Int} {pop : Int} (h : ProbOK s P pop) (hpop : pop < 2 ^ 52)
    (hp : ProperProb s P) {sd : List Int → Fl} {skips : Int} {x : QISI}
    (hx : QISI.run false fp lm (indicesOf P) (marginalsOf s P) (arr s sd) skips = .ok x) :
    ∃ E a vs, SolvedI fp lm s P pop sd E a vs x := by
  rcases qisi_run_eq hfp lm h hpop (arr s sd) skips with ⟨-, e, h1, -⟩ | ⟨-, -, h1⟩ | ⟨c, x0, h1, h2, h3, -, h4⟩
  · rw [h1] at hx; cases hx
  · rw [h1] at hx; cases hx
  · rw [h4] at hx
    rcases qisi_solve_cases hfp lm h hpop hp h1 sd h3 false with ⟨e, h5⟩ | ⟨E, a, vs, x', h5, h6⟩
    · rw [h5] at hx; cases hx
    · rw [h5] at hx
      injection hx with hx
      subst hx
      exact ⟨E, a, vs, h6⟩

/-! ### Structural zeros -/

/-- a fit keeps zeros (or makes them NaN) and signs -/
theorem fit_zero (hs : SignOK fp) {s : List Nat} {Q : Prob Int} (hQ : ProbShape s Q) (hp : ProperProb s Q)
    {sd c : List Int → Fl} (hf : Fit fp s Q sd c) (h0 : ∀ v, InRange s v → NonNegNan (sd v)) :
    (∀ v, InRange s v → NonNegNan (c v)) ∧ ∀ v, InRange s v → sd v = .fin 0 → c v = .fin 0 ∨ c v = .nan := by
  obtain ⟨r, hr, ha⟩ := hf
  obtain ⟨pop, n, hok, -, -, -, -, rfl⟩ := ipf_run fp _ (minOK_int fp) hQ hp sd hr
  have ha' : arr s ((sweep fp (numInt fp) s Q)^[n] sd) = arr s c := ha
  constructor
  · intro v hv
    rw [← arr_inj ha' v hv]
    refine iterate_nonNeg hs.nonneg (numInt fp) Q (fun p hp => (hQ.dims p hp).2) ?_ h0 n v hv
    intro p hpp j hj
    have := hok.nonneg p hpp j hj
    have h1 : 0 ≤ p.2 j := by simpa [numInt] using this
    exact hs.nonneg _ (by exact_mod_cast h1)
  · intro v hv hz
    rw [← arr_inj ha' v hv]
    exact iterate_zeroNan hs.zero (numInt fp) Q (Or.inl hz) n

theorem placed_zero (hs : SignOK fp) {s : List Nat} {P : Prob Int} (hP : ProbShape s P) (hp : ProperProb s P)
    {sd : List Int → Fl} (h0 : ∀ v, InRange s v → NonNegNan (sd v)) {hs' : List (List Int)} {a : List Int → Fl}
    (h : Placed fp s P sd hs' a) :
    (∀ v, InRange s v → NonNegNan (a v)) ∧ (∀ v, InRange s v → sd v = .fin 0 → a v = .fin 0 ∨ a v = .nan) ∧
      ∀ v ∈ hs', sd v ≠ .fin 0 := by
  have key : ∀ {hs' : List (List Int)} {a : List Int → Fl} {seq : List U32} {v : List Int}, Drawn fp seq s a v →
      (∀ v, InRange s v → NonNegNan (a v)) → (∀ v, InRange s v → sd v = .fin 0 → a v = .fin 0 ∨ a v = .nan) →
      (∀ w ∈ hs', sd w ≠ .fin 0) → ∀ w ∈ v :: hs', sd w ≠ .fin 0 := by
    intro hs' a seq v hd h1 h2 h3 w hw
    rcases List.mem_cons.mp hw with rfl | hw
    · intro hz
      have := drawn_ne hs hd h1
      rcases h2 _ hd.inRange hz with h4 | h4
      · exact this.1 h4
      · exact this.2 h4
    · exact h3 w hw
  induction h with
  | start c hc =>
    obtain ⟨h1, h2⟩ := fit_zero hs hP hp hc h0
    exact ⟨h1, h2, by simp⟩
  | keep hs' a seq v _ _ hd hlt ih =>
    obtain ⟨h1, h2, h3⟩ := ih
    have h4 := key hd h1 h2 h3
    refine ⟨?_, ?_, h4⟩
    · intro w hw
      by_cases hwv : w = v
      · subst hwv
        rw [Function.update_self, nonNegNan_cases]
        revert hlt
        cases fp.sub (a w) (.fin 1) <;> simp [FP.lt]
      · rw [Function.update_of_ne hwv]; exact h1 w hw
    · intro w hw hz
      have hwv : w ≠ v := by rintro rfl; exact h4 w (by simp) hz
      rw [Function.update_of_ne hwv]
      exact h2 w hw hz
  | refit hs' a seq v c _ _ hd hlt hc ih =>
    obtain ⟨h1, h2, h3⟩ := ih
    obtain ⟨g1, g2⟩ := fit_zero hs (shape_remaining hP _) (properProb_remaining hp _) hc h0
    exact ⟨g1, g2, key hd h1 h2 h3⟩

end HL

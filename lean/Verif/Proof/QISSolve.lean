import Verif.Proof.QISLoop

/-
Construction, `solve` and the statistics of QIS.
-/

namespace HL
open QIS
variable {fp : FP}

/-- the product of the marginals at the cell `v`, as the code computes it -/
def stateVal (fp : FP) (P : Prob Int) (v : List Int) : Fl :=
  P.foldl (fun x p => fp.mul x (fp.ofInt (p.2 (proj p.1 v)))) (.fin 1)

theorem mulMarginals_eq {s : List Nat} {v : List Int} (hv : InRange s v) : ∀ (Q : Prob Int) (f : List Int → Fl),
    (∀ p ∈ Q, ∀ d ∈ p.1, d < s.length) →
    mulMarginals fp v (mapsOf s Q) (marginalsOf s Q) (arr s f) =
      .ok (arr s (Function.update f v (Q.foldl (fun x p => fp.mul x (fp.ofInt (p.2 (proj p.1 v)))) (f v))))
  | [], f, _ => by simp [mulMarginals, marginalsOf]
  | q :: Q, f, hd => by
    have e : mulMarginals fp v (mapsOf s (q :: Q)) (marginalsOf s (q :: Q)) (arr s f) =
        ((arr (projSizes q.1 s) q.2).get (proj q.1 v) >>= fun w =>
          (arr s f).modify v (fun x => fp.mul x (fp.ofInt w)) >>= fun a =>
            mulMarginals fp v (mapsOf s Q) (marginalsOf s Q) a) := rfl
    rw [e, get_arr (inRange_proj (hd q (by simp)) hv)]
    simp only [Out.ok_bind]
    rw [modify_arr hv]
    simp only [Out.ok_bind]
    rw [mulMarginals_eq hv Q _ (fun p hp => hd p (by simp [hp]))]
    simp

/-- Visiting every cell once and replacing its entry. -/
theorem foldl_update_all {γ : Type} (F : List Int → γ → γ) : ∀ (l : List (List Int)), l.Nodup → ∀ (f : List Int → γ) (v : List Int), 
    l.foldl (fun (f : List Int → γ) v => Function.update f v (F v (f v))) f v = if v ∈ l then F v (f v) else f v
  | [], _, f, v => by simp
  | a :: l, hn, f, v => by
    have hn' := List.nodup_cons.mp hn
    rw [List.foldl_cons, foldl_update_all F l hn'.2]
    by_cases hva : v = a
    · subst hva
      simp [hn'.1]
    · by_cases hvl : v ∈ l
      · simp [hvl, hva]
      · simp [hvl, hva]

theorem forIndex_cells {γ : Type} {s : List Nat} (hg : GoodShape s) (F : List Int → γ → γ)
    {body : NDArray γ → List Int → Out (NDArray γ)}
    (hb : ∀ v, InRange s v → ∀ f, body (arr s f) v = .ok (arr s (Function.update f v (F v (f v))))) (f : List Int → γ) :
    forIndex s body (arr s f) = .ok (arr s (fun v => F v (f v))) := by
  rw [forIndex_eq hg, foldlM_repr (R := arr s) (h := fun f v => Function.update f v (F v (f v)))
    (fun v hv f => hb v (mem_allIdx.mp hv) f)]
  congr 1
  apply arr_congr
  intro v hv
  rw [foldl_update_all F _ (nodup_allIdx s), if_pos (mem_allIdx.mpr hv)]

theorem stateValues_eq {s : List Nat} {P : Prob Int} (h : ProbShape s P) {pop : Int} (g : List Int → Option Fl) :
    computeStateValues fp (mkMicro Int s P pop) (arrO s g) = .ok (arr s (stateVal fp P)) := by
  unfold computeStateValues
  have e1 : (mkMicro Int s P pop).array.sizes = s := rfl
  have e2 : (mkMicro Int s P pop).indices = indicesOf P := rfl
  have e3 : (mkMicro Int s P pop).marginals = marginalsOf s P := rfl
  rw [e1, e2, e3, index_new h.good.1]
  simp only [Out.ok_bind]
  have hm := mappings_ok (s := s) (P := P) (fun p hp => (h.dims p hp).2)
  rw [show (zerosI s.length) = List.replicate s.length 0 from rfl, hm]
  simp only [Out.ok_bind]
  rw [assign_eq]
  simp only [Out.ok_bind]
  exact forIndex_cells h.good (fun v x => P.foldl (fun x p => fp.mul x (fp.ofInt (p.2 (proj p.1 v)))) x)
    (body := fun a idx => mulMarginals fp idx (mapsOf s P) (marginalsOf s P) a)
    (fun v hv f => mulMarginals_eq hv P f (fun p hp => (h.dims p hp).2)) (fun _ => .fin 1)

/-- the expectation, as the code computes it -/
def expectedVal (fp : FP) (s : List Nat) (P : Prob Int) (pop : Int) (v : List Int) : Fl :=
  fp.mul (stateVal fp P v)
    (fp.div (fp.ofInt pop) ((allIdx s).foldl (fun acc v => fp.add acc (stateVal fp P v)) (.fin 0)))

/-- An object ready to be solved. -/
structure QISObj (s : List Nat) (P : Prob Int) (pop : Int) (n : Nat) (E : List Int → Fl) (x : QIS) : Prop where
  micro : ∃ g, x.micro = { mkMicro Int s P pop with array := arrO s g }
  sobol : SobolAt s.length n x.sobol
  expected : x.expected = arr s E

theorem qis_new_ok (hfp : fp.Good) {s : List Nat} {P : Prob Int} {pop : Int} (h : ProbOK s P pop) (hpop : pop < 2 ^ 52)
    (hdim : s.length ≤ 1111) {skips : Int} {c : Nat} (hc : skipCount (skips % 2 ^ 32).toNat = .ok c) :
    ∃ x, QIS.new fp (indicesOf P) (marginalsOf s P) skips = .ok x ∧
      QISObj s P pop (min c (2 ^ 32 - 1)) (expectedVal fp s P pop) x ∧ x.stateValues = arr s (stateVal fp P) := by
  have hs := h.toProbShape
  have h2 := hs.two
  obtain ⟨sb, hsb, ha, -⟩ := new_ok (dim := s.length) (by omega) hdim
  obtain ⟨sb', hsk, ha', -⟩ := skip_ok ha hc
  rw [Nat.zero_add] at ha'
  unfold QIS.new
  rw [micro_new_int hfp h hpop]
  simp only [Out.ok_bind]
  rw [show (mkMicro Int s P pop).dim = s.length from rfl, hsb]
  simp only [Out.ok_bind]
  rw [hsk]
  simp only [Out.ok_bind]
  rw [show (mkMicro Int s P pop).array.sizes = s from rfl, resize_eq hs.good (prodSizes_pos hs.good.2)]
  simp only [Out.ok_bind]
  rw [stateValues_eq hs]
  simp only [Out.ok_bind]
  rw [copy_empty hs.good]
  simp only [Out.ok_bind]
  rw [sumArr_eq]
  simp only [Out.ok_bind]
  rw [show (arr s (stateVal fp P)).sizes = s from rfl]
  have := forIndex_cells hs.good (fun _ x => fp.mul x (fp.div (fp.ofInt pop) ((allIdx s).foldl (fun acc v => fp.add acc (stateVal fp P v)) (.fin 0))))
    (body := fun (e : NDArray Fl) idx => e.modify idx (fun x => fp.mul x (fp.div (fp.ofInt pop) ((allIdx s).foldl (fun acc v => fp.add acc (stateVal fp P v)) (.fin 0)))))
    (fun v hv f => modify_arr hv _) (stateVal fp P)
  have e : (forIndex s (fun (e : NDArray Fl) idx => e.modify idx (fun x => fp.mul x (fp.div (fp.ofInt (mkMicro Int s P pop).population) ((allIdx s).foldl (fun acc v => (numFl fp).add acc (stateVal fp P v)) (numFl fp).zero)))) (arr s (stateVal fp P))) = .ok (arr s (expectedVal fp s P pop)) := this
  rw [e]
  simp only [Out.ok_bind, Out.pure_eq]
  exact ⟨_, rfl, ⟨⟨_, rfl⟩, ha', rfl⟩, rfl⟩

/-- the chi-squared statistic, as the code computes it -/
def chiSqVal (fp : FP) (s : List Nat) (f : List Int → Int) (E : List Int → Fl) : Fl :=
  (allIdx s).foldl (fun c v => fp.add c (fp.div (fp.mul (fp.sub (fp.ofInt (f v)) (E v)) (fp.sub (fp.ofInt (f v)) (E v))) (E v))) (.fin 0)

theorem chiSq_eq {s : List Nat} (hg : GoodShape s) (f : List Int → Int) (E : List Int → Fl) :
    HL.chiSq fp (arr s f) (arr s E) = .ok (chiSqVal fp s f E) := by
  unfold HL.chiSq chiSqVal
  rw [show (arr s f).sizes = s from rfl, forIndex_eq hg]
  apply (foldlM_ok (fun _ => True) _ trivial).1
  intro v hv c _
  rw [get_arr (mem_allIdx.mp hv)]
  simp only [Out.ok_bind]
  rw [get_arr (mem_allIdx.mp hv)]
  exact ⟨rfl, trivial⟩

/-- the degeneracy, as the code computes it -/
def degeneracyVal (fp : FP) (lm : Libm) (s : List Nat) (f : List Int → Int) : Fl :=
  ((allIdx s).foldl (fun (t : Fl × Fl) v =>
    (fp.mul t.1 (fp.div t.2 (factorial fp lm (f v + 1))), fp.sub t.2 (.fin 1))) (.fin 1, fp.ofInt (prodSizes s))).1

theorem degeneracy_eq (lm : Libm) {s : List Nat} (hg : GoodShape s) (f : List Int → Int) :
    HL.degeneracy fp lm (arr s f) = .ok (degeneracyVal fp lm s f) := by
  unfold HL.degeneracy degeneracyVal
  rw [show (arr s f).sizes = s from rfl, forIndex_eq hg]
  have : (allIdx s).foldlM (fun (t : Fl × Fl) idx => do
      let x ← (arr s f).get idx
      pure (fp.mul t.1 (fp.div t.2 (factorial fp lm (x + 1))), fp.sub t.2 (.fin 1)))
      (.fin 1, fp.ofInt (arr s f).storageSize) = .ok ((allIdx s).foldl (fun (t : Fl × Fl) v =>
    (fp.mul t.1 (fp.div t.2 (factorial fp lm (f v + 1))), fp.sub t.2 (.fin 1))) (.fin 1, fp.ofInt (prodSizes s))) := by
    apply (foldlM_ok (fun _ => True) _ trivial).1
    intro v hv c _
    rw [get_arr (mem_allIdx.mp hv)]
    exact ⟨rfl, trivial⟩
  rw [this]
  rfl

theorem begin_ok {s : List Nat} {P : Prob Int} {pop : Int} {n : Nat} {E : List Int → Fl} {x : QIS} (hx : QISObj s P pop n E x) (reset : Bool) :
    ∃ x', QIS.begin reset x = .ok x' ∧ QISAt s P pop [] (if reset then 0 else n) x' ∧ x'.expected = arr s E ∧ x'.conv = true ∧
      x'.stateValues = x.stateValues := by
  obtain ⟨g, hm⟩ := hx.micro
  have ha : x.micro.array = arrO s g := by rw [hm]
  have e : remaining [] P = P := by simp [remaining]
  have key : ∀ sb, ({ x with micro := { x.micro with array := arr s (fun _ => 0) }, sobol := sb, conv := true } : QIS).micro =
      { mkMicro Int s P pop with marginals := marginalsOf s (remaining [] P), array := arr s (fun v => (([] : List (List Int)).count v : Int)) } := by
    intro sb
    simp only []
    rw [hm, e]
    rfl
  unfold QIS.begin
  cases reset with
  | false =>
    simp only [Bool.false_eq_true, if_false, Out.pure_eq, Out.ok_bind]
    rw [ha, assign_eq]
    simp only [Out.ok_bind]
    exact ⟨_, rfl, ⟨key _, hx.sobol⟩, hx.expected, rfl, rfl⟩
  | true =>
    obtain ⟨sb, h1, h2, -⟩ := reset_ok hx.sobol
    simp only [if_true]
    rw [h1]
    simp only [Out.ok_bind]
    rw [ha, assign_eq]
    simp only [Out.ok_bind]
    exact ⟨_, rfl, ⟨key _, h2⟩, hx.expected, rfl, rfl⟩

/-- what is known of an object after `solve` has placed the individuals `vs` -/
structure Solved (fp : FP) (lm : Libm) (s : List Nat) (P : Prob Int) (pop : Int) (n : Nat) (E : List Int → Fl)
    (vs : List (List Int)) (x : QIS) : Prop where
  size : vs.length = pop.toNat
  range : ∀ v ∈ vs, InRange s v
  at_ : QISAt s P pop vs (n + pop.toNat) x
  expected : x.expected = arr s E
  conv : x.conv = true ↔ Unspent P vs
  chiSq : x.chiSq = chiSqVal fp s (fun v => (vs.count v : Int)) E
  pValue : x.pValue = tablePValue fp lm s x.chiSq
  degeneracy : x.degeneracy = degeneracyVal fp lm s (fun v => (vs.count v : Int))
  /-- the individuals, latest first, come from consecutive points of the Sobol sequence -/
  points : ∀ i < pop.toNat, ∃ seq v, vs.reverse[i]? = some v ∧ PointAt s.length (n + i + 1) seq ∧
    Draw fp s P seq (vs.reverse.take i).reverse v

theorem stats_ok (lm : Libm) {s : List Nat} (hg : GoodShape s) {x : QIS} {f : List Int → Int} {E : List Int → Fl}
    (h1 : x.micro.array = arr s f) (h2 : x.expected = arr s E) :
    stats fp lm x = .ok { x with chiSq := chiSqVal fp s f E, pValue := tablePValue fp lm s (chiSqVal fp s f E), degeneracy := degeneracyVal fp lm s f } := by
  unfold stats
  rw [h1, h2, chiSq_eq hg]
  simp only [Out.ok_bind]
  rw [degeneracy_eq lm hg]
  rfl

theorem solve_cases (lm : Libm) {s : List Nat} {P : Prob Int} (h : ProbShape s P) {pop : Int} {n : Nat} {E : List Int → Fl} {x : QIS}
    (hx : QISObj s P pop n E x) (reset : Bool) :
    QIS.solve fp lm x reset = .thrown .pickFailed ∨
    (2 ^ 32 - 1 < (if reset then 0 else n) + pop.toNat ∧ QIS.solve fp lm x reset = .thrown .sobolExhausted) ∨
    ∃ vs x', QIS.solve fp lm x reset = .ok x' ∧ Solved fp lm s P pop (if reset then 0 else n) E vs x' := by
  obtain ⟨x1, hb, h1, h2, h3, -⟩ := begin_ok hx reset
  unfold QIS.solve
  rw [hb]
  simp only [Out.ok_bind]
  have e1 : x1.micro.array.sizes = s := by rw [h1.micro]; rfl
  have e2 : x1.micro.indices = indicesOf P := by rw [h1.micro]; rfl
  have e3 : x1.micro.population = pop := by rw [h1.micro]; rfl
  rw [e1, e2, e3, index_new h.good.1]
  simp only [Out.ok_bind]
  have hm := mappings_ok (s := s) (P := P) (fun p hp => (h.dims p hp).2)
  rw [show (zerosI s.length) = List.replicate s.length 0 from rfl, hm]
  simp only [Out.ok_bind]
  have hc : x1.conv = true ↔ Unspent P [] := by simp [h3, Unspent]
  rcases individuals_cases (fp := fp) h pop.toNat h1 hc with h4 | ⟨h4, h5⟩ | ⟨vs, seqs, x2, g1, g2, g3, g4, g5, g6, g7, g8, g9⟩
  · left; unfold mapsOf at h4; rw [h4]; rfl
  · right; left; unfold mapsOf at h5; rw [h5]; exact ⟨h4, rfl⟩
  · right; right
    unfold mapsOf at g4
    rw [g4]
    simp only [Out.ok_bind]
    rw [List.append_nil] at g5 g8
    have ha : x2.micro.array = arr s (fun v => (vs.reverse.count v : Int)) := by rw [g5.micro]
    rw [stats_ok lm h.good ha (g6.trans h2)]
    refine ⟨vs.reverse, _, rfl, by simpa using g1, by simpa using g3, ⟨g5.micro, g5.sobol⟩, g6.trans h2, g8, rfl, rfl, rfl, ?_⟩
    intro i hi
    obtain ⟨seq, v, a1, a2, a3, a4⟩ := g9 i hi
    exact ⟨seq, v, by simpa using a2, a3, by simpa using a4⟩

/-- After `solve` the object can be solved again, with what is left of the marginals. -/
theorem Solved.obj {lm : Libm} {s : List Nat} {P : Prob Int} {pop : Int} {n : Nat} {E : List Int → Fl}
    {vs : List (List Int)} {x : QIS} (h : Solved fp lm s P pop n E vs x) :
    QISObj s (remaining vs P) pop (n + pop.toNat) E x := by
  refine ⟨⟨fun v => some (vs.count v : Int), ?_⟩, h.at_.sobol, h.expected⟩
  rw [h.at_.micro]
  have e : (remaining vs P).map Prod.fst = P.map Prod.fst := by
    simp [remaining, Function.comp_def]
  unfold mkMicro
  simp only [indicesOf_remaining, e]
  rfl

theorem shape_remaining {s : List Nat} {P : Prob Int} (h : ProbShape s P) (hs : List (List Int)) : ProbShape s (remaining hs P) := by
  refine ⟨by simpa [remaining] using h.lists, h.two, h.pos, ?_, ?_⟩
  · intro p hp
    simp only [remaining, List.mem_map] at hp
    obtain ⟨q, hq, rfl⟩ := hp
    exact h.dims q hq
  · intro d hd
    obtain ⟨p, hp, hdp⟩ := h.cover d hd
    exact ⟨_, List.mem_map.mpr ⟨p, hp, rfl⟩, hdp⟩

theorem sum_count {s : List Nat} : ∀ {vs : List (List Int)}, (∀ v ∈ vs, InRange s v) →
    ∑ v ∈ cells s, (vs.count v : Int) = vs.length
  | [], _ => by simp
  | w :: vs, h => by
    have ih := sum_count (vs := vs) (fun v hv => h v (by simp [hv]))
    have hw : w ∈ cells s := mem_cells.mpr (h w (by simp))
    simp only [List.count_cons, Nat.cast_add]
    rw [Finset.sum_add_distrib, ih]
    have : ∑ v ∈ cells s, (((if w == v then 1 else 0 : Nat)) : Int) = 1 := by
      rw [Finset.sum_eq_single w]
      · simp
      · intro b _ hb; simp [Ne.symm hb]
      · intro hc; exact absurd hw hc
    rw [this]; simp

theorem marginalSum_count {s ds : List Nat} {j : List Int} : ∀ {vs : List (List Int)}, (∀ v ∈ vs, InRange s v) →
    marginalSum s ds (fun v => (vs.count v : Int)) j = (vs.countP (fun v => proj ds v = j) : Int)
  | [], _ => by simp [marginalSum]
  | w :: vs, h => by
    have ih := marginalSum_count (ds := ds) (j := j) (vs := vs) (fun v hv => h v (by simp [hv]))
    have hw : w ∈ cells s := mem_cells.mpr (h w (by simp))
    unfold marginalSum at *
    simp only [List.count_cons, Nat.cast_add]
    rw [Finset.sum_add_distrib, ih, List.countP_cons, Nat.cast_add]
    congr 1
    by_cases hp : proj ds w = j
    · rw [Finset.sum_eq_single w]
      · simp [hp]
      · intro b _ hb; simp [Ne.symm hb]
      · intro hc; exact absurd (Finset.mem_filter.mpr ⟨hw, hp⟩) hc
    · rw [Finset.sum_eq_zero]
      · simp [hp]
      · intro b hb
        have : w ≠ b := by
          rintro rfl
          exact hp (Finset.mem_filter.mp hb).2
        simp [this]

theorem sum_countP {s ds : List Nat} (hd : ∀ d ∈ ds, d < s.length) {vs : List (List Int)} (h : ∀ v ∈ vs, InRange s v) :
    ∑ j ∈ cells (projSizes ds s), (vs.countP (fun v => proj ds v = j) : Int) = vs.length := by
  have : ∀ j, (vs.countP (fun v => proj ds v = j) : Int) = ((vs.map (proj ds)).count j : Int) := by
    intro j
    rw [List.count, List.countP_map]
    congr 1
    apply List.countP_congr
    intro v _
    simp
  simp only [this]
  rw [sum_count (s := projSizes ds s)]
  · simp
  · intro v hv
    obtain ⟨w, hw, rfl⟩ := List.mem_map.mp hv
    exact inRange_proj hd (h w hw)

/-- `conv` is true exactly when the marginals are met. -/
theorem unspent_iff {s : List Nat} {P : Prob Int} {pop : Int} (h : ProbOK s P pop) {vs : List (List Int)}
    (hv : ∀ v ∈ vs, InRange s v) (hl : vs.length = pop.toNat) :
    Unspent P vs ↔ ∀ p ∈ P, ∀ j, InRange (projSizes p.1 s) j →
      marginalSum s p.1 (fun v => (vs.count v : Int)) j = p.2 j := by
  have h0 := h.pop_nonneg
  constructor
  · intro hu p hp j hj
    have hle : ∀ j ∈ cells (projSizes p.1 s), 0 ≤ p.2 j - (vs.countP (fun v => proj p.1 v = j) : Int) := by
      intro j hj
      by_cases hz : vs.countP (fun v => proj p.1 v = j) = 0
      · rw [hz]; simpa using h.nonneg p hp j (mem_cells.mp hj)
      · obtain ⟨v, hvm, hvj⟩ := List.countP_pos_iff.mp (Nat.pos_of_ne_zero hz)
        have hvj' : proj p.1 v = j := by simpa using hvj
        have := hu p hp v hvm
        rw [hvj'] at this
        omega
    have hsum : ∑ j ∈ cells (projSizes p.1 s), (p.2 j - (vs.countP (fun v => proj p.1 v = j) : Int)) = 0 := by
      rw [Finset.sum_sub_distrib, h.total p hp, sum_countP (h.dims p hp).2 hv, hl]
      omega
    have := (Finset.sum_eq_zero_iff_of_nonneg hle).mp hsum j (mem_cells.mpr hj)
    rw [marginalSum_count hv]
    omega
  · intro hm p hp v hvm
    have := hm p hp (proj p.1 v) (inRange_proj (h.dims p hp).2 (hv v hvm))
    rw [marginalSum_count hv] at this
    exact this.le

end HL

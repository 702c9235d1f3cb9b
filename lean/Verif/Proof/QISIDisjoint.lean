import Verif.Proof.QISIExact
import Verif.Proof.IPFProduct
import Mathlib.Tactic.IntervalCases

/-
QISI when no dimension is shared between marginals, with a constant seed; and independence of the state of the
generator of the object.
-/

namespace HL
open QISI

theorem splits_of_disjoint {α : Type} {s : List Nat} {P : Prob α} {Q : Prob ℚ} (hPQ : Q.map Prod.fst = P.map Prod.fst)
    (h : ProbShape s P) (hd : (P.map Prod.fst).flatten.Nodup) : Splits s Q := by
  refine ⟨by rw [hPQ]; exact hd, ?_, ?_⟩
  · intro d hdm
    rw [hPQ] at hdm
    obtain ⟨l, hl, hdl⟩ := List.mem_flatten.mp hdm
    obtain ⟨q, hq, rfl⟩ := List.mem_map.mp hl
    exact (h.dims q hq).2 d hdl
  · intro d hdn
    rw [hPQ]
    obtain ⟨q, hq, hdq⟩ := h.cover d hdn
    exact List.mem_flatten.mpr ⟨q.1, List.mem_map.mpr ⟨q, hq, rfl⟩, hdq⟩

theorem properProb_of_disjoint {α : Type} {s : List Nat} {P : Prob α} (h : ProbShape s P)
    (hd : (P.map Prod.fst).flatten.Nodup) : ProperProb s P := by
  have hlen : (P.map Prod.fst).flatten.length = s.length := by
    have hperm : (P.map Prod.fst).flatten.Perm (List.range s.length) :=
      (List.perm_ext_iff_of_nodup hd List.nodup_range).mpr (fun d => by
        simp only [List.mem_range]
        constructor
        · intro hdm
          obtain ⟨l, hl, hdl⟩ := List.mem_flatten.mp hdm
          obtain ⟨q, hq, rfl⟩ := List.mem_map.mp hl
          exact (h.dims q hq).2 d hdl
        · intro hdn
          obtain ⟨q, hq, hdq⟩ := h.cover d hdn
          exact List.mem_flatten.mpr ⟨q.1, List.mem_map.mpr ⟨q, hq, rfl⟩, hdq⟩)
    simpa using hperm.length_eq
  intro q hq
  obtain ⟨A, B, hQ⟩ := List.append_of_mem hq
  refine properDims_of_nodup ((List.nodup_flatten.mp hd).1 q.1 (List.mem_map.mpr ⟨q, hq, rfl⟩)) ?_
  have h2 := h.lists
  rw [← hlen, hQ]
  simp only [List.map_append, List.map_cons, List.flatten_append, List.flatten_cons, List.length_append]
  have hne : ∀ (L : Prob α), L ≠ [] → (∀ q ∈ L, q ∈ P) → 0 < ((L.map Prod.fst).flatten).length := by
    intro L hL hsub
    obtain ⟨q', hq'⟩ := List.exists_mem_of_ne_nil L hL
    obtain ⟨d, hd⟩ := List.exists_mem_of_ne_nil q'.1 (h.dims q' (hsub q' hq')).1
    exact List.length_pos_of_mem (List.mem_flatten.mpr ⟨q'.1, List.mem_map.mpr ⟨q', hq', rfl⟩, hd⟩)
  by_cases hA : A = []
  · have hB : B ≠ [] := by
      rintro rfl
      rw [hQ, hA] at h2
      simp at h2
    have := hne B hB (fun q hq => by rw [hQ]; simp [hq])
    omega
  · have := hne A hA (fun q hq => by rw [hQ]; simp [hq])
    omega

theorem fst_ratProb (Q : Prob Int) : (ratProb Q).map Prod.fst = Q.map Prod.fst := by
  simp [ratProb, Function.comp_def]

/-- where the marginals are zero a sweep leaves nothing -/
theorem qsweep_allzero {s : List Nat} {Q : Prob ℚ} (hd : ∀ q ∈ Q, ∀ d ∈ q.1, d < s.length) (hne : Q ≠ [])
    (h0 : ∀ q ∈ Q, ∀ j, InRange (projSizes q.1 s) j → q.2 j = 0) (b : List Int → ℚ) {v : List Int} (hv : InRange s v) :
    qsweep s Q b v = 0 := by
  obtain ⟨q, Q, rfl⟩ := List.exists_cons_of_ne_nil hne
  show qsweep s Q (qscaled s q.1 q.2 b) v = 0
  apply qsweep_zero
  unfold qscaled
  split
  · rfl
  · rw [h0 q (by simp) _ (inRange_proj (hd q (by simp)) hv)]; simp

/-- with a constant seed and no shared dimensions, every fit meets its marginals -/
theorem fit_disjoint {s : List Nat} {Q : Prob Int} (hQ : ProbShape s Q) {T : Int} (hnn : ∀ p ∈ Q, ∀ j, InRange (projSizes p.1 s) j → 0 ≤ p.2 j)
    (htot : ∀ p ∈ Q, ∑ j ∈ cells (projSizes p.1 s), p.2 j = T) (hd : (Q.map Prod.fst).flatten.Nodup) {k : ℚ} (hk : 0 < k)
    {c : List Int → Fl} (hf : Fit FP.exact s Q (fun _ => .fin k) c) : ∃ b, Agree s c b ∧ Meets s Q b := by
  have hp := properProb_of_disjoint hQ hd
  have hs := splits_of_disjoint (fst_ratProb Q) hQ hd
  have hQ' : ProbShape s (ratProb Q) := by
    have e := fst_ratProb Q
    exact probShape_congr e.symm hQ
  have htot' : ∀ q ∈ ratProb Q, ∑ j ∈ cells (projSizes q.1 s), q.2 j = (T : ℚ) := by
    intro q hq
    obtain ⟨p, hp, rfl⟩ := List.mem_map.mp hq
    rw [← htot p hp]; push_cast; rfl
  have hne : ratProb Q ≠ [] := by
    intro hc
    have := hQ.lists
    have h2 : (ratProb Q).length = Q.length := by simp [ratProb]
    rw [hc] at h2
    simp at h2
    omega
  obtain ⟨n, hn, hag, hmin, hpos⟩ := fit_exact hQ hp (b := fun _ => k) (fun _ _ => rfl) hf
  refine ⟨_, hag, hpos (fun _ _ => hk.le), ?_⟩
  by_cases hT : T = 0
  · have hz : ∀ p ∈ Q, ∀ j, InRange (projSizes p.1 s) j → p.2 j = 0 := by
      intro p hp j hj
      have := htot p hp
      rw [hT] at this
      exact (Finset.sum_eq_zero_iff_of_nonneg (fun i hi => hnn p hp i (mem_cells.mp hi))).mp this j (mem_cells.mpr hj)
    have hv0 : ∀ v, InRange s v → (qsweep s (ratProb Q))^[n] (fun _ => k) v = 0 := by
      obtain ⟨m, rfl⟩ : ∃ m, n = m + 1 := ⟨n - 1, by omega⟩
      intro v hv
      rw [Function.iterate_succ_apply']
      refine qsweep_allzero (fun q hq => (hQ'.dims q hq).2) hne ?_ _ hv
      intro q hq j hj
      obtain ⟨p, hp, rfl⟩ := List.mem_map.mp hq
      have := hz p hp j hj
      show (p.2 j : ℚ) = 0
      rw [this]; rfl
    intro p hp j hj
    rw [hz p hp j hj, marginalSum_congr hv0]
    simp [marginalSum]
  · have hT' : (T : ℚ) ≠ 0 := by exact_mod_cast hT
    have hsw : ∀ v, InRange s v → (qsweep s (ratProb Q))^[1] (fun _ => k) v = prodAt (ratProb Q) v / (T : ℚ) ^ ((ratProb Q).length - 1) :=
      qsweep_product hQ' hs hT' htot' _ [] rfl hne k hk.ne' _ (fun v _ => by simp [prodAt])
    have hq0 : qmax s (ratProb Q) ((qsweep s (ratProb Q))^[1] (fun _ => k)) = 0 :=
      (qmax_congr _ hsw).trans (qmax_zero hQ' (fun q hq j hj => marginalSum_product hs hT' htot' hq hj))
    have h1 : n = 1 := by
      by_contra hne
      have := hmin 1 le_rfl (by omega)
      rw [hq0] at this
      norm_num at this
    subst h1
    intro p hp j hj
    have hm : (p.1, fun j => (p.2 j : ℚ)) ∈ ratProb Q := List.mem_map.mpr ⟨p, hp, rfl⟩
    rw [marginalSum_congr hsw]
    exact marginalSum_product hs hT' htot' hm hj

theorem fitDone_disjoint {s : List Nat} {P : Prob Int} {pop : Int} (h : ProbOK s P pop) (hd : (P.map Prod.fst).flatten.Nodup)
    {k : ℚ} (hk : 0 < k) (Q : Prob Int) (c : List Int → Fl) (hf : FitDone FP.exact s P (fun _ => .fin k) Q c) :
    ∃ b, Agree s c b ∧ Meets s Q b := by
  obtain ⟨hf, hQ⟩ := hf
  have hp := properProb_of_disjoint h.toProbShape hd
  rcases hQ with rfl | ⟨hs, a, seq, v, hpl, -, hdr, -, rfl⟩
  · exact fit_disjoint h.toProbShape h.nonneg h.total hd hk hf
  · have hsh := shape_remaining h.toProbShape (v :: hs)
    obtain ⟨r, hr, ha⟩ := hf
    obtain ⟨pop', n, hok, -⟩ := ipf_exact (minOK_int _) hsh (properProb_remaining hp _) (reads_rat s _)
      (b := fun _ => k) (fun _ _ => rfl) hr
    refine fit_disjoint hsh ?_ (remaining_total h.toProbShape h.total (hs := v :: hs) ?_) ?_ hk ⟨r, hr, ha⟩
    · intro p hp j hj
      have := hok.nonneg p hp j hj
      simpa [numInt] using this
    · intro w hw
      rcases List.mem_cons.mp hw with rfl | hw
      · exact hdr.inRange
      · exact hpl.range w hw
    · have : (remaining (v :: hs) P).map Prod.fst = P.map Prod.fst := by simp [remaining, Function.comp_def]
      rw [this]; exact hd

/-! ### The generator of the object is not used -/

/-- the same object with another generator -/
def setGen (g : Sobol) (x : QISI) : QISI := { x with sobol := g }

/-- the same loop state with another generator in the object -/
def setGenL (g : Sobol) (t : Loop) : Loop := { t with obj := setGen g t.obj }

theorem recompute_setGen (dbg : Bool) (fp : FP) (seed : NDArray Fl) (g : Sobol) (x : QISI) :
    recomputeIPF dbg fp seed (setGen g x) = (recomputeIPF dbg fp seed x >>= fun x => .ok (setGen g x)) := by
  unfold recomputeIPF
  simp only [setGen, bind_assoc, Out.pure_eq, Out.ok_bind]

theorem begin_setGen (dbg : Bool) (fp : FP) (seed : NDArray Fl) (g : Sobol) (x : QISI) :
    QISI.begin dbg fp seed (setGen g x) = (QISI.begin dbg fp seed x >>= fun x => .ok (setGen g x)) := by
  have hr : ∀ p e, recomputeIPF dbg fp seed { x with sobol := g, ipf := p, expected := e } =
      (recomputeIPF dbg fp seed { x with ipf := p, expected := e } >>= fun x => .ok (setGen g x)) :=
    fun p e => recompute_setGen dbg fp seed g { x with ipf := p, expected := e }
  unfold QISI.begin
  simp only [setGen, bind_assoc, Out.pure_eq, Out.ok_bind, hr]

theorem place_setGen (maps : List MappedIndex) (idx : List Int) (g : Sobol) (x : QISI) :
    place maps idx (setGen g x) = (place maps idx x >>= fun x => .ok (setGen g x)) := by
  unfold place
  simp only [setGen, bind_assoc, Out.pure_eq, Out.ok_bind]

theorem takeOut_setGen (dbg : Bool) (fp : FP) (seed : NDArray Fl) (idx : List Int) (g : Sobol) (x : QISI) :
    takeOut dbg fp seed idx (setGen g x) = (takeOut dbg fp seed idx x >>= fun x => .ok (setGen g x)) := by
  have hr : ∀ p, recomputeIPF dbg fp seed { x with sobol := g, ipf := p } =
      (recomputeIPF dbg fp seed { x with ipf := p } >>= fun x => .ok (setGen g x)) :=
    fun p => recompute_setGen dbg fp seed g { x with ipf := p }
  unfold takeOut
  simp only [setGen, bind_assoc, Out.pure_eq]
  congr 1; funext p
  congr 1; funext v
  split
  · exact hr p
  · simp only [Out.ok_bind]

theorem individual_setGen (dbg : Bool) (fp : FP) (seed : NDArray Fl) (maps : List MappedIndex) (g : Sobol) (t : Loop) :
    individual dbg fp seed maps (setGenL g t) = (individual dbg fp seed maps t >>= fun t => .ok (setGenL g t)) := by
  unfold individual
  simp only [setGenL, bind_assoc, Out.pure_eq]
  congr 1; funext p
  cases p.2 with
  | error e => rfl
  | ok seq =>
    simp only [bind_assoc]
    show (getIndex fp seq (t.obj.ipf.sizes.length - 2) t.obj.ipf t.idx >>= _) = _
    congr 1; funext idx
    rw [place_setGen, bind_assoc]
    congr 1; funext x
    simp only [Out.ok_bind]
    rw [takeOut_setGen, bind_assoc]
    rfl

theorem individuals_setGen (dbg : Bool) (fp : FP) (seed : NDArray Fl) (maps : List MappedIndex) (g : Sobol) :
    ∀ (n : Nat) (t : Loop), individuals dbg fp seed maps n (setGenL g t) =
      (individuals dbg fp seed maps n t >>= fun t => .ok (setGenL g t))
  | 0, t => rfl
  | n + 1, t => by
    unfold individuals
    rw [individual_setGen, bind_assoc, bind_assoc]
    congr 1; funext t
    simp only [Out.ok_bind]
    exact individuals_setGen dbg fp seed maps g n t

theorem stats_setGen (fp : FP) (lm : Libm) (g : Sobol) (x : QISI) :
    QISI.stats fp lm (setGen g x) = (QISI.stats fp lm x >>= fun x => .ok (setGen g x)) := by
  unfold QISI.stats
  simp only [setGen, bind_assoc, Out.pure_eq, Out.ok_bind]

theorem solve_setGen (dbg : Bool) (fp : FP) (lm : Libm) (g : Sobol) (x : QISI) (seed : NDArray Fl) :
    QISI.solve dbg fp lm (setGen g x) seed false = (QISI.solve dbg fp lm x seed false >>= fun x => .ok (setGen g x)) := by
  unfold QISI.solve
  rw [bind_assoc]
  show (IPF.checkSeed seed.sizes x.micro.array.sizes >>= _) = _
  congr 1; funext _
  simp only [resetIf, Bool.false_eq_true, if_false, Out.pure_eq, Out.ok_bind]
  show (QISI.begin dbg fp seed (setGen g x) >>= _) = (QISI.begin dbg fp seed x >>= _) >>= _
  rw [begin_setGen, bind_assoc, bind_assoc]
  congr 1; funext x
  simp only [Out.ok_bind, bind_assoc]
  show (Index.new x.micro.array.sizes >>= _) = _
  congr 1; funext main
  show (Micro.mappings main x.micro.indices >>= _) = _
  congr 1; funext maps
  show (Sobol.new x.micro.dim 0 >>= _) = _
  congr 1; funext gen
  show (individuals dbg fp seed maps x.micro.population.toNat (setGenL g ⟨x, gen, main.idx⟩) >>= _) = _
  rw [individuals_setGen, bind_assoc]
  congr 1; funext t
  simp only [Out.ok_bind]
  exact stats_setGen fp lm g t.obj

/-! ### Uniqueness -/

theorem fit_unique {fp : FP} {s : List Nat} {Q : Prob Int} {sd c c' : List Int → Fl} (h : Fit fp s Q sd c) (h' : Fit fp s Q sd c') :
    ∀ v, InRange s v → c v = c' v := by
  obtain ⟨r, hr, ha⟩ := h
  obtain ⟨r', hr', ha'⟩ := h'
  rw [hr] at hr'
  injection hr' with hr'
  subst hr'
  rw [ha] at ha'
  exact fun v hv => arr_inj ha' v hv

theorem lastSumsF_congr {fp : FP} {t : List Nat} {n : Nat} {a a' : List Int → Fl} (h : ∀ v, InRange (t ++ [n]) v → a v = a' v) :
    lastSumsF fp t n a = lastSumsF fp t n a' := by
  unfold lastSumsF
  apply List.map_congr_left
  intro j hj
  have hj := List.mem_range.mp hj
  have : ∀ (l : List (List Int)) (c : Fl), (∀ v ∈ l, InRange t v) →
      l.foldl (fun acc v => fp.add acc (a (v ++ [(j : Int)]))) c = l.foldl (fun acc v => fp.add acc (a' (v ++ [(j : Int)]))) c := by
    intro l
    induction l with
    | nil => intro c _; rfl
    | cons v l ih =>
      intro c hl
      rw [List.foldl_cons, List.foldl_cons, h _ (inRange_snoc (hl v (by simp)) (by positivity) (by exact_mod_cast hj))]
      exact ih _ (fun w hw => hl w (by simp [hw]))
  exact this _ _ (fun v hv => mem_allIdx.mp hv)

theorem drawn_congr {fp : FP} {seq : List U32} {t : List Nat} {a a' : List Int → Fl} {v : List Int}
    (h : ∀ v, InRange t v → a v = a' v) (hd : Drawn fp seq t a v) : Drawn fp seq t a' v := by
  induction hd generalizing a' with
  | one n a i hi hp =>
    refine .one n a' i hi ?_
    rw [← hp]
    congr 1
    apply List.map_congr_left
    intro j hj
    exact (h _ (by simpa [InRange] using List.mem_range.mp hj)).symm
  | snoc t n a i v ht hi hp hd ih =>
    refine .snoc t n a' i v ht hi ?_ (ih (fun w hw => h _ (inRange_snoc hw (by positivity) (by exact_mod_cast hi))))
    rw [← hp, lastSumsF_congr h]

/-! ### A problem with a seed with zeros -/

/-- three individuals in the second row of a table of sizes 2, 3 -/
def exRow : Prob Int := [([0], fun j => if j = [1] then 3 else 0), ([1], fun _ => 1)]

/-- a seed that is zero in the first row -/
def exRowB (v : List Int) : ℚ := if v.getD 0 0 = 1 then 1 else 0

def exRowSeed (v : List Int) : Fl := .fin (exRowB v)

theorem exRow_ok : ProbOK [2, 3] exRow 3 where
  lists := by decide
  two := by decide
  pos := by decide
  dims := by simp [exRow]
  cover := by
    intro d hd
    simp only [List.length_cons, List.length_nil] at hd
    interval_cases d <;> simp [exRow]
  nonneg := by
    intro p hp j hj
    simp only [exRow, List.mem_cons, List.not_mem_nil, or_false] at hp
    rcases hp with rfl | rfl
    · simp only; split <;> decide
    · simp
  total := by simp [exRow]; decide
  partials := by
    intro p hp q hq a b d ha hb x _
    simp only [exRow, List.mem_cons, List.not_mem_nil, or_false] at hp hq
    rcases hp with rfl | rfl <;> rcases hq with rfl | rfl
    all_goals
      rw [List.getElem?_singleton] at ha hb
      split at ha <;> split at hb <;> simp_all <;> omega

theorem exRow_proper : ProperProb [2, 3] exRow := by unfold ProperProb exRow; decide

theorem range23 {v : List Int} (hv : InRange [2, 3] v) : v ∈ ([[0, 0], [0, 1], [0, 2], [1, 0], [1, 1], [1, 2]] : List (List Int)) := by
  have : v ∈ allIdx [2, 3] := mem_allIdx.mpr hv
  have e : allIdx [2, 3] = [[0, 0], [0, 1], [0, 2], [1, 0], [1, 1], [1, 2]] := by decide
  rwa [e] at this

theorem cells23 : cells [2, 3] = {[0, 0], [0, 1], [0, 2], [1, 0], [1, 1], [1, 2]} := by decide

theorem exRow_qfit {m c : List Int → ℚ} {T : ℚ} (hm0 : m [0] = 0) (hm1 : m [1] = T)
    (hcn : 0 ≤ c [0] ∧ 0 ≤ c [1] ∧ 0 ≤ c [2]) (hct : c [0] + c [1] + c [2] = T) :
    ∀ v, InRange [2, 3] v → qsweep [2, 3] [([0], m), ([1], c)] exRowB v = if v.getD 0 0 = 1 then c [v.getD 1 0] else 0 := by
  intro v hv
  have h1 : ∀ v, InRange [2, 3] v → qscaled [2, 3] [0] m exRowB v = if v.getD 0 0 = 1 then T / 3 else 0 := by
    intro v hv
    have := range23 hv
    simp only [List.mem_cons, List.not_mem_nil, or_false] at this
    have e0 : marginalSum [2, 3] [0] exRowB [0] = 0 := by
      unfold marginalSum; rw [cells23, Finset.sum_filter]; simp [proj, exRowB]
    have e1 : marginalSum [2, 3] [0] exRowB [1] = 3 := by
      unfold marginalSum; rw [cells23, Finset.sum_filter]; simp [proj, exRowB]; norm_num
    rcases this with rfl | rfl | rfl | rfl | rfl | rfl <;>
      simp [qscaled, proj, e0, e1, hm1, exRowB]
  show qscaled [2, 3] [1] c (qscaled [2, 3] [0] m exRowB) v = _
  have h2 : ∀ j ∈ ([[0], [1], [2]] : List (List Int)), marginalSum [2, 3] [1] (qscaled [2, 3] [0] m exRowB) j = T / 3 := by
    intro j hj
    rw [marginalSum_congr h1]
    unfold marginalSum
    rw [cells23, Finset.sum_filter]
    simp only [List.mem_cons, List.not_mem_nil, or_false] at hj
    rcases hj with rfl | rfl | rfl <;> simp [proj]
  have := range23 hv
  simp only [List.mem_cons, List.not_mem_nil, or_false] at this
  have a0 := h2 [0] (by simp)
  have a1 := h2 [1] (by simp)
  have a2 := h2 [2] (by simp)
  by_cases hT : T = 0
  · have c0 : c [0] = 0 ∧ c [1] = 0 ∧ c [2] = 0 := by
      refine ⟨?_, ?_, ?_⟩ <;> linarith [hcn.1, hcn.2.1, hcn.2.2]
    rcases this with rfl | rfl | rfl | rfl | rfl | rfl <;>
      simp [qscaled.eq_1 _ [1], proj, a0, a1, a2, hT, c0]
  · have hT3 : T / 3 ≠ 0 := by positivity
    rcases this with rfl | rfl | rfl | rfl | rfl | rfl <;>
      rw [qscaled, h1 _ (by decide)] <;> simp [proj, a0, a1, a2, hT] <;> field_simp

theorem exRow_meets {m c : List Int → Int} {T : Int} (hm0 : m [0] = 0) (hm1 : m [1] = T)
    (hcn : 0 ≤ c [0] ∧ 0 ≤ c [1] ∧ 0 ≤ c [2]) (hct : c [0] + c [1] + c [2] = T) {a : List Int → Fl}
    (hQ : ProbShape [2, 3] [([0], m), ([1], c)]) (hf : Fit FP.exact [2, 3] [([0], m), ([1], c)] exRowSeed a) :
    ∃ b, Agree [2, 3] a b ∧ Meets [2, 3] [([0], m), ([1], c)] b := by
  have hp : ProperProb [2, 3] [([0], m), ([1], c)] := by
    intro p hp
    simp only [List.mem_cons, List.not_mem_nil, or_false] at hp
    rcases hp with rfl | rfl
    · exact (by decide : ProperDims [2, 3] [0])
    · exact (by decide : ProperDims [2, 3] [1])
  have e : ratProb [([0], m), ([1], c)] = [([0], fun j => (m j : ℚ)), ([1], fun j => (c j : ℚ))] := rfl
  obtain ⟨n, hn, hag, hmin, hpos⟩ := fit_exact hQ hp (b := exRowB) (fun _ _ => rfl) hf
  refine ⟨_, hag, hpos (fun v _ => by unfold exRowB; split <;> norm_num), ?_⟩
  have hsw := exRow_qfit (m := fun j => (m j : ℚ)) (c := fun j => (c j : ℚ)) (T := (T : ℚ)) (by exact_mod_cast hm0)
    (by exact_mod_cast hm1) (by exact_mod_cast hcn) (by exact_mod_cast hct)
  have hms : ∀ q ∈ ratProb [([0], m), ([1], c)], ∀ j, InRange (projSizes q.1 [2, 3]) j →
      marginalSum [2, 3] q.1 (qsweep [2, 3] (ratProb [([0], m), ([1], c)]) exRowB) j = q.2 j := by
    intro q hq j hj
    rw [e] at hq ⊢
    rw [marginalSum_congr hsw]
    unfold marginalSum
    rw [cells23, Finset.sum_filter]
    simp only [List.mem_cons, List.not_mem_nil, or_false] at hq
    rcases hq with rfl | rfl
    · have : j ∈ allIdx [2] := mem_allIdx.mpr hj
      have e : allIdx [2] = [[0], [1]] := by decide
      rw [e] at this
      simp only [List.mem_cons, List.not_mem_nil, or_false] at this
      rcases this with rfl | rfl
      · simp [proj, hm0]
      · simp only [hm1, ← hct]
        simp [proj, add_assoc]
    · have : j ∈ allIdx [3] := mem_allIdx.mpr hj
      have e : allIdx [3] = [[0], [1], [2]] := by decide
      rw [e] at this
      simp only [List.mem_cons, List.not_mem_nil, or_false] at this
      rcases this with rfl | rfl | rfl <;> simp [proj]
  have hQ' : ProbShape [2, 3] (ratProb [([0], m), ([1], c)]) := probShape_congr (fst_ratProb _).symm hQ
  have h1 : n = 1 := by
    by_contra hne
    have := hmin 1 le_rfl (by omega)
    rw [Function.iterate_one, qmax_zero hQ' hms] at this
    norm_num at this
  subst h1
  intro p hp j hj
  exact hms (p.1, fun j => (p.2 j : ℚ)) (List.mem_map.mpr ⟨p, hp, rfl⟩) j hj

theorem exRow_fits (Q : Prob Int) (c : List Int → Fl) (hf : FitDone FP.exact [2, 3] exRow exRowSeed Q c) :
    ∃ b, Agree [2, 3] c b ∧ Meets [2, 3] Q b := by
  obtain ⟨hf, hQ⟩ := hf
  rcases hQ with rfl | ⟨hs, a, seq, v, hpl, -, hdr, -, rfl⟩
  · exact exRow_meets (T := 3) rfl rfl (by decide) (by decide) exRow_ok.toProbShape hf
  · have hsh := shape_remaining exRow_ok.toProbShape (v :: hs)
    have hr : ∀ w ∈ v :: hs, InRange [2, 3] w := by
      intro w hw
      rcases List.mem_cons.mp hw with rfl | hw
      · exact hdr.inRange
      · exact hpl.range w hw
    obtain ⟨r, hr', ha⟩ := hf
    obtain ⟨pop', n, hok, -⟩ := ipf_exact (minOK_int _) hsh (properProb_remaining exRow_proper _) (reads_rat [2, 3] _)
      (b := exRowB) (fun _ _ => rfl) hr'
    have hnn : ∀ p ∈ remaining (v :: hs) exRow, ∀ j, InRange (projSizes p.1 [2, 3]) j → 0 ≤ p.2 j := by
      intro p hp j hj
      have := hok.nonneg p hp j hj
      simpa [numInt] using this
    have htot := remaining_total exRow_ok.toProbShape exRow_ok.total hr
    have hex : remaining (v :: hs) exRow = [([0], fun j => (if j = [1] then 3 else 0) - ((v :: hs).countP (fun v => proj [0] v = j) : Int)),
      ([1], fun j => 1 - ((v :: hs).countP (fun v => proj [1] v = j) : Int))] := rfl
    generalize (v :: hs) = l at *
    rw [hex] at hnn htot hsh hr' ⊢
    simp only [List.forall_mem_cons] at hnn htot
    have t1 := htot.1
    have t2 := htot.2.1
    have c2 : cells (projSizes [0] [2, 3]) = {[0], [1]} := by decide
    have c3 : cells (projSizes [1] [2, 3]) = {[0], [1], [2]} := by decide
    rw [c2, Finset.sum_pair (by decide)] at t1
    rw [c3, Finset.sum_insert (by decide), Finset.sum_pair (by decide)] at t2
    have n0 := hnn.1 [0] (by decide)
    have z0 : ((if ([0] : List Int) = [1] then 3 else 0) - (l.countP (fun v => proj [0] v = [0]) : Int)) = 0 := by
      have : (0 : Int) ≤ (l.countP (fun v => proj [0] v = [0]) : Int) := Int.natCast_nonneg _
      rw [if_neg (by decide)] at n0 ⊢
      omega
    refine exRow_meets (T := 3 - l.length) z0 ?_ ⟨hnn.2.1 [0] (by decide), hnn.2.1 [1] (by decide), hnn.2.1 [2] (by decide)⟩
      (by rw [← t2]; ring) hsh ⟨r, hr', ha⟩
    rw [z0] at t1
    rw [← t1]; ring

end HL

import Verif.Proof.ScaleLemmas

namespace HL
open Micro
variable {α : Type}

/-- one sweep over all marginals -/
def sweep (fp : FP) (N : Num α) (s : List Nat) (P : Prob α) (a : List Int → Fl) : List Int → Fl :=
  P.foldl (fun a p => scaled fp N s p.1 p.2 a) a

/-- the difference between the sums of `a` and the marginal `p` at `j` -/
def dev (fp : FP) (N : Num α) (s : List Nat) (a : List Int → Fl) (p : List Nat × (List Int → α)) (j : List Int) : Fl :=
  fp.sub (fsum fp s p.1 a j) (N.toFl (p.2 j))

/-- the largest difference, as the code accumulates it -/
def maxDev (fp : FP) (N : Num α) (s : List Nat) (P : Prob α) (a : List Int → Fl) (mx : Fl) : Fl :=
  P.foldl (fun mx p => (allIdx (projSizes p.1 s)).foldl (fun mx j => IPF.stdMax mx (FP.abs (dev fp N s a p j))) mx) mx

theorem rScale_ok (dbg : Bool) (fp : FP) (N : Num α) {s : List Nat} (hg : GoodShape s) :
    ∀ (P : Prob α) (a : List Int → Fl), (∀ p ∈ P, p.1 ≠ [] ∧ ∀ d ∈ p.1, d < s.length) → ProperProb s P →
    dbg = false →
    rScale dbg fp N (arr s a) (indicesOf P) (marginalsOf s P) = .ok (arr s (sweep fp N s P a))
  | [], a, _, _, _ => rfl
  | p :: P, a, hd, hp, hb => by
    have h1 := hd p (by simp)
    have h2 := hp p (by simp)
    simp only [indicesOf, marginalsOf, List.map_cons, rScale]
    rw [scaleOne_ok dbg fp N hg a h1.1 h2 h1.2 (by simp [hb]) p.2 (by simp [hb])]
    simp only [Out.ok_bind]
    exact rScale_ok dbg fp N hg P _ (fun q hq => hd q (by simp [hq])) (fun q hq => hp q (by simp [hq])) hb

theorem diff_eq (fp : FP) (N : Num α) {t : List Nat} (hg : GoodShape t) (x : List Int → Fl) (y : List Int → α)
    (h : List Int → Option Fl) :
    diff fp N (arr t x) (arr t y) (arrO t h) = .ok (arr t (fun j => fp.sub (x j) (N.toFl (y j)))) := by
  unfold diff
  rw [show (arr t x).sizes = t from rfl, forIndex_eq hg]
  rw [foldlM_repr (R := fun h : List Int → Option Fl => arrO t h)
    (h := fun h v => Function.update h v (some (fp.sub (x v) (N.toFl (y v)))))]
  · congr 1
    unfold arr
    apply arrO_congr
    intro v hv
    rw [foldl_set (fun v => some (fp.sub (x v) (N.toFl (y v)))), if_pos (mem_allIdx.mpr hv)]
  · intro v hv h
    have hr := mem_allIdx.mp hv
    rw [get_arr hr, get_arr hr]
    simp only [Out.ok_bind]
    exact setO_arr hr _

/-- lists of arrays with the shapes of the marginals and any contents -/
def Slots (s : List Nat) (P : Prob α) (es : List (NDArray Fl)) : Prop :=
  List.Forall₂ (fun p e => ∃ h, e = arrO (projSizes p.1 s) h) P es

theorem rDiff_ok (dbg : Bool) (fp : FP) (N : Num α) {s : List Nat} (hg : GoodShape s) (a : List Int → Fl) :
    ∀ (P : Prob α) (ds : List (NDArray Fl)), (∀ p ∈ P, p.1 ≠ [] ∧ ∀ d ∈ p.1, d < s.length) →
    (dbg = true → ∀ p ∈ P, p.1.length < s.length) → Slots s P ds →
    rDiff dbg fp N (arr s a) (indicesOf P) (marginalsOf s P) ds =
      .ok (P.map (fun p => arr (projSizes p.1 s) (dev fp N s a p)))
  | [], ds, _, _, h => by
    cases h; rfl
  | p :: P, ds, hd, hp, h => by
    have h1 := hd p (by simp)
    have h2 := hp
    cases h with
    | @cons _ e _ es he hes =>
      obtain ⟨g, rfl⟩ := he
      simp only [indicesOf, marginalsOf, List.map_cons, rDiff]
      rw [reduceM_eq dbg (numFl fp) hg a h1.1 h1.2 (fun hb => h2 hb p (by simp))]
      simp only [Out.ok_bind]
      rw [diff_eq fp N (goodShape_projSizes hg h1.1 h1.2)]
      simp only [Out.ok_bind]
      have ih := rDiff_ok dbg fp N hg a P es (fun q hq => hd q (by simp [hq])) (fun hb q hq => hp hb q (by simp [hq])) hes
      simp only [indicesOf, marginalsOf] at ih
      rw [ih]
      rfl

theorem slots_map {s : List Nat} (P : Prob α) (g : List Nat × (List Int → α) → List Int → Fl) :
    Slots s P (P.map (fun p => arr (projSizes p.1 s) (g p))) := by
  induction P with
  | nil => exact .nil
  | cons p P ih => exact .cons ⟨_, rfl⟩ ih

theorem errorsOne_eq {t : List Nat} (hg : GoodShape t) (x : List Int → Fl) (h : List Int → Option Fl) (mx : Fl) :
    IPF.errorsOne (arr t x) (arrO t h) mx =
      .ok (arr t (fun j => FP.abs (x j)), (allIdx t).foldl (fun mx j => IPF.stdMax mx (FP.abs (x j))) mx) := by
  unfold IPF.errorsOne
  rw [show (arr t x).sizes = t from rfl, forIndex_eq hg]
  rw [foldlM_repr (R := fun (r : (List Int → Option Fl) × Fl) => (arrO t r.1, r.2))
    (h := fun r v => (Function.update r.1 v (some (FP.abs (x v))), IPF.stdMax r.2 (FP.abs (x v)))) ?_ (h, mx)]
  · have h1 : ∀ (l : List (List Int)) (r : (List Int → Option Fl) × Fl),
        l.foldl (fun (r : (List Int → Option Fl) × Fl) v =>
          (Function.update r.1 v (some (FP.abs (x v))), IPF.stdMax r.2 (FP.abs (x v)))) r =
        (l.foldl (fun (S : List Int → Option Fl) v => Function.update S v (some (FP.abs (x v)))) r.1,
          l.foldl (fun mx j => IPF.stdMax mx (FP.abs (x j))) r.2) := by
      intro l
      induction l with
      | nil => intro r; rfl
      | cons v l ih => intro r; simp only [List.foldl_cons]; rw [ih]
    rw [h1]
    simp only
    congr 2
    unfold arr
    apply arrO_congr
    intro v hv
    rw [foldl_set (fun v => some (FP.abs (x v))), if_pos (mem_allIdx.mpr hv)]
  · intro v hv r
    have hr := mem_allIdx.mp hv
    rw [get_arr hr]
    simp only [Out.ok_bind]
    rw [setO_arr hr]
    rfl

theorem errorsAll_ok (fp : FP) (N : Num α) {s : List Nat} (hg : GoodShape s) (a : List Int → Fl) :
    ∀ (P : Prob α) (es : List (NDArray Fl)) (mx : Fl), (∀ p ∈ P, p.1 ≠ [] ∧ ∀ d ∈ p.1, d < s.length) →
    Slots s P es →
    IPF.errorsAll (P.map (fun p => arr (projSizes p.1 s) (dev fp N s a p))) es mx =
      .ok (P.map (fun p => arr (projSizes p.1 s) (fun j => FP.abs (dev fp N s a p j))), maxDev fp N s P a mx)
  | [], es, mx, _, h => by
    cases h; rfl
  | p :: P, es, mx, hd, h => by
    have h1 := hd p (by simp)
    cases h with
    | @cons _ e _ es he hes =>
      obtain ⟨g, rfl⟩ := he
      simp only [List.map_cons, IPF.errorsAll]
      rw [errorsOne_eq (goodShape_projSizes hg h1.1 h1.2)]
      simp only [Out.ok_bind]
      rw [errorsAll_ok fp N hg a P es _ (fun q hq => hd q (by simp [hq])) hes]
      rfl

/-- an IPF object for the problem `P` with array contents `a` -/
def mkIPF (s : List Nat) (P : Prob α) (pop : Int) (a : List Int → Fl) (n : Nat) (conv : Bool)
    (es : List (NDArray Fl)) (mx : Fl) : IPF α :=
  { micro := { mkMicro Fl s P pop with array := arr s a }, iters := n, conv := conv, errors := es, maxError := mx }

/-- the state of the solver after `n` iterations with the array contents `a` -/
def ipfState (fp : FP) (N : Num α) (s : List Nat) (P : Prob α) (pop : Int) (a : List Int → Fl) (n : Nat) :
    IPF α × List (NDArray Fl) :=
  ({ micro := { mkMicro Fl s P pop with array := arr s a }, iters := n,
     conv := FP.lt (maxDev fp N s P a (.fin (-dblMax))) (tol8 fp),
     errors := P.map (fun p => arr (projSizes p.1 s) (fun j => FP.abs (dev fp N s a p j))),
     maxError := maxDev fp N s P a (.fin (-dblMax)) },
   P.map (fun p => arr (projSizes p.1 s) (dev fp N s a p)))

theorem step_eq (dbg : Bool) (fp : FP) (N : Num α) {s : List Nat} {P : Prob α} (h : ProbShape s P)
    (hp : dbg = true → ∀ p ∈ P, p.1.length < s.length) {pop : Int} {a : List Int → Fl} {n : Nat} {conv : Bool} {mx : Fl} {es ds : List (NDArray Fl)}
    (hes : Slots s P es) (hds : Slots s P ds) (b : List Int → Fl)
    (hb : rScale dbg fp N (arr s a) (indicesOf P) (marginalsOf s P) = .ok (arr s b)) :
    IPF.step dbg fp N (mkIPF s P pop a n conv es mx, ds) = .ok (ipfState fp N s P pop b (n + 1)) := by
  unfold IPF.step
  simp only [mkIPF, mkMicro]
  rw [hb]
  simp only [Out.ok_bind]
  rw [rDiff_ok dbg fp N h.good b P ds h.dims hp hds]
  simp only [Out.ok_bind, IPF.computeErrors]
  rw [errorsAll_ok fp N h.good b P es _ h.dims hes]
  rfl

/-- convergence after the array contents are `a` -/
def convAt (fp : FP) (N : Num α) (s : List Nat) (P : Prob α) (a : List Int → Fl) : Prop :=
  FP.lt (maxDev fp N s P a (.fin (-dblMax))) (tol8 fp) = true

instance (fp : FP) (N : Num α) (s : List Nat) (P : Prob α) (a : List Int → Fl) : Decidable (convAt fp N s P a) :=
  inferInstanceAs (Decidable (_ = true))

theorem ipf_loop (fp : FP) (N : Num α) {s : List Nat} {P : Prob α} (h : ProbShape s P)
    (hp : ProperProb s P) (pop : Int) (a : List Int → Fl) :
    ∀ k n, 1 ≤ n → n + k = 1000 → (∀ m, 1 ≤ m → m < n → ¬ convAt fp N s P ((sweep fp N s P)^[m] a)) →
    ∃ n', n ≤ n' ∧ n' ≤ 1000 ∧ (convAt fp N s P ((sweep fp N s P)^[n'] a) ∨ n' = 1000) ∧
      (∀ m, 1 ≤ m → m < n' → ¬ convAt fp N s P ((sweep fp N s P)^[m] a)) ∧
      loop IPF.continues (IPF.step false fp N) (ipfState fp N s P pop ((sweep fp N s P)^[n] a) n) =
        .ok (ipfState fp N s P pop ((sweep fp N s P)^[n'] a) n') := by
  intro k
  induction k with
  | zero =>
    intro n h1 h2 h3
    have : n = 1000 := by omega
    subst this
    refine ⟨1000, le_rfl, le_rfl, Or.inr rfl, h3, ?_⟩
    have hex : ∀ b, IPF.continues (ipfState fp N s P pop b 1000) = false := by
      intro b; simp [IPF.continues, ipfState, IPF.maxIter]
    exact loop_exit (hex _)
  | succ k ih =>
    intro n h1 h2 h3
    by_cases hc : convAt fp N s P ((sweep fp N s P)^[n] a)
    · refine ⟨n, le_rfl, by omega, Or.inl hc, h3, ?_⟩
      apply loop_exit
      unfold convAt at hc
      simp [IPF.continues, ipfState, hc]
    · obtain ⟨n', h4, h5, h6, h7, h8⟩ := ih (n + 1) (by omega) (by omega) (by
        intro m hm1 hm2
        by_cases hmn : m = n
        · subst hmn; exact hc
        · exact h3 m hm1 (by omega))
      refine ⟨n', by omega, h5, h6, h7, ?_⟩
      rw [← h8]
      apply loop_step
      · unfold convAt at hc
        simp [IPF.continues, ipfState, hc, IPF.maxIter]
        omega
      · have := step_eq false fp N h (by simp) (pop := pop) (a := (sweep fp N s P)^[n] a) (n := n)
          (conv := FP.lt (maxDev fp N s P ((sweep fp N s P)^[n] a) (.fin (-dblMax))) (tol8 fp))
          (mx := maxDev fp N s P ((sweep fp N s P)^[n] a) (.fin (-dblMax)))
          (slots_map P (fun p j => FP.abs (dev fp N s ((sweep fp N s P)^[n] a) p j)))
          (slots_map P (fun p => dev fp N s ((sweep fp N s P)^[n] a) p))
          (sweep fp N s P ((sweep fp N s P)^[n] a))
          (rScale_ok false fp N h.good P _ h.dims hp rfl)
        rw [Function.iterate_succ_apply']
        exact this

/-- an IPF object for the problem `P`, in any state it can be in between calls -/
structure IPFObj (s : List Nat) (P : Prob α) (pop : Int) (x : IPF α) : Prop where
  micro : ∃ g, x.micro = { mkMicro Fl s P pop with array := arrO s g }
  errors : x.errors = [] ∨ Slots s P x.errors

theorem resizeAll_empty {s : List Nat} : ∀ {P : Prob α}, (∀ p ∈ P, GoodShape (projSizes p.1 s)) →
    ∃ r, IPF.resizeAll (List.replicate P.length NDArray.empty) (marginalsOf s P) = .ok r ∧ Slots s P r
  | [], _ => ⟨[], rfl, .nil⟩
  | p :: P, h => by
    obtain ⟨r, h1, h2⟩ := resizeAll_empty (P := P) (fun q hq => h q (by simp [hq]))
    have hg := h p (by simp)
    simp only [marginalsOf, List.map_cons, List.length_cons, List.replicate_succ, IPF.resizeAll]
    rw [show (arr (projSizes p.1 s) p.2).sizes = projSizes p.1 s from rfl, resize_eq hg (prodSizes_pos hg.2)]
    simp only [Out.ok_bind]
    simp only [marginalsOf] at h1
    rw [h1]
    exact ⟨_, rfl, .cons ⟨_, rfl⟩ h2⟩

theorem resizeAll_slots {s : List Nat} : ∀ {P : Prob α} {es : List (NDArray Fl)}, (∀ p ∈ P, GoodShape (projSizes p.1 s)) →
    Slots s P es → IPF.resizeAll es (marginalsOf s P) = .ok es
  | [], _, _, h => by cases h; rfl
  | p :: P, _, hg, h => by
    cases h with
    | @cons _ e _ es he hes =>
      obtain ⟨g, rfl⟩ := he
      simp only [marginalsOf, List.map_cons, IPF.resizeAll]
      rw [show (arr (projSizes p.1 s) p.2).sizes = projSizes p.1 s from rfl, resize_same (hg p (by simp))]
      simp only [Out.ok_bind]
      have := resizeAll_slots (P := P) (es := es) (fun q hq => hg q (by simp [hq])) hes
      simp only [marginalsOf] at this
      rw [this]
      rfl

theorem start_eq {s : List Nat} {P : Prob α} (h : ProbShape s P) {pop : Int} {x : IPF α} (hx : IPFObj s P pop x)
    (a : List Int → Fl) :
    ∃ es ds, Slots s P es ∧ Slots s P ds ∧ IPF.start x (arr s a) =
      .ok (mkIPF s P pop a 0 false es x.maxError, ds) := by
  obtain ⟨g, hm⟩ := hx.micro
  have hgP : ∀ p ∈ P, GoodShape (projSizes p.1 s) := fun p hp => h.goodP hp
  unfold IPF.start
  rw [readAll_eq]
  simp only [Out.ok_bind]
  rw [hm]
  simp only [copyIn_eq, Out.ok_bind, mkMicro]
  have hlen : (marginalsOf s P).length = P.length := by simp [marginalsOf]
  rw [hlen]
  obtain ⟨ds, hd1, hd2⟩ := resizeAll_empty hgP
  rw [hd1]
  simp only [Out.ok_bind]
  rcases hx.errors with he | he
  · obtain ⟨es, he1, he2⟩ := resizeAll_empty hgP
    refine ⟨es, ds, he2, hd2, ?_⟩
    rw [he]
    simp only [IPF.resizeList, List.take_nil, List.nil_append, List.length_nil, Nat.sub_zero]
    rw [he1]
    rfl
  · refine ⟨x.errors, ds, he, hd2, ?_⟩
    have hl : x.errors.length = P.length := he.length_eq.symm
    have : IPF.resizeList x.errors P.length = x.errors := by
      unfold IPF.resizeList
      rw [hl]
      simp [← hl]
    rw [this, resizeAll_slots hgP he]
    rfl

theorem mappings_ok {s : List Nat} {P : Prob α} (h : ∀ p ∈ P, ∀ d ∈ p.1, d < s.length) :
    mappings ⟨s, List.replicate s.length 0, false⟩ (indicesOf P) =
      .ok (P.map (fun p => ⟨p.1, projSizes p.1 s, false⟩)) := by
  unfold mappings indicesOf
  rw [List.mapM_map, mapM_ok (h := fun p => (⟨p.1, projSizes p.1 s, false⟩ : MappedIndex))]
  intro p hp
  exact mapped_new (h p hp)

/-- the number of sweeps and the result of `solve` in a release build -/
theorem ipf_solve (fp : FP) (N : Num α) {s : List Nat} {P : Prob α} (h : ProbShape s P) (hp : ProperProb s P)
    {pop : Int} {x : IPF α} (hx : IPFObj s P pop x) (a : List Int → Fl) :
    ∃ n, 1 ≤ n ∧ n ≤ 1000 ∧ (convAt fp N s P ((sweep fp N s P)^[n] a) ∨ n = 1000) ∧
      (∀ m, 1 ≤ m → m < n → ¬ convAt fp N s P ((sweep fp N s P)^[m] a)) ∧
      IPF.solve false fp N x (arr s a) = .ok (ipfState fp N s P pop ((sweep fp N s P)^[n] a) n).1 := by
  obtain ⟨n, h1, h2, h3, h4, h5⟩ := ipf_loop fp N h hp pop a 999 1 le_rfl rfl (by intro m h1 h2; omega)
  refine ⟨n, h1, h2, h3, h4, ?_⟩
  unfold IPF.solve
  obtain ⟨g, hm⟩ := hx.micro
  have hsz : x.micro.array.sizes = s := by rw [hm]; rfl
  have hix : x.micro.indices = indicesOf P := by rw [hm]; rfl
  rw [hsz, show (arr s a).sizes = s from rfl]
  have hcs : IPF.checkSeed s s = .ok () := by simp [IPF.checkSeed]
  rw [hcs]
  simp only [Out.ok_bind]
  rw [index_new h.good.1]
  simp only [Out.ok_bind]
  rw [hix, show (zerosI s.length) = List.replicate s.length 0 from rfl, mappings_ok (fun p hp => (h.dims p hp).2)]
  simp only [Out.ok_bind]
  obtain ⟨es, ds, he, hd, hst⟩ := start_eq h hx a
  rw [hst]
  simp only [Out.ok_bind]
  have hs := step_eq false fp N h (by simp) (pop := pop) (a := a) (n := 0) (conv := false) (mx := x.maxError) he hd
    (sweep fp N s P a) (rScale_ok false fp N h.good P _ h.dims hp rfl)
  rw [loop_step (by simp [IPF.continues, IPF.maxIter, mkIPF]) hs]
  rw [Function.iterate_one] at h5
  rw [show 0 + 1 = 1 from rfl, h5]
  rfl

theorem ipf_new_obj {fp : FP} {N : Num α} {s : List Nat} {P : Prob α} {pop : Int}
    (hnew : Micro.new (β := Fl) fp N (indicesOf P) (marginalsOf s P) = .ok (mkMicro Fl s P pop)) :
    ∃ x, IPF.new fp N (indicesOf P) (marginalsOf s P) = .ok x ∧ IPFObj s P pop x := by
  unfold IPF.new
  rw [hnew]
  exact ⟨_, rfl, ⟨_, rfl⟩, Or.inl rfl⟩

theorem ipfState_obj (fp : FP) (N : Num α) (s : List Nat) (P : Prob α) (pop : Int) (a : List Int → Fl) (n : Nat) :
    IPFObj s P pop (ipfState fp N s P pop a n).1 :=
  ⟨⟨_, rfl⟩, Or.inr (slots_map P (fun p j => FP.abs (dev fp N s a p j)))⟩

end HL

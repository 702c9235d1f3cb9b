import Verif.Proof.IPFLemmas
import Verif.Proof.MicroInt

namespace HL
open Micro
variable {α : Type} {β : Type}

/-! ### Accepted inputs -/

theorem checkSums_ok (fp : FP) (N : Num α) (pop : Int) : ∀ (ms : List (List Nat × (List Int → α))),
    checkSums fp N pop (ms.map (fun m => arr m.1 m.2)) = .ok () → ∀ m ∈ ms, roundedTotal fp N m = .ok pop
  | [], _ => by simp
  | m :: ms, h => by
    simp only [List.map_cons, checkSums, roundedSum_eq] at h
    obtain ⟨t, ht, h⟩ := Out.bind_eq_ok.mp h
    split at h
    · cases h
    · rename_i hne
      have hp : t = pop := by simpa using hne
      subst hp
      intro m' hm'
      rcases List.mem_cons.mp hm' with rfl | hm'
      · exact ht
      · exact checkSums_ok fp N t ms h m' hm'

/-- an input of the right shape is accepted exactly when it is consistent -/
theorem new_ok_iff (fp : FP) (N : Num α) (hN : MinOK N) {s : List Nat} {P : Prob α} (h : ProbShape s P)
    {m : Micro β α} :
    Micro.new fp N (indicesOf P) (marginalsOf s P) = .ok m ↔
      ∃ pop, ProbOKG fp N s P pop ∧ m = mkMicro β s P pop := by
  constructor
  · intro hm
    have hc : ∀ p ∈ P, ∃ t, roundedTotal fp N (projSizes p.1 s, p.2) = .ok t := by
      unfold Micro.new at hm
      split at hm
      · cases hm
      obtain ⟨x1, -, hm⟩ := Out.bind_eq_ok.mp hm
      split at hm
      · cases hm
      obtain ⟨x2, -, hm⟩ := Out.bind_eq_ok.mp hm
      obtain ⟨x3, -, hm⟩ := Out.bind_eq_ok.mp hm
      obtain ⟨x4, -, hm⟩ := Out.bind_eq_ok.mp hm
      cases P with
      | nil => have := h.lists; simp at this
      | cons p0 P =>
        simp only [marginalsOf, List.map_cons] at hm
        obtain ⟨t, ht, hm⟩ := Out.bind_eq_ok.mp hm
        obtain ⟨x6, h6, hm⟩ := Out.bind_eq_ok.mp hm
        rw [roundedSum_eq] at ht
        intro p hp
        rcases List.mem_cons.mp hp with rfl | hp
        · exact ⟨t, ht⟩
        · refine ⟨t, checkSums_ok fp N t (shapesOf s P) ?_ (projSizes p.1 s, p.2) (List.mem_map.mpr ⟨p, hp, rfl⟩)⟩
          simp only [shapesOf, List.map_map]
          exact h6
    rcases new_shape (β := β) fp N hN h hc with ⟨pop, h1, h2⟩ | ⟨⟨e, he⟩, -⟩
    · rw [h2] at hm
      injection hm with hm
      exact ⟨pop, h1, hm.symm⟩
    · rw [he] at hm; cases hm
  · rintro ⟨pop, h1, rfl⟩
    rcases new_shape (β := β) fp N hN h (fun p hp => ⟨pop, h1.total p hp⟩) with ⟨pop', h2, h3⟩ | ⟨-, h2⟩
    · have hl := h.lists
      obtain ⟨p, hp⟩ : ∃ p, p ∈ P := by
        cases P with
        | nil => simp at hl
        | cons p _ => exact ⟨p, by simp⟩
      have e1 := h1.total p hp
      rw [h2.total p hp] at e1
      injection e1 with e1
      rw [h3, e1]
    · exact absurd h1 (h2 pop)

theorem micro_new_ok (fp : FP) (N : Num α) (hN : MinOK N) {s : List Nat} {P : Prob α} {pop : Int}
    (h : ProbOKG fp N s P pop) :
    Micro.new (β := β) fp N (indicesOf P) (marginalsOf s P) = .ok (mkMicro β s P pop) :=
  (new_ok_iff fp N hN h.toProbShape).mpr ⟨pop, h, rfl⟩

/-- one call of `ipf` in a release build -/
theorem ipf_run (fp : FP) (N : Num α) (hN : MinOK N) {s : List Nat} {P : Prob α} (h : ProbShape s P)
    (hp : ProperProb s P) (a : List Int → Fl) {r : IPF α}
    (hr : IPF.run false fp N (indicesOf P) (marginalsOf s P) (arr s a) = .ok r) :
    ∃ pop n, ProbOKG fp N s P pop ∧ 1 ≤ n ∧ n ≤ 1000 ∧ (convAt fp N s P ((sweep fp N s P)^[n] a) ∨ n = 1000) ∧
      (∀ m, 1 ≤ m → m < n → ¬ convAt fp N s P ((sweep fp N s P)^[m] a)) ∧
      r = (ipfState fp N s P pop ((sweep fp N s P)^[n] a) n).1 := by
  unfold IPF.run at hr
  obtain ⟨x, hx, hr⟩ := Out.bind_eq_ok.mp hr
  have hx' := hx
  unfold IPF.new at hx
  obtain ⟨m, hm, hx⟩ := Out.bind_eq_ok.mp hx
  obtain ⟨pop, h1, rfl⟩ := (new_ok_iff fp N hN h).mp hm
  obtain ⟨x', hx1, hx2⟩ := ipf_new_obj (fp := fp) (N := N) hm
  rw [hx'] at hx1
  injection hx1 with hx1
  subst hx1
  obtain ⟨n, h2, h3, h4, h5, h6⟩ := ipf_solve fp N h hp hx2 a
  rw [h6] at hr
  injection hr with hr
  exact ⟨pop, n, h1, h2, h3, h4, h5, hr.symm⟩

/-! ### Exact arithmetic -/

/-- the float array `a` holds the rationals `b` -/
def Agree (s : List Nat) (a : List Int → Fl) (b : List Int → ℚ) : Prop := ∀ v, InRange s v → a v = .fin (b v)

/-- the entries of the problem `P`, as doubles, are the rationals `Q` -/
def Reads (N : Num α) (s : List Nat) (P : Prob α) (Q : Prob ℚ) : Prop :=
  List.Forall₂ (fun p q => p.1 = q.1 ∧ Agree (projSizes p.1 s) (fun j => N.toFl (p.2 j)) q.2) P Q

/-- scaling to one marginal, in rationals -/
def qscaled (s ds : List Nat) (m : List Int → ℚ) (b : List Int → ℚ) (v : List Int) : ℚ :=
  if marginalSum s ds b (proj ds v) = 0 then 0
  else b v * (m (proj ds v) / marginalSum s ds b (proj ds v))

/-- one sweep over the marginals, in rationals -/
def qsweep (s : List Nat) (Q : Prob ℚ) (b : List Int → ℚ) : List Int → ℚ :=
  Q.foldl (fun b q => qscaled s q.1 q.2 b) b

theorem foldl_exact {γ : Type} (f : γ → Fl) (g : γ → ℚ) (l : List γ) (h : ∀ v ∈ l, f v = .fin (g v)) (c : ℚ) :
    l.foldl (fun acc v => FP.exact.add acc (f v)) (.fin c) = .fin (c + (l.map g).sum) := by
  induction l generalizing c with
  | nil => simp
  | cons v l ih =>
    rw [List.foldl_cons, h v (by simp)]
    have : FP.exact.add (.fin c) (.fin (g v)) = .fin (c + g v) := rfl
    rw [this, ih (fun w hw => h w (by simp [hw]))]
    simp [add_assoc]

theorem fsum_exact {s : List Nat} {a : List Int → Fl} {b : List Int → ℚ} (h : Agree s a b) (ds : List Nat)
    (j : List Int) : fsum FP.exact s ds a j = .fin (marginalSum s ds b j) := by
  unfold fsum
  rw [foldl_exact a b _ (fun v hv => h v (mem_allIdx.mp (List.mem_of_mem_filter hv)))]
  rw [zero_add, sum_filter_allIdx s (fun v => proj ds v = j) b]
  rfl

theorem scaled_exact {N : Num α} {s ds : List Nat} (hd : ∀ d ∈ ds, d < s.length) {m : List Int → α}
    {q : List Int → ℚ} (hm : Agree (projSizes ds s) (fun j => N.toFl (m j)) q)
    {a : List Int → Fl} {b : List Int → ℚ} (h : Agree s a b) :
    Agree s (scaled FP.exact N s ds m a) (qscaled s ds q b) := by
  intro v hv
  unfold scaled qscaled
  rw [fsum_exact h, show N.toFl (m (proj ds v)) = .fin (q (proj ds v)) from hm _ (inRange_proj hd hv), h v hv]
  by_cases h0 : marginalSum s ds b (proj ds v) = 0
  · simp [FP.feq, h0]
  · rw [if_neg (by simpa [FP.feq] using h0), if_neg h0]
    show FP.exact.mul _ (if _ then _ else _) = _
    rw [if_neg h0]
    rfl

theorem sweep_exact {N : Num α} {s : List Nat} : ∀ {P : Prob α} {Q : Prob ℚ},
    (∀ p ∈ P, ∀ d ∈ p.1, d < s.length) → Reads N s P Q → ∀ {a : List Int → Fl} {b : List Int → ℚ}, Agree s a b →
    Agree s (sweep FP.exact N s P a) (qsweep s Q b)
  | [], _, _, h, a, b, hab => by cases h; exact hab
  | p :: P, _, hd, h, a, b, hab => by
    cases h with
    | @cons _ q _ Q hq hQ =>
      have h1 := scaled_exact (N := N) (hd p (by simp)) hq.2 hab
      have h2 := sweep_exact (fun p' hp' => hd p' (by simp [hp'])) hQ h1
      show Agree s (sweep FP.exact N s P (scaled FP.exact N s p.1 p.2 a)) (qsweep s Q (qscaled s q.1 q.2 b))
      rw [← hq.1]
      exact h2

theorem iterate_exact {N : Num α} {s : List Nat} {P : Prob α} {Q : Prob ℚ}
    (hd : ∀ p ∈ P, ∀ d ∈ p.1, d < s.length) (h : Reads N s P Q) {a : List Int → Fl} {b : List Int → ℚ}
    (hab : Agree s a b) (n : Nat) : Agree s ((sweep FP.exact N s P)^[n] a) ((qsweep s Q)^[n] b) := by
  induction n with
  | zero => exact hab
  | succ n ih =>
    rw [Function.iterate_succ_apply', Function.iterate_succ_apply']
    exact sweep_exact hd h ih

/-- the differences between the sums of `b` and the marginals, one list -/
def qdevs (s : List Nat) (Q : Prob ℚ) (b : List Int → ℚ) : List ℚ :=
  Q.flatMap (fun q => (allIdx (projSizes q.1 s)).map (fun j => |marginalSum s q.1 b j - q.2 j|))

theorem stdMax_fin (x y : ℚ) : IPF.stdMax (.fin x) (.fin y) = .fin (max x y) := by
  unfold IPF.stdMax
  simp only [FP.lt, decide_eq_true_eq]
  split
  · rw [max_eq_right (le_of_lt (by assumption))]
  · rw [max_eq_left (not_lt.mp (by assumption))]

theorem foldl_stdMax {γ : Type} (f : γ → Fl) (g : γ → ℚ) (l : List γ) (h : ∀ v ∈ l, f v = .fin (g v)) (c : ℚ) :
    l.foldl (fun mx v => IPF.stdMax mx (f v)) (.fin c) = .fin ((l.map g).foldl max c) := by
  induction l generalizing c with
  | nil => rfl
  | cons v l ih =>
    rw [List.foldl_cons, h v (by simp), stdMax_fin, ih (fun w hw => h w (by simp [hw]))]
    rfl

theorem maxDev_exact {N : Num α} {s : List Nat} {a : List Int → Fl} {b : List Int → ℚ} (hab : Agree s a b) :
    ∀ {P : Prob α} {Q : Prob ℚ}, Reads N s P Q → ∀ c : ℚ,
    maxDev FP.exact N s P a (.fin c) = .fin ((qdevs s Q b).foldl max c)
  | [], _, h, c => by cases h; rfl
  | p :: P, _, h, c => by
    cases h with
    | @cons _ q _ Q hq hQ =>
      unfold maxDev qdevs
      rw [List.foldl_cons, List.flatMap_cons, List.foldl_append]
      rw [foldl_stdMax _ (fun j => |marginalSum s q.1 b j - q.2 j|)]
      · rw [← hq.1]
        exact maxDev_exact hab hQ _
      · intro j hj
        unfold dev
        rw [fsum_exact hab, show N.toFl (p.2 j) = .fin (q.2 j) from hq.2 j (mem_allIdx.mp hj), hq.1, sub_eq_add_neg]
        rfl

theorem foldl_max_spec (l : List ℚ) (c : ℚ) :
    (∀ x ∈ l, x ≤ l.foldl max c) ∧ c ≤ l.foldl max c ∧ (l.foldl max c = c ∨ l.foldl max c ∈ l) := by
  induction l generalizing c with
  | nil => simp
  | cons y l ih =>
    obtain ⟨h1, h2, h3⟩ := ih (max c y)
    rw [List.foldl_cons]
    refine ⟨?_, le_trans (le_max_left _ _) h2, ?_⟩
    · intro x hx
      rcases List.mem_cons.mp hx with rfl | hx
      · exact le_trans (le_max_right _ _) h2
      · exact h1 x hx
    · rcases h3 with h3 | h3
      · rcases max_choice c y with h4 | h4
        · left; rw [h3, h4]
        · right; rw [h3, h4]; simp
      · right; simp [h3]

/-- the largest difference -/
def qmax (s : List Nat) (Q : Prob ℚ) (b : List Int → ℚ) : ℚ := (qdevs s Q b).foldl max (-dblMax)

theorem mem_qdevs {s : List Nat} {Q : Prob ℚ} {b : List Int → ℚ} {x : ℚ} :
    x ∈ qdevs s Q b ↔ ∃ q ∈ Q, ∃ j, InRange (projSizes q.1 s) j ∧ x = |marginalSum s q.1 b j - q.2 j| := by
  unfold qdevs
  simp only [List.mem_flatMap, List.mem_map, mem_allIdx]
  constructor
  · rintro ⟨q, hq, j, hj, rfl⟩; exact ⟨q, hq, j, hj, rfl⟩
  · rintro ⟨q, hq, j, hj, rfl⟩; exact ⟨q, hq, j, hj, rfl⟩

theorem exists_inRange : ∀ {t : List Nat}, (∀ n ∈ t, 0 < n) → ∃ j, InRange t j
  | [], _ => ⟨[], .nil⟩
  | n :: t, h => by
    obtain ⟨j, hj⟩ := exists_inRange (t := t) (fun m hm => h m (by simp [hm]))
    exact ⟨0 :: j, .cons ⟨le_rfl, by exact_mod_cast h n (by simp)⟩ hj⟩

/-- `qmax` is the largest absolute difference -/
theorem qmax_spec {s : List Nat} {Q : Prob ℚ} (h : ProbShape s Q) (b : List Int → ℚ) :
    (∀ q ∈ Q, ∀ j, InRange (projSizes q.1 s) j → |marginalSum s q.1 b j - q.2 j| ≤ qmax s Q b) ∧
    (∃ q ∈ Q, ∃ j, InRange (projSizes q.1 s) j ∧ qmax s Q b = |marginalSum s q.1 b j - q.2 j|) := by
  obtain ⟨h1, h2, h3⟩ := foldl_max_spec (qdevs s Q b) (-dblMax)
  refine ⟨fun q hq j hj => h1 _ (mem_qdevs.mpr ⟨q, hq, j, hj, rfl⟩), ?_⟩
  have hl := h.lists
  obtain ⟨q, hq⟩ : ∃ q, q ∈ Q := by
    cases Q with
    | nil => simp at hl
    | cons p _ => exact ⟨p, by simp⟩
  obtain ⟨j, hj⟩ := exists_inRange (h.goodP hq).2
  have h4 := h1 _ (mem_qdevs.mpr ⟨q, hq, j, hj, rfl⟩)
  have h5 : qmax s Q b ∈ qdevs s Q b := by
    rcases h3 with h3 | h3
    · have := abs_nonneg (marginalSum s q.1 b j - q.2 j)
      have := dblMax_pos
      rw [h3] at h4
      linarith
    · exact h3
  exact mem_qdevs.mp h5

/-- one call of `ipf` on rational data, in exact arithmetic -/
theorem ipf_exact {N : Num α} (hN : MinOK N) {s : List Nat} {P : Prob α} {Q : Prob ℚ} (h : ProbShape s P)
    (hp : ProperProb s P) (hQ : Reads N s P Q) {a : List Int → Fl} {b : List Int → ℚ} (hab : Agree s a b) {r : IPF α}
    (hr : IPF.run false FP.exact N (indicesOf P) (marginalsOf s P) (arr s a) = .ok r) :
    ∃ pop n, ProbOKG FP.exact N s P pop ∧ 1 ≤ n ∧ n ≤ 1000 ∧
      (qmax s Q ((qsweep s Q)^[n] b) < 1 / 10 ^ 8 ∨ n = 1000) ∧
      (∀ m, 1 ≤ m → m < n → 1 / 10 ^ 8 ≤ qmax s Q ((qsweep s Q)^[m] b)) ∧
      r.micro = { mkMicro Fl s P pop with array := arr s (fun v => .fin ((qsweep s Q)^[n] b v)) } ∧
      r.iters = n ∧ r.conv = decide (qmax s Q ((qsweep s Q)^[n] b) < 1 / 10 ^ 8) ∧
      r.maxError = .fin (qmax s Q ((qsweep s Q)^[n] b)) := by
  obtain ⟨pop, n, h1, h2, h3, h4, h5, rfl⟩ := ipf_run FP.exact N hN h hp a hr
  have hag := fun k => iterate_exact (fun p hp => (h.dims p hp).2) hQ hab k
  have hmx : ∀ k, maxDev FP.exact N s P ((sweep FP.exact N s P)^[k] a) (.fin (-dblMax)) =
      .fin (qmax s Q ((qsweep s Q)^[k] b)) := fun k => maxDev_exact (hag k) hQ _
  have hcv : ∀ k, FP.lt (maxDev FP.exact N s P ((sweep FP.exact N s P)^[k] a) (.fin (-dblMax))) (tol8 FP.exact) =
      decide (qmax s Q ((qsweep s Q)^[k] b) < 1 / 10 ^ 8) := by
    intro k; rw [hmx]; rfl
  refine ⟨pop, n, h1, h2, h3, ?_, ?_, ?_, rfl, hcv n, hmx n⟩
  · rcases h4 with h4 | h4
    · left
      unfold convAt at h4
      rw [hcv] at h4
      simpa using h4
    · exact Or.inr h4
  · intro m hm1 hm2
    have := h5 m hm1 hm2
    unfold convAt at this
    rw [hcv] at this
    simpa using this
  · unfold ipfState
    simp only
    congr 1
    exact arr_congr (hag n)

theorem reads_shape {N : Num α} {s : List Nat} {P : Prob α} {Q : Prob ℚ} (h : Reads N s P Q) :
    P.map Prod.fst = Q.map Prod.fst := by
  induction h with
  | nil => rfl
  | cons h _ ih => simp [h.1, ih]

theorem probShape_congr {γ : Type} {s : List Nat} {P : Prob α} {Q : Prob γ} (h : P.map Prod.fst = Q.map Prod.fst)
    (hp : ProbShape s P) : ProbShape s Q := by
  refine ⟨?_, hp.two, hp.pos, ?_, ?_⟩
  · have := congrArg List.length h
    simp at this
    rw [← this]; exact hp.lists
  · intro q hq
    have : q.1 ∈ P.map Prod.fst := by rw [h]; exact List.mem_map.mpr ⟨q, hq, rfl⟩
    obtain ⟨p, hpm, hpe⟩ := List.mem_map.mp this
    rw [← hpe]; exact hp.dims p hpm
  · intro d hd
    obtain ⟨p, hpm, hpd⟩ := hp.cover d hd
    have : p.1 ∈ Q.map Prod.fst := by rw [← h]; exact List.mem_map.mpr ⟨p, hpm, rfl⟩
    obtain ⟨q, hq, hqe⟩ := List.mem_map.mp this
    exact ⟨q, hq, by rw [hqe]; exact hpd⟩

end HL

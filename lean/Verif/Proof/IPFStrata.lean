import Verif.StrataSpec
import Verif.Proof.IPFAlgebra

namespace HL
variable {α : Type} {fp : FP} {N : Num α}

theorem proj_strat (ds : List Nat) (x : Int) (v : List Int) : proj (0 :: ds.map (· + 1)) (x :: v) = x :: proj ds v := by
  simp [proj]

theorem projSizes_strat (ds : List Nat) (n : Nat) (t : List Nat) :
    projSizes (0 :: ds.map (· + 1)) (n :: t) = n :: projSizes ds t := by
  simp [projSizes]

theorem flatMap_only {γ : Type} (f : Nat → List γ) (x : Nat) (hf : ∀ i, i ≠ x → f i = []) :
    ∀ n, (List.range n).flatMap f = if x < n then f x else []
  | 0 => by simp
  | n + 1 => by
    rw [List.range_succ, List.flatMap_append, flatMap_only f x hf n]
    simp only [List.flatMap_cons, List.flatMap_nil, List.append_nil]
    by_cases h : x < n
    · rw [if_pos h, if_pos (by omega), hf n (by omega), List.append_nil]
    · rw [if_neg h]
      by_cases h2 : x = n
      · subst h2; simp
      · rw [if_neg (by omega), hf n (by omega)]; rfl

theorem fsum_strat {n x : Nat} (hx : x < n) (t ds : List Nat) (a : List Int → Fl) (j : List Int) :
    fsum fp (n :: t) (0 :: ds.map (· + 1)) a ((x : Int) :: j) = fsum fp t ds (part x a) j := by
  unfold fsum
  have : (allIdx (n :: t)).filter (fun v => proj (0 :: ds.map (· + 1)) v = (x : Int) :: j) =
      ((allIdx t).filter (fun v => proj ds v = j)).map ((x : Int) :: ·) := by
    rw [allIdx, List.filter_flatMap, flatMap_only _ x, if_pos hx, List.filter_map]
    · congr 1
      apply List.filter_congr
      intro v _
      simp [proj_strat]
    · intro i hi
      rw [List.filter_map, List.map_eq_nil_iff, List.filter_eq_nil_iff]
      intro v _
      simp only [Function.comp, proj_strat, decide_eq_true_eq]
      intro h
      injection h with h1
      exact hi (by exact_mod_cast h1)
  rw [this, List.foldl_map]
  rfl

theorem scaled_strat {n x : Nat} (hx : x < n) (t ds : List Nat) (m : List Int → α) (a : List Int → Fl) :
    part x (scaled fp N (n :: t) (0 :: ds.map (· + 1)) m a) = scaled fp N t ds (part x m) (part x a) := by
  funext v
  show scaled fp N (n :: t) (0 :: ds.map (· + 1)) m a ((x : Int) :: v) = _
  unfold scaled
  rw [proj_strat, fsum_strat hx]
  rfl

theorem sub_add_map (ds : List Nat) : (ds.map (· + 1)).map (· - 1) = ds := by
  simp [List.map_map, Function.comp_def]

theorem sweep_strat {n x : Nat} (hx : x < n) (t : List Nat) : ∀ (P : Prob α), Stratified P → ∀ (a : List Int → Fl),
    part x (sweep fp N (n :: t) P a) = sweep fp N t (stratum x P) (part x a)
  | [], _, _ => rfl
  | p :: P, hP, a => by
    obtain ⟨ds, -, hds⟩ := hP p (by simp)
    have ih := sweep_strat hx t P (fun q hq => hP q (by simp [hq])) (scaled fp N (n :: t) p.1 p.2 a)
    unfold sweep at ih ⊢
    rw [List.foldl_cons, ih]
    simp only [stratum, List.map_cons, List.foldl_cons]
    rw [hds, scaled_strat hx, List.tail_cons, sub_add_map]

theorem iterate_strat {n x : Nat} (hx : x < n) (t : List Nat) {P : Prob α} (hP : Stratified P) (a : List Int → Fl) :
    ∀ k, part x ((sweep fp N (n :: t) P)^[k] a) = (sweep fp N t (stratum x P))^[k] (part x a)
  | 0 => rfl
  | k + 1 => by
    rw [Function.iterate_succ_apply', Function.iterate_succ_apply', sweep_strat hx t P hP, iterate_strat hx t hP a k]

theorem lt_stdMax {m e t : Fl} (h1 : FP.lt m t = true) (h2 : e = .nan ∨ FP.lt e t = true) :
    FP.lt (IPF.stdMax m e) t = true := by
  unfold IPF.stdMax
  split
  · rcases h2 with rfl | h2
    · cases m <;> simp_all [FP.lt]
    · exact h2
  · exact h1

theorem lt_foldl_stdMax {γ : Type} (f : γ → Fl) {t : Fl} : ∀ (l : List γ) {m : Fl}, FP.lt m t = true →
    (∀ v ∈ l, f v = .nan ∨ FP.lt (f v) t = true) → FP.lt (l.foldl (fun mx v => IPF.stdMax mx (f v)) m) t = true
  | [], _, h, _ => h
  | v :: l, m, h, h2 => lt_foldl_stdMax f l (lt_stdMax h (h2 v (by simp))) (fun w hw => h2 w (by simp [hw]))

theorem lt_maxDev {s : List Nat} {a : List Int → Fl} {t : Fl} : ∀ (P : Prob α) {mx : Fl},
    FP.lt mx t = true → (∀ p ∈ P, ∀ j, InRange (projSizes p.1 s) j →
        dev fp N s a p j = .nan ∨ FP.lt (FP.abs (dev fp N s a p j)) t = true) →
    FP.lt (maxDev fp N s P a mx) t = true
  | [], _, h, _ => h
  | p :: P, mx, h, h2 => by
    refine lt_maxDev P (mx := (allIdx (projSizes p.1 s)).foldl
      (fun mx j => IPF.stdMax mx (FP.abs (dev fp N s a p j))) mx) ?_ (fun q hq => h2 q (by simp [hq]))
    refine lt_foldl_stdMax _ _ h ?_
    intro j hj
    rcases h2 p (by simp) j (mem_allIdx.mp hj) with h3 | h3
    · left; rw [h3]; rfl
    · exact Or.inr h3

theorem convAt_iff {s : List Nat} {a : List Int → Fl} {P : Prob α} :
    convAt fp N s P a ↔ FP.lt (.fin (-dblMax)) (tol8 fp) = true ∧ ∀ p ∈ P, ∀ j, InRange (projSizes p.1 s) j →
        dev fp N s a p j = .nan ∨ FP.lt (FP.abs (dev fp N s a p j)) (tol8 fp) = true :=
  ⟨fun h => maxDev_lt fp N P h, fun h => lt_maxDev P h.1 h.2⟩

theorem inRange_cons_iff {n : Nat} {t : List Nat} {v : List Int} :
    InRange (n :: t) v ↔ ∃ x : Nat, ∃ w, x < n ∧ InRange t w ∧ v = (x : Int) :: w := by
  unfold InRange
  constructor
  · intro h
    cases h with
    | @cons _ i _ w h1 h2 => exact ⟨i.toNat, w, by omega, h2, by rw [Int.toNat_of_nonneg h1.1]⟩
  · rintro ⟨x, w, h1, h2, rfl⟩
    exact .cons ⟨by omega, by exact_mod_cast h1⟩ h2

theorem dev_strat {n x : Nat} (hx : x < n) (t ds : List Nat) (m : List Int → α) (a : List Int → Fl) (j : List Int) :
    dev fp N (n :: t) a (0 :: ds.map (· + 1), m) ((x : Int) :: j) = dev fp N t (part x a) (ds, part x m) j := by
  unfold dev
  rw [fsum_strat hx]
  rfl

theorem convAt_strat {n : Nat} (hn : 0 < n) (t : List Nat) {P : Prob α} (hP : Stratified P) (a : List Int → Fl) :
    convAt fp N (n :: t) P a ↔ ∀ x < n, convAt fp N t (stratum x P) (part x a) := by
  constructor
  · intro h x hx
    rw [convAt_iff] at h ⊢
    refine ⟨h.1, ?_⟩
    intro q hq j hj
    obtain ⟨p, hp, rfl⟩ := List.mem_map.mp hq
    obtain ⟨ds, -, hds⟩ := hP p hp
    obtain ⟨d, m⟩ := p
    subst hds
    simp only [List.tail_cons, sub_add_map] at hj ⊢
    rw [← dev_strat hx]
    exact h.2 _ hp _ (by rw [projSizes_strat]; exact inRange_cons_iff.mpr ⟨x, j, hx, hj, rfl⟩)
  · intro h
    refine convAt_iff.mpr ⟨(convAt_iff.mp (h 0 hn)).1, ?_⟩
    intro p hp j hj
    obtain ⟨ds, -, hds⟩ := hP p hp
    obtain ⟨d, m⟩ := p
    subst hds
    rw [projSizes_strat] at hj
    obtain ⟨x, w, hx, hw, rfl⟩ := inRange_cons_iff.mp hj
    rw [dev_strat hx]
    refine (convAt_iff.mp (h x hx)).2 (ds, part x m) ?_ w hw
    refine List.mem_map.mpr ⟨_, hp, ?_⟩
    simp only [List.tail_cons, sub_add_map]

end HL

import Verif.RefusalFlSpec
import Verif.Props.Refusal
import Verif.Props.Messages
import Verif.Proof.MicroClose
import Verif.Proof.IPFPad

/-
C130: the messages of problems refused by `ipf`, whose marginals are doubles.
-/

namespace HL
open Micro Ref RefusalFl Log

/-! ### The messages belong to the checks -/

section
variable {α β : Type}

theorem RefusalFl.outcome_andThen (x : Out (Except RefusalFl α)) (f : α → Out (Except RefusalFl β)) :
    RefusalFl.outcome (andThen x f) = RefusalFl.outcome x >>= fun a => RefusalFl.outcome (f a) := by
  cases x with
  | ok e => cases e <;> rfl
  | _ => rfl

theorem RefusalFl.outcome_lift (x : Out α) : RefusalFl.outcome (lift x) = x := by cases x <;> rfl

theorem RefusalFl.outcome_ofRef (x : Ref α) : RefusalFl.outcome (ofRef x) = Ref.outcome x := by
  cases x with
  | ok e => cases e <;> rfl
  | _ => rfl

theorem RefusalFl.outcome_ok (a : α) : RefusalFl.outcome (.ok (.ok a)) = .ok a := rfl

theorem ofRef_error {x : Ref α} {r : RefusalFl} (h : ofRef x = .ok (.error r)) : ∃ r', r = .counts r' ∧ x = .ok (.error r') := by
  cases x with
  | ok e =>
    cases e with
    | ok a => injection h with h; cases h
    | error r' => injection h with h; injection h with h; exact ⟨r', h.symm, rfl⟩
  | _ => cases h

theorem ofRef_ok {x : Ref α} {a : α} (h : ofRef x = .ok (.ok a)) : x = .ok (.ok a) := by
  cases x with
  | ok e =>
    cases e with
    | ok b => injection h with h; injection h with h; rw [h]
    | error r' => injection h with h; cases h
  | _ => cases h

theorem ofRef_thrown {x : Ref α} {e : Exn} (h : ofRef x = .thrown e) : x = .thrown e := by
  cases x with
  | ok y => cases y <;> cases h
  | thrown e' => injection h with h; rw [h]
  | _ => cases h

theorem ok_of_outcome {x : Ref α} {a : α} (h : Ref.outcome x = .ok a) : x = .ok (.ok a) := by
  cases x with
  | ok e =>
    cases e with
    | ok b => injection h with h; rw [h]
    | error r' => cases h
  | _ => cases h

theorem checkNonnegFlR_eq (fp : FP) : ∀ (k : Nat) (as : List (NDArray Fl)),
    RefusalFl.outcome (checkNonnegFlR fp k as) = checkNonneg (numFl fp) as
  | k, [] => rfl
  | k, a :: as => by
    rw [checkNonnegFlR, checkNonneg, RefusalFl.outcome_andThen, RefusalFl.outcome_lift]
    congr 1
    funext x
    show _ = if FP.lt x (.fin 0) = true then _ else _
    split
    · rfl
    · exact checkNonnegFlR_eq fp (k + 1) as

theorem checkSumsFlR_eq (fp : FP) (pop : Int) : ∀ (i : Nat) (as : List (NDArray Fl)),
    RefusalFl.outcome (checkSumsFlR fp pop i as) = checkSums fp (numFl fp) pop as
  | i, [] => rfl
  | i, a :: as => by
    rw [checkSumsFlR, checkSums, RefusalFl.outcome_andThen, RefusalFl.outcome_lift]
    congr 1
    funext t
    split
    · rfl
    · exact checkSumsFlR_eq fp pop (i + 1) as

theorem checkPartialsFlR_eq (fp : FP) (ms : List (NDArray Fl)) (ms0 : List Fl) (d : Nat) : ∀ (i : Nat) (ps : List (Nat × Nat)),
    RefusalFl.outcome (checkPartialsFlR fp ms ms0 d i ps) = checkPartials (numFl fp) ms ms0 ps
  | i, [] => rfl
  | i, p :: ps => by
    rw [checkPartialsFlR, checkPartials, RefusalFl.outcome_andThen, RefusalFl.outcome_lift]
    congr 1
    funext msi
    split
    · exact checkPartialsFlR_eq fp ms ms0 d (i + 1) ps
    · rfl

theorem checkDimsFlR_eq (fp : FP) (ms : List (NDArray Fl)) : ∀ (d : Nat) (lk : List (List (Nat × Nat))),
    RefusalFl.outcome (checkDimsFlR fp ms d lk) = checkDims (numFl fp) ms lk
  | d, [] => rfl
  | d, [] :: rest => by unfold checkDimsFlR checkDims; exact checkDimsFlR_eq fp ms (d + 1) rest
  | d, [_] :: rest => by unfold checkDimsFlR checkDims; exact checkDimsFlR_eq fp ms (d + 1) rest
  | d, (p :: q :: ps) :: rest => by
    rw [checkDimsFlR, checkDims, RefusalFl.outcome_andThen, RefusalFl.outcome_lift]
    congr 1
    funext ms0
    rw [RefusalFl.outcome_andThen, checkPartialsFlR_eq]
    congr 1
    funext _
    exact checkDimsFlR_eq fp ms (d + 1) rest

end

/-- **C130**, the messages belong to the constructor: forgetting the operands gives its outcome in the other models. -/
theorem C130_agrees {β : Type} (fp : FP) (is : List (List Int)) (ms : List (NDArray Fl)) :
    RefusalFl.outcome (newFlR (β := β) fp is ms) = Micro.new fp (numFl fp) is ms := by
  unfold newFlR Micro.new
  split
  · rfl
  rw [RefusalFl.outcome_andThen, RefusalFl.outcome_ofRef, enterAllR_eq]
  congr 1
  funext m
  split
  · rfl
  rw [RefusalFl.outcome_andThen, checkNonnegFlR_eq]
  congr 1
  funext _
  rw [RefusalFl.outcome_andThen, RefusalFl.outcome_ofRef, collectSizesR_eq]
  congr 1
  funext s
  rw [RefusalFl.outcome_andThen, RefusalFl.outcome_lift]
  congr 1
  funext lk
  cases ms with
  | nil => rfl
  | cons a rest =>
    rw [RefusalFl.outcome_andThen]
    unfold checkTotalsFlR
    simp only
    rw [RefusalFl.outcome_andThen, RefusalFl.outcome_lift, bind_assoc]
    congr 1
    funext pop
    rw [RefusalFl.outcome_andThen, checkSumsFlR_eq, bind_assoc]
    congr 1
    funext _
    rw [RefusalFl.outcome_andThen, checkDimsFlR_eq, bind_assoc]
    congr 1
    funext _
    rw [RefusalFl.outcome_ok, Out.ok_bind, RefusalFl.outcome_andThen, RefusalFl.outcome_lift]
    rfl

/-! ### The messages are true -/

section
variable {is : List (List Int)} {ms : List (List Nat × (List Int → Fl))}

theorem foldl_min_attained_fl (l : List Fl) (m : Fl) (hm : m ≠ .nan) :
    let r := l.foldl (fun m x => if FP.lt x m then x else m) m
    r ≠ .nan ∧ (r = m ∨ r ∈ l) ∧ FP.lt m r = false ∧ ∀ x ∈ l, FP.lt x r = false := by
  induction l generalizing m with
  | nil =>
    refine ⟨hm, Or.inl rfl, ?_, by simp⟩
    show FP.lt m m = false
    clear hm
    cases m <;> simp [FP.lt]
  | cons a l ih =>
    intro r
    have hr : r = l.foldl (fun m x => if FP.lt x m then x else m) (if FP.lt a m then a else m) := rfl
    clear_value r
    by_cases h : FP.lt a m = true
    · rw [if_pos h] at hr
      have ha : a ≠ .nan := by rintro rfl; simp [FP.lt] at h
      obtain ⟨h1, h2, h3, h4⟩ := ih a ha
      rw [← hr] at h1 h2 h3 h4
      refine ⟨h1, ?_, ?_, ?_⟩
      · rcases h2 with h2 | h2
        · right; rw [h2]; simp
        · right; exact List.mem_cons_of_mem _ h2
      · clear hr h4 h2 ih
        cases a <;> cases m <;> cases r <;> simp_all [FP.lt]
        exact le_trans h3 h.le
      · intro x hx
        rcases List.mem_cons.mp hx with rfl | hx
        · exact h3
        · exact h4 x hx
    · rw [if_neg h] at hr
      obtain ⟨h1, h2, h3, h4⟩ := ih m hm
      rw [← hr] at h1 h2 h3 h4
      refine ⟨h1, ?_, h3, ?_⟩
      · rcases h2 with h2 | h2
        · exact Or.inl h2
        · right; exact List.mem_cons_of_mem _ h2
      · intro x hx
        rcases List.mem_cons.mp hx with rfl | hx
        · clear hr h4 h2 hx ih
          cases x <;> cases m <;> cases r <;> simp_all [FP.lt]
          exact le_trans h3 h
        · exact h4 x hx

theorem enterAllR_sizes {α γ : Type} : ∀ (is : List (List Int)) (as : List (NDArray α)) (bs : List (NDArray γ)) (k : Nat)
    (m : List (Int × Nat)), as.map NDArray.sizes = bs.map NDArray.sizes → enterAllR k m is as = enterAllR k m is bs
  | [], as, bs, k, m, h => by rw [enterAllR.eq_def]; conv => rhs; rw [enterAllR.eq_def]
  | _ :: _, [], [], k, m, h => rfl
  | _ :: _, [], _ :: _, k, m, h => by simp at h
  | _ :: _, _ :: _, [], k, m, h => by simp at h
  | i :: is, a :: as, b :: bs, k, m, h => by
    simp only [List.map_cons, List.cons.injEq] at h
    have hd : a.dim = b.dim := by unfold NDArray.dim; rw [h.1]
    rw [enterAllR, enterAllR, hd, h.1]
    split
    · rfl
    · congr 1
      funext m'
      exact enterAllR_sizes is as bs (k + 1) m' h.2

theorem sizes_shapesOnly (ms : List (List Nat × (List Int → Fl))) : (ms.map (fun m => arr m.1 m.2)).map NDArray.sizes =
    ((shapesOnly ms).map (fun m => arr m.1 m.2)).map NDArray.sizes := by
  unfold shapesOnly
  rw [List.map_map, List.map_map, List.map_map]
  rfl

theorem checkNonnegFlR_error (fp : FP) (hg : ∀ m ∈ ms, GoodShape m.1) : ∀ (ms' : List (List Nat × (List Int → Fl))) (k : Nat),
    (∀ x, ms[k + x]? = ms'[x]?) →
    (∀ k' < k, ∀ m', ms[k']? = some m' → ∀ v, InRange m'.1 v → FP.lt (m'.2 v) (.fin 0) = false) →
    ∀ r, checkNonnegFlR fp k (ms'.map (fun m => arr m.1 m.2)) = .ok (.error r) → TruthfulFl fp is ms r
  | [], k, h1, h2, r, h => by simp [checkNonnegFlR] at h
  | a :: ms', k, h1, h2, r, h => by
    have ha : ms[k]? = some a := by simpa using h1 0
    have hga := hg a (List.mem_of_getElem? ha)
    rw [List.map_cons, checkNonnegFlR] at h
    rcases andThen_error h with h | ⟨x, h, h'⟩
    · exact absurd h lift_error
    · have hx := lift_ok h
      rw [minArr_eq _ hga, foldl_map_min] at hx
      injection hx with hx
      have hx' : ((allIdx a.1).map a.2).foldl (fun m x => if FP.lt x m then x else m) (.fin dblMax) = x := hx
      obtain ⟨g0, g1, g2, g3⟩ := foldl_min_attained_fl ((allIdx a.1).map a.2) (.fin dblMax) (by simp)
      rw [hx'] at g0 g1 g2 g3
      have hle : ∀ v, InRange a.1 v → FP.lt (a.2 v) x = false := fun v hv => g3 _ (List.mem_map.mpr ⟨v, mem_allIdx.mpr hv, rfl⟩)
      by_cases hn : FP.lt x (.fin 0) = true
      · rw [if_pos hn] at h'
        injection h' with h'; injection h' with h'
        subst h'
        refine ⟨hn, a, ha, ?_, hle, h2⟩
        rcases g1 with g1 | g1
        · rw [g1] at hn
          have := dblMax_pos
          simp only [FP.lt, decide_eq_true_eq] at hn
          linarith
        · obtain ⟨v, hv, e⟩ := List.mem_map.mp g1
          exact ⟨v, mem_allIdx.mp hv, e⟩
      · rw [if_neg hn] at h'
        refine checkNonnegFlR_error fp hg ms' (k + 1) ?_ ?_ r h'
        · intro y
          have := h1 (y + 1); rw [show k + (y + 1) = k + 1 + y by omega] at this; simpa using this
        · intro k' hk' m' hm' v hv
          by_cases e : k' = k
          · subst e
            rw [ha] at hm'; injection hm' with hm'; subst hm'
            have h3 := hle v hv
            clear h' hx hx' g1 g2 g3 h
            revert hn h3
            generalize a.2 v = y
            intro hn h3
            cases y <;> cases x <;> simp_all [FP.lt]
            exact le_trans hn h3
          · exact h2 k' (by omega) m' hm' v hv

theorem checkSumsFlR_error (fp : FP) {pop : Int} : ∀ (ms' : List (List Nat × (List Int → Fl))) (k : Nat), 1 ≤ k →
    (∀ x, ms[k + x]? = ms'[x]?) → (∀ i' < k, ms[i']?.map (roundedOf fp) = some (.ok pop)) →
    ∀ r, checkSumsFlR fp pop k (ms'.map (fun m => arr m.1 m.2)) = .ok (.error r) → TruthfulFl fp is ms r
  | [], k, hk, h1, h2, r, h => by simp [checkSumsFlR] at h
  | a :: ms', k, hk, h1, h2, r, h => by
    have ha : ms[k]? = some a := by simpa using h1 0
    rw [List.map_cons, checkSumsFlR, roundedSum_eq] at h
    rcases andThen_error h with h | ⟨x, h, h'⟩
    · exact absurd h lift_error
    · have hx : roundedOf fp a = .ok x := lift_ok h
      by_cases hp : x ≠ pop
      · rw [if_pos hp] at h'
        injection h' with h'; injection h' with h'
        subst h'
        exact ⟨hp, by rw [ha]; exact congrArg some hx, h2 0 (by omega), h2⟩
      · rw [if_neg hp] at h'
        refine checkSumsFlR_error fp ms' (k + 1) (by omega) ?_ ?_ r h'
        · intro y
          have := h1 (y + 1); rw [show k + (y + 1) = k + 1 + y by omega] at this; simpa using this
        · intro i' hi'
          by_cases e : i' = k
          · subst e; rw [ha, ← not_not.mp hp]; exact congrArg some hx
          · exact h2 i' (by omega)

theorem partialSum_along_fl (fp : FP) (hg : ∀ m ∈ ms, GoodShape m.1) {p : Nat × Nat} {x : List Fl}
    (h : Micro.partialSum (numFl fp) (ms.map (fun m => arr m.1 m.2)) p = .ok x) : sumsAtPlaceFl fp ms p = some x := by
  unfold Micro.partialSum at h
  rw [List.getElem?_map] at h
  unfold sumsAtPlaceFl
  cases hm : ms[p.1]? with
  | none => rw [hm] at h; cases h
  | some m =>
    rw [hm] at h
    simp only [Option.map_some] at h ⊢
    by_cases hp : p.2 < m.1.length
    · rw [reduce1_eq (numFl fp) (hg m (List.mem_of_getElem? hm)) m.2 hp] at h
      injection h with h
      rw [← h]
      rfl
    · unfold reduce1 at h
      rw [if_pos (by exact hp)] at h
      cases h

theorem allclose_iff (fp : FP) (a b : List Fl) : (numFl fp).allclose a b = true ↔ CloseLists fp a b := by
  show (if a.length ≠ b.length then false else allcloseLoop fp a b) = true ↔ _
  unfold CloseLists
  by_cases h : a.length = b.length
  · rw [if_neg (not_not.mpr h), allcloseLoop_iff fp h]
    exact ⟨fun h' => ⟨h, h'⟩, fun h' => h'.2⟩
  · rw [if_pos h]
    constructor
    · intro h'; cases h'
    · intro h'; exact absurd h'.1 h

/-- The dimension `d` has passed: the sums at every place after the first are close to those at the first. -/
def PassedFl (fp : FP) (is : List (List Int)) (ms : List (List Nat × (List Int → Fl))) (d : Nat) : Prop :=
  ∀ (p : Nat × Nat) (l0 : List Fl), (placesNamed is (d : Int))[0]? = some p → sumsAtPlaceFl fp ms p = some l0 →
    ∀ (i' : Nat) (q : Nat × Nat), i' ≠ 0 → (placesNamed is (d : Int))[i']? = some q → ∃ l, sumsAtPlaceFl fp ms q = some l ∧ CloseLists fp l l0

theorem checkPartialsFlR_error (fp : FP) (hg : ∀ m ∈ ms, GoodShape m.1) {ms0 : List Fl} {d : Nat}
    (h0 : (placesNamed is d)[0]?.bind (sumsAtPlaceFl fp ms) = some ms0) (h3 : ∀ d' < d, PassedFl fp is ms d') :
    ∀ (ps : List (Nat × Nat)) (i : Nat), 1 ≤ i → (∀ x, (placesNamed is d)[i + x]? = ps[x]?) →
    (∀ i' < i, i' ≠ 0 → ∃ l, (placesNamed is d)[i']?.bind (sumsAtPlaceFl fp ms) = some l ∧ CloseLists fp l ms0) →
    ∀ r, checkPartialsFlR fp (ms.map (fun m => arr m.1 m.2)) ms0 d i ps = .ok (.error r) → TruthfulFl fp is ms r
  | [], i, hi, h1, h2, r, h => by simp [checkPartialsFlR] at h
  | p :: ps, i, hi, h1, h2, r, h => by
    have hp : (placesNamed is d)[i]? = some p := by simpa using h1 0
    rw [checkPartialsFlR] at h
    rcases andThen_error h with h | ⟨x, h, h'⟩
    · exact absurd h lift_error
    · have hx := partialSum_along_fl fp hg (lift_ok h)
      by_cases e : (numFl fp).allclose x ms0 = true
      · rw [if_pos e] at h'
        refine checkPartialsFlR_error fp hg h0 h3 ps (i + 1) (by omega) ?_ ?_ r h'
        · intro y
          have := h1 (y + 1); rw [show i + (y + 1) = i + 1 + y by omega] at this; simpa using this
        · intro i' hi' hne
          by_cases e' : i' = i
          · subst e'; rw [hp]; exact ⟨x, hx, (allclose_iff fp x ms0).mp e⟩
          · exact h2 i' (by omega) hne
      · rw [if_neg e] at h'
        injection h' with h'; injection h' with h'
        subst h'
        exact ⟨fun hc => e ((allclose_iff fp x ms0).mpr hc), by rw [hp]; exact hx, h0, h2, h3⟩

theorem checkPartialsFlR_ok (fp : FP) (hg : ∀ m ∈ ms, GoodShape m.1) {ms0 : List Fl} {d : Nat} :
    ∀ (ps : List (Nat × Nat)) (i : Nat),
    checkPartialsFlR fp (ms.map (fun m => arr m.1 m.2)) ms0 d i ps = .ok (.ok ()) →
    ∀ p ∈ ps, ∃ l, sumsAtPlaceFl fp ms p = some l ∧ CloseLists fp l ms0
  | [], i, h, p, hp => by simp at hp
  | q :: ps, i, h, p, hp => by
    rw [checkPartialsFlR] at h
    obtain ⟨x, h, h'⟩ := andThen_ok h
    have hx := partialSum_along_fl fp hg (lift_ok h)
    by_cases e : (numFl fp).allclose x ms0 = true
    · rw [if_pos e] at h'
      rcases List.mem_cons.mp hp with rfl | hp
      · exact ⟨x, hx, (allclose_iff fp x ms0).mp e⟩
      · exact checkPartialsFlR_ok fp hg ps (i + 1) h' p hp
    · rw [if_neg e] at h'; injection h' with h'; cases h'

theorem checkDimsFlR_error (fp : FP) (hg : ∀ m ∈ ms, GoodShape m.1) : ∀ (n d : Nat) (r : RefusalFl),
    (∀ d' < d, PassedFl fp is ms d') →
    checkDimsFlR fp (ms.map (fun m => arr m.1 m.2)) d
      ((List.range' d n).map (fun d => placesNamed is ((d : Nat) : Int))) = .ok (.error r) → TruthfulFl fp is ms r
  | 0, d, r, hb, h => by simp [checkDimsFlR] at h
  | n + 1, d, r, hb, h => by
    have hnext : PassedFl fp is ms d → ∀ d' < d + 1, PassedFl fp is ms d' := by
      intro hd d' hd'
      by_cases e : d' = d
      · subst e; exact hd
      · exact hb d' (by omega)
    rw [List.range'_succ, List.map_cons] at h
    match hpl : placesNamed is ((d : Nat) : Int) with
    | [] =>
      rw [hpl, checkDimsFlR] at h
      refine checkDimsFlR_error fp hg n (d + 1) r (hnext ?_) h
      intro p l0 hp
      rw [hpl] at hp; cases hp
    | [_] =>
      rw [hpl, checkDimsFlR] at h
      refine checkDimsFlR_error fp hg n (d + 1) r (hnext ?_) h
      intro p l0 hp hl i' q hi hq
      rw [hpl] at hq
      obtain ⟨i', rfl⟩ := Nat.exists_eq_succ_of_ne_zero hi
      cases hq
    | p :: q :: ps =>
      rw [hpl, checkDimsFlR] at h
      rcases andThen_error h with h | ⟨x, h, h'⟩
      · exact absurd h lift_error
      · have hx := partialSum_along_fl fp hg (lift_ok h)
        rcases andThen_error h' with h' | ⟨_, hok, h'⟩
        · refine checkPartialsFlR_error fp hg (by rw [hpl]; exact hx) hb (q :: ps) 1 (by omega) ?_ ?_ r h'
          · intro y; rw [hpl, Nat.add_comm]; rfl
          · intro i' hi' hne; omega
        · refine checkDimsFlR_error fp hg n (d + 1) r (hnext ?_) h'
          intro p' l0 hp' hl i' q' hi hq'
          rw [hpl] at hp' hq'
          obtain ⟨i', rfl⟩ := Nat.exists_eq_succ_of_ne_zero hi
          injection hp' with hp'
          subst hp'
          rw [hx] at hl
          injection hl with hl
          subst hl
          exact checkPartialsFlR_ok fp hg (q :: ps) 1 hok q' (List.mem_of_getElem? hq')

end

/-- **C130**: whenever `ipf` refuses index lists and double marginals with a message, in whatever arithmetic, the message is true of
them and, where it names a place, names the first one at which the test in question fails.  Marginals have no empty dimensions;
their entries (infinite, not a number, …) and the index lists are arbitrary. -/
theorem C130_truthful {β : Type} (fp : FP) (is : List (List Int)) (ms : List (List Nat × (List Int → Fl)))
    (hg : ∀ m ∈ ms, GoodShape m.1) {r : RefusalFl}
    (h : newFlR (β := β) fp is (ms.map (fun m => arr m.1 m.2)) = .ok (.error r)) : TruthfulFl fp is ms r := by
  have hg' : ∀ m ∈ shapesOnly ms, GoodShape m.1 := by
    intro m hm
    obtain ⟨m', hm', rfl⟩ := List.mem_map.mp hm
    exact hg m' hm'
  have ht' : ∀ m ∈ shapesOnly ms, |totalOf m| < 2 ^ 52 := by
    intro m hm
    obtain ⟨m', hm', rfl⟩ := List.mem_map.mp hm
    simp [totalOf]
  have shape := fun r => C123_truthful (β := β) (r := r) FP.exact_good is (shapesOnly ms) hg' ht'
  have hlen : ((shapesOnly ms).map (fun m => arr m.1 m.2)).length = (ms.map (fun m => arr m.1 m.2)).length := by
    simp [shapesOnly]
  have hen := enterAllR_sizes is _ _ 0 [] (sizes_shapesOnly ms)
  unfold newFlR at h
  unfold newR at shape
  rw [hlen, ← hen] at shape
  by_cases hl : is.length ≠ (ms.map (fun m => arr m.1 m.2)).length ∨ is.length < 2
  · rw [if_pos hl] at h
    rw [if_pos hl] at shape
    injection h with h; injection h with h
    subst h
    exact shape _ rfl
  rw [if_neg hl] at h
  rw [if_neg hl] at shape
  rcases andThen_error h with h | ⟨m, hm, h⟩
  · obtain ⟨r', rfl, h'⟩ := ofRef_error h
    rw [h'] at shape
    have hsh := shape r' rfl
    have kinds : ∀ (is' : List (List Int)) (as : List (NDArray Fl)) (k : Nat) (m : List (Int × Nat)) (r : Refusal),
        enterAllR k m is' as = .ok (.error r) → (∃ a b, r = .indexDim a b) ∨ ∃ k d a b, r = .redefined k d a b := by
      have kd : ∀ (ds : List Int) (ns : List Nat) (k : Nat) (m : List (Int × Nat)) (r : Refusal),
          enterDimsR k m ds ns = .ok (.error r) → ∃ k d a b, r = .redefined k d a b := by
        intro ds
        induction ds with
        | nil => intro ns k m r h; rw [enterDimsR.eq_def] at h; injection h with h; cases h
        | cons d ds ih =>
          intro ns k m r h
          cases ns with
          | nil => rw [enterDimsR.eq_def] at h; injection h with h; cases h
          | cons n ns =>
            rw [enterDimsR] at h
            rcases andThen_error h with h | ⟨m', h, h'⟩
            · unfold enterDimR at h
              split at h
              · injection h with h; cases h
              · split at h
                · injection h with h; injection h with h; exact ⟨_, _, _, _, h.symm⟩
                · injection h with h; cases h
            · exact ih ns k m' r h'
      intro is'
      induction is' with
      | nil => intro as k m r h; rw [enterAllR.eq_def] at h; injection h with h; cases h
      | cons i is' ih =>
        intro as k m r h
        cases as with
        | nil => rw [enterAllR.eq_def] at h; injection h with h; cases h
        | cons a as =>
          rw [enterAllR] at h
          split at h
          · injection h with h; injection h with h; exact Or.inl ⟨_, _, h.symm⟩
          · rcases andThen_error h with h | ⟨m', h, h'⟩
            · exact Or.inr (kd _ _ _ _ _ h)
            · exact ih as (k + 1) m' r h'
    rcases kinds _ _ _ _ _ h' with ⟨a, b, rfl⟩ | ⟨k, d, a, b, rfl⟩
    · exact hsh
    · exact hsh
  rw [ofRef_ok hm] at shape
  simp only [Ref.pass] at shape
  by_cases h2d : m.length < 2
  · rw [if_pos h2d] at h
    rw [if_pos h2d] at shape
    injection h with h; injection h with h
    subst h
    exact shape _ rfl
  rw [if_neg h2d] at h
  rw [if_neg h2d] at shape
  rcases andThen_error h with h | ⟨_, hnn, h⟩
  · exact checkNonnegFlR_error fp hg ms 0 (by simp) (by omega) r h
  have hz : checkNonnegR FP.exact 0 ((shapesOnly ms).map (fun m => arr m.1 m.2)) = .ok (.ok ()) := by
    apply ok_of_outcome
    rw [checkNonnegR_eq]
    rcases checkNonneg_cases (numInt FP.exact) (minOK_int FP.exact) (shapesOnly ms) hg' with ⟨h4, -⟩ | ⟨-, m', hm', j, -, hj⟩
    · exact h4
    · obtain ⟨m'', hm'', rfl⟩ := List.mem_map.mp hm'
      simp [numInt] at hj
  rw [hz] at shape
  simp only [Ref.pass] at shape
  rcases andThen_error h with h | ⟨s, -, h⟩
  · obtain ⟨r', rfl, h'⟩ := ofRef_error h
    rw [h'] at shape
    obtain ⟨j, -, rfl, -⟩ := collectSizesR_error _ _ r' h'
    exact shape _ rfl
  rcases andThen_error h with h | ⟨lk, hlk, h⟩
  · exact absurd h lift_error
  have hlk' := lookup_named (lift_ok hlk)
  rcases andThen_error h with h | ⟨pop, -, h⟩
  swap
  · rcases andThen_error h with h | ⟨_, -, h⟩
    · exact absurd h lift_error
    · injection h with h; cases h
  clear shape hz hen hlen ht' hg' hm
  match ms, hg, h with
  | [], _, h => cases h
  | a :: rest, hg, h =>
    simp only [List.map_cons, checkTotalsFlR] at h
    rw [roundedSum_eq] at h
    rcases andThen_error h with h | ⟨pop, hpop, h⟩
    · exact absurd h lift_error
    have hpop' : roundedOf fp a = .ok pop := lift_ok hpop
    rcases andThen_error h with h | ⟨_, -, h⟩
    · refine checkSumsFlR_error fp rest 1 le_rfl ?_ ?_ r h
      · intro x; rw [Nat.add_comm]; rfl
      · intro i' hi'
        have : i' = 0 := by omega
        subst this
        exact congrArg some hpop'
    · rcases andThen_error h with h | ⟨_, -, h⟩
      · rw [hlk', List.range_eq_range'] at h
        exact checkDimsFlR_error fp hg _ 0 r (by omega) h
      · injection h with h; cases h

/-! ### Every refusal has a message -/

section
variable {ms : List (List Nat × (List Int → Fl))}

theorem checkNonnegFlR_thrown (fp : FP) {e : Exn} : ∀ (ms : List (List Nat × (List Int → Fl))) (k : Nat), (∀ m ∈ ms, GoodShape m.1) →
    checkNonnegFlR fp k (ms.map (fun m => arr m.1 m.2)) ≠ .thrown e
  | [], k, hg => by simp [checkNonnegFlR]
  | m :: ms, k, hg => by
    intro h
    rw [List.map_cons, checkNonnegFlR, minArr_eq _ (hg m (by simp))] at h
    rcases andThen_thrown h with h | ⟨a, -, h⟩
    · cases h
    · split at h
      · cases h
      · exact checkNonnegFlR_thrown fp ms (k + 1) (fun m hm => hg m (by simp [hm])) h

theorem checkSumsFlR_thrown (fp : FP) {pop : Int} {e : Exn} : ∀ (ms : List (List Nat × (List Int → Fl))) (k : Nat),
    checkSumsFlR fp pop k (ms.map (fun m => arr m.1 m.2)) ≠ .thrown e
  | [], k => by simp [checkSumsFlR]
  | m :: ms, k => by
    intro h
    rw [List.map_cons, checkSumsFlR, roundedSum_eq] at h
    rcases andThen_thrown h with h | ⟨a, -, h⟩
    · exact toInt64_thrown (lift_thrown h)
    · split at h
      · cases h
      · exact checkSumsFlR_thrown fp ms (k + 1) h

theorem partialSum_fl (fp : FP) (hg : ∀ m ∈ ms, GoodShape m.1) {p : Nat × Nat} {m : List Nat × (List Int → Fl)} (hm : ms[p.1]? = some m)
    (hp : p.2 < m.1.length) : Micro.partialSum (numFl fp) (ms.map (fun m => arr m.1 m.2)) p = .ok (seqSums1 (numFl fp) m.1 m.2 p.2) := by
  unfold Micro.partialSum
  rw [List.getElem?_map, hm]
  simp only [Option.map_some]
  rw [reduce1_eq (numFl fp) (hg m (List.mem_of_getElem? hm)) m.2 hp]
  rfl

theorem partialSum_thrown_fl (fp : FP) (hg : ∀ m ∈ ms, GoodShape m.1) {p : Nat × Nat} {e : Exn}
    (hp : ∀ m, ms[p.1]? = some m → p.2 < m.1.length) : Micro.partialSum (numFl fp) (ms.map (fun m => arr m.1 m.2)) p ≠ .thrown e := by
  cases hm : ms[p.1]? with
  | none => unfold Micro.partialSum; rw [List.getElem?_map, hm]; simp
  | some m => rw [partialSum_fl fp hg hm (hp m hm)]; simp

theorem checkPartialsFlR_thrown (fp : FP) (hg : ∀ m ∈ ms, GoodShape m.1) {ms0 : List Fl} {d : Nat}
    {e : Exn} : ∀ (ps : List (Nat × Nat)) (i : Nat), (∀ p ∈ ps, ∀ m, ms[p.1]? = some m → p.2 < m.1.length) →
    checkPartialsFlR fp (ms.map (fun m => arr m.1 m.2)) ms0 d i ps ≠ .thrown e
  | [], i, hp => by simp [checkPartialsFlR]
  | p :: ps, i, hp => by
    intro h
    rw [checkPartialsFlR] at h
    rcases andThen_thrown h with h | ⟨a, -, h⟩
    · exact partialSum_thrown_fl fp hg (hp p (by simp)) (lift_thrown h)
    · split at h
      · exact checkPartialsFlR_thrown fp hg ps (i + 1) (fun p h => hp p (by simp [h])) h
      · cases h

theorem checkDimsFlR_thrown (fp : FP) (hg : ∀ m ∈ ms, GoodShape m.1) {e : Exn} :
    ∀ (lk : List (List (Nat × Nat))) (d : Nat), (∀ ps ∈ lk, ∀ p ∈ ps, ∀ m, ms[p.1]? = some m → p.2 < m.1.length) →
    checkDimsFlR fp (ms.map (fun m => arr m.1 m.2)) d lk ≠ .thrown e
  | [], d, hp => by simp [checkDimsFlR]
  | [] :: lk, d, hp => by
    unfold checkDimsFlR
    exact checkDimsFlR_thrown fp hg lk (d + 1) (fun ps h => hp ps (by simp [h]))
  | [_] :: lk, d, hp => by
    unfold checkDimsFlR
    exact checkDimsFlR_thrown fp hg lk (d + 1) (fun ps h => hp ps (by simp [h]))
  | (p :: q :: ps) :: lk, d, hp => by
    intro h
    rw [checkDimsFlR] at h
    have h0 := hp (p :: q :: ps) (by simp)
    rcases andThen_thrown h with h | ⟨a, -, h⟩
    · exact partialSum_thrown_fl fp hg (h0 p (by simp)) (lift_thrown h)
    · rcases andThen_thrown h with h | ⟨_, -, h⟩
      · exact checkPartialsFlR_thrown fp hg (q :: ps) 1 (fun p h => h0 p (List.mem_cons_of_mem _ h)) h
      · exact checkDimsFlR_thrown fp hg lk (d + 1) (fun ps h => hp ps (by simp [h])) h

end

theorem newFlR_thrown {β : Type} {fp : FP} (is : List (List Int)) (ms : List (List Nat × (List Int → Fl)))
    (hg : ∀ m ∈ ms, GoodShape m.1) {e : Exn} : newFlR (β := β) fp is (ms.map (fun m => arr m.1 m.2)) ≠ .thrown e := by
  intro h
  unfold newFlR at h
  by_cases hl : is.length ≠ (ms.map (fun m => arr m.1 m.2)).length ∨ is.length < 2
  · rw [if_pos hl] at h; cases h
  rw [if_neg hl] at h
  rcases andThen_thrown h with h | ⟨m, hm, h⟩
  · exact enterAllR_thrown _ _ _ _ (ofRef_thrown h)
  have hm' := outcome_of_ok (ofRef_ok hm)
  rw [enterAllR_eq] at hm'
  have hdim : List.Forall₂ (fun i a => i.length = NDArray.dim a) is (ms.map (fun m => arr m.1 m.2)) := by
    rcases enterAll_cases [] is (ms.map (fun m => arr m.1 m.2)) (by push Not at hl; exact hl.1) with ⟨m2, h1, h2, h3⟩ | ⟨⟨e, h1⟩, -⟩
    · exact h3
    · rw [h1] at hm'; cases hm'
  split at h
  · cases h
  rcases andThen_thrown h with h | ⟨_, -, h⟩
  · exact checkNonnegFlR_thrown fp ms 0 hg h
  rcases andThen_thrown h with h | ⟨_, -, h⟩
  · exact collectSizesR_thrown _ _ (ofRef_thrown h)
  rcases andThen_thrown h with h | ⟨lk, hlk, h⟩
  · exact lookupAll_thrown _ _ _ (lift_thrown h)
  have hlk' := lookup_named (lift_ok hlk)
  have hplace : ∀ ps ∈ lk, ∀ p ∈ ps, ∀ m, ms[p.1]? = some m → p.2 < m.1.length := by
    intro ps hps p hp m hm
    rw [hlk'] at hps
    obtain ⟨d, -, rfl⟩ := List.mem_map.mp hps
    obtain ⟨i, h1, h2⟩ := mem_placesNamed.mp hp
    have h3 := (List.forall₂_iff_get.mp hdim).2 p.1 (by
      have := List.getElem?_eq_some_iff.mp h1; exact this.1) (by
      have := List.getElem?_eq_some_iff.mp hm; simpa using this.1)
    obtain ⟨q1, q2⟩ := List.getElem?_eq_some_iff.mp h1
    obtain ⟨q3, q4⟩ := List.getElem?_eq_some_iff.mp hm
    simp only [List.get_eq_getElem, List.getElem_map] at h3
    rw [q2, q4] at h3
    have : p.2 < i.length := (List.getElem?_eq_some_iff.mp h2).1
    rw [h3] at this
    exact this
  rcases andThen_thrown h with h | ⟨_, -, h⟩
  swap
  · rcases andThen_thrown h with h | ⟨_, -, h⟩
    · exact NDArray_new_thrown _ (lift_thrown h)
    · cases h
  cases ms with
  | nil => cases h
  | cons a rest =>
    simp only [List.map_cons, checkTotalsFlR] at h
    rw [roundedSum_eq] at h
    rcases andThen_thrown h with h | ⟨pop, hpop, h⟩
    · exact toInt64_thrown (lift_thrown h)
    rcases andThen_thrown h with h | ⟨_, -, h⟩
    · exact checkSumsFlR_thrown fp rest 1 h
    rcases andThen_thrown h with h | ⟨_, -, h⟩
    · exact checkDimsFlR_thrown fp hg lk 0 hplace h
    · cases h

/-- **C130**: every exception of the constructor has one of these messages, and it is true. -/
theorem C130_refused {β : Type} {fp : FP} (is : List (List Int)) (ms : List (List Nat × (List Int → Fl)))
    (hg : ∀ m ∈ ms, GoodShape m.1) {e : Exn}
    (h : Micro.new (β := β) fp (numFl fp) is (ms.map (fun m => arr m.1 m.2)) = .thrown e) :
    ∃ r, newFlR (β := β) fp is (ms.map (fun m => arr m.1 m.2)) = .ok (.error r) ∧ r.exn = e ∧ TruthfulFl fp is ms r := by
  rw [← C130_agrees] at h
  cases hr : newFlR (β := β) fp is (ms.map (fun m => arr m.1 m.2)) with
  | ok x =>
    rw [hr] at h
    cases x with
    | ok m => cases h
    | error r =>
      injection h with h
      exact ⟨r, rfl, h, C130_truthful fp is ms hg hr⟩
  | thrown e' => exact absurd hr (newFlR_thrown is ms hg)
  | ub u => rw [hr] at h; cases h
  | diverges => rw [hr] at h; cases h

/-! ### Exact arithmetic -/

/-- **C130** in exact arithmetic, for rational marginals: the message about a negative value names the first marginal with one and
its smallest entry; the message about totals gives the totals rounded to the nearest whole number (halves upwards); the message about
partial sums gives sums that differ by more than 1e-8 in some category. -/
theorem C130_exact {β : Type} (is : List (List Int)) (ms : List (List Nat × (List Int → ℚ))) (hg : ∀ m ∈ ms, GoodShape m.1)
    (hb : ∀ m ∈ ms, |∑ v ∈ cells m.1, m.2 v| < 2 ^ 62) {r : RefusalFl}
    (h : newFlR (β := β) FP.exact is (ms.map (fun m => arr m.1 (fun v => .fin (m.2 v)))) = .ok (.error r)) :
    (∀ k x, r = .negative k x → ∃ m v, ms[k]? = some m ∧ InRange m.1 v ∧ x = .fin (m.2 v) ∧ m.2 v < 0 ∧
      (∀ w, InRange m.1 w → m.2 v ≤ m.2 w) ∧ ∀ k' < k, ∀ m', ms[k']? = some m' → ∀ w, InRange m'.1 w → 0 ≤ m'.2 w) ∧
    (∀ d i msi ms0, r = .partialSum d i msi ms0 → ∃ (p q : Nat × Nat) (m n : List Nat × (List Int → ℚ)), (placesNamed is d)[i]? = some p ∧
      (placesNamed is d)[0]? = some q ∧ ms[p.1]? = some m ∧ ms[q.1]? = some n ∧
      msi = (List.range (m.1.getD p.2 0)).map (fun x : Nat => Fl.fin (marginalSum m.1 [p.2] m.2 [(x : Int)])) ∧
      ms0 = (List.range (n.1.getD q.2 0)).map (fun x : Nat => Fl.fin (marginalSum n.1 [q.2] n.2 [(x : Int)])) ∧
      (m.1.getD p.2 0 = n.1.getD q.2 0 →
        ∃ x : Nat, x < m.1.getD p.2 0 ∧ 1 / 10 ^ 8 < |marginalSum m.1 [p.2] m.2 [(x : Int)] - marginalSum n.1 [q.2] n.2 [(x : Int)]|)) ∧
    (∀ i t pop, r = .counts (.marginalSum i t pop) → t ≠ pop ∧ ∃ m n, ms[i]? = some m ∧ ms[0]? = some n ∧
      (0 ≤ ∑ v ∈ cells m.1, m.2 v → t = ⌊∑ v ∈ cells m.1, m.2 v + 1 / 2⌋) ∧
      (0 ≤ ∑ v ∈ cells n.1, n.2 v → pop = ⌊∑ v ∈ cells n.1, n.2 v + 1 / 2⌋)) := by
  have e : ms.map (fun m => arr m.1 (fun v => Fl.fin (m.2 v))) =
      (ms.map (fun m => (m.1, fun v => Fl.fin (m.2 v)))).map (fun m => arr m.1 m.2) := by rw [List.map_map]; rfl
  rw [e] at h
  have ht := C130_truthful FP.exact is _ (by
    intro m hm
    obtain ⟨m', hm', rfl⟩ := List.mem_map.mp hm
    exact hg m' hm') h
  have get : ∀ {k : Nat} {m : List Nat × (List Int → Fl)}, (ms.map (fun m => (m.1, fun v => Fl.fin (m.2 v))))[k]? = some m →
      ∃ m', ms[k]? = some m' ∧ m = (m'.1, fun v => Fl.fin (m'.2 v)) := by
    intro k m hk
    rw [List.getElem?_map] at hk
    obtain ⟨m', h1, h2⟩ := Option.map_eq_some_iff.mp hk
    exact ⟨m', h1, h2.symm⟩
  refine ⟨?_, ?_, ?_⟩
  · rintro k x rfl
    obtain ⟨h0, m, h1, ⟨v, hv, hvx⟩, h2, h3⟩ := ht
    obtain ⟨m', hm', rfl⟩ := get h1
    subst hvx
    refine ⟨m', v, hm', hv, rfl, by simpa [FP.lt] using h0, fun w hw => by simpa [FP.lt] using h2 w hw, ?_⟩
    intro k' hk' m'' hm'' w hw
    have := h3 k' hk' (m''.1, fun v => Fl.fin (m''.2 v)) (by rw [List.getElem?_map, hm'']; rfl) w hw
    simpa [FP.lt] using this
  · rintro d i msi ms0 rfl
    obtain ⟨h0, h1, h2, -⟩ := ht
    obtain ⟨p, hp, hp'⟩ := Option.bind_eq_some_iff.mp h1
    obtain ⟨q, hq, hq'⟩ := Option.bind_eq_some_iff.mp h2
    obtain ⟨m, hm, hm'⟩ := Option.map_eq_some_iff.mp hp'
    obtain ⟨n, hn, hn'⟩ := Option.map_eq_some_iff.mp hq'
    obtain ⟨m', hmm, rfl⟩ := get hm
    obtain ⟨n', hnn, rfl⟩ := get hn
    rw [seqSums1_fin] at hm' hn'
    refine ⟨p, q, m', n', hp, hq, hmm, hnn, hm'.symm, hn'.symm, ?_⟩
    intro hlen
    by_contra hc
    push Not at hc
    apply h0
    rw [← allclose_iff, ← hm', ← hn']
    have := (allclose_exact ((List.range (m'.1.getD p.2 0)).map (fun x : Nat => marginalSum m'.1 [p.2] m'.2 [(x : Int)]))
      ((List.range (n'.1.getD q.2 0)).map (fun x : Nat => marginalSum n'.1 [q.2] n'.2 [(x : Int)])) (by simpa using hlen)).mpr (by
        intro k hk
        have hk : k < m'.1.getD p.2 0 := by simpa using hk
        rw [getD_range hk, getD_range (hlen ▸ hk)]
        exact hc k hk)
    rw [List.map_map, List.map_map] at this
    exact this
  · rintro i t pop rfl
    obtain ⟨h0, h1, h2, -⟩ := ht
    obtain ⟨m, hm, hm'⟩ := Option.map_eq_some_iff.mp h1
    obtain ⟨n, hn, hn'⟩ := Option.map_eq_some_iff.mp h2
    obtain ⟨m', hmm, rfl⟩ := get hm
    obtain ⟨n', hnn, rfl⟩ := get hn
    have key : ∀ (m : List Nat × (List Int → ℚ)) (t : Int), m ∈ ms → roundedOf FP.exact (m.1, fun v => Fl.fin (m.2 v)) = .ok t →
        0 ≤ ∑ v ∈ cells m.1, m.2 v → t = ⌊∑ v ∈ cells m.1, m.2 v + 1 / 2⌋ := by
      intro m t hm hr h0
      unfold roundedOf at hr
      rw [seqSum_fin] at hr
      have hlt := (abs_lt.mp (hb m hm)).2
      have := (toInt64_half h0 hlt).mp hr
      exact (Int.floor_eq_iff.mpr this).symm
    exact ⟨h0, m', n', hmm, hnn, key m' t (List.mem_of_getElem? hmm) hm', key n' pop (List.mem_of_getElem? hnn) hn'⟩

/-! ### The texts -/

theorem flText_pure (x : Fl) : '%' ∉ flText x := by
  cases x with
  | fin q =>
    show '%' ∉ fixedText q
    unfold fixedText
    have h6 : ∀ n, '%' ∉ sixDigits n := by
      intro n h
      unfold sixDigits at h
      obtain ⟨d, hd, hc⟩ := List.mem_map.mp h
      have hd10 : d < 10 := by
        simp only [List.mem_cons, List.not_mem_nil, or_false] at hd
        omega
      have key : ∀ d < 10, Nat.digitChar d ≠ '%' := by decide
      exact key d hd10 hc
    simp only [List.mem_append, List.mem_cons, not_or]
    refine ⟨⟨?_, natText_pure _⟩, by decide, h6 _⟩
    split <;> decide
  | _ => decide

/-- **C130**, the texts of the two messages with doubles in them. -/
theorem C130_texts (k d i : Nat) (x : Fl) (v w : List Fl) :
    (RefusalFl.negative k x).text = "negative value in marginal ".toList ++ natText k ++ ": ".toList ++ flText x ∧
    (RefusalFl.partialSum d i v w).text = "marginal partial sum mismatch in dimension ".toList ++ natText d ++ " index ".toList ++
      natText i ++ ": ".toList ++ vecText (v.map flText) ++ " vs ".toList ++ vecText (w.map flText) := by
  have hn := natText_pure
  have hv : ∀ s : List Fl, '%' ∉ vecText (s.map flText) := by
    intro s
    cases s with
    | nil => decide
    | cons n s =>
      simp only [List.map_cons, vecText, List.mem_append, List.mem_cons, List.mem_flatMap, List.not_mem_nil, List.mem_map, not_or]
      refine ⟨⟨⟨by decide, flText_pure n⟩, ?_⟩, by decide⟩
      rintro ⟨_, ⟨k, -, rfl⟩, h⟩
      rcases h with (h | h | h) | h
      · revert h; decide
      · revert h; decide
      · exact h
      · exact flText_pure k h
  constructor
  · have := C61_format (t := "negative value in marginal ".toList) (ps := [(natText k, ": ".toList), (flText x, [])]) (by decide)
      (by simp [hn k, flText_pure x]) []
    simp only [List.flatMap_cons, List.flatMap_nil, List.append_nil, List.map_cons, List.map_nil] at this
    simp only [← List.append_assoc] at this
    rw [← this]
    exact congrArg (fun t => format t [natText k, flText x]) (by decide +kernel)
  · have := C61_format (t := "marginal partial sum mismatch in dimension ".toList)
      (ps := [(natText d, " index ".toList), (natText i, ": ".toList), (vecText (v.map flText), " vs ".toList), (vecText (w.map flText), [])])
      (by decide) (by simp [hn d, hn i, hv v, hv w]) []
    simp only [List.flatMap_cons, List.flatMap_nil, List.append_nil, List.map_cons, List.map_nil] at this
    simp only [← List.append_assoc] at this
    rw [← this]
    exact congrArg (fun t => format t [natText d, natText i, vecText (v.map flText), vecText (w.map flText)]) (by decide +kernel)

/-- **C130**, how far the numbers in these messages can be told apart: doubles that differ by more than 1e-6 are printed
differently. -/
theorem C130_legible (x y : ℚ) (h : 1 / 10 ^ 6 < |x - y|) : flText (.fin x) ≠ flText (.fin y) := by
  intro e
  have hx := (C129_doubles x).1
  have hy := (C129_doubles y).1
  rw [e] at hx
  have : |x - y| ≤ 1 / (2 * 10 ^ 6) + 1 / (2 * 10 ^ 6) := by
    calc |x - y| = |(readFixed (flText (.fin y)) - y) - (readFixed (flText (.fin y)) - x)| := by congr 1; ring
      _ ≤ |readFixed (flText (.fin y)) - y| + |readFixed (flText (.fin y)) - x| := abs_sub _ _
      _ ≤ _ := add_le_add hy hx
  norm_num at this h
  linarith

/-- Disagreement: marginals whose sums differ by more than 1e-8 but less than 5e-7 are refused with a message that shows the same
numbers twice. -/
theorem C130_negation_same :
    let ms : List (List Nat × (List Int → Fl)) := [([2], fun _ => .fin 2),
      ([2, 2], fun v => if v = [0, 0] then .fin (1 + 1 / 10 ^ 7) else if v = [1, 0] then .fin (1 - 1 / 10 ^ 7) else .fin 1)]
    let r : RefusalFl := .partialSum 0 1 [.fin (2 + 1 / 10 ^ 7), .fin (2 - 1 / 10 ^ 7)] [.fin 2, .fin 2]
    newFlR (β := Fl) FP.exact [[0], [0, 1]] (ms.map (fun m => arr m.1 m.2)) = .ok (.error r) ∧
    r.text = "marginal partial sum mismatch in dimension 0 index 1: [2.000000, 2.000000] vs [2.000000, 2.000000]".toList := by
  intro ms r
  refine ⟨?_, by decide +kernel⟩
  have hg : ∀ m ∈ ms, GoodShape m.1 := by decide
  have e1 : enterAllR 0 [] [[0], [0, 1]] (ms.map (fun m => arr m.1 m.2)) = .ok (.ok [(0, 2), (1, 2)]) := rfl
  have e2 : checkNonnegFlR FP.exact 0 (ms.map (fun m => arr m.1 m.2)) = .ok (.ok ()) := by
    simp (disch := decide) only [ms, List.map_cons, List.map_nil, checkNonnegFlR, minArr_eq, lift_pass, pass]
    rw [if_neg (by decide +kernel), if_neg (by decide +kernel)]
  have e3 : collectSizesR [(0, 2), (1, 2)] 2 0 = .ok (.ok [2, 2]) := rfl
  have e4 : lookupAll (List.replicate 2 []) 0 [[0], [0, 1]] = .ok [[(0, 0), (1, 0)], [(1, 1)]] := rfl
  have p0 := partialSum_fl FP.exact hg (p := (0, 0)) (m := ([2], fun _ => .fin 2)) rfl (by decide)
  have p1 := partialSum_fl FP.exact hg (p := (1, 0)) (m := ([2, 2], fun v => if v = [0, 0] then .fin (1 + 1 / 10 ^ 7) else
    if v = [1, 0] then .fin (1 - 1 / 10 ^ 7) else .fin 1)) rfl (by decide)
  rw [show seqSums1 (numFl FP.exact) [2] (fun _ => Fl.fin 2) 0 = [.fin 2, .fin 2] by decide +kernel] at p0
  rw [show seqSums1 (numFl FP.exact) [2, 2] (fun v => if v = [0, 0] then Fl.fin (1 + 1 / 10 ^ 7) else
    if v = [1, 0] then .fin (1 - 1 / 10 ^ 7) else .fin 1) 0 = [.fin (2 + 1 / 10 ^ 7), .fin (2 - 1 / 10 ^ 7)] by decide +kernel] at p1
  have ed : checkDimsFlR FP.exact (ms.map (fun m => arr m.1 m.2)) 0 [[(0, 0), (1, 0)], [(1, 1)]] = .ok (.error r) := by
    simp only [checkDimsFlR, checkPartialsFlR, p0, p1, lift_pass, pass]
    rw [if_neg (by decide +kernel)]
    rfl
  have e5 : checkTotalsFlR FP.exact (ms.map (fun m => arr m.1 m.2)) [[(0, 0), (1, 0)], [(1, 1)]] = .ok (.error r) := by
    have s0 : roundedSum FP.exact (numFl FP.exact) (arr [2] (fun _ => Fl.fin 2)) = .ok 4 := by
      rw [roundedSum_eq]; decide +kernel
    have s1 : roundedSum FP.exact (numFl FP.exact) (arr [2, 2] (fun v => if v = [0, 0] then Fl.fin (1 + 1 / 10 ^ 7) else
        if v = [1, 0] then .fin (1 - 1 / 10 ^ 7) else .fin 1)) = .ok 4 := by
      rw [roundedSum_eq]; decide +kernel
    show andThen (lift (roundedSum FP.exact (numFl FP.exact) (arr [2] (fun _ => Fl.fin 2)))) _ = _
    rw [s0, lift_pass, pass]
    have es : checkSumsFlR FP.exact 4 1 [arr [2, 2] (fun v => if v = [0, 0] then Fl.fin (1 + 1 / 10 ^ 7) else
        if v = [1, 0] then .fin (1 - 1 / 10 ^ 7) else .fin 1)] = .ok (.ok ()) := by
      simp only [checkSumsFlR, s1, lift_pass, pass]
      rfl
    show andThen (checkSumsFlR FP.exact 4 1 [arr [2, 2] (fun v => if v = [0, 0] then Fl.fin (1 + 1 / 10 ^ 7) else
        if v = [1, 0] then .fin (1 - 1 / 10 ^ 7) else .fin 1)]) _ = _
    rw [es, pass]
    show andThen (checkDimsFlR FP.exact (ms.map (fun m => arr m.1 m.2)) 0 [[(0, 0), (1, 0)], [(1, 1)]]) _ = _
    rw [ed, stop]
  unfold newFlR
  rw [if_neg (by decide), e1]
  show andThen (.ok (.ok [(0, 2), (1, 2)])) _ = _
  rw [pass, if_neg (by decide), e2, pass]
  show andThen (ofRef (collectSizesR [(0, 2), (1, 2)] 2 0)) _ = _
  rw [e3]
  show andThen (.ok (.ok [2, 2])) _ = _
  rw [pass]
  show andThen (lift (lookupAll (List.replicate 2 []) 0 [[0], [0, 1]])) _ = _
  rw [e4, lift_pass, pass, e5, stop]

/-- Disagreement: a small negative entry is reported as "-0.000000". -/
theorem C130_negation_zero (k : Nat) (q : ℚ) (h0 : q < 0) (h1 : -1 / (2 * 10 ^ 6) < q) :
    (RefusalFl.negative k (.fin q)).text = "negative value in marginal ".toList ++ natText k ++ ": -0.000000".toList := by
  rw [(C130_texts k 0 0 (.fin q) [] []).1]
  have hr : FP.rne (|q| * 10 ^ 6) = 0 := by
    have h2 : |q| * 10 ^ 6 < 1 / 2 := by
      rw [abs_of_neg h0]
      have : -q < 1 / (2 * 10 ^ 6) := by linarith [show -(-1 / (2 * 10 ^ 6) : ℚ) = 1 / (2 * 10 ^ 6) by norm_num]
      calc -q * 10 ^ 6 < 1 / (2 * 10 ^ 6) * 10 ^ 6 := by nlinarith
        _ = 1 / 2 := by norm_num
    have h4 : (0 : ℚ) ≤ |q| * 10 ^ 6 := by positivity
    generalize |q| * 10 ^ 6 = y at h2 h4
    have h3 := abs_le.mp (FP.rne_abs_sub y)
    obtain ⟨h7, h8⟩ := h3
    have h5 : ((FP.rne y : Int) : ℚ) < 1 := by linarith
    have h6 : (-1 : ℚ) < ((FP.rne y : Int) : ℚ) := by linarith
    have h5' : FP.rne y < 1 := by exact_mod_cast h5
    have h6' : -1 < FP.rne y := by exact_mod_cast h6
    omega
  have : flText (.fin q) = "-0.000000".toList := by
    show fixedText q = _
    unfold fixedText
    rw [hr, if_pos h0]
    decide +kernel
  rw [this, List.append_assoc, List.append_assoc, List.append_assoc]
  congr 1

end HL

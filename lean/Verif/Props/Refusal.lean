import Verif.RefusalSpec
import Verif.Proof.MicroInt
import Verif.Props.Log

/-
C123: the message of a refused problem is true, and names the first offence.
-/

namespace HL
open Micro Ref Log

namespace Ref
variable {ε α β : Type}

theorem outcome_andThen (x : Ref α) (f : α → Ref β) : outcome (andThen x f) = outcome x >>= fun a => outcome (f a) := by
  cases x with
  | ok e => cases e <;> rfl
  | _ => rfl

theorem outcome_lift (x : Out α) : outcome (lift x) = x := by cases x <;> rfl

theorem outcome_refuse (r : Refusal) : outcome (refuse r : Ref α) = .thrown r.exn := rfl

theorem outcome_ok (a : α) : outcome (.ok (.ok a) : Ref α) = .ok a := rfl

theorem andThen_error {x : Out (Except ε α)} {f : α → Out (Except ε β)} {r : ε} (h : andThen x f = .ok (.error r)) :
    x = .ok (.error r) ∨ ∃ a, x = .ok (.ok a) ∧ f a = .ok (.error r) := by
  cases x with
  | ok e =>
    cases e with
    | ok a => exact Or.inr ⟨a, rfl, h⟩
    | error r' => left; injection h with h; injection h with h; rw [h]
  | _ => cases h

theorem andThen_ok {x : Out (Except ε α)} {f : α → Out (Except ε β)} {b : β} (h : andThen x f = .ok (.ok b)) :
    ∃ a, x = .ok (.ok a) ∧ f a = .ok (.ok b) := by
  cases x with
  | ok e =>
    cases e with
    | ok a => exact ⟨a, rfl, h⟩
    | error r' => cases h
  | _ => cases h

theorem andThen_thrown {x : Out (Except ε α)} {f : α → Out (Except ε β)} {e : Exn} (h : andThen x f = .thrown e) :
    x = .thrown e ∨ ∃ a, x = .ok (.ok a) ∧ f a = .thrown e := by
  cases x with
  | ok e' =>
    cases e' with
    | ok a => exact Or.inr ⟨a, rfl, h⟩
    | error r' => cases h
  | thrown e' => left; injection h with h; rw [h]
  | _ => cases h

theorem lift_error {x : Out α} {r : ε} (h : lift x = .ok (.error r)) : False := by
  cases x <;> cases h

theorem lift_ok {x : Out α} {a : α} (h : (lift x : Out (Except ε α)) = .ok (.ok a)) : x = .ok a := by
  cases x with
  | ok b => injection h with h; injection h with h; rw [h]
  | _ => cases h

theorem lift_thrown {x : Out α} {e : Exn} (h : (lift x : Out (Except ε α)) = .thrown e) : x = .thrown e := by
  cases x with
  | thrown b => injection h with h; rw [h]
  | _ => cases h

theorem outcome_of_ok {x : Ref α} {a : α} (h : x = .ok (.ok a)) : outcome x = .ok a := by rw [h]; rfl

end Ref

/-! ### The two models of the constructor agree -/

theorem enterDimR_eq (k : Nat) (m : List (Int × Nat)) (d : Int) (n : Nat) : outcome (enterDimR k m d n) = enterDim m d n := by
  unfold enterDimR enterDim
  cases m.lookup d with
  | none => rfl
  | some n' =>
    simp only
    by_cases h : n' ≠ n
    · rw [if_pos h, if_pos h]; rfl
    · rw [if_neg h, if_neg h]; rfl

theorem enterDimsR_eq (k : Nat) : ∀ (m : List (Int × Nat)) (ds : List Int) (ns : List Nat),
    outcome (enterDimsR k m ds ns) = enterDims m ds ns
  | m, [], _ => by simp [enterDimsR, enterDims, outcome_ok]
  | m, _ :: _, [] => by simp [enterDimsR, enterDims, outcome_ok]
  | m, d :: ds, n :: ns => by
    rw [enterDimsR, enterDims, outcome_andThen, enterDimR_eq]
    congr 1
    funext m'
    exact enterDimsR_eq k m' ds ns

theorem enterAllR_eq {α : Type} : ∀ (k : Nat) (m : List (Int × Nat)) (is : List (List Int)) (as : List (NDArray α)),
    outcome (enterAllR k m is as) = enterAll m is as
  | k, m, [], _ => by simp [enterAllR, enterAll, outcome_ok]
  | k, m, _ :: _, [] => by simp [enterAllR, enterAll, outcome_ok]
  | k, m, i :: is, a :: as => by
    rw [enterAllR, enterAll]
    by_cases h : i.length ≠ a.dim
    · rw [if_pos h, if_pos h]; rfl
    · rw [if_neg h, if_neg h, outcome_andThen, enterDimsR_eq]
      congr 1
      funext m'
      exact enterAllR_eq (k + 1) m' is as

theorem checkNonnegR_eq (fp : FP) : ∀ (k : Nat) (as : List (NDArray Int)),
    outcome (checkNonnegR fp k as) = checkNonneg (numInt fp) as
  | k, [] => rfl
  | k, a :: as => by
    rw [checkNonnegR, checkNonneg, outcome_andThen, outcome_lift]
    congr 1
    funext x
    have : ((numInt fp).lt x (numInt fp).zero = true) ↔ x < 0 := by simp [numInt]
    by_cases h : x < 0
    · rw [if_pos h, if_pos (this.mpr h)]; rfl
    · rw [if_neg h, if_neg (fun hc => h (this.mp hc))]; exact checkNonnegR_eq fp (k + 1) as

theorem collectSizesR_eq (m : List (Int × Nat)) : ∀ (n k : Nat), outcome (collectSizesR m n k) = collectSizes m n k
  | 0, k => rfl
  | n + 1, k => by
    rw [collectSizesR, collectSizes]
    cases m.lookup (k : Int) with
    | none => rfl
    | some s =>
      simp only
      rw [outcome_andThen, collectSizesR_eq m n (k + 1)]
      rfl

theorem checkSumsR_eq (fp : FP) (pop : Int) : ∀ (i : Nat) (as : List (NDArray Int)),
    outcome (checkSumsR fp pop i as) = checkSums fp (numInt fp) pop as
  | i, [] => rfl
  | i, a :: as => by
    rw [checkSumsR, checkSums, outcome_andThen, outcome_lift]
    congr 1
    funext t
    by_cases h : t ≠ pop
    · rw [if_pos h, if_pos h]; rfl
    · rw [if_neg h, if_neg h]; exact checkSumsR_eq fp pop (i + 1) as

theorem checkPartialsR_eq (fp : FP) (ms : List (NDArray Int)) (ms0 : List Int) (d : Nat) : ∀ (i : Nat) (ps : List (Nat × Nat)),
    outcome (checkPartialsR fp ms ms0 d i ps) = checkPartials (numInt fp) ms ms0 ps
  | i, [] => rfl
  | i, p :: ps => by
    rw [checkPartialsR, checkPartials, outcome_andThen, outcome_lift]
    congr 1
    funext msi
    have : ((numInt fp).allclose msi ms0 = true) ↔ msi = ms0 := by simp [numInt]
    by_cases h : msi = ms0
    · rw [if_pos h, if_pos (this.mpr h)]; exact checkPartialsR_eq fp ms ms0 d (i + 1) ps
    · rw [if_neg h, if_neg (fun hc => h (this.mp hc))]; rfl

theorem checkDimsR_eq (fp : FP) (ms : List (NDArray Int)) : ∀ (d : Nat) (lk : List (List (Nat × Nat))),
    outcome (checkDimsR fp ms d lk) = checkDims (numInt fp) ms lk
  | d, [] => rfl
  | d, [] :: rest => by unfold checkDimsR checkDims; exact checkDimsR_eq fp ms (d + 1) rest
  | d, [_] :: rest => by unfold checkDimsR checkDims; exact checkDimsR_eq fp ms (d + 1) rest
  | d, (p :: q :: ps) :: rest => by
    rw [checkDimsR, checkDims, outcome_andThen, outcome_lift]
    congr 1
    funext ms0
    rw [outcome_andThen, checkPartialsR_eq]
    congr 1
    funext _
    exact checkDimsR_eq fp ms (d + 1) rest

/-- **C123**, the messages belong to the constructor: forgetting them gives the outcome of the constructor, for any index
lists and marginals whatsoever. -/
theorem C123_agrees {β : Type} (fp : FP) (is : List (List Int)) (ms : List (NDArray Int)) :
    outcome (newR (β := β) fp is ms) = Micro.new fp (numInt fp) is ms := by
  unfold newR Micro.new
  by_cases h : is.length ≠ ms.length ∨ is.length < 2
  · rw [if_pos h, if_pos h]; rfl
  rw [if_neg h, if_neg h, outcome_andThen, enterAllR_eq]
  congr 1
  funext m
  by_cases h2 : m.length < 2
  · rw [if_pos h2, if_pos h2]; rfl
  rw [if_neg h2, if_neg h2, outcome_andThen, checkNonnegR_eq]
  congr 1
  funext _
  rw [outcome_andThen, collectSizesR_eq]
  congr 1
  funext s
  rw [outcome_andThen, outcome_lift]
  congr 1
  funext lk
  cases ms with
  | nil => rfl
  | cons a rest =>
    rw [outcome_andThen]
    simp only [checkTotalsR]
    rw [outcome_andThen, outcome_lift, bind_assoc]
    congr 1
    funext pop
    rw [outcome_andThen, checkSumsR_eq, bind_assoc]
    congr 1
    funext _
    rw [outcome_andThen, checkDimsR_eq, bind_assoc]
    congr 1
    funext _
    rw [outcome_ok, Out.ok_bind, outcome_andThen, outcome_lift]
    rfl

/-! ### The messages are true -/

section
variable {is : List (List Int)} {ms : List (List Nat × (List Int → Int))}

/-- The sizes entered so far are those at the places before position `j` of list `k`. -/
def FromBefore (is : List (List Int)) (ms : List (List Nat × (List Int → Int))) (k j : Nat) (m : List (Int × Nat)) : Prop :=
  ∀ d n, m.lookup d = some n ↔ ∃ k' j', NamedAt is ms k' j' d n ∧ Before k' j' k j

theorem FromBefore.next {k j : Nat} {m : List (Int × Nat)} (h : FromBefore is ms k j m)
    (hend : ∀ j' d n, NamedAt is ms k j' d n → j' < j) : FromBefore is ms (k + 1) 0 m := by
  intro d n
  rw [h]
  constructor
  · rintro ⟨k', j', h4, h5⟩
    exact ⟨k', j', h4, Or.inl (by rcases h5 with h5 | h5 <;> omega)⟩
  · rintro ⟨k', j', h4, h5⟩
    refine ⟨k', j', h4, ?_⟩
    by_cases e : k' = k
    · subst e; exact Or.inr ⟨rfl, hend j' d n h4⟩
    · exact Or.inl (by rcases h5 with h5 | h5 <;> omega)

theorem FromBefore.agree {k j : Nat} {m : List (Int × Nat)} (h : FromBefore is ms k j m) (k1 j1 n1 k2 j2 n2 : Nat) (e : Int)
    (b1 : Before k1 j1 k j) (b2 : Before k2 j2 k j) (a1 : NamedAt is ms k1 j1 e n1) (a2 : NamedAt is ms k2 j2 e n2) : n1 = n2 := by
  have h1 := (h e n1).mpr ⟨k1, j1, a1, b1⟩
  have h2 := (h e n2).mpr ⟨k2, j2, a2, b2⟩
  rw [h1] at h2
  injection h2

theorem enterDimsR_spec {k : Nat} {i : List Int} {a : List Nat × (List Int → Int)} (hi : is[k]? = some i) (ha : ms[k]? = some a) :
    ∀ (ds : List Int) (ns : List Nat) (j : Nat) (m : List (Int × Nat)), (∀ x, i[j + x]? = ds[x]?) → (∀ x, a.1[j + x]? = ns[x]?) →
    FromBefore is ms k j m →
    (∀ r, enterDimsR k m ds ns = .ok (.error r) → Truthful is ms r) ∧
    (∀ m', enterDimsR k m ds ns = .ok (.ok m') → FromBefore is ms (k + 1) 0 m')
  | [], ns, j, m, h1, h2, h3 => by
    refine ⟨fun r h => by simp [enterDimsR] at h, fun m' h => ?_⟩
    have : m = m' := by simpa [enterDimsR] using h
    subst this
    apply h3.next
    rintro j' d n ⟨i', m', g1, -, g3, -⟩
    rw [hi] at g1; injection g1 with g1; subst g1
    by_contra hc
    have := h1 (j' - j)
    rw [show j + (j' - j) = j' by omega, g3] at this
    simp at this
  | d :: ds, [], j, m, h1, h2, h3 => by
    refine ⟨fun r h => by simp [enterDimsR] at h, fun m' h => ?_⟩
    have : m = m' := by simpa [enterDimsR] using h
    subst this
    apply h3.next
    rintro j' d n ⟨i', m', -, g1, -, g3⟩
    rw [ha] at g1; injection g1 with g1; subst g1
    by_contra hc
    have := h2 (j' - j)
    rw [show j + (j' - j) = j' by omega, g3] at this
    simp at this
  | d :: ds, n :: ns, j, m, h1, h2, h3 => by
    have hd : NamedAt is ms k j d n := ⟨i, a, hi, ha, by simpa using h1 0, by simpa using h2 0⟩
    have hd' : ∀ d' n', NamedAt is ms k j d' n' → d' = d ∧ n' = n := by
      rintro d' n' ⟨i', m', g1, g2, g3, g4⟩
      rw [hi] at g1; injection g1 with g1; subst g1
      rw [ha] at g2; injection g2 with g2; subst g2
      have e1 := h1 0
      have e2 := h2 0
      simp only [Nat.add_zero, List.getElem?_cons_zero] at e1 e2
      rw [e1] at g3; rw [e2] at g4
      injection g3 with g3; injection g4 with g4
      exact ⟨g3.symm, g4.symm⟩
    have s1 : ∀ x, i[j + 1 + x]? = ds[x]? := fun x => by
      have := h1 (x + 1); rw [show j + (x + 1) = j + 1 + x by omega] at this; simpa using this
    have s2 : ∀ x, a.1[j + 1 + x]? = ns[x]? := fun x => by
      have := h2 (x + 1); rw [show j + (x + 1) = j + 1 + x by omega] at this; simpa using this
    have hstep : ∀ m', enterDimR k m d n = .ok (.ok m') → FromBefore is ms k (j + 1) m' := by
      intro m' hm'
      have hm2 : m'.lookup d = some n ∧ (∀ d', d' ≠ d → m'.lookup d' = m.lookup d') ∧
          (∀ n', m.lookup d = some n' → n' = n) := by
        unfold enterDimR at hm'
        cases hl : m.lookup d with
        | none =>
          rw [hl] at hm'
          injection hm' with hm'; injection hm' with hm'
          subst hm'
          refine ⟨by rw [List.lookup_append, hl]; simp, ?_, by simp⟩
          intro d' he
          rw [List.lookup_append]
          have : (d' == d) = false := by simpa using he
          simp [List.lookup_cons, this]
        | some n' =>
          rw [hl] at hm'
          simp only at hm'
          by_cases hn : n' ≠ n
          · rw [if_pos hn] at hm'; injection hm' with hm'; cases hm'
          · rw [if_neg hn] at hm'
            injection hm' with hm'; injection hm' with hm'
            subst hm'
            have := not_not.mp hn
            subst this
            exact ⟨hl, fun _ _ => rfl, by simp⟩
      obtain ⟨q1, q2, q3⟩ := hm2
      intro d' n'
      by_cases he : d' = d
      · subst he
        constructor
        · intro hx
          rw [q1] at hx; injection hx with hx; subst hx
          exact ⟨k, j, hd, Or.inr ⟨rfl, by omega⟩⟩
        · rintro ⟨k', j', g1, g2⟩
          by_cases ej : k' = k ∧ j' = j
          · obtain ⟨rfl, rfl⟩ := ej
            rw [(hd' _ _ g1).2]; exact q1
          · have := (h3 d' n').mpr ⟨k', j', g1, by unfold Before at g2 ⊢; omega⟩
            rw [q3 n' this]; exact q1
      · rw [q2 d' he, h3]
        constructor
        · rintro ⟨k', j', g1, g2⟩
          exact ⟨k', j', g1, by unfold Before at g2 ⊢; omega⟩
        · rintro ⟨k', j', g1, g2⟩
          refine ⟨k', j', g1, ?_⟩
          by_cases ej : k' = k ∧ j' = j
          · obtain ⟨rfl, rfl⟩ := ej
            exact absurd (hd' _ _ g1).1 he
          · unfold Before at g2 ⊢; omega
    refine ⟨fun r h => ?_, fun m' h => ?_⟩
    · rw [enterDimsR] at h
      rcases andThen_error h with h | ⟨m', h, h'⟩
      · unfold enterDimR at h
        cases hl : m.lookup d with
        | none => rw [hl] at h; injection h with h; cases h
        | some n' =>
          rw [hl] at h
          simp only at h
          by_cases hn : n' ≠ n
          · rw [if_pos hn] at h
            injection h with h; injection h with h
            subst h
            obtain ⟨k', j', h4, h5⟩ := (h3 d n').mp hl
            exact ⟨hn, j, k', j', hd, h4, h5, h3.agree⟩
          · rw [if_neg hn] at h; injection h with h; cases h
      · exact (enterDimsR_spec hi ha ds ns (j + 1) m' s1 s2 (hstep m' h)).1 r h'
    · rw [enterDimsR] at h
      obtain ⟨m1, h, h'⟩ := andThen_ok h
      exact (enterDimsR_spec hi ha ds ns (j + 1) m1 s1 s2 (hstep m1 h)).2 m' h'

theorem enterAllR_error : ∀ (is' : List (List Int)) (ms' : List (List Nat × (List Int → Int))) (k : Nat) (m : List (Int × Nat)),
    (∀ x, is[k + x]? = is'[x]?) → (∀ x, ms[k + x]? = ms'[x]?) → FromBefore is ms k 0 m →
    (∀ k' < k, ∀ (i' : List Int) (m' : List Nat × (List Int → Int)), is[k']? = some i' → ms[k']? = some m' →
      i'.length = m'.1.length) →
    ∀ r, enterAllR k m is' (ms'.map (fun m => arr m.1 m.2)) = .ok (.error r) → Truthful is ms r
  | [], ms', k, m, h1, h2, h3, h4, r, h => by simp [enterAllR] at h
  | i :: is', [], k, m, h1, h2, h3, h4, r, h => by simp [enterAllR] at h
  | i :: is', a :: ms', k, m, h1, h2, h3, h4, r, h => by
    have hi : is[k]? = some i := by simpa using h1 0
    have ha : ms[k]? = some a := by simpa using h2 0
    rw [List.map_cons, enterAllR] at h
    by_cases hl : i.length ≠ (arr a.1 a.2).dim
    · rw [if_pos hl] at h
      injection h with h; injection h with h
      subst h
      exact ⟨k, i, a, hi, ha, rfl, rfl, hl, h4⟩
    · rw [if_neg hl] at h
      have sp := enterDimsR_spec hi ha i a.1 0 m (by simp) (by simp) h3
      rcases andThen_error h with h | ⟨m', h, h'⟩
      · exact sp.1 r h
      · refine enterAllR_error is' ms' (k + 1) m' ?_ ?_ (sp.2 m' h) ?_ r h'
        · intro x
          have := h1 (x + 1); rw [show k + (x + 1) = k + 1 + x by omega] at this; simpa using this
        · intro x
          have := h2 (x + 1); rw [show k + (x + 1) = k + 1 + x by omega] at this; simpa using this
        · intro k' hk' i' m' hi' hm'
          by_cases e : k' = k
          · subst e
            rw [hi] at hi'; rw [ha] at hm'
            injection hi' with hi'; injection hm' with hm'
            subst hi'; subst hm'
            exact not_not.mp hl
          · exact h4 k' (by omega) i' m' hi' hm'

theorem foldl_min_attained (l : List Int) (m : Int) :
    (l.foldl (fun m x => if x < m then x else m) m = m ∨ l.foldl (fun m x => if x < m then x else m) m ∈ l) ∧
    l.foldl (fun m x => if x < m then x else m) m ≤ m ∧ ∀ x ∈ l, l.foldl (fun m x => if x < m then x else m) m ≤ x := by
  induction l generalizing m with
  | nil => simp
  | cons a l ih =>
    rw [List.foldl_cons]
    obtain ⟨h1, h2, h3⟩ := ih (if a < m then a else m)
    refine ⟨?_, ?_, ?_⟩
    · rcases h1 with h1 | h1
      · by_cases h : a < m
        · rw [if_pos h] at h1 ⊢; right; rw [h1]; simp
        · rw [if_neg h] at h1 ⊢; left; exact h1
      · right; exact List.mem_cons_of_mem _ h1
    · split at h2 <;> rename_i h
      · simp only [h, if_true]; omega
      · simp only [h, if_false]; exact h2
    · intro x hx
      rcases List.mem_cons.mp hx with rfl | hx
      · split at h2 <;> rename_i h
        · simp only [h, if_true]; exact h2
        · simp only [h, if_false]; omega
      · exact h3 x hx

theorem minArr_int (fp : FP) {s : List Nat} (hg : GoodShape s) (g : List Int → Int) :
    minArr (numInt fp) (arr s g) = .ok (((allIdx s).map g).foldl (fun m x => if x < m then x else m) (2 ^ 63 - 1)) := by
  rw [minArr_eq _ hg, foldl_map_min]
  simp [numInt]

theorem checkNonnegR_error (fp : FP) (hg : ∀ m ∈ ms, GoodShape m.1) : ∀ (ms' : List (List Nat × (List Int → Int))) (k : Nat),
    (∀ x, ms[k + x]? = ms'[x]?) →
    (∀ k' < k, ∀ m', ms[k']? = some m' → ∀ v, InRange m'.1 v → 0 ≤ m'.2 v) →
    ∀ r, checkNonnegR fp k (ms'.map (fun m => arr m.1 m.2)) = .ok (.error r) → Truthful is ms r
  | [], k, h1, h2, r, h => by simp [checkNonnegR] at h
  | a :: ms', k, h1, h2, r, h => by
    have ha : ms[k]? = some a := by simpa using h1 0
    have hga := hg a (List.mem_of_getElem? ha)
    rw [List.map_cons, checkNonnegR] at h
    rcases andThen_error h with h | ⟨x, h, h'⟩
    · exact absurd h lift_error
    · have hx := lift_ok h
      rw [minArr_int fp hga] at hx
      injection hx with hx
      obtain ⟨g1, g2, g3⟩ := foldl_min_attained ((allIdx a.1).map a.2) (2 ^ 63 - 1)
      rw [hx] at g1 g2 g3
      have hle : ∀ v, InRange a.1 v → x ≤ a.2 v := fun v hv => g3 _ (List.mem_map.mpr ⟨v, mem_allIdx.mpr hv, rfl⟩)
      by_cases hn : x < 0
      · rw [if_pos hn] at h'
        injection h' with h'; injection h' with h'
        subst h'
        refine ⟨hn, a, ha, ?_, hle, h2⟩
        rcases g1 with g1 | g1
        · rw [g1] at hn; norm_num at hn
        · obtain ⟨v, hv, e⟩ := List.mem_map.mp g1
          exact ⟨v, mem_allIdx.mp hv, e⟩
      · rw [if_neg hn] at h'
        refine checkNonnegR_error fp hg ms' (k + 1) ?_ ?_ r h'
        · intro y
          have := h1 (y + 1); rw [show k + (y + 1) = k + 1 + y by omega] at this; simpa using this
        · intro k' hk' m' hm' v hv
          by_cases e : k' = k
          · subst e
            rw [ha] at hm'; injection hm' with hm'; subst hm'
            have := hle v hv; omega
          · exact h2 k' (by omega) m' hm' v hv

theorem collectSizesR_error {m : List (Int × Nat)} : ∀ (n k : Nat) (r : Refusal), collectSizesR m n k = .ok (.error r) →
    ∃ j < n, r = .undefinedDim (k + j) ∧ m.lookup ((k + j : Nat) : Int) = none ∧
      ∀ j' < j, ∃ s, m.lookup ((k + j' : Nat) : Int) = some s
  | 0, k, r, h => by simp [collectSizesR] at h
  | n + 1, k, r, h => by
    rw [collectSizesR] at h
    cases hl : m.lookup (k : Int) with
    | none =>
      rw [hl] at h
      injection h with h; injection h with h
      exact ⟨0, by omega, by simp [← h], by simpa using hl, by omega⟩
    | some s =>
      rw [hl] at h
      simp only at h
      rcases andThen_error h with h | ⟨x, h, h'⟩
      · obtain ⟨j, h1, h2, h3, h4⟩ := collectSizesR_error n (k + 1) r h
        refine ⟨j + 1, by omega, by rw [h2]; congr 1; omega, by rw [show k + (j + 1) = k + 1 + j by omega]; exact h3, ?_⟩
        intro j' hj'
        cases j' with
        | zero => exact ⟨s, by simpa using hl⟩
        | succ j' =>
          rw [show k + (j' + 1) = k + 1 + j' by omega]
          exact h4 j' (by omega)
      · injection h' with h'; cases h'

theorem mem_entries_named {α : Type} {is : List (List Int)} {as : List (NDArray α)}
    (h : List.Forall₂ (fun i a => i.length = NDArray.dim a) is as) {i : List Int} (hi : i ∈ is) {d : Int} (hd : d ∈ i) :
    d ∈ (entries is (as.map NDArray.sizes)).map Prod.fst := by
  induction h with
  | nil => cases hi
  | @cons i' a is as hl h ih =>
    simp only [List.map_cons, entries, List.map_append, List.mem_append]
    rcases List.mem_cons.mp hi with rfl | hi
    · left
      rw [List.map_fst_zip (by unfold NDArray.dim at hl; omega)]
      exact hd
    · exact Or.inr (ih hi)

theorem of_mem_entries : ∀ {is : List (List Int)} {ts : List (List Nat)} {d : Int},
    d ∈ (entries is ts).map Prod.fst → ∃ i ∈ is, d ∈ i
  | [], ts, d, h => by simp [entries] at h
  | i :: is, [], d, h => by simp [entries] at h
  | i :: is, t :: ts, d, h => by
    simp only [entries, List.map_append, List.mem_append] at h
    rcases h with h | h
    · obtain ⟨p, hp, rfl⟩ := List.mem_map.mp h
      exact ⟨i, by simp, (List.of_mem_zip hp).1⟩
    · obtain ⟨i', h1, h2⟩ := of_mem_entries h
      exact ⟨i', by simp [h1], h2⟩

theorem roundedSum_total {fp : FP} (hfp : fp.Good) {m : List Nat × (List Int → Int)}
    (hn : ∀ v, InRange m.1 v → 0 ≤ m.2 v) (hs : |totalOf m| < 2 ^ 52) : roundedSum fp (numInt fp) (arr m.1 m.2) = .ok (totalOf m) := by
  rw [roundedSum_eq, seqSum_int]
  have h0 : 0 ≤ totalOf m := Finset.sum_nonneg (fun v hv => hn v (mem_cells.mp hv))
  rw [abs_of_nonneg h0] at hs
  exact rounded_int hfp h0 hs

theorem checkSumsR_error {fp : FP} (hfp : fp.Good) (hn : ∀ m ∈ ms, ∀ v, InRange m.1 v → 0 ≤ m.2 v)
    (hs : ∀ m ∈ ms, |totalOf m| < 2 ^ 52) {pop : Int} : ∀ (ms' : List (List Nat × (List Int → Int))) (k : Nat), 1 ≤ k →
    (∀ x, ms[k + x]? = ms'[x]?) → (∀ i' < k, ms[i']?.map totalOf = some pop) →
    ∀ r, checkSumsR fp pop k (ms'.map (fun m => arr m.1 m.2)) = .ok (.error r) → Truthful is ms r
  | [], k, hk, h1, h2, r, h => by simp [checkSumsR] at h
  | a :: ms', k, hk, h1, h2, r, h => by
    have ha : ms[k]? = some a := by simpa using h1 0
    have hm := List.mem_of_getElem? ha
    rw [List.map_cons, checkSumsR, roundedSum_total hfp (hn a hm) (hs a hm)] at h
    rcases andThen_error h with h | ⟨x, h, h'⟩
    · exact absurd h lift_error
    · have hx := lift_ok h
      injection hx with hx
      subst hx
      by_cases hp : totalOf a ≠ pop
      · rw [if_pos hp] at h'
        injection h' with h'; injection h' with h'
        subst h'
        exact ⟨hp, by rw [ha]; rfl, h2 0 (by omega), h2⟩
      · rw [if_neg hp] at h'
        refine checkSumsR_error hfp hn hs ms' (k + 1) (by omega) ?_ ?_ r h'
        · intro y
          have := h1 (y + 1); rw [show k + (y + 1) = k + 1 + y by omega] at this; simpa using this
        · intro i' hi'
          by_cases e : i' = k
          · subst e; rw [ha]; simpa using hp
          · exact h2 i' (by omega)

theorem lookupDims_named {D : Nat} (k : Nat) : ∀ (ds : List Int) (i : Nat) (L : Nat → List (Nat × Nat)) (lk : List (List (Nat × Nat))),
    lookupDims ((List.range D).map L) k i ds = .ok lk →
    lk = (List.range D).map (fun d => L d ++ ((ds.zipIdx i).filter (fun x => x.1 = ((d : Nat) : Int))).map (fun x => (k, x.2)))
  | [], i, L, lk, h => by
    simp only [lookupDims, Out.ok.injEq] at h
    simp [← h]
  | e :: ds, i, L, lk, h => by
    simp only [lookupDims] at h
    by_cases he : 0 ≤ e ∧ e.toNat < ((List.range D).map L).length
    · rw [if_pos he] at h
      have hset : ((List.range D).map L).set e.toNat (((List.range D).map L).getD e.toNat [] ++ [(k, i)]) =
          (List.range D).map (fun d => L d ++ if e = ((d : Nat) : Int) then [(k, i)] else []) := by
        apply List.ext_getElem (by simp)
        intro j h1 h2
        simp only [List.length_map, List.length_range] at h2 he
        simp only [List.getElem_set, List.getElem_map, List.getElem_range]
        by_cases hj : e.toNat = j
        · have : e = (j : Int) := by omega
          have hj' : j < D := by omega
          subst this
          simp [List.getD_eq_getElem?_getD, hj']
        · have : e ≠ (j : Int) := by omega
          simp [hj, this]
      rw [hset] at h
      rw [lookupDims_named k ds (i + 1) _ lk h]
      apply List.map_congr_left
      intro d _
      rw [List.zipIdx_cons, List.filter_cons]
      by_cases hd : e = (d : Int)
      · simp [hd]
      · simp [hd]
    · rw [if_neg he] at h; cases h

theorem lookupAll_named {D : Nat} : ∀ (is : List (List Int)) (k : Nat) (L : Nat → List (Nat × Nat)) (lk : List (List (Nat × Nat))),
    lookupAll ((List.range D).map L) k is = .ok lk →
    lk = (List.range D).map (fun d => L d ++ (is.zipIdx k).flatMap (fun i =>
      (i.1.zipIdx.filter (fun x => x.1 = ((d : Nat) : Int))).map (fun x => (i.2, x.2))))
  | [], k, L, lk, h => by
    simp only [lookupAll, Out.ok.injEq] at h
    simp [← h]
  | i :: is, k, L, lk, h => by
    simp only [lookupAll] at h
    obtain ⟨l1, h1, h2⟩ := Out.bind_eq_ok.mp h
    have := lookupDims_named k i 0 L l1 h1
    subst this
    rw [lookupAll_named is (k + 1) _ lk h2]
    apply List.map_congr_left
    intro d _
    rw [List.zipIdx_cons, List.flatMap_cons, List.append_assoc]

theorem lookup_named {D : Nat} {lk : List (List (Nat × Nat))} (h : lookupAll (List.replicate D []) 0 is = .ok lk) :
    lk = (List.range D).map (fun d => placesNamed is ((d : Nat) : Int)) := by
  have e : (List.replicate D ([] : List (Nat × Nat))) = (List.range D).map (fun _ => []) := by
    simp
  rw [e] at h
  rw [lookupAll_named is 0 _ lk h]
  simp [placesNamed]

theorem partialSum_along (fp : FP) (hg : ∀ m ∈ ms, GoodShape m.1) {p : Nat × Nat} {x : List Int}
    (h : partialSum (numInt fp) (ms.map (fun m => arr m.1 m.2)) p = .ok x) : sumsAtPlace ms p = some x := by
  unfold partialSum at h
  rw [List.getElem?_map] at h
  unfold sumsAtPlace
  cases hm : ms[p.1]? with
  | none => rw [hm] at h; cases h
  | some m =>
    rw [hm] at h
    simp only [Option.map_some] at h ⊢
    by_cases hp : p.2 < m.1.length
    · rw [reduce1_eq (numInt fp) (hg m (List.mem_of_getElem? hm)) m.2 hp] at h
      injection h with h
      rw [← h]
      unfold sumsAlong
      congr 1
      apply List.map_congr_left
      intro j _
      have := foldl_add_sum m.2 ((allIdx m.1).filter (fun v => v.getD p.2 0 = (j : Int))) 0
      simp only [numInt] at *
      rw [this, zero_add, sum_filter_allIdx]
    · unfold reduce1 at h
      rw [if_pos (by exact hp)] at h
      cases h

theorem checkPartialsR_error (fp : FP) (hg : ∀ m ∈ ms, GoodShape m.1) {ms0 : List Int} {d : Nat} :
    ∀ (ps : List (Nat × Nat)) (i : Nat), 1 ≤ i → (∀ x, (placesNamed is d)[i + x]? = ps[x]?) →
    (∀ i' < i, (placesNamed is d)[i']?.bind (sumsAtPlace ms) = some ms0) →
    (∀ d' < d, ∀ p ∈ placesNamed is d', ∀ q ∈ placesNamed is d', sumsAtPlace ms p = sumsAtPlace ms q) →
    ∀ r, checkPartialsR fp (ms.map (fun m => arr m.1 m.2)) ms0 d i ps = .ok (.error r) → Truthful is ms r
  | [], i, hi, h1, h2, h3, r, h => by simp [checkPartialsR] at h
  | p :: ps, i, hi, h1, h2, h3, r, h => by
    have hp : (placesNamed is d)[i]? = some p := by simpa using h1 0
    rw [checkPartialsR] at h
    rcases andThen_error h with h | ⟨x, h, h'⟩
    · exact absurd h lift_error
    · have hx := partialSum_along fp hg (lift_ok h)
      by_cases e : x = ms0
      · rw [if_pos e] at h'
        refine checkPartialsR_error fp hg ps (i + 1) (by omega) ?_ ?_ h3 r h'
        · intro y
          have := h1 (y + 1); rw [show i + (y + 1) = i + 1 + y by omega] at this; simpa using this
        · intro i' hi'
          by_cases e' : i' = i
          · subst e'; rw [hp]; simpa [e] using hx
          · exact h2 i' (by omega)
      · rw [if_neg e] at h'
        injection h' with h'; injection h' with h'
        subst h'
        exact ⟨e, by rw [hp]; exact hx, h2 0 (by omega), h2, h3⟩

theorem checkPartialsR_ok (fp : FP) (hg : ∀ m ∈ ms, GoodShape m.1) {ms0 : List Int} {d : Nat} :
    ∀ (ps : List (Nat × Nat)) (i : Nat),
    checkPartialsR fp (ms.map (fun m => arr m.1 m.2)) ms0 d i ps = .ok (.ok ()) → ∀ p ∈ ps, sumsAtPlace ms p = some ms0
  | [], i, h, p, hp => by simp at hp
  | q :: ps, i, h, p, hp => by
    rw [checkPartialsR] at h
    obtain ⟨x, h, h'⟩ := andThen_ok h
    have hx := partialSum_along fp hg (lift_ok h)
    by_cases e : x = ms0
    · rw [if_pos e] at h'
      rcases List.mem_cons.mp hp with rfl | hp
      · rw [← e]; exact hx
      · exact checkPartialsR_ok fp hg ps (i + 1) h' p hp
    · rw [if_neg e] at h'; injection h' with h'; cases h'

theorem checkDimsR_error (fp : FP) (hg : ∀ m ∈ ms, GoodShape m.1) : ∀ (n d : Nat) (r : Refusal),
    (∀ d' < d, ∀ p ∈ placesNamed is ((d' : Nat) : Int), ∀ q ∈ placesNamed is ((d' : Nat) : Int), sumsAtPlace ms p = sumsAtPlace ms q) →
    checkDimsR fp (ms.map (fun m => arr m.1 m.2)) d
      ((List.range' d n).map (fun d => placesNamed is ((d : Nat) : Int))) = .ok (.error r) → Truthful is ms r
  | 0, d, r, hb, h => by simp [checkDimsR] at h
  | n + 1, d, r, hb, h => by
    have hnext : (∀ p ∈ placesNamed is ((d : Nat) : Int), ∀ q ∈ placesNamed is ((d : Nat) : Int),
        sumsAtPlace ms p = sumsAtPlace ms q) → ∀ d' < d + 1, ∀ p ∈ placesNamed is ((d' : Nat) : Int),
        ∀ q ∈ placesNamed is ((d' : Nat) : Int), sumsAtPlace ms p = sumsAtPlace ms q := by
      intro hd d' hd'
      by_cases e : d' = d
      · subst e; exact hd
      · exact hb d' (by omega)
    rw [List.range'_succ, List.map_cons] at h
    match hpl : placesNamed is ((d : Nat) : Int) with
    | [] =>
      rw [hpl, checkDimsR] at h
      exact checkDimsR_error fp hg n (d + 1) r (hnext (by rw [hpl]; simp)) h
    | [_] =>
      rw [hpl, checkDimsR] at h
      exact checkDimsR_error fp hg n (d + 1) r (hnext (by rw [hpl]; simp)) h
    | p :: q :: ps =>
      rw [hpl, checkDimsR] at h
      rcases andThen_error h with h | ⟨x, h, h'⟩
      · exact absurd h lift_error
      · have hx := partialSum_along fp hg (lift_ok h)
        rcases andThen_error h' with h' | ⟨_, hok, h'⟩
        · refine checkPartialsR_error fp hg (q :: ps) 1 (by omega) ?_ ?_ hb r h'
          · intro y; rw [hpl, Nat.add_comm]; rfl
          · intro i' hi'
            have : i' = 0 := by omega
            subst this
            rw [hpl]; exact hx
        · have hall : ∀ y ∈ p :: q :: ps, sumsAtPlace ms y = some x := by
            intro y hy
            rcases List.mem_cons.mp hy with rfl | hy
            · exact hx
            · exact checkPartialsR_ok fp hg (q :: ps) 1 hok y hy
          refine checkDimsR_error fp hg n (d + 1) r (hnext ?_) h'
          rw [hpl]
          intro y hy z hz
          rw [hall y hy, hall z hz]

end

/-- **C123**: whenever the constructor refuses index lists and integer marginals with a message, the message is true of
them and, where it names a place, names the first one at which the test in question fails.  Marginals have no empty
dimensions and totals below 2^52; the index lists are arbitrary. -/
theorem C123_truthful {β : Type} {fp : FP} (hfp : fp.Good) (is : List (List Int)) (ms : List (List Nat × (List Int → Int)))
    (hg : ∀ m ∈ ms, GoodShape m.1) (hs : ∀ m ∈ ms, |totalOf m| < 2 ^ 52) {r : Refusal}
    (h : newR (β := β) fp is (ms.map (fun m => arr m.1 m.2)) = .ok (.error r)) : Truthful is ms r := by
  unfold newR at h
  by_cases hl : is.length ≠ (ms.map (fun m => arr m.1 m.2)).length ∨ is.length < 2
  · rw [if_pos hl] at h
    injection h with h; injection h with h
    subst h
    rw [List.length_map] at hl ⊢
    exact ⟨rfl, rfl, hl⟩
  rw [if_neg hl] at h
  rcases andThen_error h with h | ⟨m, hm, h⟩
  · exact enterAllR_error is ms 0 [] (by simp) (by simp) (by
      intro d n
      constructor
      · intro hd; simp at hd
      · rintro ⟨k', j', -, hb⟩; unfold Before at hb; omega) (by omega) r h
  have hm' := outcome_of_ok hm
  rw [enterAllR_eq] at hm'
  rcases enterAll_cases [] is (ms.map (fun m => arr m.1 m.2)) (by push Not at hl; exact hl.1) with ⟨m2, h1, h2, h3⟩ | ⟨⟨e, h1⟩, -⟩
  swap
  · rw [h1] at hm'; cases hm'
  rw [h1] at hm'
  injection hm' with hm'
  subst hm'
  have hkey : ∀ d, (∃ i ∈ is, d ∈ i) ↔ d ∈ m2.map Prod.fst := by
    intro d
    constructor
    · rintro ⟨i, hi, hd⟩
      obtain ⟨p, hp, rfl⟩ := List.mem_map.mp (mem_entries_named h3 hi hd)
      exact lookup_isSome_iff.mp ⟨_, h2.enter p hp⟩
    · intro hd
      rcases h2.keys d hd with hd | hd
      · simp at hd
      · exact of_mem_entries hd
  by_cases h2d : m2.length < 2
  · rw [if_pos h2d] at h
    injection h with h; injection h with h
    subst h
    intro d d' hd hd'
    rw [hkey] at hd hd'
    match m2, h2d, hd, hd' with
    | [], _, hd, _ => simp at hd
    | [p], _, hd, hd' =>
      simp only [List.map_cons, List.map_nil, List.mem_singleton] at hd hd'
      rw [hd, hd']
  rw [if_neg h2d] at h
  rcases andThen_error h with h | ⟨_, hnn, h⟩
  · exact checkNonnegR_error fp hg ms 0 (by simp) (by omega) r h
  have hnn' := outcome_of_ok hnn
  rw [checkNonnegR_eq] at hnn'
  have hn : ∀ m ∈ ms, ∀ v, InRange m.1 v → 0 ≤ m.2 v := by
    rcases checkNonneg_cases (numInt fp) (minOK_int fp) ms hg with ⟨-, h4⟩ | ⟨h4, -⟩
    · intro m hm v hv
      have := h4 m hm v hv
      simpa [numInt] using this
    · rw [h4] at hnn'; cases hnn'
  rcases andThen_error h with h | ⟨s, -, h⟩
  · obtain ⟨j, -, rfl, h4, h5⟩ := collectSizesR_error _ _ r h
    simp only [Nat.zero_add] at h4 h5 ⊢
    refine ⟨?_, ?_⟩
    · intro i hi hc
      obtain ⟨n, hn⟩ := lookup_isSome_iff.mpr ((hkey _).mp ⟨i, hi, hc⟩)
      rw [hn] at h4; cases h4
    · intro k' hk'
      exact (hkey _).mpr (lookup_isSome_iff.mp (h5 k' hk'))
  rcases andThen_error h with h | ⟨lk, hlk, h⟩
  · exact absurd h lift_error
  have hlk' := lookup_named (lift_ok hlk)
  rcases andThen_error h with h | ⟨pop, -, h⟩
  swap
  · rcases andThen_error h with h | ⟨_, -, h⟩
    · exact absurd h lift_error
    · injection h with h; cases h
  match ms, hg, hs, hn, h with
  | [], _, _, _, h => cases h
  | a :: rest, hg, hs, hn, h =>
    simp only [List.map_cons, checkTotalsR] at h
    rw [roundedSum_total hfp (hn a (by simp)) (hs a (by simp))] at h
    rcases andThen_error h with h | ⟨pop, hpop, h⟩
    · exact absurd h lift_error
    have hpop' := lift_ok hpop
    injection hpop' with hpop'
    subst hpop'
    rcases andThen_error h with h | ⟨_, -, h⟩
    · refine checkSumsR_error hfp hn hs rest 1 le_rfl ?_ ?_ r h
      · intro x; rw [Nat.add_comm]; rfl
      · intro i' hi'
        have : i' = 0 := by omega
        subst this
        rfl
    · rcases andThen_error h with h | ⟨_, -, h⟩
      · rw [hlk', List.range_eq_range'] at h
        exact checkDimsR_error fp hg _ 0 r (by omega) h
      · injection h with h; cases h

/-! ### Every refusal has a message -/

theorem lookupDims_thrown {k : Nat} {e : Exn} : ∀ (ds : List Int) (i : Nat) (lk : List (List (Nat × Nat))), lookupDims lk k i ds ≠ .thrown e
  | [], i, lk => by simp [lookupDims]
  | d :: ds, i, lk => by
    rw [lookupDims]
    split
    · exact lookupDims_thrown ds _ _
    · simp

theorem lookupAll_thrown {e : Exn} : ∀ (is : List (List Int)) (k : Nat) (lk : List (List (Nat × Nat))), lookupAll lk k is ≠ .thrown e
  | [], k, lk => by simp [lookupAll]
  | i :: is, k, lk => by
    rw [lookupAll]
    cases h : lookupDims lk k 0 i with
    | ok l => exact lookupAll_thrown is _ _
    | thrown e' => exact absurd h (lookupDims_thrown i 0 lk)
    | ub u => simp
    | diverges => simp

theorem computeOffsets_thrown {e : Exn} : ∀ (s : List Nat) (m : Nat), NDArray.computeOffsets m s ≠ .thrown e
  | [], m => by simp [NDArray.computeOffsets]
  | n :: s, m => by
    rw [NDArray.computeOffsets]
    split
    · simp
    · cases h : NDArray.computeOffsets (m / n) s with
      | thrown e' => exact absurd h (computeOffsets_thrown s _)
      | _ => simp

theorem NDArray_new_thrown {β : Type} {e : Exn} (s : List Nat) : (NDArray.new s : Out (NDArray β)) ≠ .thrown e := by
  unfold NDArray.new NDArray.resize
  cases s with
  | nil => simp
  | cons n s =>
    simp only
    cases h : NDArray.computeOffsets (prodSizes (n :: s)) (n :: s) with
    | thrown e' => exact absurd h (computeOffsets_thrown _ _)
    | _ => simp

theorem enterDimsR_thrown {k : Nat} {e : Exn} : ∀ (ds : List Int) (ns : List Nat) (m : List (Int × Nat)), enterDimsR k m ds ns ≠ .thrown e
  | [], ns, m => by simp [enterDimsR]
  | d :: ds, [], m => by simp [enterDimsR]
  | d :: ds, n :: ns, m => by
    intro h
    rw [enterDimsR] at h
    rcases andThen_thrown h with h | ⟨a, -, h⟩
    · unfold enterDimR at h
      cases hl : m.lookup d with
      | none => rw [hl] at h; cases h
      | some n' => rw [hl] at h; simp only at h; split at h <;> cases h
    · exact enterDimsR_thrown ds ns a h

theorem enterAllR_thrown {α : Type} {e : Exn} : ∀ (is : List (List Int)) (as : List (NDArray α)) (k : Nat) (m : List (Int × Nat)),
    enterAllR k m is as ≠ .thrown e
  | [], as, k, m => by simp [enterAllR]
  | i :: is, [], k, m => by simp [enterAllR]
  | i :: is, a :: as, k, m => by
    intro h
    rw [enterAllR] at h
    split at h
    · cases h
    · rcases andThen_thrown h with h | ⟨a, -, h⟩
      · exact enterDimsR_thrown _ _ _ h
      · exact enterAllR_thrown is as _ _ h

theorem checkNonnegR_thrown (fp : FP) {e : Exn} : ∀ (ms : List (List Nat × (List Int → Int))) (k : Nat), (∀ m ∈ ms, GoodShape m.1) →
    checkNonnegR fp k (ms.map (fun m => arr m.1 m.2)) ≠ .thrown e
  | [], k, hg => by simp [checkNonnegR]
  | m :: ms, k, hg => by
    intro h
    rw [List.map_cons, checkNonnegR, minArr_int fp (hg m (by simp))] at h
    rcases andThen_thrown h with h | ⟨a, -, h⟩
    · cases h
    · split at h
      · cases h
      · exact checkNonnegR_thrown fp ms (k + 1) (fun m hm => hg m (by simp [hm])) h

theorem collectSizesR_thrown {m : List (Int × Nat)} {e : Exn} : ∀ (n k : Nat), collectSizesR m n k ≠ .thrown e
  | 0, k => by simp [collectSizesR]
  | n + 1, k => by
    intro h
    rw [collectSizesR] at h
    cases hl : m.lookup (k : Int) with
    | none => rw [hl] at h; cases h
    | some s =>
      rw [hl] at h
      simp only at h
      rcases andThen_thrown h with h | ⟨a, -, h⟩
      · exact collectSizesR_thrown n (k + 1) h
      · cases h

theorem toInt64_thrown {x : Fl} {e : Exn} : FP.toInt64 x ≠ .thrown e := by
  unfold FP.toInt64
  cases x with
  | fin q => simp only; split <;> simp
  | _ => simp

theorem checkSumsR_thrown (fp : FP) {pop : Int} {e : Exn} : ∀ (ms : List (List Nat × (List Int → Int))) (k : Nat),
    checkSumsR fp pop k (ms.map (fun m => arr m.1 m.2)) ≠ .thrown e
  | [], k => by simp [checkSumsR]
  | m :: ms, k => by
    intro h
    rw [List.map_cons, checkSumsR, roundedSum_eq] at h
    rcases andThen_thrown h with h | ⟨a, -, h⟩
    · exact toInt64_thrown (lift_thrown h)
    · split at h
      · cases h
      · exact checkSumsR_thrown fp ms (k + 1) h

theorem partialSum_thrown (fp : FP) {ms : List (List Nat × (List Int → Int))} (hg : ∀ m ∈ ms, GoodShape m.1) {p : Nat × Nat} {e : Exn}
    (hp : ∀ m, ms[p.1]? = some m → p.2 < m.1.length) : partialSum (numInt fp) (ms.map (fun m => arr m.1 m.2)) p ≠ .thrown e := by
  unfold partialSum
  rw [List.getElem?_map]
  cases hm : ms[p.1]? with
  | none => simp
  | some m =>
    simp only [Option.map_some]
    rw [reduce1_eq (numInt fp) (hg m (List.mem_of_getElem? hm)) m.2 (hp m hm)]
    simp

theorem checkPartialsR_thrown (fp : FP) {ms : List (List Nat × (List Int → Int))} (hg : ∀ m ∈ ms, GoodShape m.1) {ms0 : List Int} {d : Nat}
    {e : Exn} : ∀ (ps : List (Nat × Nat)) (i : Nat), (∀ p ∈ ps, ∀ m, ms[p.1]? = some m → p.2 < m.1.length) →
    checkPartialsR fp (ms.map (fun m => arr m.1 m.2)) ms0 d i ps ≠ .thrown e
  | [], i, hp => by simp [checkPartialsR]
  | p :: ps, i, hp => by
    intro h
    rw [checkPartialsR] at h
    rcases andThen_thrown h with h | ⟨a, -, h⟩
    · exact partialSum_thrown fp hg (hp p (by simp)) (lift_thrown h)
    · split at h
      · exact checkPartialsR_thrown fp hg ps (i + 1) (fun p h => hp p (by simp [h])) h
      · cases h

theorem checkDimsR_thrown (fp : FP) {ms : List (List Nat × (List Int → Int))} (hg : ∀ m ∈ ms, GoodShape m.1) {e : Exn} :
    ∀ (lk : List (List (Nat × Nat))) (d : Nat), (∀ ps ∈ lk, ∀ p ∈ ps, ∀ m, ms[p.1]? = some m → p.2 < m.1.length) →
    checkDimsR fp (ms.map (fun m => arr m.1 m.2)) d lk ≠ .thrown e
  | [], d, hp => by simp [checkDimsR]
  | [] :: lk, d, hp => by
    unfold checkDimsR
    exact checkDimsR_thrown fp hg lk (d + 1) (fun ps h => hp ps (by simp [h]))
  | [_] :: lk, d, hp => by
    unfold checkDimsR
    exact checkDimsR_thrown fp hg lk (d + 1) (fun ps h => hp ps (by simp [h]))
  | (p :: q :: ps) :: lk, d, hp => by
    intro h
    rw [checkDimsR] at h
    have h0 := hp (p :: q :: ps) (by simp)
    rcases andThen_thrown h with h | ⟨a, -, h⟩
    · exact partialSum_thrown fp hg (h0 p (by simp)) (lift_thrown h)
    · rcases andThen_thrown h with h | ⟨_, -, h⟩
      · exact checkPartialsR_thrown fp hg (q :: ps) 1 (fun p h => h0 p (List.mem_cons_of_mem _ h)) h
      · exact checkDimsR_thrown fp hg lk (d + 1) (fun ps h => hp ps (by simp [h])) h

theorem mem_placesNamed {is : List (List Int)} {d : Int} {p : Nat × Nat} :
    p ∈ placesNamed is d ↔ ∃ i, is[p.1]? = some i ∧ i[p.2]? = some d := by
  unfold placesNamed
  simp only [List.mem_flatMap, List.mem_map, List.mem_filter, decide_eq_true_eq]
  constructor
  · rintro ⟨⟨i, k⟩, h1, ⟨x, j⟩, ⟨h2, rfl⟩, rfl⟩
    exact ⟨i, by simpa using List.mem_zipIdx_iff_getElem?.mp h1, by simpa using List.mem_zipIdx_iff_getElem?.mp h2⟩
  · rintro ⟨i, h1, h2⟩
    exact ⟨(i, p.1), List.mem_zipIdx_iff_getElem?.mpr h1, (d, p.2), ⟨List.mem_zipIdx_iff_getElem?.mpr h2, rfl⟩, rfl⟩

theorem newR_thrown {β : Type} {fp : FP} (is : List (List Int)) (ms : List (List Nat × (List Int → Int)))
    (hg : ∀ m ∈ ms, GoodShape m.1) {e : Exn} : newR (β := β) fp is (ms.map (fun m => arr m.1 m.2)) ≠ .thrown e := by
  intro h
  unfold newR at h
  by_cases hl : is.length ≠ (ms.map (fun m => arr m.1 m.2)).length ∨ is.length < 2
  · rw [if_pos hl] at h; cases h
  rw [if_neg hl] at h
  rcases andThen_thrown h with h | ⟨m, hm, h⟩
  · exact enterAllR_thrown _ _ _ _ h
  have hm' := outcome_of_ok hm
  rw [enterAllR_eq] at hm'
  have hdim : List.Forall₂ (fun i a => i.length = NDArray.dim a) is (ms.map (fun m => arr m.1 m.2)) := by
    rcases enterAll_cases [] is (ms.map (fun m => arr m.1 m.2)) (by push Not at hl; exact hl.1) with ⟨m2, h1, h2, h3⟩ | ⟨⟨e, h1⟩, -⟩
    · exact h3
    · rw [h1] at hm'; cases hm'
  split at h
  · cases h
  rcases andThen_thrown h with h | ⟨_, -, h⟩
  · exact checkNonnegR_thrown fp ms 0 hg h
  rcases andThen_thrown h with h | ⟨_, -, h⟩
  · exact collectSizesR_thrown _ _ h
  rcases andThen_thrown h with h | ⟨lk, hlk, h⟩
  · exact lookupAll_thrown _ _ _ (lift_thrown h)
  have hlk' := lookup_named (lift_ok hlk)
  have hplace : ∀ ps ∈ lk, ∀ p ∈ ps, ∀ m, ms[p.1]? = some m → p.2 < m.1.length := by
    intro ps hps p hp m hm
    rw [hlk'] at hps
    obtain ⟨d, -, rfl⟩ := List.mem_map.mp hps
    obtain ⟨i, h1, h2⟩ := mem_placesNamed.mp hp
    have h3 := (List.forall₂_iff_get.mp hdim).2 p.1 (by
      have := List.getElem?_eq_some_iff.mp h1; exact this.1) (by
      have := List.getElem?_eq_some_iff.mp hm; simpa using this.1)
    obtain ⟨q1, q2⟩ := List.getElem?_eq_some_iff.mp h1
    obtain ⟨q3, q4⟩ := List.getElem?_eq_some_iff.mp hm
    simp only [List.get_eq_getElem, List.getElem_map] at h3
    rw [q2, q4] at h3
    have : p.2 < i.length := (List.getElem?_eq_some_iff.mp h2).1
    rw [h3] at this
    exact this
  rcases andThen_thrown h with h | ⟨_, -, h⟩
  swap
  · rcases andThen_thrown h with h | ⟨_, -, h⟩
    · exact NDArray_new_thrown _ (lift_thrown h)
    · cases h
  cases ms with
  | nil => cases h
  | cons a rest =>
    simp only [List.map_cons, checkTotalsR] at h
    rw [roundedSum_eq] at h
    rcases andThen_thrown h with h | ⟨pop, hpop, h⟩
    · exact toInt64_thrown (lift_thrown h)
    rcases andThen_thrown h with h | ⟨_, -, h⟩
    · exact checkSumsR_thrown fp rest 1 h
    rcases andThen_thrown h with h | ⟨_, -, h⟩
    · exact checkDimsR_thrown fp hg lk 0 hplace h
    · cases h

/-- **C123**: every exception of the constructor has one of these messages, and it is true: if the marginals have no empty
dimensions and totals below 2^52, an input that is refused is refused with a message that tells what is wrong with it. -/
theorem C123_refused {β : Type} {fp : FP} (hfp : fp.Good) (is : List (List Int)) (ms : List (List Nat × (List Int → Int)))
    (hg : ∀ m ∈ ms, GoodShape m.1) (hs : ∀ m ∈ ms, |totalOf m| < 2 ^ 52) {e : Exn}
    (h : Micro.new (β := β) fp (numInt fp) is (ms.map (fun m => arr m.1 m.2)) = .thrown e) :
    ∃ r, newR (β := β) fp is (ms.map (fun m => arr m.1 m.2)) = .ok (.error r) ∧ r.exn = e ∧ Truthful is ms r := by
  rw [← C123_agrees] at h
  cases hr : newR (β := β) fp is (ms.map (fun m => arr m.1 m.2)) with
  | ok x =>
    rw [hr] at h
    cases x with
    | ok m => cases h
    | error r =>
      injection h with h
      exact ⟨r, rfl, h, C123_truthful hfp is ms hg hs hr⟩
  | thrown e' => exact absurd hr (newR_thrown is ms hg)
  | ub u => rw [hr] at h; cases h
  | diverges => rw [hr] at h; cases h

/-- **C123**, the texts: what a caller reads, for any operands. -/
theorem C123_texts (a b k d i : Nat) (x y z : Int) (v w : List Int) :
    (Refusal.listSize a b).text = "index list size ".toList ++ natText a ++ " too small or differs from marginal size ".toList ++ natText b ∧
    (Refusal.indexDim a b).text = "index/marginal dimension mismatch ".toList ++ natText a ++ " vs ".toList ++ natText b ∧
    (Refusal.redefined k x a b).text = "mismatch at index ".toList ++ natText k ++ ": dimension ".toList ++ intText x ++
      " size ".toList ++ natText a ++ " redefined to ".toList ++ natText b ∧
    (Refusal.negative k x).text = "negative value in marginal ".toList ++ natText k ++ ": ".toList ++ intText x ∧
    (Refusal.undefinedDim k).text = "dimension ".toList ++ natText k ++ " size not defined".toList ∧
    (Refusal.marginalSum i y z).text = "marginal sum mismatch at index ".toList ++ natText i ++ ": ".toList ++ intText y ++
      " vs ".toList ++ intText z ∧
    (Refusal.partialSum d i v w).text = "marginal partial sum mismatch in dimension ".toList ++ natText d ++ " index ".toList ++
      natText i ++ ": ".toList ++ vecText (v.map intText) ++ " vs ".toList ++ vecText (w.map intText) := by
  have hn := natText_pure
  have hi := fun z => (C61_arguments z []).1
  have hv := fun v => (C61_arguments 0 v).2
  have two : ∀ (t u a b : List Char), '%' ∉ t → '%' ∉ u → '%' ∉ a → '%' ∉ b →
      format (t ++ hole ++ u ++ hole) [a, b] = t ++ a ++ u ++ b := by
    intro t u a b h1 h2 h3 h4
    have := C61_format (t := t) (ps := [(a, u), (b, [])]) h1 (by simp [h2, h3, h4]) []
    simpa using this
  have three : ∀ (t u u' a b c : List Char), '%' ∉ t → '%' ∉ u → '%' ∉ u' → '%' ∉ a → '%' ∉ b → '%' ∉ c →
      format (t ++ hole ++ u ++ hole ++ u' ++ hole) [a, b, c] = t ++ a ++ u ++ b ++ u' ++ c := by
    intro t u u' a b c h1 h2 h2' h3 h4 h5
    have := C61_format (t := t) (ps := [(a, u), (b, u'), (c, [])]) h1 (by simp [h2, h2', h3, h4, h5]) []
    simpa using this
  have four : ∀ (t u u' u'' a b c d : List Char), '%' ∉ t → '%' ∉ u → '%' ∉ u' → '%' ∉ u'' → '%' ∉ a → '%' ∉ b → '%' ∉ c → '%' ∉ d →
      format (t ++ hole ++ u ++ hole ++ u' ++ hole ++ u'' ++ hole) [a, b, c, d] = t ++ a ++ u ++ b ++ u' ++ c ++ u'' ++ d := by
    intro t u u' u'' a b c d h1 h2 h2' h2'' h3 h4 h5 h6
    have := C61_format (t := t) (ps := [(a, u), (b, u'), (c, u''), (d, [])]) h1 (by simp [h2, h2', h2'', h3, h4, h5, h6]) []
    simpa using this
  refine ⟨?_, ?_, ?_, ?_, ?_, ?_, ?_⟩
  · rw [← two _ _ _ _ (by decide) (by decide) (hn a) (hn b)]
    exact congrArg (fun t => format t [natText a, natText b]) (by decide +kernel)
  · rw [← two _ _ _ _ (by decide) (by decide) (hn a) (hn b)]
    exact congrArg (fun t => format t [natText a, natText b]) (by decide +kernel)
  · rw [← four _ _ _ _ _ _ _ _ (by decide) (by decide) (by decide) (by decide) (hn k) (hi x) (hn a) (hn b)]
    exact congrArg (fun t => format t [natText k, intText x, natText a, natText b]) (by decide +kernel)
  · rw [← two _ _ _ _ (by decide) (by decide) (hn k) (hi x)]
    exact congrArg (fun t => format t [natText k, intText x]) (by decide +kernel)
  · have := C61_format (t := "dimension ".toList) (ps := [(natText k, " size not defined".toList)]) (by decide)
      (by
        intro p hp
        rw [List.mem_singleton] at hp
        rw [hp]
        exact ⟨hn k, (by decide : '%' ∉ " size not defined".toList)⟩) []
    rw [List.append_nil, List.append_nil] at this
    simp only [List.flatMap_cons, List.flatMap_nil, List.append_nil, List.map_cons, List.map_nil] at this
    rw [← List.append_assoc, ← List.append_assoc] at this
    rw [← this]
    exact congrArg (fun t => format t [natText k]) (by decide +kernel)
  · rw [← three _ _ _ _ _ _ (by decide) (by decide) (by decide) (hn i) (hi y) (hi z)]
    exact congrArg (fun t => format t [natText i, intText y, intText z]) (by decide +kernel)
  · rw [← four _ _ _ _ _ _ _ _ (by decide) (by decide) (by decide) (by decide) (hn d) (hn i) (hv v) (hv w)]
    exact congrArg (fun t => format t [natText d, natText i, vecText (v.map intText), vecText (w.map intText)]) (by decide +kernel)

/-! ### Cases -/

theorem Ref.pass {ε α β : Type} (a : α) (f : α → Out (Except ε β)) : andThen (.ok (.ok a)) f = f a := rfl
theorem Ref.stop {ε α β : Type} (r : ε) (f : α → Out (Except ε β)) : andThen (.ok (.error r)) f = .ok (.error r) := rfl
theorem Ref.lift_pass {ε α : Type} (a : α) : lift (.ok a) = (.ok (.ok a) : Out (Except ε α)) := rfl

/-- The rows, the columns, and both, of a table with 2 rows and 3 columns; the total of the last is one less than that of the
others. -/
def exMarginals : List (List Nat × (List Int → Int)) :=
  [([2], fun v => if v = [0] then 3 else 4), ([3], fun v => if v = [0] then 3 else 2), ([2, 3], fun _ => 1)]

theorem exMarginals_refused : newR (β := Fl) FP.exact [[0], [1], [0, 1]] (exMarginals.map (fun m => arr m.1 m.2)) =
    .ok (.error (.marginalSum 2 6 7)) := by
  have e1 : enterAllR 0 [] [[0], [1], [0, 1]] (exMarginals.map (fun m => arr m.1 m.2)) = .ok (.ok [(0, 2), (1, 3)]) := rfl
  have e2 : checkNonnegR FP.exact 0 (exMarginals.map (fun m => arr m.1 m.2)) = .ok (.ok ()) := by
    simp (disch := decide) only [exMarginals, List.map_cons, List.map_nil, checkNonnegR, minArr_int, lift_pass, pass]
    rfl
  have e3 : collectSizesR [(0, 2), (1, 3)] 2 0 = .ok (.ok [2, 3]) := rfl
  have e4 : lookupAll (List.replicate 2 []) 0 [[0], [1], [0, 1]] = .ok [[(0, 0), (2, 0)], [(1, 0), (2, 1)]] := rfl
  have hs : ∀ m ∈ exMarginals, roundedSum FP.exact (numInt FP.exact) (arr m.1 m.2) = .ok (totalOf m) := fun m hm =>
    roundedSum_total FP.exact_good (by
      intro v _
      simp only [exMarginals, List.mem_cons, List.not_mem_nil, or_false] at hm
      rcases hm with rfl | rfl | rfl <;> simp only <;> omega) (by
      revert m; decide +kernel)
  have e5 : checkTotalsR FP.exact (exMarginals.map (fun m => arr m.1 m.2)) [[(0, 0), (2, 0)], [(1, 0), (2, 1)]] =
      .ok (.error (.marginalSum 2 6 7)) := by
    have h0 := hs ([2], fun v => if v = [0] then 3 else 4) (by simp [exMarginals])
    have h1 := hs ([3], fun v => if v = [0] then 3 else 2) (by simp [exMarginals])
    have h2 := hs ([2, 3], fun _ => 1) (by simp [exMarginals])
    have t0 : totalOf ([2], fun v => if v = [0] then 3 else 4) = 7 := by decide +kernel
    have t1 : totalOf ([3], fun v => if v = [0] then 3 else 2) = 7 := by decide +kernel
    have t2 : totalOf ([2, 3], fun _ => 1) = 6 := by decide +kernel
    simp only [exMarginals, List.map_cons, List.map_nil, checkTotalsR, checkSumsR, h0, h1, h2, t0, t1, t2, lift_pass, pass]
    rfl
  unfold newR
  rw [if_neg (by decide), e1, pass, if_neg (by decide), e2, pass]
  show andThen (collectSizesR [(0, 2), (1, 3)] 2 0) _ = _
  rw [e3, pass]
  show andThen (lift (lookupAll (List.replicate 2 []) 0 [[0], [1], [0, 1]])) _ = _
  rw [e4, lift_pass, pass, e5, stop]

example : (∀ m ∈ exMarginals, GoodShape m.1) ∧ (∀ m ∈ exMarginals, |totalOf m| < 2 ^ 52) ∧
    (∃ e, Micro.new (β := Fl) FP.exact (numInt FP.exact) [[0], [1], [0, 1]] (exMarginals.map (fun m => arr m.1 m.2)) = .thrown e) ∧
    (Refusal.marginalSum 2 6 7).text = "marginal sum mismatch at index 2: 6 vs 7".toList := by
  refine ⟨by decide +kernel, by decide +kernel, ⟨.marginalSum, ?_⟩, by decide +kernel⟩
  rw [← C123_agrees, exMarginals_refused]
  rfl

/-- Inputs for other messages. -/
example : newR (β := Fl) FP.exact [[0], [1]] [arr [2] (fun _ => 1)] = .ok (.error (.listSize 2 1)) ∧
    newR (β := Fl) FP.exact [[0, 1], [1]] [arr [2] (fun _ => 1), arr [2] (fun _ => 1)] = .ok (.error (.indexDim 2 1)) ∧
    newR (β := Fl) FP.exact [[0], [1, 0]] [arr [2] (fun _ => 1), arr [2, 3] (fun _ => 1)] = .ok (.error (.redefined 1 0 2 3)) ∧
    newR (β := Fl) FP.exact [[0], [0]] [arr [2] (fun _ => 1), arr [2] (fun _ => 1)] = .ok (.error .tooFewDims) :=
  ⟨rfl, rfl, rfl, rfl⟩

/-- Disagreement: the number after "index" in the message about partial sums is not the number of a marginal, as it is in the
other messages, but the rank of the place among those at which the dimension occurs: here the marginals numbered 1 and 2 disagree
about dimension 1, and the message blames "index 1". -/
theorem C123_negation_index :
    let ms : List (List Nat × (List Int → Int)) := [([2], fun _ => 3), ([3], fun _ => 2),
      ([2, 3], fun v => if v = [0, 0] then 2 else if v = [0, 2] then 0 else 1)]
    newR (β := Fl) FP.exact [[0], [1], [0, 1]] (ms.map (fun m => arr m.1 m.2)) = .ok (.error (.partialSum 1 1 [3, 2, 1] [2, 2, 2])) ∧
    (Refusal.partialSum 1 1 [3, 2, 1] [2, 2, 2]).text =
      "marginal partial sum mismatch in dimension 1 index 1: [3, 2, 1] vs [2, 2, 2]".toList ∧
    ms[1]?.map (fun m => sumsAlong m 0) = some [2, 2, 2] ∧ ms[2]?.map (fun m => sumsAlong m 1) = some [3, 2, 1] := by
  intro ms
  refine ⟨?_, by decide +kernel, by decide +kernel, by decide +kernel⟩
  have hg : ∀ m ∈ ms, GoodShape m.1 := by decide
  have e1 : enterAllR 0 [] [[0], [1], [0, 1]] (ms.map (fun m => arr m.1 m.2)) = .ok (.ok [(0, 2), (1, 3)]) := rfl
  have e2 : checkNonnegR FP.exact 0 (ms.map (fun m => arr m.1 m.2)) = .ok (.ok ()) := by
    simp (disch := decide) only [ms, List.map_cons, List.map_nil, checkNonnegR, minArr_int, lift_pass, pass]
    rfl
  have e3 : collectSizesR [(0, 2), (1, 3)] 2 0 = .ok (.ok [2, 3]) := rfl
  have e4 : lookupAll (List.replicate 2 []) 0 [[0], [1], [0, 1]] = .ok [[(0, 0), (2, 0)], [(1, 0), (2, 1)]] := rfl
  have hs : ∀ m ∈ ms, roundedSum FP.exact (numInt FP.exact) (arr m.1 m.2) = .ok 6 := by
    intro m hm
    have ht : totalOf m = 6 := by revert m; decide +kernel
    rw [← ht]
    refine roundedSum_total FP.exact_good (by
      intro v _
      simp only [ms, List.mem_cons, List.not_mem_nil, or_false] at hm
      rcases hm with rfl | rfl | rfl <;> simp only <;> omega) (by
      rw [ht]; norm_num)
  have hp : ∀ p ∈ [(0, 0), (2, 0), (1, 0), (2, 1)], partialSum (numInt FP.exact) (ms.map (fun m => arr m.1 m.2)) p =
      .ok ((sumsAtPlace ms p).getD []) := by
    intro p hp
    have : ∃ m, ms[p.1]? = some m ∧ p.2 < m.1.length := by
      simp only [List.mem_cons, List.not_mem_nil, or_false] at hp
      rcases hp with rfl | rfl | rfl | rfl <;> exact ⟨_, rfl, by decide⟩
    obtain ⟨m, h1, h2⟩ := this
    cases hx : partialSum (numInt FP.exact) (ms.map (fun m => arr m.1 m.2)) p with
    | ok x => rw [partialSum_along FP.exact hg hx]; rfl
    | _ =>
      unfold partialSum at hx
      rw [List.getElem?_map, h1] at hx
      simp only [Option.map_some] at hx
      rw [reduce1_eq _ (hg m (List.mem_of_getElem? h1)) m.2 h2] at hx
      cases hx
  have e5 : checkTotalsR FP.exact (ms.map (fun m => arr m.1 m.2)) [[(0, 0), (2, 0)], [(1, 0), (2, 1)]] =
      .ok (.error (.partialSum 1 1 [3, 2, 1] [2, 2, 2])) := by
    have s0 := hs _ (show ([2], fun _ => 3) ∈ ms by simp [ms])
    have s1 := hs _ (show ([3], fun _ => 2) ∈ ms by simp [ms])
    have s2 := hs _ (show ([2, 3], fun v => if v = [0, 0] then 2 else if v = [0, 2] then 0 else 1) ∈ ms by simp [ms])
    have p0 := hp (0, 0) (by simp)
    have p1 := hp (2, 0) (by simp)
    have p2 := hp (1, 0) (by simp)
    have p3 := hp (2, 1) (by simp)
    rw [show (sumsAtPlace ms (0, 0)).getD [] = [3, 3] by decide +kernel] at p0
    rw [show (sumsAtPlace ms (2, 0)).getD [] = [3, 3] by decide +kernel] at p1
    rw [show (sumsAtPlace ms (1, 0)).getD [] = [2, 2, 2] by decide +kernel] at p2
    rw [show (sumsAtPlace ms (2, 1)).getD [] = [3, 2, 1] by decide +kernel] at p3
    have ed : checkDimsR FP.exact (ms.map (fun m => arr m.1 m.2)) 0 [[(0, 0), (2, 0)], [(1, 0), (2, 1)]] =
        .ok (.error (.partialSum 1 1 [3, 2, 1] [2, 2, 2])) := by
      simp only [checkDimsR, checkPartialsR, p0, p1, p2, p3, lift_pass, pass, if_true]
      rfl
    have es : checkSumsR FP.exact 6 1 [arr [3] (fun _ => 2), arr [2, 3] (fun v => if v = [0, 0] then 2 else if v = [0, 2] then 0 else 1)] =
        .ok (.ok ()) := by
      simp only [checkSumsR, s1, s2, lift_pass, pass]
      rfl
    show andThen (lift (roundedSum FP.exact (numInt FP.exact) (arr [2] (fun _ => 3)))) _ = _
    rw [s0, lift_pass, pass]
    show andThen (checkSumsR FP.exact 6 1 [arr [3] (fun _ => 2), arr [2, 3] (fun v => if v = [0, 0] then 2 else if v = [0, 2] then 0 else 1)]) _ = _
    rw [es, pass]
    show andThen (checkDimsR FP.exact (ms.map (fun m => arr m.1 m.2)) 0 [[(0, 0), (2, 0)], [(1, 0), (2, 1)]]) _ = _
    rw [ed, stop]
  unfold newR
  rw [if_neg (by decide), e1, pass, if_neg (by decide), e2, pass]
  show andThen (collectSizesR [(0, 2), (1, 3)] 2 0) _ = _
  rw [e3, pass]
  show andThen (lift (lookupAll (List.replicate 2 []) 0 [[0], [1], [0, 1]])) _ = _
  rw [e4, lift_pass, pass, e5, stop]

end HL

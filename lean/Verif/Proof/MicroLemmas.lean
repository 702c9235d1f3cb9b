import Verif.ProblemSpec
import Verif.Model.Microsynthesis
import Verif.Proof.ArrayLemmas

namespace HL
open Micro
variable {α β : Type}

/-! ### The dimension map -/

/-- (dimension, size) pairs of all marginals -/
def entries : List (List Int) → List (List Nat) → List (Int × Nat)
  | i :: is, t :: ts => i.zip t ++ entries is ts
  | _, _ => []

theorem lookup_append_of_some {m m' : List (Int × Nat)} {d : Int} {n : Nat} (h : m.lookup d = some n) :
    (m ++ m').lookup d = some n := by
  rw [List.lookup_append, h]; rfl

theorem lookup_isSome_iff {m : List (Int × Nat)} {d : Int} : (∃ n, m.lookup d = some n) ↔ d ∈ m.map Prod.fst := by
  induction m with
  | nil => simp
  | cons p m ih =>
    obtain ⟨e, n⟩ := p
    by_cases h : d = e
    · subst h; simp [List.lookup_cons]
    · have : (d == e) = false := by simpa using h
      simp only [List.lookup_cons, this, List.map_cons, List.mem_cons, h, false_or]
      exact ih

structure Extends (m m' : List (Int × Nat)) (es : List (Int × Nat)) : Prop where
  keep : ∀ d n, m.lookup d = some n → m'.lookup d = some n
  enter : ∀ p ∈ es, m'.lookup p.1 = some p.2
  keys : ∀ d ∈ m'.map Prod.fst, d ∈ m.map Prod.fst ∨ d ∈ es.map Prod.fst
  nodup : (m.map Prod.fst).Nodup → (m'.map Prod.fst).Nodup

theorem Extends.trans {m m' m'' es es'} (h : Extends m m' es) (h' : Extends m' m'' es') :
    Extends m m'' (es ++ es') where
  keep d n hd := h'.keep d n (h.keep d n hd)
  enter p hp := by
    rcases List.mem_append.mp hp with hp | hp
    · exact h'.keep _ _ (h.enter p hp)
    · exact h'.enter p hp
  keys d hd := by
    rcases h'.keys d hd with hd | hd
    · rcases h.keys d hd with hd | hd
      · exact Or.inl hd
      · exact Or.inr (by simp only [List.map_append, List.mem_append]; exact Or.inl hd)
    · exact Or.inr (by simp only [List.map_append, List.mem_append]; exact Or.inr hd)
  nodup hn := h'.nodup (h.nodup hn)

theorem Extends.refl (m) : Extends m m [] :=
  ⟨fun _ _ h => h, by simp, fun d hd => Or.inl hd, id⟩

theorem enterDim_cases (m : List (Int × Nat)) (d : Int) (n : Nat) :
    (∃ m', enterDim m d n = .ok m' ∧ Extends m m' [(d, n)]) ∨
    (enterDim m d n = .thrown .sizeRedefined ∧ ∃ n', m.lookup d = some n' ∧ n' ≠ n) := by
  unfold enterDim
  cases h : m.lookup d with
  | none =>
    left
    refine ⟨_, rfl, ?_, ?_, ?_, ?_⟩
    · intro e k hk; exact lookup_append_of_some hk
    · intro p hp
      simp only [List.mem_singleton] at hp
      subst hp
      rw [List.lookup_append, h]
      simp
    · intro e he
      simpa using he
    · intro hn
      rw [List.map_append, List.nodup_append]
      refine ⟨hn, by simp, ?_⟩
      intro a ha b hb hab
      simp only [List.map_cons, List.map_nil, List.mem_singleton] at hb
      subst hb; subst hab
      obtain ⟨k, hk⟩ := lookup_isSome_iff.mpr ha
      rw [h] at hk; cases hk
  | some n' =>
    by_cases hne : n' ≠ n
    · right
      exact ⟨by simp [hne], n', rfl, hne⟩
    · left
      have hnn : n' = n := by simpa using hne
      subst hnn
      refine ⟨m, by simp, fun _ _ h => h, ?_, fun e he => Or.inl he, id⟩
      intro p hp
      simp only [List.mem_singleton] at hp
      subst hp; exact h

theorem enterDims_cases (m : List (Int × Nat)) (ds : List Int) (ns : List Nat) :
    (∃ m', enterDims m ds ns = .ok m' ∧ Extends m m' (ds.zip ns)) ∨
    (enterDims m ds ns = .thrown .sizeRedefined ∧
      ∀ φ : Int → Nat, (∀ d n, m.lookup d = some n → φ d = n) → ∃ p ∈ ds.zip ns, φ p.1 ≠ p.2) := by
  induction ds generalizing m ns with
  | nil => left; refine ⟨m, by cases ns <;> rfl, by simpa using Extends.refl m⟩
  | cons d ds ih =>
    cases ns with
    | nil => left; exact ⟨m, rfl, by simpa using Extends.refl m⟩
    | cons n ns =>
      simp only [enterDims, List.zip_cons_cons]
      rcases enterDim_cases m d n with ⟨m', h1, h2⟩ | ⟨h1, n', h2, h3⟩
      · rw [h1]
        simp only [Out.ok_bind]
        rcases ih m' ns with ⟨m'', h4, h5⟩ | ⟨h4, h5⟩
        · left
          exact ⟨m'', h4, by simpa using h2.trans h5⟩
        · right
          refine ⟨h4, ?_⟩
          intro φ hφ
          by_cases hd : φ d = n
          · obtain ⟨p, hp, hne⟩ := h5 φ (by
              intro e k hk
              have hmem : e ∈ m'.map Prod.fst := lookup_isSome_iff.mp ⟨k, hk⟩
              rcases h2.keys e hmem with he | he
              · obtain ⟨k', hk'⟩ := lookup_isSome_iff.mpr he
                have := h2.keep e k' hk'
                rw [this] at hk
                injection hk with hk
                rw [← hk]; exact hφ e k' hk'
              · simp only [List.map_cons, List.map_nil, List.mem_singleton] at he
                subst he
                have := h2.enter (e, n) (by simp)
                simp only at this
                rw [this] at hk
                injection hk with hk
                rw [← hk]; exact hd)
            exact ⟨p, List.mem_cons_of_mem _ hp, hne⟩
          · exact ⟨(d, n), by simp, hd⟩
      · right
        rw [h1]
        refine ⟨rfl, ?_⟩
        intro φ hφ
        refine ⟨(d, n), by simp, ?_⟩
        simp only
        rw [hφ d n' h2]; exact h3

theorem enterAll_cases (m : List (Int × Nat)) (is : List (List Int)) (as : List (NDArray α))
    (hl : is.length = as.length) :
    (∃ m', enterAll m is as = .ok m' ∧ Extends m m' (entries is (as.map NDArray.sizes)) ∧
      List.Forall₂ (fun i a => i.length = NDArray.dim a) is as) ∨
    ((∃ e, enterAll m is as = .thrown e) ∧
      (¬ List.Forall₂ (fun i a => i.length = NDArray.dim a) is as ∨
      ∀ φ : Int → Nat, (∀ d n, m.lookup d = some n → φ d = n) →
        ∃ p ∈ entries is (as.map NDArray.sizes), φ p.1 ≠ p.2)) := by
  induction is generalizing m as with
  | nil =>
    cases as with
    | nil => left; exact ⟨m, rfl, Extends.refl m, .nil⟩
    | cons a as => simp at hl
  | cons i is ih =>
    cases as with
    | nil => simp at hl
    | cons a as =>
      simp only [enterAll, entries, List.map_cons]
      by_cases hd : i.length = a.dim
      · rw [if_neg (by simpa using hd)]
        rcases enterDims_cases m i a.sizes with ⟨m', h1, h2⟩ | ⟨h1, h2⟩
        · rw [h1]
          simp only [Out.ok_bind]
          rcases ih m' as (by simpa using hl) with ⟨m'', h3, h4, h5⟩ | ⟨h3, h4⟩
          · left
            exact ⟨m'', h3, h2.trans h4, .cons hd h5⟩
          · right
            refine ⟨h3, ?_⟩
            rcases h4 with h4 | h4
            · left
              intro hf
              cases hf with | cons _ hf => exact h4 hf
            · right
              intro φ hφ
              by_cases hall : ∀ p ∈ i.zip a.sizes, φ p.1 = p.2
              · obtain ⟨p, hp, hne⟩ := h4 φ (by
                  intro e k hk
                  have hmem : e ∈ m'.map Prod.fst := lookup_isSome_iff.mp ⟨k, hk⟩
                  rcases h2.keys e hmem with he | he
                  · obtain ⟨k', hk'⟩ := lookup_isSome_iff.mpr he
                    have := h2.keep e k' hk'
                    rw [this] at hk
                    injection hk with hk
                    rw [← hk]; exact hφ e k' hk'
                  · obtain ⟨p, hp, rfl⟩ := List.mem_map.mp he
                    have := h2.enter p hp
                    rw [this] at hk
                    injection hk with hk
                    rw [← hk]; exact hall p hp)
                exact ⟨p, List.mem_append_right _ hp, hne⟩
              · push Not at hall
                obtain ⟨p, hp, hne⟩ := hall
                exact ⟨p, List.mem_append_left _ hp, hne⟩
        · right
          rw [h1]
          refine ⟨⟨_, rfl⟩, Or.inr ?_⟩
          intro φ hφ
          obtain ⟨p, hp, hne⟩ := h2 φ hφ
          exact ⟨p, List.mem_append_left _ hp, hne⟩
      · right
        rw [if_pos (by simpa using hd)]
        refine ⟨⟨_, rfl⟩, Or.inl ?_⟩
        intro hf
        cases hf with | cons h _ => exact hd h

/-! ### Sizes -/

theorem collectSizes_cases (m : List (Int × Nat)) : ∀ (n k : Nat),
    (∃ s, collectSizes m n k = .ok s ∧ s.length = n ∧ ∀ j < n, m.lookup ((k + j : Nat) : Int) = some (s.getD j 0)) ∨
    (collectSizes m n k = .thrown .dimUndefined ∧ ∃ j < n, m.lookup ((k + j : Nat) : Int) = none)
  | 0, k => Or.inl ⟨[], rfl, rfl, by simp⟩
  | n + 1, k => by
    unfold collectSizes
    cases h : m.lookup (k : Int) with
    | none => right; exact ⟨rfl, 0, by omega, by simpa using h⟩
    | some x =>
      simp only
      rcases collectSizes_cases m n (k + 1) with ⟨s, h1, h2, h3⟩ | ⟨h1, j, hj, h2⟩
      · left
        rw [h1]
        refine ⟨x :: s, rfl, by simp [h2], ?_⟩
        intro j hj
        cases j with
        | zero => simpa using h
        | succ j =>
          have := h3 j (by omega)
          rw [show k + (j + 1) = k + 1 + j by omega, this]
          simp
      · right
        rw [h1]
        exact ⟨rfl, j + 1, by omega, by rw [show k + (j + 1) = k + 1 + j by omega]; exact h2⟩

/-! ### Lookup table -/

theorem lookupDims_eq {D : Nat} (k : Nat) : ∀ (ds : List Nat) (i : Nat) (L : Nat → List (Nat × Nat)),
    (∀ d ∈ ds, d < D) →
    lookupDims ((List.range D).map L) k i (ds.map (fun d : Nat => (d : Int))) =
      .ok ((List.range D).map (fun d => L d ++ placesIn d k i ds))
  | [], i, L, _ => by simp [lookupDims, placesIn]
  | e :: ds, i, L, h => by
    have he : e < D := h e (by simp)
    simp only [List.map_cons, lookupDims]
    rw [if_pos (by simp; omega)]
    have hset : ((List.range D).map L).set (e : Int).toNat
        (((List.range D).map L).getD (e : Int).toNat [] ++ [(k, i)]) =
        (List.range D).map (fun d => L d ++ if e = d then [(k, i)] else []) := by
      apply List.ext_getElem (by simp)
      intro j h1 h2
      simp only [List.length_map, List.length_range] at h2
      simp only [Int.toNat_natCast, List.getElem_set, List.getElem_map, List.getElem_range]
      by_cases hj : e = j
      · subst hj
        simp [List.getD_eq_getElem?_getD, he]
      · simp [hj]
    rw [hset]
    rw [lookupDims_eq k ds (i + 1) (fun d => L d ++ if e = d then [(k, i)] else []) (fun d hd => h d (by simp [hd]))]
    congr 1
    apply List.map_congr_left
    intro d _
    simp [placesIn, List.append_assoc]

theorem lookupAll_eq {D : Nat} : ∀ (dss : List (List Nat)) (k : Nat) (L : Nat → List (Nat × Nat)),
    (∀ ds ∈ dss, ∀ d ∈ ds, d < D) →
    lookupAll ((List.range D).map L) k (dss.map (fun ds => ds.map (fun d : Nat => (d : Int)))) =
      .ok ((List.range D).map (fun d => L d ++ places d k dss))
  | [], k, L, _ => by simp [lookupAll, places]
  | ds :: dss, k, L, h => by
    simp only [List.map_cons, lookupAll]
    rw [lookupDims_eq k ds 0 L (h ds (by simp))]
    simp only [Out.ok_bind]
    rw [lookupAll_eq dss (k + 1) _ (fun ds hds => h ds (by simp [hds]))]
    congr 1
    apply List.map_congr_left
    intro d _
    simp [places, List.append_assoc]

theorem mem_placesIn {d k : Nat} : ∀ {ds : List Nat} {i : Nat} {p : Nat × Nat},
    p ∈ placesIn d k i ds ↔ p.1 = k ∧ i ≤ p.2 ∧ ds[p.2 - i]? = some d
  | [], i, p => by simp [placesIn]
  | e :: ds, i, p => by
    simp only [placesIn, List.mem_append, mem_placesIn (ds := ds)]
    constructor
    · rintro (h | ⟨h1, h2, h3⟩)
      · split at h
        · simp only [List.mem_singleton] at h
          subst h
          rename_i he
          simp [he]
        · simp at h
      · refine ⟨h1, by omega, ?_⟩
        rw [show p.2 - i = (p.2 - (i + 1)) + 1 by omega]
        simpa using h3
    · rintro ⟨h1, h2, h3⟩
      by_cases hi : p.2 = i
      · left
        rw [hi, Nat.sub_self] at h3
        simp only [List.getElem?_cons_zero, Option.some.injEq] at h3
        rw [if_pos h3]
        simp [Prod.ext_iff, h1, hi]
      · right
        refine ⟨h1, by omega, ?_⟩
        rw [show p.2 - i = (p.2 - (i + 1)) + 1 by omega] at h3
        simpa using h3

theorem mem_places {d : Nat} : ∀ {dss : List (List Nat)} {k : Nat} {p : Nat × Nat},
    p ∈ places d k dss ↔ k ≤ p.1 ∧ ∃ ds, dss[p.1 - k]? = some ds ∧ ds[p.2]? = some d
  | [], k, p => by simp [places]
  | ds :: dss, k, p => by
    simp only [places, List.mem_append, mem_placesIn, mem_places (dss := dss)]
    constructor
    · rintro (⟨h1, -, h3⟩ | ⟨h1, es, h2, h3⟩)
      · exact ⟨by omega, ds, by simp [h1], by simpa using h3⟩
      · refine ⟨by omega, es, ?_, h3⟩
        rw [show p.1 - k = (p.1 - (k + 1)) + 1 by omega]
        simpa using h2
    · rintro ⟨h1, es, h2, h3⟩
      by_cases hk : p.1 = k
      · left
        rw [hk, Nat.sub_self] at h2
        simp only [List.getElem?_cons_zero, Option.some.injEq] at h2
        subst h2
        exact ⟨hk, by omega, by simpa using h3⟩
      · right
        refine ⟨by omega, es, ?_, h3⟩
        rw [show p.1 - k = (p.1 - (k + 1)) + 1 by omega] at h2
        simpa using h2

/-! ### Non-negativity, totals, partial sums -/

/-- `min` of an array detects negative entries in the arithmetic `N`. -/
def MinOK (N : Num α) : Prop := ∀ l : List α,
  N.lt (l.foldl (fun m x => if N.lt x m then x else m) N.maxVal) N.zero = l.any (fun x => N.lt x N.zero)

theorem foldl_min_int (l : List Int) (m : Int) :
    (l.foldl (fun m x => if x < m then x else m) m < 0) ↔ (m < 0 ∨ ∃ x ∈ l, x < 0) := by
  induction l generalizing m with
  | nil => simp
  | cons a l ih =>
    rw [List.foldl_cons, ih]
    simp only [List.exists_mem_cons_iff]
    generalize (∃ x ∈ l, x < 0) = E
    by_cases hE : E
    · simp [hE]
    · simp only [hE, or_false]
      split <;> omega

theorem minOK_int (fp : FP) : MinOK (numInt fp) := by
  intro l
  have := foldl_min_int l (2 ^ 63 - 1)
  have e : (l.foldl (fun m x => if (numInt fp).lt x m then x else m) (numInt fp).maxVal) =
      l.foldl (fun m x => if x < m then x else m) (2 ^ 63 - 1) := by
    simp [numInt]
  rw [e]
  rw [Bool.eq_iff_iff]
  simp only [numInt, decide_eq_true_eq, List.any_eq_true]
  rw [this]
  constructor
  · rintro (h | h)
    · omega
    · exact h
  · exact Or.inr

theorem foldl_min_fl (l : List Fl) (m : Fl) (hm : m ≠ .nan) :
    (FP.lt (l.foldl (fun m x => if FP.lt x m then x else m) m) (.fin 0) = true) ↔
      (FP.lt m (.fin 0) = true ∨ ∃ x ∈ l, FP.lt x (.fin 0) = true) := by
  induction l generalizing m with
  | nil => simp
  | cons a l ih =>
    rw [List.foldl_cons]
    by_cases h : FP.lt a m = true
    · rw [if_pos h]
      have ha : a ≠ .nan := by rintro rfl; simp [FP.lt] at h
      rw [ih a ha]
      simp only [List.exists_mem_cons_iff]
      have : FP.lt m (.fin 0) = true → FP.lt a (.fin 0) = true := by
        cases a <;> cases m <;> simp_all [FP.lt]
        intro h'; linarith
      tauto
    · rw [if_neg h, ih m hm]
      simp only [List.exists_mem_cons_iff]
      have : FP.lt a (.fin 0) = true → FP.lt m (.fin 0) = true := by
        cases a <;> cases m <;> simp_all [FP.lt]
        intro h'; linarith
      tauto

theorem dblMax_pos : 0 < dblMax := by unfold dblMax; norm_num

theorem minOK_fl (fp : FP) : MinOK (numFl fp) := by
  intro l
  rw [Bool.eq_iff_iff]
  have := foldl_min_fl l (.fin dblMax) (by simp)
  rw [List.any_eq_true]
  refine Iff.trans this ?_
  constructor
  · rintro (h | h)
    · have := dblMax_pos
      simp only [FP.lt, decide_eq_true_eq] at h
      linarith
    · exact h
  · exact Or.inr

theorem foldl_map_min (N : Num α) (l : List (List Int)) (g : List Int → α) (m : α) :
    l.foldl (fun m v => if N.lt (g v) m then g v else m) m =
      (l.map g).foldl (fun m x => if N.lt x m then x else m) m := by
  rw [List.foldl_map]

theorem checkNonneg_cases (N : Num α) (hN : MinOK N) : ∀ (ms : List (List Nat × (List Int → α))),
    (∀ m ∈ ms, GoodShape m.1) →
    (checkNonneg N (ms.map (fun m => arr m.1 m.2)) = .ok () ∧
      ∀ m ∈ ms, ∀ j, InRange m.1 j → N.lt (m.2 j) N.zero = false) ∨
    (checkNonneg N (ms.map (fun m => arr m.1 m.2)) = .thrown .negativeMarginal ∧
      ∃ m ∈ ms, ∃ j, InRange m.1 j ∧ N.lt (m.2 j) N.zero = true)
  | [], _ => Or.inl ⟨rfl, by simp⟩
  | m :: ms, h => by
    simp only [List.map_cons, checkNonneg]
    rw [minArr_eq N (h m (by simp)), foldl_map_min]
    simp only [Out.ok_bind]
    rw [hN]
    by_cases hany : ((allIdx m.1).map m.2).any (fun x => N.lt x N.zero) = true
    · right
      rw [if_pos hany]
      refine ⟨rfl, m, by simp, ?_⟩
      simp only [List.any_eq_true, List.mem_map] at hany
      obtain ⟨x, ⟨j, hj, rfl⟩, hx⟩ := hany
      exact ⟨j, mem_allIdx.mp hj, hx⟩
    · rw [if_neg hany]
      have hm : ∀ j, InRange m.1 j → N.lt (m.2 j) N.zero = false := by
        intro j hj
        by_contra hcon
        apply hany
        simp only [List.any_eq_true, List.mem_map]
        exact ⟨m.2 j, ⟨j, mem_allIdx.mpr hj, rfl⟩, by simpa using hcon⟩
      rcases checkNonneg_cases N hN ms (fun m hm => h m (by simp [hm])) with ⟨h1, h2⟩ | ⟨h1, m', hm', h2⟩
      · left
        refine ⟨h1, ?_⟩
        intro m' hm'
        rcases List.mem_cons.mp hm' with rfl | hm'
        · exact hm
        · exact h2 m' hm'
      · right
        exact ⟨h1, m', by simp [hm'], h2⟩

theorem roundedSum_eq (fp : FP) (N : Num α) (s : List Nat) (g : List Int → α) :
    roundedSum fp N (arr s g) = FP.toInt64 (fp.add (N.toFl (seqSum N s g)) (.fin (1 / 2))) := by
  unfold roundedSum
  rw [sumArr_eq]
  rfl

/-- the rounded total of a marginal as the code computes it -/
def roundedTotal (fp : FP) (N : Num α) (m : List Nat × (List Int → α)) : Out Int :=
  FP.toInt64 (fp.add (N.toFl (seqSum N m.1 m.2)) (.fin (1 / 2)))

theorem checkSums_cases (fp : FP) (N : Num α) (pop : Int) : ∀ (ms : List (List Nat × (List Int → α))),
    (∀ m ∈ ms, ∃ t, roundedTotal fp N m = .ok t) →
    (checkSums fp N pop (ms.map (fun m => arr m.1 m.2)) = .ok () ∧ ∀ m ∈ ms, roundedTotal fp N m = .ok pop) ∨
    (checkSums fp N pop (ms.map (fun m => arr m.1 m.2)) = .thrown .marginalSum ∧
      ∃ m ∈ ms, roundedTotal fp N m ≠ .ok pop)
  | [], _ => Or.inl ⟨rfl, by simp⟩
  | m :: ms, h => by
    obtain ⟨t, ht⟩ := h m (by simp)
    simp only [List.map_cons, checkSums, roundedSum_eq]
    rw [show FP.toInt64 (fp.add (N.toFl (seqSum N m.1 m.2)) (.fin (1 / 2))) = .ok t from ht]
    simp only [Out.ok_bind]
    by_cases hp : t = pop
    · rw [if_neg (by simpa using hp)]
      subst hp
      rcases checkSums_cases fp N t ms (fun m hm => h m (by simp [hm])) with ⟨h1, h2⟩ | ⟨h1, m', hm', h2⟩
      · left
        refine ⟨h1, ?_⟩
        intro m' hm'
        rcases List.mem_cons.mp hm' with rfl | hm'
        · exact ht
        · exact h2 m' hm'
      · right; exact ⟨h1, m', by simp [hm'], h2⟩
    · right
      rw [if_pos hp]
      refine ⟨rfl, m, by simp, ?_⟩
      rw [ht]; simpa using hp

theorem partialSum_eq (N : Num α) {s : List Nat} {P : Prob α} (hs : ∀ n ∈ s, 0 < n) (hs0 : s ≠ [])
    (hd : ∀ p ∈ P, p.1 ≠ [] ∧ ∀ d ∈ p.1, d < s.length) {q : Nat × Nat} {m : List Nat × (List Int → α)}
    (hm : P[q.1]? = some m) (hq : q.2 < m.1.length) :
    partialSum N (marginalsOf s P) q = .ok (sumsAt N s P q) := by
  have hmem : m ∈ P := List.mem_of_getElem? hm
  obtain ⟨h1, h2⟩ := hd m hmem
  have hg := goodShape_projSizes ⟨hs0, hs⟩ h1 h2
  unfold partialSum marginalsOf sumsAt
  rw [List.getElem?_map, hm]
  simp only [Option.map_some]
  exact reduce1_eq N hg m.2 (by simpa [projSizes] using hq)

theorem checkPartials_cases (N : Num α) {s : List Nat} {P : Prob α} (hs : ∀ n ∈ s, 0 < n) (hs0 : s ≠ [])
    (hd : ∀ p ∈ P, p.1 ≠ [] ∧ ∀ d ∈ p.1, d < s.length) (ms0 : List α) : ∀ (qs : List (Nat × Nat)),
    (∀ q ∈ qs, ∃ m, P[q.1]? = some m ∧ q.2 < m.1.length) →
    (checkPartials N (marginalsOf s P) ms0 qs = .ok () ∧ ∀ q ∈ qs, N.allclose (sumsAt N s P q) ms0 = true) ∨
    (checkPartials N (marginalsOf s P) ms0 qs = .thrown .partialSum ∧
      ∃ q ∈ qs, ¬ N.allclose (sumsAt N s P q) ms0 = true)
  | [], _ => Or.inl ⟨rfl, by simp⟩
  | q :: qs, h => by
    obtain ⟨m, hm, hq⟩ := h q (by simp)
    simp only [checkPartials]
    rw [partialSum_eq N hs hs0 hd hm hq]
    simp only [Out.ok_bind]
    by_cases hc : N.allclose (sumsAt N s P q) ms0 = true
    · rw [if_pos hc]
      rcases checkPartials_cases N hs hs0 hd ms0 qs (fun q hq => h q (by simp [hq])) with ⟨h1, h2⟩ | ⟨h1, q', hq', h2⟩
      · left
        refine ⟨h1, ?_⟩
        intro q' hq'
        rcases List.mem_cons.mp hq' with rfl | hq'
        · exact hc
        · exact h2 q' hq'
      · right; exact ⟨h1, q', by simp [hq'], h2⟩
    · right
      rw [if_neg hc]
      exact ⟨rfl, q, by simp, hc⟩

/-- the check at one dimension's list of places -/
def closeAt (N : Num α) (s : List Nat) (P : Prob α) (l : List (Nat × Nat)) : Prop :=
  ∀ p q, l.head? = some p → q ∈ l.tail → N.allclose (sumsAt N s P q) (sumsAt N s P p) = true

theorem checkDims_cases (N : Num α) {s : List Nat} {P : Prob α} (hs : ∀ n ∈ s, 0 < n) (hs0 : s ≠ [])
    (hd : ∀ p ∈ P, p.1 ≠ [] ∧ ∀ d ∈ p.1, d < s.length) : ∀ (ls : List (List (Nat × Nat))),
    (∀ l ∈ ls, ∀ q ∈ l, ∃ m, P[q.1]? = some m ∧ q.2 < m.1.length) →
    (checkDims N (marginalsOf s P) ls = .ok () ∧ ∀ l ∈ ls, closeAt N s P l) ∨
    (checkDims N (marginalsOf s P) ls = .thrown .partialSum ∧ ∃ l ∈ ls, ¬ closeAt N s P l)
  | [], _ => Or.inl ⟨rfl, by simp⟩
  | l :: ls, h => by
    have ih := checkDims_cases N hs hs0 hd ls (fun l hl => h l (by simp [hl]))
    match l, h with
    | [], h =>
      simp only [checkDims]
      have hc : closeAt N s P [] := by intro p q hp; simp at hp
      rcases ih with ⟨h1, h2⟩ | ⟨h1, l', hl', h2⟩
      · left; exact ⟨h1, by intro l hl; rcases List.mem_cons.mp hl with rfl | hl; exacts [hc, h2 l hl]⟩
      · right; exact ⟨h1, l', by simp [hl'], h2⟩
    | [p], h =>
      simp only [checkDims]
      have hc : closeAt N s P [p] := by intro a q hp hq; simp at hq
      rcases ih with ⟨h1, h2⟩ | ⟨h1, l', hl', h2⟩
      · left; exact ⟨h1, by intro l hl; rcases List.mem_cons.mp hl with rfl | hl; exacts [hc, h2 l hl]⟩
      · right; exact ⟨h1, l', by simp [hl'], h2⟩
    | p :: q :: ps, h =>
      simp only [checkDims]
      obtain ⟨m, hm, hpm⟩ := h (p :: q :: ps) (by simp) p (by simp)
      rw [partialSum_eq N hs hs0 hd hm hpm]
      simp only [Out.ok_bind]
      rcases checkPartials_cases N hs hs0 hd (sumsAt N s P p) (q :: ps)
        (fun x hx => h (p :: q :: ps) (by simp) x (List.mem_cons_of_mem _ hx)) with ⟨h1, h2⟩ | ⟨h1, x, hx, h2⟩
      · rw [h1]
        simp only [Out.ok_bind]
        have hc : closeAt N s P (p :: q :: ps) := by
          intro a x ha hx
          simp only [List.head?_cons, Option.some.injEq] at ha
          subst ha
          exact h2 x hx
        rcases ih with ⟨h1, h2⟩ | ⟨h1, l', hl', h2⟩
        · left; exact ⟨h1, by intro l hl; rcases List.mem_cons.mp hl with rfl | hl; exacts [hc, h2 l hl]⟩
        · right; exact ⟨h1, l', by simp [hl'], h2⟩
      · right
        rw [h1]
        refine ⟨rfl, p :: q :: ps, by simp, ?_⟩
        intro hc
        exact h2 (hc p x rfl hx)

end HL

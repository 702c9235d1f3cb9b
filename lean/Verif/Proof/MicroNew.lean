import Verif.Proof.MicroLemmas
import Verif.Proof.SliceLemmas
import Mathlib.Data.List.Perm.Subperm
import Mathlib.Data.List.Perm.Lattice

namespace HL
open Micro
variable {α β : Type}

/-- the object built by the constructor for the problem `P` -/
def mkMicro (β : Type) (s : List Nat) (P : Prob α) (pop : Int) : Micro β α :=
  { dim := s.length, sizes := s, indices := indicesOf P, marginals := marginalsOf s P, population := pop,
    dimLookup := (List.range s.length).map (fun d => places d 0 (P.map Prod.fst)),
    array := arrO s (fun _ => none) }

theorem mem_entries_of {s : List Nat} : ∀ {P : Prob α} {p : Int × Nat},
    p ∈ entries (indicesOf P) ((marginalsOf s P).map NDArray.sizes) ↔
      ∃ m ∈ P, ∃ d ∈ m.1, p = ((d : Int), s.getD d 0)
  | [], p => by simp [entries, indicesOf]
  | m :: P, p => by
    have ih := mem_entries_of (s := s) (P := P) (p := p)
    simp only [indicesOf, marginalsOf, List.map_cons, entries, List.mem_append, List.exists_mem_cons_iff] at ih ⊢
    rw [ih]
    refine or_congr ?_ Iff.rfl
    show p ∈ List.zip (m.1.map _) (projSizes m.1 s) ↔ _
    unfold projSizes
    rw [List.zip_map', List.mem_map]
    constructor
    · rintro ⟨d, hd, rfl⟩; exact ⟨d, hd, rfl⟩
    · rintro ⟨d, hd, rfl⟩; exact ⟨d, hd, rfl⟩

theorem forall2_of (s : List Nat) : ∀ (P : Prob α),
    List.Forall₂ (fun i a => i.length = NDArray.dim a) (indicesOf P) (marginalsOf s P)
  | [] => .nil
  | m :: P => .cons (by simp [NDArray.dim, arr, arrO, projSizes]) (forall2_of s P)

theorem map_cast_perm_range {ks : List Int} {D : Nat} (hn : ks.Nodup)
    (h : ∀ k, k ∈ ks ↔ ∃ d < D, k = ((d : Nat) : Int)) : ks.length = D := by
  have hp : ks.Perm ((List.range D).map (fun d : Nat => (d : Int))) := by
    rw [List.perm_ext_iff_of_nodup hn]
    · intro k
      rw [h]
      simp only [List.mem_map, List.mem_range]
      constructor
      · rintro ⟨d, h1, h2⟩; exact ⟨d, h1, h2.symm⟩
      · rintro ⟨d, h1, h2⟩; exact ⟨d, h1, h2.symm⟩
    · exact List.Nodup.map (fun a b hab => by simpa using hab) List.nodup_range
  simpa using hp.length_eq

theorem shape_stage {s : List Nat} {P : Prob α} (h : ProbShape s P) :
    ∃ m', enterAll [] (indicesOf P) (marginalsOf s P) = .ok m' ∧ m'.length = s.length ∧
      collectSizes m' m'.length 0 = .ok s := by
  rcases enterAll_cases [] (indicesOf P) (marginalsOf s P) (by simp [indicesOf, marginalsOf]) with
    ⟨m', h1, h2, -⟩ | ⟨-, h2 | h2⟩
  · have hlen : m'.length = s.length := by
      rw [← List.length_map (f := Prod.fst)]
      apply map_cast_perm_range (h2.nodup (by simp))
      intro k
      constructor
      · intro hk
        rcases h2.keys k hk with hk | hk
        · simp at hk
        · obtain ⟨p, hp, rfl⟩ := List.mem_map.mp hk
          obtain ⟨m, hm, d, hd, rfl⟩ := mem_entries_of.mp hp
          exact ⟨d, (h.dims m hm).2 d hd, rfl⟩
      · rintro ⟨d, hd, rfl⟩
        obtain ⟨m, hm, hdm⟩ := h.cover d hd
        exact lookup_isSome_iff.mp ⟨_, h2.enter _ (mem_entries_of.mpr ⟨m, hm, d, hdm, rfl⟩)⟩
    have hlook : ∀ d < s.length, m'.lookup (d : Int) = some (s.getD d 0) := by
      intro d hd
      obtain ⟨m, hm, hdm⟩ := h.cover d hd
      exact h2.enter _ (mem_entries_of.mpr ⟨m, hm, d, hdm, rfl⟩)
    refine ⟨m', h1, hlen, ?_⟩
    rcases collectSizes_cases m' m'.length 0 with ⟨s', h3, h4, h5⟩ | ⟨-, j, hj, h5⟩
    · rw [h3]
      congr 1
      apply List.ext_getElem (by omega)
      intro j hj1 hj2
      have a := h5 j (by omega)
      rw [Nat.zero_add, hlook j hj2] at a
      injection a with a
      simpa [List.getD_eq_getElem?_getD, hj1, hj2] using a.symm
    · rw [Nat.zero_add, hlook j (by omega)] at h5
      cases h5
  · exact absurd (forall2_of s P) h2
  · obtain ⟨p, hp, hne⟩ := h2 (fun k => s.getD k.toNat 0) (by simp)
    obtain ⟨m, hm, d, hd, rfl⟩ := mem_entries_of.mp hp
    simp at hne

/-- the shapes and entries of the marginals of `P` -/
def shapesOf (s : List Nat) (P : Prob α) : List (List Nat × (List Int → α)) :=
  P.map (fun p => (projSizes p.1 s, p.2))

theorem marginalsOf_eq (s : List Nat) (P : Prob α) :
    marginalsOf s P = (shapesOf s P).map (fun m => arr m.1 m.2) := by
  simp [marginalsOf, shapesOf]

theorem ProbShape.good {s : List Nat} {P : Prob α} (h : ProbShape s P) : GoodShape s :=
  ⟨by rintro rfl; have := h.two; simp at this, h.pos⟩

theorem ProbShape.goodP {s : List Nat} {P : Prob α} (h : ProbShape s P) {p} (hp : p ∈ P) :
    GoodShape (projSizes p.1 s) :=
  goodShape_projSizes h.good (h.dims p hp).1 (h.dims p hp).2

theorem new_shape (fp : FP) (N : Num α) (hN : MinOK N) {s : List Nat} {P : Prob α} (h : ProbShape s P)
    (hc : ∀ p ∈ P, ∃ t, roundedTotal fp N (projSizes p.1 s, p.2) = .ok t) :
    (∃ pop, ProbOKG fp N s P pop ∧
      Micro.new (β := β) fp N (indicesOf P) (marginalsOf s P) = .ok (mkMicro β s P pop)) ∨
    ((∃ e, Micro.new (β := β) fp N (indicesOf P) (marginalsOf s P) = .thrown e) ∧
      ∀ pop, ¬ ProbOKG fp N s P pop) := by
  obtain ⟨m', h1, h2, h3⟩ := shape_stage h
  unfold Micro.new
  rw [if_neg (by have := h.lists; simp [indicesOf, marginalsOf]; omega), h1]
  simp only [Out.ok_bind]
  rw [if_neg (by have := h.two; omega)]
  have hg : ∀ m ∈ shapesOf s P, GoodShape m.1 := by
    intro m hm
    obtain ⟨p, hp, rfl⟩ := List.mem_map.mp hm
    exact h.goodP hp
  have hlk : lookupAll (List.replicate m'.length []) 0 (indicesOf P) =
      .ok ((List.range s.length).map (fun d => places d 0 (P.map Prod.fst))) := by
    have := lookupAll_eq (D := s.length) (P.map Prod.fst) 0 (fun _ => []) (by
      intro ds hds d hd
      obtain ⟨p, hp, rfl⟩ := List.mem_map.mp hds
      exact (h.dims p hp).2 d hd)
    rw [h2]
    convert this using 2
    · rw [map_const_replicate]; simp
    · simp [indicesOf]
    · simp
  rw [marginalsOf_eq]
  rcases checkNonneg_cases N hN (shapesOf s P) hg with ⟨h4, h5⟩ | ⟨h4, m, hm, j, hj, hneg⟩
  swap
  · right
    rw [h4]
    refine ⟨⟨_, rfl⟩, ?_⟩
    intro pop hok
    obtain ⟨p, hp, rfl⟩ := List.mem_map.mp hm
    have := hok.nonneg p hp j hj
    rw [this] at hneg; cases hneg
  rw [h4]
  simp only [Out.ok_bind]
  rw [h3]
  simp only [Out.ok_bind]
  rw [hlk]
  simp only [Out.ok_bind]
  have hcs : ∀ m ∈ shapesOf s P, ∃ t, roundedTotal fp N m = .ok t := by
    intro m hm
    obtain ⟨p, hp, rfl⟩ := List.mem_map.mp hm
    exact hc p hp
  obtain ⟨p0, P', rfl⟩ : ∃ p0 P', P = p0 :: P' := by
    cases P with
    | nil => have := h.lists; simp at this
    | cons p0 P' => exact ⟨p0, P', rfl⟩
  obtain ⟨pop, hpop⟩ := hc p0 (by simp)
  rw [← marginalsOf_eq]
  simp only [marginalsOf, List.map_cons]
  rw [roundedSum_eq, show FP.toInt64 _ = .ok pop from hpop]
  simp only [Out.ok_bind]
  have hrest : (List.map (fun p : List Nat × (List Int → α) => arr (projSizes p.1 s) p.2) P') =
      (shapesOf s P').map (fun m => arr m.1 m.2) := by simp [shapesOf]
  rw [hrest]
  have hone : ∀ pop', ProbOKG fp N s (p0 :: P') pop' → pop' = pop := by
    intro pop' hok
    have := hok.total p0 (by simp)
    rw [show FP.toInt64 (fp.add (N.toFl (seqSum N (projSizes p0.1 s) p0.2)) (.fin (1 / 2))) = .ok pop from hpop] at this
    injection this with this
    exact this.symm
  rcases checkSums_cases fp N pop (shapesOf s P') (fun m hm => hcs m (by simp [shapesOf] at hm ⊢; tauto)) with
    ⟨h6, h7⟩ | ⟨h6, m, hm, h7⟩
  swap
  · right
    rw [h6]
    refine ⟨⟨_, rfl⟩, ?_⟩
    intro pop' hok
    obtain ⟨p, hp, rfl⟩ := List.mem_map.mp hm
    apply h7
    have := hok.total p (by simp [hp])
    rw [hone pop' hok] at this
    exact this
  rw [h6]
  simp only [Out.ok_bind]
  have hmo : arr (projSizes p0.1 s) p0.2 :: (shapesOf s P').map (fun m => arr m.1 m.2) =
      marginalsOf s (p0 :: P') := by simp [marginalsOf, shapesOf]
  rw [hmo]
  rcases checkDims_cases N h.pos h.good.1 h.dims
      ((List.range s.length).map (fun d => places d 0 ((p0 :: P').map Prod.fst))) (by
    intro l hl q hq
    obtain ⟨d, hd, rfl⟩ := List.mem_map.mp hl
    obtain ⟨-, ds, h8, h9⟩ := mem_places.mp hq
    rw [Nat.sub_zero, List.getElem?_map] at h8
    cases hx : (p0 :: P')[q.1]? with
    | none => rw [hx] at h8; cases h8
    | some m =>
      rw [hx] at h8
      simp only [Option.map_some, Option.some.injEq] at h8
      subst h8
      refine ⟨m, rfl, ?_⟩
      by_contra hcon
      rw [List.getElem?_eq_none (by omega)] at h9
      cases h9) with ⟨h8, h9⟩ | ⟨h8, l, hl, h9⟩
  · left
    refine ⟨pop, ⟨h, ?_, ?_, ?_⟩, ?_⟩
    · intro p hp j hj
      exact h5 (projSizes p.1 s, p.2) (List.mem_map.mpr ⟨p, hp, rfl⟩) j hj
    · intro p hp
      rcases List.mem_cons.mp hp with rfl | hp
      · exact hpop
      · exact h7 (projSizes p.1 s, p.2) (List.mem_map.mpr ⟨p, hp, rfl⟩)
    · intro d hd p q
      exact h9 _ (List.mem_map.mpr ⟨d, List.mem_range.mpr hd, rfl⟩) p q
    · rw [List.map_cons] at h8
      rw [h8]
      simp only [Out.ok_bind]
      rw [new_eq h.good]
      simp only [Out.ok_bind, Out.pure_eq, mkMicro, h2, List.map_cons]
  · right
    rw [List.map_cons] at h8
    rw [h8]
    refine ⟨⟨_, rfl⟩, ?_⟩
    intro pop' hok
    apply h9
    obtain ⟨d, hd, rfl⟩ := List.mem_map.mp hl
    intro p q
    exact hok.partials d (List.mem_range.mp hd) p q

theorem build_prob {s : List Nat} {D : Nat} : ∀ {is : List (List Int)} {ms : List (List Nat × (List Int → α))},
    List.Forall₂ (fun i (m : List Nat × (List Int → α)) => i.length = m.1.length) is ms →
    (∀ p ∈ entries is (ms.map Prod.fst), 0 ≤ p.1 ∧ p.1.toNat < D ∧ p.2 = s.getD p.1.toNat 0) →
    ∃ P : Prob α, is = indicesOf P ∧ ms = shapesOf s P ∧ ∀ p ∈ P, ∀ d ∈ p.1, d < D := by
  intro is ms hf
  induction hf with
  | nil => intro _; exact ⟨[], rfl, rfl, by simp⟩
  | @cons i m is ms hl hf ih =>
    intro he
    simp only [List.map_cons, entries, List.mem_append] at he
    obtain ⟨P, h1, h2, h3⟩ := ih (fun p hp => he p (Or.inr hp))
    have hi : ∀ j (hj : j < i.length), 0 ≤ i[j] ∧ i[j].toNat < D ∧ m.1[j]'(hl ▸ hj) = s.getD i[j].toNat 0 := by
      intro j hj
      have hj2 : j < m.1.length := hl ▸ hj
      have hz : (i[j], m.1[j]) ∈ i.zip m.1 := by
        rw [List.mem_iff_getElem]
        exact ⟨j, by simp [hj, hj2], by simp⟩
      exact he _ (Or.inl hz)
    refine ⟨(i.map Int.toNat, m.2) :: P, ?_, ?_, ?_⟩
    · simp only [indicesOf, List.map_cons, List.map_map]
      rw [h1]
      congr 1
      apply List.ext_getElem (by simp)
      intro j hj _
      have := (hi j hj).1
      simp; omega
    · simp only [shapesOf, List.map_cons]
      rw [h2]
      congr 1
      apply Prod.ext
      · simp only [projSizes]
        apply List.ext_getElem (by simp [hl])
        intro j hj hj2
        have := (hi j (hl ▸ hj)).2.2
        rw [this]; simp
      · rfl
    · intro p hp d hd
      rcases List.mem_cons.mp hp with rfl | hp
      · simp only [List.mem_map] at hd
        obtain ⟨x, hx, rfl⟩ := hd
        obtain ⟨j, hj, rfl⟩ := List.mem_iff_getElem.mp hx
        exact (hi j hj).2.1
      · exact h3 p hp d hd

theorem forall2_arr {is : List (List Int)} : ∀ {ms : List (List Nat × (List Int → α))},
    List.Forall₂ (fun i a => i.length = NDArray.dim a) is (ms.map (fun m => arr m.1 m.2)) →
    List.Forall₂ (fun i (m : List Nat × (List Int → α)) => i.length = m.1.length) is ms := by
  intro ms h
  rw [List.forall₂_map_right_iff] at h
  exact h

/-- Any input either is the description of a problem of the right shape, or is rejected. -/
theorem new_raw (fp : FP) (N : Num α) (hN : MinOK N) (is : List (List Int))
    (ms : List (List Nat × (List Int → α))) (hg : ∀ m ∈ ms, GoodShape m.1) :
    (∃ s P, is = indicesOf P ∧ ms = shapesOf s P ∧ ProbShape s P) ∨
    (∃ e, Micro.new (β := β) fp N is (ms.map (fun m => arr m.1 m.2)) = .thrown e) := by
  unfold Micro.new
  by_cases hlen : is.length ≠ (ms.map (fun m => arr m.1 m.2)).length ∨ is.length < 2
  · right
    rw [if_pos hlen]; exact ⟨_, rfl⟩
  rw [if_neg hlen]
  push Not at hlen
  rcases enterAll_cases [] is (ms.map (fun m => arr m.1 m.2)) hlen.1 with ⟨m', h1, h2, h3⟩ | ⟨⟨e, h1⟩, -⟩
  swap
  · right; rw [h1]; exact ⟨e, rfl⟩
  rw [h1]
  simp only [Out.ok_bind]
  by_cases htwo : m'.length < 2
  · right; rw [if_pos htwo]; exact ⟨_, rfl⟩
  rw [if_neg htwo]
  rcases checkNonneg_cases N hN ms hg with ⟨h4, -⟩ | ⟨h4, -⟩
  swap
  · right; rw [h4]; exact ⟨_, rfl⟩
  rw [h4]
  simp only [Out.ok_bind]
  rcases collectSizes_cases m' m'.length 0 with ⟨s, h5, h6, h7⟩ | ⟨h5, -⟩
  swap
  · right; rw [h5]; exact ⟨_, rfl⟩
  left
  have hes : entries is ((ms.map (fun m => arr m.1 m.2)).map NDArray.sizes) = entries is (ms.map Prod.fst) := by
    congr 1
    rw [List.map_map]
    rfl
  rw [hes] at h2
  have hkeys : ∀ k ∈ m'.map Prod.fst, ∃ d < m'.length, k = ((d : Nat) : Int) := by
    have hsub : ((List.range m'.length).map (fun d : Nat => (d : Int))) ⊆ m'.map Prod.fst := by
      intro k hk
      obtain ⟨d, hd, rfl⟩ := List.mem_map.mp hk
      exact lookup_isSome_iff.mp ⟨_, by simpa using h7 d (List.mem_range.mp hd)⟩
    have hnd : ((List.range m'.length).map (fun d : Nat => (d : Int))).Nodup :=
      List.Nodup.map (fun a b hab => by simpa using hab) List.nodup_range
    have hp := (List.subperm_of_subset hnd hsub).perm_of_length_le (by simp)
    intro k hk
    have := hp.mem_iff.mpr hk
    obtain ⟨d, hd, rfl⟩ := List.mem_map.mp this
    exact ⟨d, List.mem_range.mp hd, rfl⟩
  obtain ⟨P, hP1, hP2, hP3⟩ := build_prob (s := s) (D := m'.length) (forall2_arr h3) (by
    intro p hp
    have hl := h2.enter p hp
    obtain ⟨d, hd, hd2⟩ := hkeys p.1 (lookup_isSome_iff.mp ⟨_, hl⟩)
    rw [hd2] at hl ⊢
    have := h7 d hd
    rw [Nat.zero_add, hl] at this
    injection this with this
    exact ⟨by omega, by simpa using hd, by simpa using this⟩)
  have hdims : ∀ p ∈ P, p.1 ≠ [] ∧ ∀ d ∈ p.1, d < s.length := by
    intro p hp
    refine ⟨?_, fun d hd => h6 ▸ hP3 p hp d hd⟩
    have := (hg (projSizes p.1 s, p.2) (by rw [hP2]; exact List.mem_map.mpr ⟨p, hp, rfl⟩)).1
    simpa [projSizes] using this
  have hcover : ∀ d < s.length, ∃ p ∈ P, d ∈ p.1 := by
    intro d hd
    have hl := h7 d (h6 ▸ hd)
    rcases h2.keys _ (lookup_isSome_iff.mp ⟨_, hl⟩) with hk | hk
    · simp at hk
    · obtain ⟨q, hq, hq2⟩ := List.mem_map.mp hk
      have hq' : q ∈ entries (indicesOf P) ((marginalsOf s P).map NDArray.sizes) := by
        rw [← hP1, marginalsOf_eq, ← hP2, hes]; exact hq
      obtain ⟨m, hm, d', hd', rfl⟩ := mem_entries_of.mp hq'
      simp only [Nat.zero_add, Nat.cast_inj] at hq2
      exact ⟨m, hm, hq2 ▸ hd'⟩
  refine ⟨s, P, hP1, hP2, ?_, by omega, ?_, hdims, hcover⟩
  · have := hlen.2
    rw [hP1] at this
    simpa [indicesOf] using this
  · intro n hn
    obtain ⟨d, hd, rfl⟩ := List.mem_iff_getElem.mp hn
    obtain ⟨p, hp, hdp⟩ := hcover d hd
    have := (hg (projSizes p.1 s, p.2) (by rw [hP2]; exact List.mem_map.mpr ⟨p, hp, rfl⟩)).2 (s.getD d 0)
      (List.mem_map.mpr ⟨d, hdp, rfl⟩)
    simpa [List.getD_eq_getElem?_getD, hd] using this

end HL

import Verif.Proof.Relabel

namespace HL

theorem forall₂_map_self {γ δ : Type} {R : γ → δ → Prop} {F : γ → δ} {l : List γ} (h : ∀ x ∈ l, R x (F x)) :
    List.Forall₂ R l (l.map F) := by
  rw [List.forall₂_map_right_iff, List.forall₂_same]; exact h

theorem forall₂_map_self' {γ δ : Type} {R : δ → γ → Prop} {F : γ → δ} {l : List γ} (h : ∀ x ∈ l, R (F x) x) :
    List.Forall₂ R (l.map F) l := by
  rw [List.forall₂_map_left_iff, List.forall₂_same]; exact h

/-! ### Categories -/

theorem renamed_marg {s : List Nat} {π : Nat → Int → Int} (h : Renaming s π) {Q : Prob ℚ} (hQ : ProbShape s Q) :
    List.Forall₂ (MargIso s s (oldCell s π)) (renamed π Q) Q := by
  apply forall₂_map_self'
  intro q hq
  have hd := (hQ.dims q hq).2
  refine ⟨hd, oldNames π q.1, oldNames_bij h hd, ?_, fun _ _ => rfl⟩
  intro v hv
  have hl := inRange_length hv
  apply ext_getD (by simp [proj, oldNames_length])
  intro k hk
  have hk : k < q.1.length := by simpa [proj] using hk
  have hdk := hd _ (getD_mem' hk)
  rw [proj_getD' hk, oldNames_getD π (by simp [proj]) hk, proj_getD' hk]
  unfold oldCell
  rw [oldNames_getD π (by simpa using hl) (by simpa using hdk)]
  have e : (List.range s.length).getD (q.1.getD k 0) 0 = q.1.getD k 0 := by
    generalize q.1.getD k 0 = n at hdk
    simp [hdk]
  rw [e]

theorem oldCell_bij {s : List Nat} {π : Nat → Int → Int} (h : Renaming s π) : CellBij s s (oldCell s π) := by
  have := oldNames_bij h (ds := List.range s.length) (by simp)
  rwa [projSizes_allDims] at this

theorem renamed_shape {s : List Nat} {π : Nat → Int → Int} {Q : Prob ℚ} (h : ProbShape s Q) : ProbShape s (renamed π Q) :=
  probShape_congr (by simp [renamed]) h

theorem renamed_proper {s : List Nat} {π : Nat → Int → Int} {Q : Prob ℚ} (h : ProperProb s Q) :
    ProperProb s (renamed π Q) := by
  intro p hp
  obtain ⟨q, hq, rfl⟩ := List.mem_map.mp hp
  exact h q hq

theorem single_bij {π : Nat → Int → Int} {d n : Nat}
    (h : Set.BijOn (π d) (Set.Ico 0 (n : Int)) (Set.Ico 0 (n : Int))) :
    CellBij [n] [n] (fun j => j.map (π d)) := by
  have e : ∀ j, InRange [n] j ↔ ∃ x ∈ Set.Ico 0 (n : Int), j = [x] := by
    intro j
    constructor
    · intro hj
      cases hj with
      | cons h1 h2 => cases h2; exact ⟨_, h1, rfl⟩
    · rintro ⟨x, hx, rfl⟩
      exact .cons hx .nil
  refine ⟨?_, ?_, ?_⟩
  · intro j hj
    obtain ⟨x, hx, rfl⟩ := (e j).mp hj
    exact (e _).mpr ⟨_, h.mapsTo hx, rfl⟩
  · intro j hj i hi he
    obtain ⟨x, hx, rfl⟩ := (e j).mp hj
    obtain ⟨y, hy, rfl⟩ := (e i).mp hi
    simp only [List.map_cons, List.map_nil, List.cons.injEq, and_true] at he
    rw [h.injOn hx hy he]
  · intro j hj
    obtain ⟨x, hx, rfl⟩ := (e j).mp hj
    obtain ⟨y, hy, rfl⟩ := h.surjOn hx
    exact ⟨[y], (e _).mpr ⟨y, hy, rfl⟩, rfl⟩

/-- a sum along one dimension, under the new names -/
theorem renamed_partial {s : List Nat} {π : Nat → Int → Int} (h : Renaming s π) {ds : List Nat}
    (hd : ∀ d ∈ ds, d < s.length) {a d : Nat} (ha : ds[a]? = some d) (m : List Int → ℚ) {x : Int}
    (hx : x ∈ Set.Ico 0 (s.getD d 0 : Int)) :
    marginalSum (projSizes ds s) [a] (fun j => m (oldNames π ds j)) [x] = marginalSum (projSizes ds s) [a] m [π d x] := by
  obtain ⟨hal, hae⟩ := List.getElem?_eq_some_iff.mp ha
  have hd' : d < s.length := hd d (by rw [← hae]; exact List.getElem_mem _)
  have hg : ds.getD a 0 = d := by simp [List.getD_eq_getElem?_getD, ha]
  have hs : projSizes [a] (projSizes ds s) = [s.getD d 0] := by
    show [(projSizes ds s).getD a 0] = _
    rw [projSizes_getD' hal, hg]
  have := marginalSum_bij (ds := [a]) (ds' := [a]) (g := fun j => j.map (π d)) (F := fun j => m (oldNames π ds j)) (F' := m)
    (oldNames_bij h hd) (by rw [hs]; exact single_bij (h d hd')) (by simpa [projSizes] using hal) ?_ (fun _ _ => rfl)
    (j := [x]) (by rw [hs]; exact .cons hx .nil)
  · exact this.symm
  · intro v hv
    have hl : v.length = ds.length := by have := inRange_length hv; simpa [projSizes] using this
    show [(oldNames π ds v).getD a 0] = [π d (v.getD a 0)]
    rw [oldNames_getD π hl hal, hg]

theorem renamed_ok {s : List Nat} {π : Nat → Int → Int} (h : Renaming s π) {Q : Prob ℚ} {pop : Int}
    (hQ : RatOK s Q pop) : RatOK s (renamed π Q) pop := by
  refine ⟨renamed_shape hQ.toProbShape, ?_, ?_, ?_⟩
  · intro p hp j hj
    obtain ⟨q, hq, rfl⟩ := List.mem_map.mp hp
    exact hQ.nonneg q hq _ ((oldNames_bij h (hQ.dims q hq).2).mem hj)
  · intro p hp
    obtain ⟨q, hq, rfl⟩ := List.mem_map.mp hp
    rw [← hQ.total q hq]
    exact ((oldNames_bij h (hQ.dims q hq).2).sum (fun _ _ => rfl)).symm
  · intro p hp p' hp' a b d ha hb x hx
    obtain ⟨q, hq, rfl⟩ := List.mem_map.mp hp
    obtain ⟨q', hq', rfl⟩ := List.mem_map.mp hp'
    have hxi : (x : Int) ∈ Set.Ico 0 (s.getD d 0 : Int) := ⟨by omega, by exact_mod_cast hx⟩
    have hd : d < s.length := by
      obtain ⟨hal, hae⟩ := List.getElem?_eq_some_iff.mp ha
      exact (hQ.dims q hq).2 d (by rw [← hae]; exact List.getElem_mem _)
    rw [renamed_partial h (hQ.dims q hq).2 ha q.2 hxi, renamed_partial h (hQ.dims q' hq').2 hb q'.2 hxi]
    obtain ⟨h1, h2⟩ := (h d hd).mapsTo hxi
    obtain ⟨y, hy⟩ := Int.eq_ofNat_of_zero_le h1
    rw [hy] at h2 ⊢
    exact hQ.partials q hq q' hq' a b d ha hb y (by exact_mod_cast h2)

/-! ### Dimensions of the table -/

theorem perm_range {τ : List Nat} {n : Nat} (h : τ.Perm (List.range n)) :
    τ.Nodup ∧ (∀ d, d ∈ τ ↔ d < n) ∧ τ.length = n :=
  ⟨h.nodup_iff.mpr List.nodup_range, fun d => by rw [h.mem_iff, List.mem_range], by rw [h.length_eq, List.length_range]⟩

theorem getD_idxOf {τ : List Nat} {d : Nat} (h : d ∈ τ) : τ.getD (τ.idxOf d) 0 = d := by
  have := List.idxOf_lt_length_iff.mpr h
  simp [List.getD_eq_getElem?_getD, this]

theorem proj_renumber {τ : List Nat} {ds : List Nat} (hd : ∀ d ∈ ds, d ∈ τ) (v : List Int) :
    proj (ds.map (fun d => τ.idxOf d)) (proj τ v) = proj ds v := by
  unfold proj
  rw [List.map_map]
  apply List.map_congr_left
  intro d hm
  have hlt := List.idxOf_lt_length_iff.mpr (hd d hm)
  have := proj_getD' (v := v) hlt
  rw [getD_idxOf (hd d hm)] at this
  exact this

theorem projSizes_renumber {τ : List Nat} {ds : List Nat} (hd : ∀ d ∈ ds, d ∈ τ) (s : List Nat) :
    projSizes (ds.map (fun d => τ.idxOf d)) (projSizes τ s) = projSizes ds s := by
  unfold projSizes
  rw [List.map_map]
  apply List.map_congr_left
  intro d hm
  have hlt := List.idxOf_lt_length_iff.mpr (hd d hm)
  have := projSizes_getD' (s := s) hlt
  rw [getD_idxOf (hd d hm)] at this
  exact this

theorem renumbered_marg {s τ : List Nat} (hτ : τ.Perm (List.range s.length)) {Q : Prob ℚ} (hQ : ProbShape s Q) :
    List.Forall₂ (MargIso s (projSizes τ s) (proj τ)) Q (renumbered τ Q) := by
  obtain ⟨hn, hm, hl⟩ := perm_range hτ
  apply forall₂_map_self
  intro q hq
  have hd := (hQ.dims q hq).2
  have hd' : ∀ d ∈ q.1, d ∈ τ := fun d h => (hm d).mpr (hd d h)
  refine ⟨hd, id, ?_, fun v _ => proj_renumber hd' v, fun _ _ => rfl⟩
  simp only [projSizes_renumber hd']
  exact Set.bijOn_id _

theorem renumbered_shape {s τ : List Nat} (hτ : τ.Perm (List.range s.length)) {Q : Prob ℚ} (h : ProbShape s Q) :
    ProbShape (projSizes τ s) (renumbered τ Q) := by
  obtain ⟨hn, hm, hl⟩ := perm_range hτ
  have hL : (projSizes τ s).length = s.length := by simp [projSizes, hl]
  refine ⟨by simpa [renumbered] using h.lists, by rw [hL]; exact h.two, ?_, ?_, ?_⟩
  · intro n hn
    obtain ⟨d, hd, rfl⟩ := List.mem_map.mp hn
    have hd := (hm d).mp hd
    apply h.pos
    simp [List.getD_eq_getElem?_getD, hd]
  · intro p hp
    obtain ⟨q, hq, rfl⟩ := List.mem_map.mp hp
    refine ⟨by simpa using (h.dims q hq).1, ?_⟩
    intro d hd
    obtain ⟨e, he, rfl⟩ := List.mem_map.mp hd
    rw [hL, ← hl]
    exact List.idxOf_lt_length_iff.mpr ((hm e).mpr ((h.dims q hq).2 e he))
  · intro d hd
    rw [hL, ← hl] at hd
    obtain ⟨q, hq, hqd⟩ := h.cover τ[d] ((hm _).mp (List.getElem_mem _))
    refine ⟨_, List.mem_map.mpr ⟨q, hq, rfl⟩, ?_⟩
    exact List.mem_map.mpr ⟨τ[d], hqd, by exact hn.idxOf_getElem d hd⟩

theorem renumbered_proper {s τ : List Nat} (hτ : τ.Perm (List.range s.length)) {Q : Prob ℚ} (hQ : ProbShape s Q)
    (h : ProperProb s Q) : ProperProb (projSizes τ s) (renumbered τ Q) := by
  obtain ⟨hn, hm, hl⟩ := perm_range hτ
  have hL : (projSizes τ s).length = s.length := by simp [projSizes, hl]
  intro p hp
  obtain ⟨q, hq, rfl⟩ := List.mem_map.mp hp
  obtain ⟨h1, ⟨d, hd, hdn⟩, h3⟩ := h q hq
  have hd' : ∀ e ∈ q.1, e ∈ τ := fun e h => (hm e).mpr ((hQ.dims q hq).2 e h)
  refine ⟨by rw [hL]; simpa using h1, ⟨τ.idxOf d, ?_, ?_⟩, ?_⟩
  · rw [hL, ← hl]; exact List.idxOf_lt_length_iff.mpr ((hm d).mpr hd)
  · intro hc
    obtain ⟨e, he, hee⟩ := List.mem_map.mp hc
    have := congrArg (fun k => τ.getD k 0) hee
    simp only [getD_idxOf (hd' e he), getD_idxOf ((hm d).mpr hd)] at this
    exact hdn (this ▸ he)
  · unfold Loose
    rw [List.pairwise_map]
    refine List.Pairwise.imp_of_mem ?_ h3
    intro a b ha hb hab e
    have e' := congrArg (fun k => τ.getD k 0) e
    simp only [getD_idxOf (hd' a ha), getD_idxOf (hd' b hb)] at e'
    rw [projSizes_getD' (List.idxOf_lt_length_iff.mpr (hd' a ha)), getD_idxOf (hd' a ha)]
    exact hab e'

theorem renumbered_ok {s τ : List Nat} (hτ : τ.Perm (List.range s.length)) {Q : Prob ℚ} {pop : Int} (h : RatOK s Q pop) :
    RatOK (projSizes τ s) (renumbered τ Q) pop := by
  obtain ⟨hn, hm, hl⟩ := perm_range hτ
  have hd' : ∀ q ∈ Q, ∀ e ∈ q.1, e ∈ τ := fun q hq e he => (hm e).mpr ((h.dims q hq).2 e he)
  refine ⟨renumbered_shape hτ h.toProbShape, ?_, ?_, ?_⟩
  · intro p hp j hj
    obtain ⟨q, hq, rfl⟩ := List.mem_map.mp hp
    simp only [projSizes_renumber (hd' q hq)] at hj
    exact h.nonneg q hq j hj
  · intro p hp
    obtain ⟨q, hq, rfl⟩ := List.mem_map.mp hp
    simp only [projSizes_renumber (hd' q hq)]
    exact h.total q hq
  · intro p hp p' hp' a b d ha hb x hx
    obtain ⟨q, hq, rfl⟩ := List.mem_map.mp hp
    obtain ⟨q', hq', rfl⟩ := List.mem_map.mp hp'
    simp only [projSizes_renumber (hd' q hq), projSizes_renumber (hd' q' hq')]
    simp only [List.getElem?_map, Option.map_eq_some_iff] at ha hb
    obtain ⟨e, he, rfl⟩ := ha
    obtain ⟨e', he', hee⟩ := hb
    have hem := hd' q hq e (List.mem_of_getElem? he)
    have hem' := hd' q' hq' e' (List.mem_of_getElem? he')
    have := congrArg (fun k => τ.getD k 0) hee
    simp only [getD_idxOf hem, getD_idxOf hem'] at this
    subst this
    refine h.partials q hq q' hq' a b e' he he' x ?_
    rwa [projSizes_getD' (List.idxOf_lt_length_iff.mpr hem), getD_idxOf hem] at hx

/-! ### Dimensions of the marginals -/

theorem transposed_proj {ρ ds : List Nat} (hρ : ∀ k ∈ ρ, k < ds.length) (v : List Int) :
    proj (ρ.map (fun k => ds.getD k 0)) v = proj ρ (proj ds v) := by
  show (ρ.map (fun k => ds.getD k 0)).map _ = ρ.map _
  rw [List.map_map]
  apply List.map_congr_left
  intro k hk
  exact (proj_getD' (hρ k hk)).symm

theorem transposed_projSizes {ρ ds : List Nat} (hρ : ∀ k ∈ ρ, k < ds.length) (s : List Nat) :
    projSizes (ρ.map (fun k => ds.getD k 0)) s = projSizes ρ (projSizes ds s) := by
  show (ρ.map (fun k => ds.getD k 0)).map _ = ρ.map _
  rw [List.map_map]
  apply List.map_congr_left
  intro k hk
  exact (projSizes_getD' (hρ k hk)).symm

theorem transposed_perm {ρ ds : List Nat} (hρ : ρ.Perm (List.range ds.length)) :
    (ρ.map (fun k => ds.getD k 0)).Perm ds := by
  have h1 := hρ.map (fun k => ds.getD k 0)
  have h2 : (List.range ds.length).map (fun k => ds.getD k 0) = ds := by
    apply List.ext_getElem (by simp)
    intro k h1 h2
    simp [h2]
  rwa [h2] at h1

theorem transposed_bij {s ρ ds : List Nat} (hρ : ρ.Perm (List.range ds.length)) :
    CellBij (projSizes ds s) (projSizes ρ (projSizes ds s)) (proj ρ) := by
  obtain ⟨hn, hm, hl⟩ := perm_range hρ
  apply proj_bij hn
  · intro d hd; simpa [projSizes] using (hm d).mp hd
  · intro d hd; exact (hm d).mpr (by simpa [projSizes] using hd)

theorem transposed_marg {s : List Nat} {q q' : List Nat × (List Int → ℚ)} (hd : ∀ d ∈ q.1, d < s.length)
    (h : Transposed s q q') : MargIso s s id q q' := by
  obtain ⟨ρ, hρ, h1, h2⟩ := h
  obtain ⟨hn, hm, hl⟩ := perm_range hρ
  have hlt : ∀ k ∈ ρ, k < q.1.length := fun k hk => (hm k).mp hk
  refine ⟨hd, proj ρ, ?_, ?_, h2⟩
  · rw [h1, transposed_projSizes hlt]; exact transposed_bij hρ
  · intro v _; rw [h1]; exact transposed_proj hlt v

theorem transposed_mem {s : List Nat} {Q Q' : Prob ℚ} (h : List.Forall₂ (Transposed s) Q Q') :
    ∀ q' ∈ Q', ∃ q ∈ Q, Transposed s q q' := by
  induction h with
  | nil => simp
  | @cons a b l l' hab _ ih =>
    intro q' hq'
    rcases List.mem_cons.mp hq' with rfl | hq'
    · exact ⟨a, by simp, hab⟩
    · obtain ⟨q, hq, hh⟩ := ih q' hq'
      exact ⟨q, by simp [hq], hh⟩

theorem transposed_mem' {s : List Nat} {Q Q' : Prob ℚ} (h : List.Forall₂ (Transposed s) Q Q') :
    ∀ q ∈ Q, ∃ q' ∈ Q', Transposed s q q' := by
  induction h with
  | nil => simp
  | @cons a b l l' hab _ ih =>
    intro q hq
    rcases List.mem_cons.mp hq with rfl | hq
    · exact ⟨b, by simp, hab⟩
    · obtain ⟨q', hq', hh⟩ := ih q hq
      exact ⟨q', by simp [hq'], hh⟩

theorem transposed_shape {s : List Nat} {Q Q' : Prob ℚ} (h : List.Forall₂ (Transposed s) Q Q') (hQ : ProbShape s Q) :
    ProbShape s Q' := by
  refine ⟨by rw [← h.length_eq]; exact hQ.lists, hQ.two, hQ.pos, ?_, ?_⟩
  · intro q' hq'
    obtain ⟨q, hq, ρ, hρ, e, -⟩ := transposed_mem h q' hq'
    have hp := transposed_perm hρ
    rw [← e] at hp
    exact ⟨fun hc => (hQ.dims q hq).1 (by rw [hc] at hp; exact List.nil_perm.mp hp),
      fun d hd => (hQ.dims q hq).2 d (hp.mem_iff.mp hd)⟩
  · intro d hd
    obtain ⟨q, hq, hqd⟩ := hQ.cover d hd
    obtain ⟨q', hq', ρ, hρ, e, -⟩ := transposed_mem' h q hq
    have hp := transposed_perm hρ
    rw [← e] at hp
    exact ⟨q', hq', hp.mem_iff.mpr hqd⟩

theorem transposed_proper {s : List Nat} {Q Q' : Prob ℚ} (h : List.Forall₂ (Transposed s) Q Q') (hQ : ProperProb s Q) :
    ProperProb s Q' := by
  intro q' hq'
  obtain ⟨q, hq, ρ, hρ, e, -⟩ := transposed_mem h q' hq'
  have hp := transposed_perm hρ
  rw [← e] at hp
  obtain ⟨h1, ⟨d, hd, hdn⟩, h3⟩ := hQ q hq
  refine ⟨by rw [hp.length_eq]; exact h1, ⟨d, hd, fun hc => hdn (hp.mem_iff.mp hc)⟩, ?_⟩
  unfold Loose at h3 ⊢
  refine (hp.pairwise_iff ?_).mpr h3
  intro a b hab hba
  rw [hba]
  exact hab hba.symm

theorem transposed_partial {s ρ ds : List Nat} (hρ : ρ.Perm (List.range ds.length)) {m m' : List Int → ℚ}
    (hm : ∀ j, InRange (projSizes ds s) j → m' (proj ρ j) = m j) {a : Nat} (ha : a < ρ.length) {x : Int}
    (hx : x ∈ Set.Ico 0 (s.getD (ds.getD (ρ.getD a 0) 0) 0 : Int)) :
    marginalSum (projSizes ρ (projSizes ds s)) [a] m' [x] = marginalSum (projSizes ds s) [ρ.getD a 0] m [x] := by
  obtain ⟨hn, hmm, hl⟩ := perm_range hρ
  have hk : ρ.getD a 0 < ds.length := (hmm _).mp (getD_mem' ha)
  have hs : projSizes [ρ.getD a 0] (projSizes ds s) = [s.getD (ds.getD (ρ.getD a 0) 0) 0] := by
    show [(projSizes ds s).getD (ρ.getD a 0) 0] = _
    rw [projSizes_getD' hk]
  have hs' : projSizes [a] (projSizes ρ (projSizes ds s)) = [s.getD (ds.getD (ρ.getD a 0) 0) 0] := by
    show [(projSizes ρ (projSizes ds s)).getD a 0] = _
    rw [projSizes_getD' ha, projSizes_getD' hk]
  refine marginalSum_bij (g := id) (f := proj ρ) (transposed_bij hρ) ?_ ?_ ?_ hm (j := [x]) ?_
  · rw [hs, hs']; exact Set.bijOn_id _
  · simpa [projSizes] using hk
  · intro v _
    show [(proj ρ v).getD a 0] = [v.getD (ρ.getD a 0) 0]
    rw [proj_getD' ha]
  · rw [hs]; exact .cons hx .nil

theorem transposed_ok {s : List Nat} {Q Q' : Prob ℚ} {pop : Int} (h : List.Forall₂ (Transposed s) Q Q') (hQ : RatOK s Q pop) :
    RatOK s Q' pop := by
  refine ⟨transposed_shape h hQ.toProbShape, ?_, ?_, ?_⟩
  · intro q' hq' j hj
    obtain ⟨q, hq, ρ, hρ, e, hm⟩ := transposed_mem h q' hq'
    have hlt : ∀ k ∈ ρ, k < q.1.length := fun k hk => ((perm_range hρ).2.1 k).mp hk
    rw [e, transposed_projSizes hlt] at hj
    obtain ⟨i, hi, rfl⟩ := (transposed_bij hρ).surjOn hj
    rw [hm i hi]
    exact hQ.nonneg q hq i hi
  · intro q' hq'
    obtain ⟨q, hq, ρ, hρ, e, hm⟩ := transposed_mem h q' hq'
    have hlt : ∀ k ∈ ρ, k < q.1.length := fun k hk => ((perm_range hρ).2.1 k).mp hk
    rw [e, transposed_projSizes hlt, ← hQ.total q hq]
    exact (transposed_bij hρ).sum hm
  · have key : ∀ q' ∈ Q', ∀ (a d : Nat), q'.1[a]? = some d → ∃ q ∈ Q, ∃ k, q.1[k]? = some d ∧ ∀ x : Nat, x < s.getD d 0 →
        marginalSum (projSizes q'.1 s) [a] q'.2 [(x : Int)] = marginalSum (projSizes q.1 s) [k] q.2 [(x : Int)] := by
      intro q' hq' a d ha
      obtain ⟨q, hq, ρ, hρ, e, hm⟩ := transposed_mem h q' hq'
      have hlt : ∀ k ∈ ρ, k < q.1.length := fun k hk => ((perm_range hρ).2.1 k).mp hk
      rw [e] at ha ⊢
      obtain ⟨hal, hae⟩ := List.getElem?_eq_some_iff.mp ha
      have hal' : a < ρ.length := by simpa using hal
      have hk := hlt _ (getD_mem' hal')
      have hd : q.1.getD (ρ.getD a 0) 0 = d := by
        rw [← hae]; simp [List.getD_eq_getElem?_getD, hal']
      refine ⟨q, hq, ρ.getD a 0, ?_, ?_⟩
      · rw [← hd]
        generalize ρ.getD a 0 = k at hk
        simp [List.getD_eq_getElem?_getD, hk]
      · intro x hx
        rw [transposed_projSizes hlt]
        exact transposed_partial hρ hm hal' (by rw [hd]; exact ⟨by omega, by exact_mod_cast hx⟩)
    intro p hp p' hp' a b d ha hb x hx
    obtain ⟨q, hq, k, hk, h1⟩ := key p hp a d ha
    obtain ⟨q', hq', k', hk', h2⟩ := key p' hp' b d hb
    rw [h1 x hx, h2 x hx]
    exact hQ.partials q hq q' hq' k k' d hk hk' x hx

end HL

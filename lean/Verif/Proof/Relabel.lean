import Verif.RelabelSpec
import Verif.Proof.IPFProduct
import Verif.Proof.MicroRat

namespace HL

/-- `f` maps the cells of one array one-to-one to those of another -/
def CellBij (s s' : List Nat) (f : List Int → List Int) : Prop :=
  Set.BijOn f {v | InRange s v} {v | InRange s' v}

theorem CellBij.toCells {s s' : List Nat} {f : List Int → List Int} (h : CellBij s s' f) :
    Set.BijOn f (cells s : Set (List Int)) (cells s' : Set (List Int)) := by
  have e : ∀ t : List Nat, (HL.cells t : Set (List Int)) = {v | InRange t v} := by
    intro t; ext v; simp [mem_cells]
  rw [e, e]; exact h

theorem CellBij.mem {s s' : List Nat} {f : List Int → List Int} (h : CellBij s s' f) {v : List Int} (hv : InRange s v) :
    InRange s' (f v) := h.mapsTo hv

theorem CellBij.sum {γ : Type} [AddCommMonoid γ] {s s' : List Nat} {f : List Int → List Int} (h : CellBij s s' f)
    {F F' : List Int → γ} (hF : ∀ v, InRange s v → F' (f v) = F v) : ∑ v ∈ cells s', F' v = ∑ v ∈ cells s, F v :=
  (Finset.sum_nbij f (fun v hv => Finset.mem_coe.mp (h.toCells.mapsTo hv)) h.toCells.injOn h.toCells.surjOn
    (fun v hv => (hF v (mem_cells.mp hv)).symm)).symm

/-- sums over corresponding fibres -/
theorem marginalSum_bij {γ : Type} [AddCommMonoid γ] {s s' ds ds' : List Nat} {f g : List Int → List Int}
    (hf : CellBij s s' f) (hg : CellBij (projSizes ds s) (projSizes ds' s') g) (hd : ∀ d ∈ ds, d < s.length)
    (hfg : ∀ v, InRange s v → proj ds' (f v) = g (proj ds v)) {F F' : List Int → γ}
    (hF : ∀ v, InRange s v → F' (f v) = F v) {j : List Int} (hj : InRange (projSizes ds s) j) :
    marginalSum s' ds' F' (g j) = marginalSum s ds F j := by
  unfold marginalSum
  rw [Finset.sum_filter, Finset.sum_filter]
  apply hf.sum
  intro v hv
  rw [hfg v hv, hF v hv]
  have : g (proj ds v) = g j ↔ proj ds v = j := ⟨fun h => hg.injOn (inRange_proj hd hv) hj h, fun h => by rw [h]⟩
  simp only [this]

/-- corresponding marginals -/
def MargIso (s s' : List Nat) (f : List Int → List Int) (q q' : List Nat × (List Int → ℚ)) : Prop :=
  (∀ d ∈ q.1, d < s.length) ∧ ∃ g, CellBij (projSizes q.1 s) (projSizes q'.1 s') g ∧
    (∀ v, InRange s v → proj q'.1 (f v) = g (proj q.1 v)) ∧ ∀ j, InRange (projSizes q.1 s) j → q'.2 (g j) = q.2 j

theorem qscaled_iso {s s' : List Nat} {f : List Int → List Int} (hf : CellBij s s' f)
    {q q' : List Nat × (List Int → ℚ)} (h : MargIso s s' f q q') {b b' : List Int → ℚ}
    (hb : ∀ v, InRange s v → b' (f v) = b v) :
    ∀ v, InRange s v → qscaled s' q'.1 q'.2 b' (f v) = qscaled s q.1 q.2 b v := by
  obtain ⟨hd, g, hg, h1, h2⟩ := h
  intro v hv
  have hj := inRange_proj hd hv
  unfold qscaled
  rw [h1 v hv, marginalSum_bij hf hg hd h1 hb hj, h2 _ hj, hb v hv]

theorem qsweep_iso {s s' : List Nat} {f : List Int → List Int} (hf : CellBij s s' f) {Q Q' : Prob ℚ}
    (h : List.Forall₂ (MargIso s s' f) Q Q') : ∀ {b b' : List Int → ℚ}, (∀ v, InRange s v → b' (f v) = b v) →
    ∀ v, InRange s v → qsweep s' Q' b' (f v) = qsweep s Q b v := by
  induction h with
  | nil => intro b b' hb; exact hb
  | @cons q q' Q Q' hq _ ih => intro b b' hb; exact ih (qscaled_iso hf hq hb)

theorem qiter_iso {s s' : List Nat} {f : List Int → List Int} (hf : CellBij s s' f) {Q Q' : Prob ℚ}
    (h : List.Forall₂ (MargIso s s' f) Q Q') {b b' : List Int → ℚ} (hb : ∀ v, InRange s v → b' (f v) = b v) (n : Nat) :
    ∀ v, InRange s v → (qsweep s' Q')^[n] b' (f v) = (qsweep s Q)^[n] b v := by
  induction n with
  | zero => exact hb
  | succ n ih =>
    rw [Function.iterate_succ_apply', Function.iterate_succ_apply']
    exact qsweep_iso hf h ih

theorem qmax_iso {s s' : List Nat} {f : List Int → List Int} (hf : CellBij s s' f) {Q Q' : Prob ℚ}
    (hQ : ProbShape s Q) (hQ' : ProbShape s' Q')
    (h : List.Forall₂ (MargIso s s' f) Q Q') {b b' : List Int → ℚ} (hb : ∀ v, InRange s v → b' (f v) = b v) :
    qmax s' Q' b' = qmax s Q b := by
  apply le_antisymm
  · obtain ⟨q', hq', j', hj', e⟩ := (qmax_spec hQ' b').2
    obtain ⟨k, hk, hke⟩ := List.mem_iff_getElem.mp hq'
    have hl := h.length_eq
    obtain ⟨hd, g, hg, h1, h2⟩ := (List.forall₂_iff_get.mp h).2 k (by omega) (by omega)
    simp only [List.get_eq_getElem] at hd hg h1 h2
    rw [hke] at hg h1 h2
    obtain ⟨j, hj, rfl⟩ := hg.surjOn hj'
    rw [e, marginalSum_bij hf hg hd h1 hb hj, h2 j hj]
    exact (qmax_spec hQ b).1 _ (List.getElem_mem _) j hj
  · obtain ⟨q, hq, j, hj, e⟩ := (qmax_spec hQ b).2
    obtain ⟨k, hk, hke⟩ := List.mem_iff_getElem.mp hq
    have hl := h.length_eq
    obtain ⟨hd, g, hg, h1, h2⟩ := (List.forall₂_iff_get.mp h).2 k (by omega) (by omega)
    simp only [List.get_eq_getElem] at hd hg h1 h2
    rw [hke] at hd hg h1 h2
    rw [e, ← marginalSum_bij hf hg hd h1 hb hj, ← h2 j hj]
    exact (qmax_spec hQ' b').1 _ (List.getElem_mem _) _ (hg.mem hj)

/-! ### The bijections -/

theorem ico_getD {s : List Nat} {v : List Int} (h : InRange s v) {d : Nat} (hd : d < s.length) :
    v.getD d 0 ∈ Set.Ico 0 (s.getD d 0 : Int) := (inRange_iff_getD.mp h).2 d hd

theorem oldNames_length (π : Nat → Int → Int) (ds : List Nat) (j : List Int) :
    (oldNames π ds j).length = min ds.length j.length := by simp [oldNames]

theorem oldNames_getD (π : Nat → Int → Int) {ds : List Nat} {j : List Int} (hl : j.length = ds.length) {k : Nat}
    (hk : k < ds.length) : (oldNames π ds j).getD k 0 = π (ds.getD k 0) (j.getD k 0) := by
  have hk' : k < j.length := by omega
  simp [oldNames, List.getD_eq_getElem?_getD, hk, hk', List.getElem?_zipWith]

theorem projSizes_getD' {s ds : List Nat} {k : Nat} (hk : k < ds.length) :
    (projSizes ds s).getD k 0 = s.getD (ds.getD k 0) 0 := by
  simp [projSizes, List.getD_eq_getElem?_getD, hk]

theorem proj_getD' {ds : List Nat} {v : List Int} {k : Nat} (hk : k < ds.length) :
    (proj ds v).getD k 0 = v.getD (ds.getD k 0) 0 := by
  simp [proj, List.getD_eq_getElem?_getD, hk]

theorem getD_mem' {ds : List Nat} {k : Nat} (hk : k < ds.length) : ds.getD k 0 ∈ ds := by
  simp [List.getD_eq_getElem?_getD, hk]

theorem oldNames_bij {s : List Nat} {π : Nat → Int → Int} (h : Renaming s π) {ds : List Nat}
    (hd : ∀ d ∈ ds, d < s.length) : CellBij (projSizes ds s) (projSizes ds s) (oldNames π ds) := by
  have hlen : ∀ {j}, InRange (projSizes ds s) j → j.length = ds.length := by
    intro j hj
    have := inRange_length hj
    simpa [projSizes] using this
  have hmaps : Set.MapsTo (oldNames π ds) {v | InRange (projSizes ds s) v} {v | InRange (projSizes ds s) v} := by
    intro j hj
    have hl := hlen hj
    refine inRange_iff_getD.mpr ⟨by simp [oldNames_length, projSizes, hl], fun k hk => ?_⟩
    have hk : k < ds.length := by simpa [projSizes] using hk
    rw [oldNames_getD π hl hk, projSizes_getD' hk]
    apply (h _ (hd _ (getD_mem' hk))).mapsTo
    have := ico_getD hj (d := k) (by simpa [projSizes] using hk)
    rwa [projSizes_getD' hk] at this
  have hinj : Set.InjOn (oldNames π ds) {v | InRange (projSizes ds s) v} := by
    intro j hj i hi e
    have hl := hlen hj
    have hl' := hlen hi
    apply ext_getD (by rw [hl, hl'])
    intro k hk
    rw [hl] at hk
    have e' : (oldNames π ds j).getD k 0 = (oldNames π ds i).getD k 0 := by rw [e]
    rw [oldNames_getD π hl hk, oldNames_getD π hl' hk] at e'
    have h1 := ico_getD hj (d := k) (by simpa [projSizes] using hk)
    have h2 := ico_getD hi (d := k) (by simpa [projSizes] using hk)
    rw [projSizes_getD' hk] at h1 h2
    exact (h _ (hd _ (getD_mem' hk))).injOn h1 h2 e'
  refine ⟨hmaps, hinj, ?_⟩
  have e : {v | InRange (projSizes ds s) v} = (cells (projSizes ds s) : Set (List Int)) := by ext v; simp [mem_cells]
  rw [e] at hmaps hinj ⊢
  exact Finset.surjOn_of_injOn_of_card_le _ hmaps hinj le_rfl

theorem projSizes_allDims (s : List Nat) : projSizes (List.range s.length) s = s := by
  apply List.ext_getElem (by simp [projSizes])
  intro k hk hk'
  simp [projSizes, hk']

theorem proj_bij {s D : List Nat} (hn : D.Nodup) (hlt : ∀ d ∈ D, d < s.length) (hall : ∀ d < s.length, d ∈ D) :
    CellBij s (projSizes D s) (proj D) := by
  refine ⟨fun v hv => inRange_proj hlt hv, ?_, ?_⟩
  · intro v hv w hw he
    apply ext_getD
    · rw [inRange_length hv, inRange_length hw]
    · intro d hd
      rw [inRange_length hv] at hd
      exact List.map_inj_left.mp he d (hall d hd)
  · intro u hu
    refine ⟨writeAt D u (zerosI s.length), ?_, ?_⟩
    · show InRange s _
      rw [← mem_writeAll (loose_of_nodup hn) hlt hall]
      exact List.mem_map.mpr ⟨u, mem_allIdx.mpr hu, rfl⟩
    · exact map_writeAt hn (by have := inRange_length hu; simpa [projSizes] using this.symm) (by simpa [zerosI] using hlt)

end HL

import Verif.Proof.RelabelOK
import Verif.Props.IPF

/-
C88: the names and the order of categories and dimensions.
-/

namespace HL

/-- two runs of `ipf` on corresponding problems -/
theorem ipf_iso {s s' : List Nat} {Q Q' : Prob ℚ} {pop : Int} (h : RatOK s Q pop) (h' : RatOK s' Q' pop)
    (hlt : pop < 2 ^ 62) (hp : ProperProb s Q) (hp' : ProperProb s' Q') {f : List Int → List Int} (hf : CellBij s s' f)
    (hm : List.Forall₂ (MargIso s s' f) Q Q') {b b' : List Int → ℚ} (hb : ∀ v, InRange s v → b' (f v) = b v) :
    ∃ (c c' : List Int → ℚ) (r r' : IPF Fl), ipfExact s Q b = .ok r ∧ ipfExact s' Q' b' = .ok r' ∧
      r.micro.array = finArr s c ∧ r'.micro.array = finArr s' c' ∧ (∀ v, InRange s v → c' (f v) = c v) ∧
      r'.iters = r.iters ∧ r'.conv = r.conv ∧ r'.maxError = r.maxError := by
  obtain ⟨r, hr⟩ := ipf_run_ok _ _ (minOK_fl _) (ratOK_accepted h hlt) (properProb_fin hp) (fun v => .fin (b v))
  obtain ⟨r', hr'⟩ := ipf_run_ok _ _ (minOK_fl _) (ratOK_accepted h' hlt) (properProb_fin hp') (fun v => .fin (b' v))
  obtain ⟨p0, n, -, n1, n2, n3, n4, m5, n6, n7, n8⟩ := ipf_exact_fin h.toProbShape hp hr
  obtain ⟨p0', n', -, n1', n2', n3', n4', m5', n6', n7', n8'⟩ := ipf_exact_fin h'.toProbShape hp' hr'
  have n5 := congrArg (fun m : Micro Fl Fl => m.array) m5
  have n5' := congrArg (fun m : Micro Fl Fl => m.array) m5'
  clear m5 m5'
  have hit := qiter_iso hf hm hb
  have hmx : ∀ k, qmax s' Q' ((qsweep s' Q')^[k] b') = qmax s Q ((qsweep s Q)^[k] b) :=
    fun k => qmax_iso hf h.toProbShape h'.toProbShape hm (hit k)
  have hn : n' = n := by
    rcases Nat.lt_trichotomy n n' with hl | he | hl
    · rcases n3 with n3 | n3
      · have := n4' n n1 hl
        rw [hmx] at this
        exact absurd n3 (not_lt.mpr this)
      · omega
    · exact he.symm
    · rcases n3' with n3' | n3'
      · have := n4 n' n1' hl
        rw [hmx] at n3'
        exact absurd n3' (not_lt.mpr this)
      · omega
  subst hn
  exact ⟨_, _, r, r', hr, hr', n5, n5', hit n', by rw [n6, n6'], by rw [n7, n7', hmx], by rw [n8, n8', hmx]⟩

/-- **C88**, categories: permuting the categories within each dimension, in the marginals and in the seed, permutes the
returned table in the same way; `iterations`, `conv` and `maxError` are the same. -/
theorem C88_categories {s : List Nat} {Q : Prob ℚ} {pop : Int} (h : RatOK s Q pop) (hlt : pop < 2 ^ 62)
    (hp : ProperProb s Q) {π : Nat → Int → Int} (hπ : Renaming s π) (b : List Int → ℚ) :
    ∃ (c : List Int → ℚ) (r r' : IPF Fl), ipfExact s Q b = .ok r ∧
      ipfExact s (renamed π Q) (fun v => b (oldCell s π v)) = .ok r' ∧
      r.micro.array = finArr s c ∧ r'.micro.array = finArr s (fun v => c (oldCell s π v)) ∧
      r'.iters = r.iters ∧ r'.conv = r.conv ∧ r'.maxError = r.maxError := by
  obtain ⟨c', c, r', r, h1, h2, h3, h4, h5, h6, h7, h8⟩ := ipf_iso (renamed_ok hπ h) h hlt (renamed_proper hp) hp
    (oldCell_bij hπ) (renamed_marg hπ h.toProbShape) (b := fun v => b (oldCell s π v)) (b' := b) (fun _ _ => rfl)
  refine ⟨c, r, r', h2, h1, h4, ?_, h6.symm, h7.symm, h8.symm⟩
  rw [h3]
  exact arr_congr (fun v hv => congrArg Fl.fin (h5 v hv).symm)

/-- **C88**, dimensions of the table: listing the dimensions of the table in another order, in the index lists and in the
seed, transposes the returned table; `iterations`, `conv` and `maxError` are the same. -/
theorem C88_dimensions {s : List Nat} {Q : Prob ℚ} {pop : Int} (h : RatOK s Q pop) (hlt : pop < 2 ^ 62)
    (hp : ProperProb s Q) {τ : List Nat} (hτ : τ.Perm (List.range s.length)) {b b' : List Int → ℚ}
    (hb : ∀ v, InRange s v → b' (proj τ v) = b v) :
    ∃ (c c' : List Int → ℚ) (r r' : IPF Fl), ipfExact s Q b = .ok r ∧
      ipfExact (projSizes τ s) (renumbered τ Q) b' = .ok r' ∧
      r.micro.array = finArr s c ∧ r'.micro.array = finArr (projSizes τ s) c' ∧
      (∀ v, InRange s v → c' (proj τ v) = c v) ∧
      r'.iters = r.iters ∧ r'.conv = r.conv ∧ r'.maxError = r.maxError := by
  obtain ⟨hn, hm, -⟩ := perm_range hτ
  exact ipf_iso h (renumbered_ok hτ h) hlt hp (renumbered_proper hτ h.toProbShape hp)
    (proj_bij hn (fun d hd => (hm d).mp hd) (fun d hd => (hm d).mpr hd)) (renumbered_marg hτ h.toProbShape) hb

/-- **C88**, dimensions of the marginals: listing the dimensions of any of the marginals in another order, with the array
transposed accordingly, changes nothing. -/
theorem C88_marginal_axes {s : List Nat} {Q Q' : Prob ℚ} {pop : Int} (h : RatOK s Q pop) (hlt : pop < 2 ^ 62)
    (hp : ProperProb s Q) (hQ : List.Forall₂ (Transposed s) Q Q') (b : List Int → ℚ) :
    ∃ r r' : IPF Fl, ipfExact s Q b = .ok r ∧ ipfExact s Q' b = .ok r' ∧ r'.micro.array = r.micro.array ∧
      r'.iters = r.iters ∧ r'.conv = r.conv ∧ r'.maxError = r.maxError := by
  have hmg : List.Forall₂ (MargIso s s id) Q Q' := by
    refine List.forall₂_iff_get.mpr ⟨hQ.length_eq, fun k h1 h2 => ?_⟩
    exact transposed_marg (h.dims _ (List.get_mem _ _)).2 ((List.forall₂_iff_get.mp hQ).2 k h1 h2)
  obtain ⟨c, c', r, r', h1, h2, h3, h4, h5, h6⟩ := ipf_iso h (transposed_ok hQ h) hlt hp (transposed_proper hQ hp)
    (Set.bijOn_id _ : CellBij s s id) hmg (b := b) (b' := b) (fun _ _ => rfl)
  refine ⟨r, r', h1, h2, ?_, h6⟩
  rw [h3, h4]
  exact arr_congr (fun v hv => by rw [← h5 v hv]; rfl)

/-- The hypotheses are met: the example problem with the categories of its second dimension rotated, and with its dimensions
exchanged; both give other problems. -/
example : RatOK [2, 3] exQ 3 ∧ ProperProb [2, 3] exQ ∧ Renaming [2, 3] (fun d x => if d = 1 then (x + 1) % 3 else 1 - x) ∧
    ([1, 0] : List Nat).Perm (List.range [2, 3].length) ∧ (renumbered [1, 0] exQ).map Prod.fst = [[1], [0]] ∧
    projSizes [1, 0] [2, 3] = [3, 2] := by
  refine ⟨exQ_ok, exQ_proper, ?_, List.Perm.swap _ _ _, rfl, rfl⟩
  intro d hd
  have hd : d = 0 ∨ d = 1 := by
    have : d < 2 := hd
    omega
  rcases hd with rfl | rfl
  · show Set.BijOn (fun x : Int => 1 - x) (Set.Ico 0 2) (Set.Ico 0 2)
    refine ⟨fun x hx => ?_, fun x _ y _ e => by simpa using e, fun x hx => ⟨1 - x, ?_, by simp⟩⟩
    · simp only [Set.mem_Ico] at hx ⊢; omega
    · simp only [Set.mem_Ico] at hx ⊢; omega
  · show Set.BijOn (fun x : Int => (x + 1) % 3) (Set.Ico 0 3) (Set.Ico 0 3)
    refine ⟨fun x hx => ?_, fun x hx y hy e => ?_, fun x hx => ⟨(x + 2) % 3, ?_, ?_⟩⟩
    · simp only [Set.mem_Ico] at hx ⊢; omega
    · simp only [Set.mem_Ico] at hx hy
      simp only at e
      omega
    · simp only [Set.mem_Ico] at hx ⊢; omega
    · simp only [Set.mem_Ico] at hx
      simp only
      omega

/-- A two-dimensional marginal over the dimensions 0 and 1, listed as 1, 0 and transposed. -/
example : Transposed [2, 3, 2] ([0, 1], fun j => j.getD 0 0 + 2 * j.getD 1 0) ([1, 0], fun j => j.getD 1 0 + 2 * j.getD 0 0) :=
  ⟨[1, 0], List.Perm.swap _ _ _, rfl, fun _ _ => rfl⟩

end HL

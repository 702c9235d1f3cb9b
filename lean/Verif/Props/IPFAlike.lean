import Verif.AlikeSpec
import Verif.Proof.IPFStrata
import Verif.Props.IPF

/-
C126: `ipf` treats categories alike that cannot be told apart.
-/

namespace HL
variable {α : Type} {fp : FP} {N : Num α} {s : List Nat}

theorem filter_alike {i k : Nat} : ∀ (s : List Nat) (d : Nat) (φ ψ : List Int → Bool), i < s.getD d 0 → k < s.getD d 0 →
    (∀ v, φ v = true → v[d]? = some (i : Int)) → (∀ v, ψ v = true → v[d]? = some (k : Int)) →
    (∀ v, v[d]? = some (i : Int) → φ v = ψ (v.set d k)) →
    (allIdx s).filter ψ = ((allIdx s).filter φ).map (fun v => v.set d k)
  | [], d, _, _, h, _, _, _, _ => by simp at h
  | n :: t, 0, φ, ψ, hi, hk, h1, h2, h3 => by
    have hi : i < n := by simpa using hi
    have hk : k < n := by simpa using hk
    rw [allIdx, List.filter_flatMap, List.filter_flatMap, flatMap_only _ k, flatMap_only _ i, if_pos hi, if_pos hk,
      List.filter_map, List.filter_map, List.map_map]
    · rw [show (fun v : List Int => v.set 0 (k : Int)) ∘ (fun x => (i : Int) :: x) = (fun x => (k : Int) :: x) from rfl]
      congr 1
      apply List.filter_congr
      intro v _
      exact (h3 ((i : Int) :: v) rfl).symm
    · intro x hx
      rw [List.filter_map, List.map_eq_nil_iff, List.filter_eq_nil_iff]
      intro v _ h
      have h4 := h1 _ h
      simp at h4
      exact hx (by exact_mod_cast h4)
    · intro x hx
      rw [List.filter_map, List.map_eq_nil_iff, List.filter_eq_nil_iff]
      intro v _ h
      have h4 := h2 _ h
      simp at h4
      exact hx (by exact_mod_cast h4)
  | n :: t, d + 1, φ, ψ, hi, hk, h1, h2, h3 => by
    rw [allIdx, List.filter_flatMap, List.filter_flatMap, List.map_flatMap]
    congr 1
    funext x
    rw [List.filter_map, List.filter_map, List.map_map,
      filter_alike t d (φ ∘ ((x : Int) :: ·)) (ψ ∘ ((x : Int) :: ·)) (by simpa using hi) (by simpa using hk)
        (fun v hv => by simpa using h1 _ hv) (fun v hv => by simpa using h2 _ hv)
        (fun v hv => h3 ((x : Int) :: v) (by simpa using hv))]
    rw [List.map_map]
    rfl

theorem proj_set_of_notMem {ds : List Nat} {d : Nat} (h : d ∉ ds) (v : List Int) (k : Int) : proj ds (v.set d k) = proj ds v := by
  unfold proj
  refine List.map_congr_left fun e he => ?_
  have : d ≠ e := fun h' => h (h' ▸ he)
  simp [List.getD, List.getElem?_set_ne this]

theorem proj_set_of_mem {ds : List Nat} {d e : Nat} (hn : ds.Nodup) (he : ds[e]? = some d) {v : List Int} (hd : d < v.length) (k : Int) :
    proj ds (v.set d k) = (proj ds v).set e k := by
  apply List.ext_getElem?
  intro m
  unfold proj
  obtain ⟨hel, hev⟩ := List.getElem?_eq_some_iff.mp he
  rw [List.getElem?_set]
  simp only [List.getElem?_map, List.length_map]
  by_cases hm : e = m
  · subst hm
    rw [if_pos rfl, if_pos hel, he]
    simp [List.getD, hd]
  · rw [if_neg hm]
    cases hdm : ds[m]? with
    | none => rfl
    | some d' =>
      have hne : d ≠ d' := by
        rintro rfl
        obtain ⟨hml, hmv⟩ := List.getElem?_eq_some_iff.mp hdm
        exact hm ((hn.getElem_inj_iff).mp (hev.trans hmv.symm))
      simp [List.getD, List.getElem?_set_ne hne]

theorem fsum_alike {d i k : Nat} (hi : i < s.getD d 0) (hk : k < s.getD d 0) {ds : List Nat} (hn : ds.Nodup) {a : List Int → Fl}
    (ha : AlikeIn s d i k a) {v : List Int} (hv : InRange s v) (hvd : v[d]? = some (i : Int)) :
    fsum fp s ds a (proj ds (v.set d k)) = fsum fp s ds a (proj ds v) := by
  by_cases hd : d ∈ ds
  · obtain ⟨e, hel, he⟩ := List.getElem_of_mem hd
    have he' : ds[e]? = some d := by rw [List.getElem?_eq_getElem hel, he]
    have hdl : d < s.length := by
      by_contra h
      rw [List.getD, List.getElem?_eq_none (by omega)] at hi
      simp at hi
    have key : ∀ w x : List Int, proj ds w = proj ds x → w.getD d 0 = x.getD d 0 := by
      intro w x h
      unfold proj at h
      exact List.map_inj_left.mp h d hd
    unfold fsum
    have h1 : (allIdx s).filter (fun w => proj ds w = proj ds (v.set d k)) =
        ((allIdx s).filter (fun w => proj ds w = proj ds v)).map (fun w => w.set d k) := by
      have e1 : ∀ x : List Int, (allIdx s).filter (fun w => proj ds w = x) =
          (allIdx s).filter (fun w => decide (proj ds w = x) && decide (w.length = s.length)) := by
        intro x
        apply List.filter_congr
        intro w hw
        have := (mem_allIdx.mp hw).length_eq
        simp [this]
      rw [e1, e1]
      have hvl : v.length = s.length := hv.length_eq.symm
      have gd : ∀ {w : List Int} {x : Int}, w.length = s.length → w.getD d 0 = x → w[d]? = some x := by
        intro w x hw h
        rw [List.getD, List.getElem?_eq_getElem (by omega)] at h
        rw [List.getElem?_eq_getElem (by omega)]
        simpa using h
      refine filter_alike s d _ _ hi hk ?_ ?_ ?_
      · intro w hw
        simp only [Bool.and_eq_true, decide_eq_true_eq] at hw
        refine gd hw.2 ?_
        rw [key _ _ hw.1, List.getD, hvd]; rfl
      · intro w hw
        simp only [Bool.and_eq_true, decide_eq_true_eq] at hw
        refine gd hw.2 ?_
        rw [key _ _ hw.1]
        simp [List.getD, hvl, hdl]
      · intro w hw
        rw [Bool.eq_iff_iff]
        simp only [Bool.and_eq_true, decide_eq_true_eq, List.length_set]
        refine and_congr_left fun hwl => ?_
        rw [proj_set_of_mem hn he' (by omega), proj_set_of_mem hn he' (by omega)]
        constructor
        · intro h; rw [h]
        · intro h
          apply List.ext_getElem?
          intro m
          by_cases hm : e = m
          · subst hm
            unfold proj
            rw [List.getElem?_map, List.getElem?_map, he']
            simp [List.getD, hw, hvd]
          · have := congrArg (fun l => l[m]?) h
            simpa [List.getElem?_set_ne hm] using this
    rw [h1, List.foldl_map]
    have h2 : ∀ (l : List (List Int)) (z : Fl), (∀ w ∈ l, a w = a (w.set d k)) →
        l.foldl (fun acc w => fp.add acc (a (w.set d k))) z = l.foldl (fun acc w => fp.add acc (a w)) z := by
      intro l
      induction l with
      | nil => intros; rfl
      | cons w l ih =>
        intro z h
        rw [List.foldl_cons, List.foldl_cons, ← h w (by simp), ih _ (fun x hx => h x (by simp [hx]))]
    refine h2 _ _ fun w hw => ?_
    obtain ⟨hw1, hw2⟩ := List.mem_filter.mp hw
    have hwr := mem_allIdx.mp hw1
    refine ha w hwr ?_
    have h3 := key _ _ (of_decide_eq_true hw2)
    have hwl := hwr.length_eq
    rw [List.getD, List.getD, hvd, List.getElem?_eq_getElem (by omega)] at h3
    rw [List.getElem?_eq_getElem (by omega)]
    simpa using h3
  · rw [proj_set_of_notMem hd]

theorem scaled_alike {d i k : Nat} (hi : i < s.getD d 0) (hk : k < s.getD d 0) {p : List Nat × (List Int → α)} (hn : p.1.Nodup)
    (hl : ∀ d ∈ p.1, d < s.length) (hp : AlikeIn.marginal s d i k p) {a : List Int → Fl} (ha : AlikeIn s d i k a) :
    AlikeIn s d i k (scaled fp N s p.1 p.2 a) := by
  intro v hv hvd
  unfold scaled
  rw [fsum_alike hi hk hn ha hv hvd, ← ha v hv hvd]
  have hm : p.2 (proj p.1 (v.set d k)) = p.2 (proj p.1 v) := by
    by_cases hd : d ∈ p.1
    · obtain ⟨e, hel, he⟩ := List.getElem_of_mem hd
      have he' : p.1[e]? = some d := by rw [List.getElem?_eq_getElem hel, he]
      have hdl : d < v.length := (List.getElem?_eq_some_iff.mp hvd).1
      rw [proj_set_of_mem hn he' hdl]
      refine (hp e he' _ (inRange_proj hl hv) ?_).symm
      unfold proj
      rw [List.getElem?_map, he']
      simp [List.getD, hvd]
    · rw [proj_set_of_notMem hd]
  rw [hm]

theorem sweep_alike {d i k : Nat} (hi : i < s.getD d 0) (hk : k < s.getD d 0) : ∀ (P : Prob α), (∀ p ∈ P, p.1.Nodup) →
    (∀ p ∈ P, ∀ d ∈ p.1, d < s.length) → (∀ p ∈ P, AlikeIn.marginal s d i k p) → ∀ {a : List Int → Fl}, AlikeIn s d i k a →
    AlikeIn s d i k (sweep fp N s P a)
  | [], _, _, _, _, h => h
  | p :: P, hn, hl, hp, _, h =>
    sweep_alike hi hk P (fun q hq => hn q (by simp [hq])) (fun q hq => hl q (by simp [hq])) (fun q hq => hp q (by simp [hq]))
      (scaled_alike hi hk (hn p (by simp)) (hl p (by simp)) (hp p (by simp)) h)

/-- **C126**: if the seed and every marginal have the same numbers in two categories of an attribute, so does the table `ipf`
returns, bit for bit in any arithmetic. -/
theorem C126_alike (hN : MinOK N) {P : Prob α} (h : ProbShape s P) (hp : ProperProb s P) (hn : ∀ p ∈ P, p.1.Nodup) {d i k : Nat}
    (hi : i < s.getD d 0) (hk : k < s.getD d 0) (hP : ∀ p ∈ P, AlikeIn.marginal s d i k p) {a : List Int → Fl}
    (ha : AlikeIn s d i k a) {r : IPF α} (hr : IPF.run false fp N (indicesOf P) (marginalsOf s P) (arr s a) = .ok r) :
    ∃ f, r.micro.array = arr s f ∧ AlikeIn s d i k f := by
  obtain ⟨pop, n, -, -, -, -, -, rfl⟩ := ipf_run fp N hN h hp a hr
  refine ⟨_, rfl, ?_⟩
  clear hr
  induction n with
  | zero => exact ha
  | succ n ih =>
    rw [Function.iterate_succ_apply']
    exact sweep_alike hi hk P hn (fun p hp' => (h.dims p hp').2) hP ih

/-- The hypotheses hold for the first two categories of the second attribute of `exQ` and a seed that depends on the first
attribute only. -/
example : (∀ p ∈ finProb exQ, p.1.Nodup) ∧ (0 < [2, 3].getD 1 0 ∧ 1 < [2, 3].getD 1 0) ∧
    (∀ p ∈ finProb exQ, AlikeIn.marginal [2, 3] 1 (0 : Nat) (1 : Nat) p) ∧
    AlikeIn [2, 3] 1 (0 : Nat) (1 : Nat) (fun v => Fl.fin (v.getD 0 0 + 5)) ∧
    ∃ r, ipfExact [2, 3] exQ (fun v => v.getD 0 0 + 5) = .ok r := by
  refine ⟨by simp [finProb, exQ], by simp, ?_, ?_, exQ_run _⟩
  · intro p hp e he j _ _
    simp only [finProb, exQ, List.map_cons, List.map_nil, List.mem_cons, List.not_mem_nil, or_false] at hp
    rcases hp with rfl | rfl
    · cases e <;> simp at he
    · rfl
  · intro v _ _
    cases v <;> simp

end HL

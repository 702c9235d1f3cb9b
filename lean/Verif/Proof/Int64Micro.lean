import Verif.Int64Spec
import Verif.Proof.Int64Lemmas

/-
The constructor with checked 64-bit arithmetic.
-/

namespace HL
open Out Micro
variable {fp : FP}

theorem SameOutcome.rfl' {α : Type} {x : Out α} : SameOutcome x x := Or.inl rfl

theorem SameOutcome.bind {α γ : Type} {x y : Out α} {f g : α → Out γ} (h : SameOutcome x y)
    (hf : ∀ a, x = .ok a → y = .ok a → SameOutcome (f a) (g a)) : SameOutcome (x >>= f) (y >>= g) := by
  rcases h with rfl | ⟨⟨u, rfl⟩, v, rfl⟩
  · cases x with
    | ok a => exact hf a rfl rfl
    | thrown e => exact Or.inl rfl
    | ub u => exact Or.inl rfl
    | diverges => exact Or.inl rfl
  · exact Or.inr ⟨⟨u, rfl⟩, v, rfl⟩

/-- `2^63` is a `double` -/
def Has63 (fp : FP) : Prop := fp.rnd (2 ^ 63) = .fin (2 ^ 63)

theorem toInt64_big {q : ℚ} (h : 2 ^ 63 ≤ q) : FP.toInt64 (.fin q) = .ub .badCast := by
  refine if_neg ?_
  rintro ⟨-, h2⟩
  have h0 : (0 : ℚ) ≤ q := le_trans (by positivity) h
  have : (2 ^ 63 : Int) ≤ FP.truncQ q := by
    unfold FP.truncQ
    rw [if_pos h0]
    exact Int.le_floor.mpr (by exact_mod_cast h)
  omega

theorem rounded_big (hfp : fp.Good) (h63 : Has63 fp) {t : Int} (ht : 2 ^ 63 ≤ t) :
    FP.toInt64 (fp.add (fp.ofInt t) (.fin (1 / 2))) = .ub .badCast := by
  have htq : (2 ^ 63 : ℚ) ≤ (t : ℚ) := by exact_mod_cast ht
  unfold FP.ofInt
  cases hr : fp.rnd (t : ℚ) with
  | fin a =>
    have ha := hfp.mono _ _ _ _ htq h63 hr
    show FP.toInt64 (fp.rnd (a + 1 / 2)) = _
    cases hr2 : fp.rnd (a + 1 / 2) with
    | fin b => exact toInt64_big (hfp.mono _ _ _ _ (by linarith) h63 hr2)
    | pinf => rfl
    | ninf => rfl
    | nan => rfl
  | pinf => rfl
  | ninf => rfl
  | nan => rfl

theorem toInt64_cases (x : Fl) : (∃ t, FP.toInt64 x = .ok t ∧ In64 t) ∨ FP.toInt64 x = .ub .badCast := by
  unfold FP.toInt64
  cases x with
  | fin q =>
    by_cases h : -2 ^ 63 ≤ FP.truncQ q ∧ FP.truncQ q < 2 ^ 63
    · left; exact ⟨_, if_pos h, h⟩
    · right; exact if_neg h
  | pinf => exact Or.inr rfl
  | ninf => exact Or.inr rfl
  | nan => exact Or.inr rfl

theorem rounded64 (hfp : fp.Good) (h63 : Has63 fp) {s : List Nat} {g : List Int → Int}
    (hn : ∀ v, InRange s v → 0 ≤ g v) :
    (∃ t, roundedSum fp (numInt fp) (arr s g) = .ok t ∧ roundedSum64 fp (arr s g) = .ok t ∧ Fits s g ∧ In64 t) ∨
    ((∃ u, roundedSum64 fp (arr s g) = .ub u) ∧ ∃ u, roundedSum fp (numInt fp) (arr s g) = .ub u) := by
  by_cases h : ∑ v ∈ cells s, g v < 2 ^ 63
  · have hf := fits_of_nonneg hn h
    have e : roundedSum64 fp (arr s g) = roundedSum fp (numInt fp) (arr s g) := by
      unfold roundedSum64 roundedSum
      rw [sumArr64_eq (fp := fp) hf]
      rfl
    rw [e, roundedSum_eq]
    rcases toInt64_cases (fp.add ((numInt fp).toFl (seqSum (numInt fp) s g)) (.fin (1 / 2))) with ⟨t, h1, h2⟩ | h1
    · left; exact ⟨t, h1, h1, hf, h2⟩
    · right; exact ⟨⟨_, h1⟩, _, h1⟩
  · right
    push Not at h
    constructor
    · refine ⟨.overflow, ?_⟩
      unfold roundedSum64
      rw [sumArr64_over hn h]; rfl
    · refine ⟨.badCast, ?_⟩
      rw [roundedSum_eq, seqSum_int]
      exact rounded_big hfp h63 h

theorem checkSums64_same (hfp : fp.Good) (h63 : Has63 fp) (pop : Int) : ∀ (L : List (List Nat × (List Int → Int))),
    (∀ m ∈ L, ∀ v, InRange m.1 v → 0 ≤ m.2 v) →
    SameOutcome (checkSums64 fp pop (L.map (fun m => arr m.1 m.2))) (checkSums fp (numInt fp) pop (L.map (fun m => arr m.1 m.2))) ∧
    (checkSums fp (numInt fp) pop (L.map (fun m => arr m.1 m.2)) = .ok () → ∀ m ∈ L, Fits m.1 m.2 ∧
      ∃ t, roundedSum fp (numInt fp) (arr m.1 m.2) = .ok t)
  | [], _ => ⟨Or.inl rfl, by simp⟩
  | m :: L, hn => by
    obtain ⟨ih1, ih2⟩ := checkSums64_same hfp h63 pop L (fun m hm => hn m (by simp [hm]))
    simp only [List.map_cons, checkSums64, checkSums]
    rcases rounded64 hfp h63 (hn m (by simp)) with ⟨t, h1, h2, h3, -⟩ | ⟨⟨u, h1⟩, v, h2⟩
    · have h1' := h1
      rw [h1, h2]
      simp only [ok_bind]
      by_cases ht : t ≠ pop
      · rw [if_pos ht, if_pos ht]
        exact ⟨Or.inl rfl, by intro h; cases h⟩
      · rw [if_neg ht, if_neg ht]
        refine ⟨ih1, fun h m' hm' => ?_⟩
        rcases List.mem_cons.mp hm' with rfl | hm'
        · exact ⟨h3, t, h1'⟩
        · exact ih2 h m' hm'
    · rw [h1, h2]
      exact ⟨Or.inr ⟨⟨u, rfl⟩, v, rfl⟩, by intro h; cases h⟩

theorem partialSum64_eq {L : List (List Nat × (List Int → Int))} (hg : ∀ m ∈ L, GoodShape m.1)
    (hf : ∀ m ∈ L, Fits m.1 m.2) (p : Nat × Nat) :
    partialSum64 (L.map (fun m => arr m.1 m.2)) p = partialSum (numInt fp) (L.map (fun m => arr m.1 m.2)) p := by
  unfold partialSum64 partialSum
  rw [List.getElem?_map]
  cases h : L[p.1]? with
  | none => rfl
  | some m =>
    have hm := List.mem_of_getElem? h
    exact reduce64_eq (hg m hm) (hf m hm) p.2

theorem checkPartials64_eq {L : List (List Nat × (List Int → Int))} (hg : ∀ m ∈ L, GoodShape m.1)
    (hf : ∀ m ∈ L, Fits m.1 m.2) (ms0 : List Int) : ∀ ps,
    checkPartials64 (L.map (fun m => arr m.1 m.2)) ms0 ps =
      checkPartials (numInt fp) (L.map (fun m => arr m.1 m.2)) ms0 ps
  | [] => rfl
  | p :: ps => by
    unfold checkPartials64 checkPartials
    rw [partialSum64_eq (fp := fp) hg hf]
    congr 1
    funext msi
    rw [checkPartials64_eq hg hf ms0 ps]
    simp [numInt]

theorem checkDims64_eq {L : List (List Nat × (List Int → Int))} (hg : ∀ m ∈ L, GoodShape m.1)
    (hf : ∀ m ∈ L, Fits m.1 m.2) : ∀ lk,
    checkDims64 (L.map (fun m => arr m.1 m.2)) lk = checkDims (numInt fp) (L.map (fun m => arr m.1 m.2)) lk
  | [] => rfl
  | [] :: rest => by
    unfold checkDims64 checkDims
    exact checkDims64_eq hg hf rest
  | [_] :: rest => by
    unfold checkDims64 checkDims
    exact checkDims64_eq hg hf rest
  | (p :: q :: ps) :: rest => by
    unfold checkDims64 checkDims
    simp only []
    rw [partialSum64_eq (fp := fp) hg hf, checkDims64_eq hg hf rest]
    congr 1
    funext ms0
    rw [checkPartials64_eq (fp := fp) hg hf]

/-- What is known about the object the constructor returns for the marginals `L`. -/
structure Small {β : Type} (fp : FP) (is : List (List Int)) (L : List (List Nat × (List Int → Int))) (m : Micro β Int) :
    Prop where
  nonneg : ∀ m ∈ L, ∀ v, InRange m.1 v → 0 ≤ m.2 v
  fits : ∀ m ∈ L, Fits m.1 m.2
  rounded : ∀ p ∈ L, ∃ t, roundedSum fp (numInt fp) (arr p.1 p.2) = .ok t
  pop : In64 m.population
  marginals : m.marginals = L.map (fun m => arr m.1 m.2)
  indices : m.indices = is
  array : ∃ s, NDArray.new s = .ok m.array

theorem micro_new64 {β : Type} (hfp : fp.Good) (h63 : Has63 fp) (is : List (List Int))
    (L : List (List Nat × (List Int → Int))) (hg : ∀ m ∈ L, GoodShape m.1) :
    SameOutcome (Micro.new64 (β := β) fp is (L.map (fun m => arr m.1 m.2)))
      (Micro.new (β := β) fp (numInt fp) is (L.map (fun m => arr m.1 m.2))) ∧
    ∀ m, Micro.new (β := β) fp (numInt fp) is (L.map (fun m => arr m.1 m.2)) = .ok m → Small fp is L m := by
  unfold Micro.new64 Micro.new
  by_cases h0 : is.length ≠ (L.map (fun m => arr m.1 m.2)).length ∨ is.length < 2
  · rw [if_pos h0, if_pos h0]
    exact ⟨Or.inl rfl, by intro m h; cases h⟩
  rw [if_neg h0, if_neg h0]
  cases h1 : enterAll [] is (L.map (fun m => arr m.1 m.2)) with
  | thrown e => exact ⟨Or.inl rfl, by intro m h; cases h⟩
  | ub u => exact ⟨Or.inl rfl, by intro m h; cases h⟩
  | diverges => exact ⟨Or.inl rfl, by intro m h; cases h⟩
  | ok ds =>
  simp only [ok_bind]
  by_cases h2 : ds.length < 2
  · rw [if_pos h2, if_pos h2]
    exact ⟨Or.inl rfl, by intro m h; cases h⟩
  rw [if_neg h2, if_neg h2]
  rcases checkNonneg_cases (numInt fp) (minOK_int fp) L hg with ⟨h3, hn⟩ | ⟨h3, -⟩
  swap
  · rw [h3]
    exact ⟨Or.inl rfl, by intro m h; cases h⟩
  rw [h3]
  simp only [ok_bind]
  have hn' : ∀ m ∈ L, ∀ v, InRange m.1 v → 0 ≤ m.2 v := by
    intro m hm v hv
    have := hn m hm v hv
    simpa [numInt] using this
  cases h4 : collectSizes ds ds.length 0 with
  | thrown e => exact ⟨Or.inl rfl, by intro m h; cases h⟩
  | ub u => exact ⟨Or.inl rfl, by intro m h; cases h⟩
  | diverges => exact ⟨Or.inl rfl, by intro m h; cases h⟩
  | ok sizes =>
  simp only [ok_bind]
  cases h5 : lookupAll (List.replicate ds.length []) 0 is with
  | thrown e => exact ⟨Or.inl rfl, by intro m h; cases h⟩
  | ub u => exact ⟨Or.inl rfl, by intro m h; cases h⟩
  | diverges => exact ⟨Or.inl rfl, by intro m h; cases h⟩
  | ok lk =>
  simp only [ok_bind]
  cases L with
  | nil => exact ⟨Or.inl rfl, by intro m h; cases h⟩
  | cons a rest =>
  simp only [List.map_cons]
  rcases rounded64 hfp h63 (hn' a (by simp)) with ⟨t, g1, g2, g3, g4⟩ | ⟨⟨u, g1⟩, v, g2⟩
  swap
  · rw [g1, g2]
    exact ⟨Or.inr ⟨⟨u, rfl⟩, v, rfl⟩, by intro m h; cases h⟩
  have g1' := g1
  rw [g1, g2]
  simp only [ok_bind]
  obtain ⟨hs, hk⟩ := checkSums64_same hfp h63 t rest (fun m hm => hn' m (by simp [hm]))
  cases h6 : checkSums fp (numInt fp) t (rest.map (fun m => arr m.1 m.2)) with
  | thrown e =>
    rw [h6] at hs
    rcases hs with hs | ⟨-, u, hs⟩
    · rw [hs]; exact ⟨Or.inl rfl, by intro m h; cases h⟩
    · cases hs
  | ub u =>
    rw [h6] at hs
    have : ∃ w, checkSums64 fp t (rest.map (fun m => arr m.1 m.2)) = .ub w := by
      rcases hs with hs | ⟨⟨w, hs⟩, -⟩
      · exact ⟨u, hs⟩
      · exact ⟨w, hs⟩
    obtain ⟨w, hw⟩ := this
    rw [hw]
    exact ⟨Or.inr ⟨⟨w, rfl⟩, u, rfl⟩, by intro m h; cases h⟩
  | diverges =>
    rw [h6] at hs
    rcases hs with hs | ⟨-, u, hs⟩
    · rw [hs]; exact ⟨Or.inl rfl, by intro m h; cases h⟩
    · cases hs
  | ok z =>
    have hff := hk h6
    rw [h6] at hs
    have hs' : checkSums64 fp t (rest.map (fun m => arr m.1 m.2)) = .ok z := by
      rcases hs with hs | ⟨-, u, hs⟩
      · exact hs
      · cases hs
    rw [hs']
    simp only [ok_bind]
    have hall : ∀ m ∈ a :: rest, Fits m.1 m.2 := by
      intro m hm
      rcases List.mem_cons.mp hm with rfl | hm
      · exact g3
      · exact (hff m hm).1
    have hcd := checkDims64_eq (fp := fp) hg hall lk
    rw [List.map_cons] at hcd
    rw [hcd]
    refine ⟨Or.inl rfl, ?_⟩
    intro m hm
    rw [bind_eq_ok] at hm
    obtain ⟨-, -, hm⟩ := hm
    rw [bind_eq_ok] at hm
    obtain ⟨ar, har, hm⟩ := hm
    simp only [pure_eq, ok.injEq] at hm
    subst hm
    refine ⟨hn', hall, ?_, g4, rfl, rfl, _, har⟩
    intro m hm
    rcases List.mem_cons.mp hm with rfl | hm
    · exact ⟨t, g1'⟩
    · exact (hff m hm).2

end HL

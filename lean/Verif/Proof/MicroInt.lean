import Verif.Proof.MicroNew

namespace HL
open Micro

theorem seqSum_int (fp : FP) (s : List Nat) (g : List Int → Int) :
    seqSum (numInt fp) s g = ∑ v ∈ cells s, g v := by
  unfold seqSum
  have := foldl_add_sum g (allIdx s) 0
  simp only [numInt] at *
  rw [this, zero_add, sum_allIdx]

theorem ofInt_exact {fp : FP} (hfp : fp.Good) {t : Int} (h : |t| ≤ 2 ^ 53) : fp.ofInt t = .fin t := by
  have := hfp.dyadic t 0 h (by omega)
  simpa [FP.ofInt] using this

theorem add_half {fp : FP} (hfp : fp.Good) {t : Int} (h : |t| < 2 ^ 52) :
    fp.add (fp.ofInt t) (.fin (1 / 2)) = .fin (t + 1 / 2) := by
  rw [ofInt_exact hfp (by omega)]
  show fp.rnd _ = _
  have := hfp.dyadic (2 * t + 1) 1 (by rw [abs_lt] at h; rw [abs_le]; omega) (by omega)
  rw [show ((2 * t + 1 : Int) : ℚ) / 2 ^ 1 = (t : ℚ) + 1 / 2 by push_cast; ring] at this
  exact this

theorem truncQ_half_nonneg {t : Int} (h : 0 ≤ t) : FP.truncQ ((t : ℚ) + 1 / 2) = t := by
  unfold FP.truncQ
  have : (0 : ℚ) ≤ t := by exact_mod_cast h
  rw [if_pos (by linarith), Int.floor_eq_iff]
  constructor <;> linarith

theorem truncQ_half_neg {t : Int} (h : t < 0) : FP.truncQ ((t : ℚ) + 1 / 2) = t + 1 := by
  unfold FP.truncQ
  have : (t : ℚ) ≤ -1 := by exact_mod_cast (by omega : t ≤ -1)
  rw [if_neg (by linarith), Int.ceil_eq_iff]
  push_cast
  constructor <;> linarith

theorem rounded_int {fp : FP} (hfp : fp.Good) {t : Int} (h0 : 0 ≤ t) (h : t < 2 ^ 52) :
    FP.toInt64 (fp.add (fp.ofInt t) (.fin (1 / 2))) = .ok t := by
  rw [add_half hfp (by rw [abs_of_nonneg h0]; exact h)]
  unfold FP.toInt64
  simp only [truncQ_half_nonneg h0]
  rw [if_pos (by omega)]

theorem rounded_int_ok {fp : FP} (hfp : fp.Good) {t : Int} (h : |t| < 2 ^ 52) :
    ∃ r, FP.toInt64 (fp.add (fp.ofInt t) (.fin (1 / 2))) = .ok r := by
  rw [add_half hfp h]
  unfold FP.toInt64
  rw [abs_lt] at h
  rcases lt_or_ge t 0 with h0 | h0
  · simp only [truncQ_half_neg h0]
    rw [if_pos (by omega)]; exact ⟨_, rfl⟩
  · simp only [truncQ_half_nonneg h0]
    rw [if_pos (by omega)]; exact ⟨_, rfl⟩

theorem seqSums1_int (fp : FP) (s : List Nat) (g : List Int → Int) (d : Nat) :
    seqSums1 (numInt fp) s g d = (List.range (s.getD d 0)).map (fun j : Nat => marginalSum s [d] g [(j : Int)]) := by
  unfold seqSums1
  apply List.map_congr_left
  intro j _
  have := foldl_add_sum g ((allIdx s).filter (fun v => v.getD d 0 = (j : Int))) 0
  simp only [numInt] at *
  rw [this, zero_add, sum_filter_allIdx]
  unfold marginalSum
  congr 1
  apply Finset.filter_congr
  intro v _
  simp [proj]

theorem projSizes_getD {ds s : List Nat} {a d : Nat} (h : ds[a]? = some d) :
    (projSizes ds s).getD a 0 = s.getD d 0 := by
  simp [projSizes, List.getD_eq_getElem?_getD, h]

theorem mem_places_prob {α : Type} {P : Prob α} {d : Nat} {p : Nat × Nat} :
    p ∈ places d 0 (P.map Prod.fst) ↔ ∃ m, P[p.1]? = some m ∧ m.1[p.2]? = some d := by
  rw [mem_places]
  simp only [Nat.zero_le, true_and, Nat.sub_zero, List.getElem?_map, Option.map_eq_some_iff]
  constructor
  · rintro ⟨ds, ⟨m, h1, rfl⟩, h2⟩; exact ⟨m, h1, h2⟩
  · rintro ⟨m, h1, h2⟩; exact ⟨_, ⟨m, h1, rfl⟩, h2⟩

theorem probOK_iff {fp : FP} (hfp : fp.Good) {s : List Nat} {P : Prob Int} {pop : Int}
    (hsm : ∀ p ∈ P, |∑ j ∈ cells (projSizes p.1 s), p.2 j| < 2 ^ 52) :
    ProbOKG fp (numInt fp) s P pop ↔ ProbOK s P pop := by
  have htot : ∀ p ∈ P, (∀ j, InRange (projSizes p.1 s) j → 0 ≤ p.2 j) →
      (FP.toInt64 (fp.add ((numInt fp).toFl (seqSum (numInt fp) (projSizes p.1 s) p.2)) (.fin (1 / 2))) = .ok pop ↔
        ∑ j ∈ cells (projSizes p.1 s), p.2 j = pop) := by
    intro p hp hn
    rw [seqSum_int]
    have h0 : 0 ≤ ∑ j ∈ cells (projSizes p.1 s), p.2 j :=
      Finset.sum_nonneg (fun j hj => hn j (mem_cells.mp hj))
    have hlt := hsm p hp
    rw [abs_of_nonneg h0] at hlt
    rw [show (numInt fp).toFl = fp.ofInt from rfl, rounded_int hfp h0 hlt]
    simp
  have hsums : ∀ (k a : Nat) (m : List Nat × (List Int → Int)) (d : Nat), P[k]? = some m → m.1[a]? = some d →
      sumsAt (numInt fp) s P (k, a) = (List.range (s.getD d 0)).map (fun j : Nat => marginalSum (projSizes m.1 s) [a] m.2 [(j : Int)]) := by
    intro k a m d hk ha
    unfold sumsAt
    simp only [hk]
    rw [seqSums1_int, projSizes_getD ha]
  constructor
  · rintro ⟨h1, h2, h3, h4⟩
    have hn : ∀ p ∈ P, ∀ j, InRange (projSizes p.1 s) j → 0 ≤ p.2 j := by
      intro p hp j hj
      have := h2 p hp j hj
      simpa [numInt] using this
    refine ⟨h1, hn, fun p hp => (htot p hp (hn p hp)).mp (h3 p hp), ?_⟩
    -- every place agrees with the first one
    intro p hp q hq a b d hpa hqb
    obtain ⟨k, hk⟩ := List.getElem?_of_mem hp
    obtain ⟨l, hl⟩ := List.getElem?_of_mem hq
    have hd : d < s.length := (h1.dims p hp).2 d (List.mem_of_getElem? hpa)
    have m1 : (k, a) ∈ places d 0 (P.map Prod.fst) := mem_places_prob.mpr ⟨p, hk, hpa⟩
    have m2 : (l, b) ∈ places d 0 (P.map Prod.fst) := mem_places_prob.mpr ⟨q, hl, hqb⟩
    have hall := h4 d hd
    cases hL : places d 0 (P.map Prod.fst) with
    | nil => rw [hL] at m1; simp at m1
    | cons f rest =>
      rw [hL] at m1 m2 hall
      have key : ∀ x ∈ f :: rest, sumsAt (numInt fp) s P x = sumsAt (numInt fp) s P f := by
        intro x hx
        rcases List.mem_cons.mp hx with rfl | hx
        · rfl
        · have := hall f x rfl hx
          simpa [numInt] using this
      have heq := (key _ m1).trans (key _ m2).symm
      rw [hsums k a p d hk hpa, hsums l b q d hl hqb] at heq
      intro x hx
      rw [List.map_inj_left] at heq
      exact heq x (List.mem_range.mpr hx)
  · rintro ⟨h1, h2, h3, h4⟩
    refine ⟨h1, ?_, fun p hp => (htot p hp (h2 p hp)).mpr (h3 p hp), ?_⟩
    · intro p hp j hj
      have := h2 p hp j hj
      simpa [numInt] using this
    · intro d hd p q hp hq
      have hp' : p ∈ places d 0 (P.map Prod.fst) := List.mem_of_mem_head? (by rw [hp]; rfl)
      have hq' : q ∈ places d 0 (P.map Prod.fst) := List.mem_of_mem_tail hq
      obtain ⟨m, hm, hmd⟩ := mem_places_prob.mp hp'
      obtain ⟨m', hm', hmd'⟩ := mem_places_prob.mp hq'
      have : sumsAt (numInt fp) s P q = sumsAt (numInt fp) s P p := by
        rw [show q = (q.1, q.2) from rfl, show p = (p.1, p.2) from rfl, hsums _ _ m' d hm' hmd', hsums _ _ m d hm hmd]
        apply List.map_congr_left
        intro x hx
        exact h4 m' (List.mem_of_getElem? hm') m (List.mem_of_getElem? hm) _ _ d hmd' hmd x (List.mem_range.mp hx)
      exact decide_eq_true this

theorem ProbOK.pop_nonneg {s : List Nat} {P : Prob Int} {pop : Int} (h : ProbOK s P pop) : 0 ≤ pop := by
  have hl := h.lists
  obtain ⟨p, hp⟩ : ∃ p, p ∈ P := by
    cases P with
    | nil => simp at hl
    | cons p _ => exact ⟨p, by simp⟩
  rw [← h.total p hp]
  exact Finset.sum_nonneg (fun j hj => h.nonneg p hp j (mem_cells.mp hj))

/-- the constructor on a consistent integer problem -/
theorem micro_new_int {β : Type} {fp : FP} (hfp : fp.Good) {s : List Nat} {P : Prob Int} {pop : Int} (h : ProbOK s P pop)
    (hpop : pop < 2 ^ 52) :
    Micro.new (β := β) fp (numInt fp) (indicesOf P) (marginalsOf s P) = .ok (mkMicro β s P pop) := by
  have hsm : ∀ p ∈ P, |∑ j ∈ cells (projSizes p.1 s), p.2 j| < 2 ^ 52 := by
    intro p hp
    rw [h.total p hp, abs_of_nonneg h.pop_nonneg]; exact hpop
  have hok := (probOK_iff hfp hsm).mpr h
  rcases new_shape (β := β) fp (numInt fp) (minOK_int fp) h.toProbShape (fun p hp => ⟨pop, hok.total p hp⟩) with
    ⟨pop', h1, h2⟩ | ⟨-, h2⟩
  · have := (probOK_iff hfp hsm).mp h1
    have hl := h.lists
    obtain ⟨p, hp⟩ : ∃ p, p ∈ P := by
      cases P with
      | nil => simp at hl
      | cons p _ => exact ⟨p, by simp⟩
    have : pop' = pop := (this.total p hp).symm.trans (h.total p hp)
    rw [h2, this]
  · exact absurd hok (h2 pop)

end HL

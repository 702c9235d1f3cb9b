import Verif.CloseSpec
import Verif.Proof.MicroRat
import Verif.Proof.IPFPad

/-
When a problem with rational marginals is accepted, in exact arithmetic, in terms of the sums themselves.
-/

namespace HL
open Micro

/-- a problem over the same dimensions with the entries of `ms` -/
theorem finProb_of {s : List Nat} : ∀ {P : Prob Fl} {ms : List (List Nat × (List Int → ℚ))},
    ms.map (fun m => (m.1, fun j => Fl.fin (m.2 j))) = P.map (fun p => (projSizes p.1 s, p.2)) →
    ∃ Q : Prob ℚ, P = finProb Q ∧ ms = Q.map (fun q => (projSizes q.1 s, q.2))
  | [], [], _ => ⟨[], rfl, rfl⟩
  | [], m :: ms, h => by simp at h
  | p :: P, [], h => by simp at h
  | p :: P, m :: ms, h => by
    simp only [List.map_cons, List.cons.injEq] at h
    obtain ⟨Q, h1, h2⟩ := finProb_of h.2
    have e1 := congrArg Prod.fst h.1
    have e2 := congrArg Prod.snd h.1
    simp only at e1 e2
    refine ⟨(p.1, m.2) :: Q, ?_, ?_⟩
    · rw [h1]
      show _ = (p.1, fun j => Fl.fin (m.2 j)) :: finProb Q
      rw [e2]
    · rw [List.map_cons, ← h2]
      simp only
      rw [← e1]

theorem allclose_exact (a b : List ℚ) (h : a.length = b.length) :
    (numFl FP.exact).allclose (a.map Fl.fin) (b.map Fl.fin) = true ↔ ∀ k < a.length, |a.getD k 0 - b.getD k 0| ≤ 1 / 10 ^ 8 := by
  show (if _ ≠ _ then false else allcloseLoop FP.exact (a.map Fl.fin) (b.map Fl.fin)) = true ↔ _
  rw [if_neg (by simpa using h), allcloseLoop_iff FP.exact (by simpa using h)]
  rw [List.length_map]
  apply forall_congr'
  intro k
  apply forall_congr'
  intro hk
  have hm : ∀ l : List ℚ, k < l.length → (l.map Fl.fin).getD k 0 = .fin (l.getD k 0) := by
    intro l hl
    rw [List.getD_eq_getElem _ _ (by simpa using hl), List.getD_eq_getElem _ _ hl, List.getElem_map]
  rw [hm a hk, hm b (by omega)]
  simp only [tol8, FP.exact, FP.sub, FP.neg, FP.add, FP.abs, FP.lt, decide_eq_false_iff_not, not_lt]
  rw [show a.getD k 0 + -b.getD k 0 = a.getD k 0 - b.getD k 0 by ring]

theorem toInt64_half {T : ℚ} (h0 : 0 ≤ T) (h1 : T < 2 ^ 62) {n : Int} :
    FP.toInt64 (.fin (T + 1 / 2)) = .ok n ↔ (n : ℚ) ≤ T + 1 / 2 ∧ T + 1 / 2 < n + 1 := by
  have h2 : FP.truncQ (T + 1 / 2) = ⌊T + 1 / 2⌋ := by
    unfold FP.truncQ
    rw [if_pos (by linarith)]
  unfold FP.toInt64
  simp only [h2]
  have h3 : 0 ≤ ⌊T + 1 / 2⌋ := Int.floor_nonneg.mpr (by linarith)
  have h4 : ⌊T + 1 / 2⌋ < 2 ^ 63 := Int.floor_lt.mpr (by push_cast; linarith)
  rw [if_pos (by omega)]
  rw [Out.ok.injEq]
  exact Int.floor_eq_iff

theorem sumsAt_fin {s : List Nat} {Q : Prob ℚ} {d : Nat} {x : Nat × Nat} (hx : x ∈ places d 0 (Q.map Prod.fst)) :
    ∃ m, Q[x.1]? = some m ∧ m.1[x.2]? = some d ∧
      sumsAt (numFl FP.exact) s (finProb Q) x =
          ((List.range (s.getD d 0)).map (fun i : Nat => marginalSum (projSizes m.1 s) [x.2] m.2 [(i : Int)])).map Fl.fin := by
  obtain ⟨m, hm, hmd⟩ := mem_places_prob.mp hx
  refine ⟨m, hm, hmd, ?_⟩
  unfold sumsAt finProb
  rw [List.getElem?_map, hm]
  simp only [Option.map_some]
  rw [seqSums1_fin, projSizes_getD hmd, List.map_map]
  rfl

theorem getD_range {f : Nat → ℚ} {n x : Nat} (h : x < n) : ((List.range n).map f).getD x 0 = f x := by
  rw [List.getD_eq_getElem _ _ (by simpa using h)]
  simp

theorem closeOK_iff {s : List Nat} {Q : Prob ℚ} {pop : Int} (hb : ∀ p ∈ Q, ∑ j ∈ cells (projSizes p.1 s), p.2 j < 2 ^ 62) :
    ProbOKG FP.exact (numFl FP.exact) s (finProb Q) pop ↔ CloseOK s Q pop := by
  constructor
  · intro h
    have hn := nonneg_of_ok h
    have hsh : ProbShape s Q := probShape_congr (fst_finProb Q) h.toProbShape
    refine ⟨hsh, hn, ?_, ?_⟩
    · intro p hp
      have h1 := h.total (p.1, fun j => .fin (p.2 j)) (mem_finProb.mpr ⟨p, hp, rfl⟩)
      simp only at h1
      rw [seqSum_fin] at h1
      exact (toInt64_half (Finset.sum_nonneg (fun j hj => hn p hp j (mem_cells.mp hj))) (hb p hp)).mp h1
    · intro d k a l b p q hh hp hq hqd x hx
      have hd : d < s.length := by
        by_contra hd
        rw [List.getD_eq_default _ _ (by omega)] at hx
        omega
      have hm1 : (k, a) ∈ places d 0 (Q.map Prod.fst) := List.mem_of_mem_head? (by rw [hh]; rfl)
      have hm2 : (l, b) ∈ places d 0 (Q.map Prod.fst) := mem_places_prob.mpr ⟨q, hq, hqd⟩
      obtain ⟨m1, e1, -, s1⟩ := sumsAt_fin (s := s) hm1
      obtain ⟨m2, e2, -, s2⟩ := sumsAt_fin (s := s) hm2
      rw [hp] at e1
      rw [hq] at e2
      injection e1 with e1
      injection e2 with e2
      subst e1
      subst e2
      by_cases hkl : (l, b) = (k, a)
      · injection hkl with i1 i2
        subst i1
        subst i2
        rw [hp] at hq
        injection hq with hq
        subst hq
        rw [sub_self, abs_zero]
        positivity
      · have htail : (l, b) ∈ (places d 0 (Q.map Prod.fst)).tail := by
          cases hl : places d 0 (Q.map Prod.fst) with
          | nil => rw [hl] at hm2; simp at hm2
          | cons y ys =>
            rw [hl] at hh hm2
            simp only [List.head?_cons, Option.some.injEq] at hh
            rcases List.mem_cons.mp hm2 with h' | h'
            · exact absurd (h'.trans hh) hkl
            · exact h'
        have h1 := h.partials d hd (k, a) (l, b) (by rw [fst_finProb]; exact hh) (by rw [fst_finProb]; exact htail)
        rw [s1, s2, allclose_exact _ _ (by simp)] at h1
        have h2 := h1 x (by rw [List.length_map, List.length_range]; exact hx)
        rw [getD_range hx, getD_range hx] at h2
        exact h2
  · intro h
    refine ⟨probShape_congr (fst_finProb Q).symm h.toProbShape, ?_, ?_, ?_⟩
    · intro p hp j hj
      obtain ⟨q, hq, rfl⟩ := mem_finProb.mp hp
      have := h.nonneg q hq j hj
      simpa [numFl, FP.lt] using this
    · intro p hp
      obtain ⟨q, hq, rfl⟩ := mem_finProb.mp hp
      simp only
      rw [seqSum_fin]
      exact (toInt64_half (Finset.sum_nonneg (fun j hj => h.nonneg q hq j (mem_cells.mp hj))) (hb q hq)).mpr (h.total q hq)
    · intro d hd p q hp hq
      rw [fst_finProb] at hp hq
      obtain ⟨m1, e1, d1, s1⟩ := sumsAt_fin (s := s) (List.mem_of_mem_head? (by rw [hp]; rfl))
      obtain ⟨m2, e2, d2, s2⟩ := sumsAt_fin (s := s) (List.mem_of_mem_tail hq)
      rw [s1, s2, allclose_exact _ _ (by simp)]
      intro x hx
      rw [List.length_map, List.length_range] at hx
      rw [getD_range hx, getD_range hx]
      exact h.partials d p.1 p.2 q.1 q.2 m1 m2 hp e1 e2 d2 x hx

end HL

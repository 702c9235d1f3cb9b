import Verif.Props.Validation
import Verif.Proof.MicroClose

/-
C19 for floating-point marginals, without reference to how the code compares sums.
-/

namespace HL
open Micro

/-- **C19**, rational marginals in exact arithmetic (`ipf`; totals below 2^62): for any index lists whatsoever and any arrays without
empty dimensions, the input is accepted exactly when it describes a problem that is consistent up to the tolerances (totals that
round to the same integer, 1-d sums within 1e-8 of those at the first place), and otherwise an exception is raised. -/
theorem C19_validation_exact {β : Type} (is : List (List Int)) (ms : List (List Nat × (List Int → ℚ))) (hg : ∀ m ∈ ms, GoodShape m.1)
    (hb : ∀ m ∈ ms, |∑ j ∈ cells m.1, m.2 j| < 2 ^ 62) :
    ((∃ m, Micro.new (β := β) FP.exact (numFl FP.exact) is (ms.map (fun m => arr m.1 (fun j => .fin (m.2 j)))) = .ok m) ↔
      ∃ (s : List Nat) (Q : Prob ℚ) (pop : Int), is = indicesOf Q ∧ ms = Q.map (fun q => (projSizes q.1 s, q.2)) ∧ CloseOK s Q pop) ∧
    ((¬ ∃ m, Micro.new (β := β) FP.exact (numFl FP.exact) is (ms.map (fun m => arr m.1 (fun j => .fin (m.2 j)))) = .ok m) →
      ∃ e, Micro.new (β := β) FP.exact (numFl FP.exact) is (ms.map (fun m => arr m.1 (fun j => .fin (m.2 j)))) = .thrown e) := by
  have key := C19_validation_partial (β := β) FP.exact (numFl FP.exact) (minOK_fl _) is (ms.map (fun m => (m.1, fun j => Fl.fin (m.2 j))))
    (by
      intro m hm
      obtain ⟨m', hm', rfl⟩ := List.mem_map.mp hm
      exact hg m' hm')
    (by
      intro m hm
      obtain ⟨m', hm', rfl⟩ := List.mem_map.mp hm
      simp only
      rw [seqSum_fin]
      obtain ⟨h1, h2⟩ := abs_lt.mp (hb m' hm')
      set T := ∑ j ∈ cells m'.1, m'.2 j
      show ∃ t, FP.toInt64 (.fin (T + 1 / 2)) = .ok t
      unfold FP.toInt64
      simp only
      have h3 : -2 ^ 63 ≤ FP.truncQ (T + 1 / 2) ∧ FP.truncQ (T + 1 / 2) < 2 ^ 63 := by
        unfold FP.truncQ
        split
        · exact ⟨by have := Int.floor_nonneg.mpr ‹0 ≤ T + 1 / 2›; omega, Int.floor_lt.mpr (by push_cast; linarith)⟩
        · refine ⟨Int.le_ceil_iff.mpr (by push_cast; linarith), ?_⟩
          have : ⌈T + 1 / 2⌉ ≤ 0 := Int.ceil_le.mpr (by push_cast; linarith)
          omega
      rw [if_pos h3]
      exact ⟨_, rfl⟩)
  rw [List.map_map] at key
  refine ⟨key.1.trans ?_, key.2⟩
  have hbQ : ∀ {s : List Nat} {Q : Prob ℚ}, ms = Q.map (fun q => (projSizes q.1 s, q.2)) →
      ∀ p ∈ Q, ∑ j ∈ cells (projSizes p.1 s), p.2 j < 2 ^ 62 := by
    intro s Q h p hp
    exact (abs_lt.mp (hb (projSizes p.1 s, p.2) (by rw [h]; exact List.mem_map.mpr ⟨p, hp, rfl⟩))).2
  constructor
  · rintro ⟨s, P, pop, h1, h2, h3⟩
    obtain ⟨Q, rfl, h4⟩ := finProb_of h2
    refine ⟨s, Q, pop, ?_, h4, (closeOK_iff (hbQ h4)).mp h3⟩
    rw [h1]
    unfold indicesOf finProb
    rw [List.map_map]
    rfl
  · rintro ⟨s, Q, pop, h1, h2, h3⟩
    refine ⟨s, finProb Q, pop, ?_, ?_, (closeOK_iff (hbQ h2)).mpr h3⟩
    · rw [h1]
      unfold indicesOf finProb
      rw [List.map_map]
      rfl
    · rw [h2]
      unfold finProb
      rw [List.map_map, List.map_map]
      rfl

/-- three dimensions of size 2; the sums over the dimension they share differ by `x` -/
def nearProb (x : ℚ) : Prob ℚ := [([0, 1], fun _ => 1), ([1, 2], fun j => if j = [0, 0] then 1 + x else if j = [1, 0] then 1 - x else 1)]

theorem nearProb_first (x : ℚ) : (places 1 0 ((nearProb x).map Prod.fst)).head? = some (0, 1) := rfl

/-- The difference may be 1e-8 but not more, up or down. -/
theorem nearProb_iff (x : ℚ) (hx : |x| ≤ 1) : CloseOK [2, 2, 2] (nearProb x) 4 ↔ |x| ≤ 1 / 10 ^ 8 := by
  obtain ⟨hx1, hx2⟩ := abs_le.mp hx
  have c1 : cells [2, 2] = {[0, 0], [0, 1], [1, 0], [1, 1]} := by decide
  have m0 : ∀ a < 2, ∀ y < 2, marginalSum [2, 2] [a] (fun _ => (1 : ℚ)) [((y : Nat) : Int)] = 2 := by decide +kernel
  have f1 : ∀ d < 2, ∀ y < 2, (cells [2, 2]).filter (fun v => proj [d] v = [((y : Nat) : Int)]) =
      if d = 0 then {[(y : Int), 0], [(y : Int), 1]} else {[0, (y : Int)], [1, (y : Int)]} := by decide
  set g : List Int → ℚ := fun j => if j = [0, 0] then 1 + x else if j = [1, 0] then 1 - x else 1 with hg
  have m1 : marginalSum [2, 2] [0] g [((0 : Nat) : Int)] = 2 + x ∧ marginalSum [2, 2] [0] g [((1 : Nat) : Int)] = 2 - x ∧
      marginalSum [2, 2] [1] g [((0 : Nat) : Int)] = 2 ∧ marginalSum [2, 2] [1] g [((1 : Nat) : Int)] = 2 := by
    unfold marginalSum
    rw [f1 0 (by decide) 0 (by decide), f1 0 (by decide) 1 (by decide), f1 1 (by decide) 0 (by decide), f1 1 (by decide) 1 (by decide)]
    simp only [if_true, if_false, one_ne_zero, Nat.cast_zero, Nat.cast_one]
    refine ⟨?_, ?_, ?_, ?_⟩ <;> rw [Finset.sum_pair (by decide)] <;> simp [hg] <;> ring
  constructor
  · intro h
    have := h.partials 1 0 1 1 0 _ _ (nearProb_first x) rfl rfl rfl 0 (by decide)
    have e2 : marginalSum (projSizes [0, 1] [2, 2, 2]) [1] (fun _ => (1 : ℚ)) [((0 : Nat) : Int)] = 2 := m0 1 (by decide) 0 (by decide)
    have e1 : marginalSum (projSizes [1, 2] [2, 2, 2]) [0] g [((0 : Nat) : Int)] = 2 + x := m1.1
    rw [e1, e2] at this
    simpa using this
  · intro h
    refine ⟨⟨by simp [nearProb], by decide, by decide, by simp [nearProb], ?_⟩, ?_, ?_, ?_⟩
    · intro d hd
      simp only [List.length_cons, List.length_nil] at hd
      interval_cases d <;> simp [nearProb]
    · intro p hp j _
      simp only [nearProb, List.mem_cons, List.not_mem_nil, or_false] at hp
      rcases hp with rfl | rfl
      · exact zero_le_one
      · show (0 : ℚ) ≤ g j
        rw [hg]
        dsimp only
        split_ifs <;> linarith
    · intro p hp
      have e0 : ∑ j ∈ cells [2, 2], (1 : ℚ) = 4 := by decide +kernel
      have e1 : ∑ j ∈ cells [2, 2], g j = 4 := by
        rw [c1, Finset.sum_insert (by decide), Finset.sum_insert (by decide), Finset.sum_pair (by decide)]
        simp [hg]
        ring
      simp only [nearProb, List.mem_cons, List.not_mem_nil, or_false] at hp
      rcases hp with rfl | rfl
      · show _ ≤ ∑ j ∈ cells [2, 2], (1 : ℚ) + 1 / 2 ∧ ∑ j ∈ cells [2, 2], (1 : ℚ) + 1 / 2 < _
        rw [e0]; norm_num
      · show _ ≤ ∑ j ∈ cells [2, 2], g j + 1 / 2 ∧ ∑ j ∈ cells [2, 2], g j + 1 / 2 < _
        rw [e1]; norm_num
    · intro d k a l b p q hh hp hq hqd y hy
      have hd : d < 3 := by
        by_contra hd
        rw [List.getD_eq_default _ _ (by simp; omega)] at hy
        omega
      have hy : y < 2 := by interval_cases d <;> exact hy
      have hl : l < 2 := by
        by_contra hl
        rw [List.getElem?_eq_none (by simp [nearProb]; omega)] at hq
        cases hq
      have h0 : |(2 : ℚ) - 2| ≤ 1 / 10 ^ 8 := by norm_num
      have hu : |2 + x - 2| ≤ 1 / 10 ^ 8 := by rw [show 2 + x - 2 = x by ring]; exact h
      have hd2 : |2 - x - 2| ≤ 1 / 10 ^ 8 := by rw [show 2 - x - 2 = -x by ring, abs_neg]; exact h
      interval_cases d
      · have e : (0, 0) = (k, a) := Option.some.inj hh
        injection e with e1 e2
        subst e1; subst e2
        interval_cases l
        · injection hp with hp; injection hq with hq; subst hp; subst hq
          rcases b with _ | _ | b
          · show |marginalSum [2, 2] [0] (fun _ => (1 : ℚ)) [(y : Int)] - marginalSum [2, 2] [0] (fun _ => (1 : ℚ)) [(y : Int)]| ≤ _
            rw [sub_self, abs_zero]; positivity
          · exact absurd hqd (by simp)
          · exact absurd hqd (by simp)
        · injection hq with hq; subst hq
          rcases b with _ | _ | b
          · exact absurd hqd (by simp)
          · exact absurd hqd (by simp)
          · exact absurd hqd (by simp)
      · have e : (0, 1) = (k, a) := Option.some.inj hh
        injection e with e1 e2
        subst e1; subst e2
        interval_cases l
        · injection hp with hp; injection hq with hq; subst hp; subst hq
          rcases b with _ | _ | b
          · exact absurd hqd (by simp)
          · show |marginalSum [2, 2] [1] (fun _ => (1 : ℚ)) [(y : Int)] - marginalSum [2, 2] [1] (fun _ => (1 : ℚ)) [(y : Int)]| ≤ _
            rw [sub_self, abs_zero]; positivity
          · exact absurd hqd (by simp)
        · injection hp with hp; injection hq with hq; subst hp; subst hq
          rcases b with _ | _ | b
          · show |marginalSum [2, 2] [0] g [(y : Int)] - marginalSum [2, 2] [1] (fun _ => (1 : ℚ)) [(y : Int)]| ≤ _
            rw [m0 1 (by decide) y hy]
            interval_cases y
            · rw [m1.1]; exact hu
            · rw [m1.2.1]; exact hd2
          · exact absurd hqd (by simp)
          · exact absurd hqd (by simp)
      · have e : (1, 1) = (k, a) := Option.some.inj hh
        injection e with e1 e2
        subst e1; subst e2
        interval_cases l
        · injection hq with hq; subst hq
          rcases b with _ | _ | b
          · exact absurd hqd (by simp)
          · exact absurd hqd (by simp)
          · exact absurd hqd (by simp)
        · injection hp with hp; injection hq with hq; subst hp; subst hq
          rcases b with _ | _ | b
          · exact absurd hqd (by simp)
          · show |marginalSum [2, 2] [1] g [(y : Int)] - marginalSum [2, 2] [1] g [(y : Int)]| ≤ _
            rw [sub_self, abs_zero]; positivity
          · exact absurd hqd (by simp)

end HL

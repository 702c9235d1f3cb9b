import Verif.Props.Sobol

/-
The first points of the two-dimensional Sobol sequence.
-/

namespace HL

theorem dir1 {m : Nat → BitVec 32} (h : IsDirection 1 m) : m 0 = 1 ∧ m 1 = 3 := by
  have ha : sobolA.getD 0 0 = 3 := by rfl
  have hd : Nat.log2 3 = 1 := by decide
  unfold IsDirection at h
  simp only [ha, hd] at h
  have h0 := h.1 0 (by norm_num)
  have h1 := h.2 1 (by norm_num) (by norm_num)
  have hm : (sobolMinit.getD 0 []).getD 0 0 = 1 := by rfl
  rw [hm] at h0
  refine ⟨h0, ?_⟩
  rw [h1]
  simp only [xorSum, Nat.sub_self, Nat.zero_add, h0]
  decide

theorem value_small (m : Nat → BitVec 32) : sobolValue m 1 = m 0 <<< 31 ∧ sobolValue m 2 = m 0 <<< 31 ^^^ m 1 <<< 30 := by
  have g1 : gray 1 = 1 := by decide
  have g2 : gray 2 = 3 := by decide
  have t1 : ∀ c, 1 ≤ c → (1 : Nat).testBit c = false := by
    intro c hc
    apply Nat.testBit_lt_two_pow
    calc 1 < 2 ^ 1 := by norm_num
      _ ≤ 2 ^ c := Nat.pow_le_pow_right (by norm_num) hc
  have t3 : ∀ c, 2 ≤ c → (3 : Nat).testBit c = false := by
    intro c hc
    apply Nat.testBit_lt_two_pow
    calc 3 < 2 ^ 2 := by norm_num
      _ ≤ 2 ^ c := Nat.pow_le_pow_right (by norm_num) hc
  constructor
  · unfold sobolValue
    rw [g1]
    have : ∀ k, xorSum (fun c => if (1 : Nat).testBit c then m c <<< (31 - c) else 0) (k + 1) = m 0 <<< 31 := by
      intro k
      induction k with
      | zero => simp [xorSum]
      | succ k ih =>
        rw [xorSum, ih]
        simp [t1 (k + 1) (by omega)]
    exact this 31
  · unfold sobolValue
    rw [g2]
    have : ∀ k, xorSum (fun c => if (3 : Nat).testBit c then m c <<< (31 - c) else 0) (k + 2) = m 0 <<< 31 ^^^ m 1 <<< 30 := by
      intro k
      induction k with
      | zero =>
        have a : (3 : Nat).testBit 0 = true := by decide
        have b : (3 : Nat).testBit 1 = true := by decide
        simp [xorSum, a, b]
      | succ k ih =>
        rw [xorSum, ih]
        simp [t3 (k + 2) (by omega)]
    exact this 30

theorem points12 {pt : List U32} :
    (IsPoint 2 1 pt → (pt.getD 0 0).toNat = 2 ^ 31 ∧ (pt.getD 1 0).toNat = 2 ^ 31) ∧
    (IsPoint 2 2 pt → (pt.getD 0 0).toNat = 3 * 2 ^ 30 ∧ (pt.getD 1 0).toNat = 2 ^ 30) := by
  obtain ⟨⟨m, hm⟩, -⟩ := C09_direction_numbers (i := 1) (by norm_num)
  obtain ⟨m0, m1⟩ := dir1 hm
  have hz : IsDirection 0 (fun _ => 1) := fun _ _ => rfl
  constructor
  · intro h
    obtain ⟨⟨-, h⟩, -⟩ := isPoint_at h
    rw [h 0 (by norm_num) _ hz, h 1 (by norm_num) _ hm, (value_small _).1, (value_small _).1, m0]
    decide
  · intro h
    obtain ⟨⟨-, h⟩, -⟩ := isPoint_at h
    rw [h 0 (by norm_num) _ hz, h 1 (by norm_num) _ hm, (value_small _).2, (value_small _).2, m0, m1]
    decide

end HL

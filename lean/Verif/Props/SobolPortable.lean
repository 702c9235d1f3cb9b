import Verif.Proof.SobolLemmas
import Mathlib.Tactic.IntervalCases

/-! The bit trick used by the Sobol generator when the compiler has no builtin for it (part of C09). -/

namespace HL

theorem and_neg_twoPow {k : U32} {c : Nat} (hc : c < 32) (h0 : ∀ i < c, k.getLsbD i = false) (h1 : k.getLsbD c = true) :
    k &&& -k = BitVec.twoPow 32 c := by
  apply BitVec.eq_of_getLsbD_eq
  intro i hi
  rw [BitVec.getLsbD_and, BitVec.getLsbD_neg, BitVec.getLsbD_twoPow]
  rcases Nat.lt_trichotomy i c with h | h | h
  · simp [h0 i h, h.ne']
  · subst h
    have : ¬ ∃ j < i, k.getLsbD j = true := by
      rintro ⟨j, hj, hk⟩
      rw [h0 j hj] at hk
      cases hk
    simp [h1, hi, this]
  · have : ∃ j < i, k.getLsbD j = true := ⟨c, h, h1⟩
    simp [hi, this, h.ne]

/-- The table inverts the multiplication: for each of the 32 positions a bit can have. -/
theorem decode_twoPow {c : Nat} (hc : c < 32) :
    rz32Decode.getD ((0x05f66a47#32 * BitVec.twoPow 32 c) >>> 27).toNat 0 = c := by
  interval_cases c <;> decide

/-- **C09** does not depend on the compiler: the portable computation of the position of the lowest zero bit gives, for every
number of points produced, what the builtin gives. -/
theorem C09_portable {n : U32} (h : n.toNat < 2 ^ 32 - 1) : rightzero32 n.toNat = .ok (rightzero32Portable n) := by
  obtain ⟨c, h1, h2, h3, h4⟩ := rightzero32_spec h
  rw [h1]
  unfold rightzero32Portable
  simp only
  rw [and_neg_twoPow (k := ~~~n) h2 ?_ ?_, decode_twoPow h2]
  · intro i hi
    have := h3 i hi
    rw [BitVec.testBit_toNat] at this
    simp [this]
  · rw [BitVec.testBit_toNat] at h4
    rw [BitVec.getLsbD_not, h4]
    simp [h2]

example : rightzero32 0x0000ffff = .ok 16 ∧ rightzero32Portable 0x0000ffff#32 = 16 := by decide

end HL

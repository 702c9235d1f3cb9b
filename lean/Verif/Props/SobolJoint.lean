import Verif.Props.Sobol
import Verif.Proof.SobolNet

/-
C63, C64: the coordinates of a Sobol sequence taken together.
-/

namespace HL

/-- The point at position `n` lies, in every coordinate `i` of `I`, in the `t i`-th of the `2 ^ e i` equal parts of the unit
interval. -/
def InBox (dim : Nat) (I : Finset Nat) (e t : Nat → Nat) (n : Nat) : Prop :=
  ∀ i ∈ I, ∃ v, CoordValue dim i n v ∧ t i * 2 ^ (32 - e i) ≤ v ∧ v < (t i + 1) * 2 ^ (32 - e i)

theorem coordValue_iff {dim i : Nat} (h1 : 1 ≤ dim) (h2 : dim ≤ 1111) (hi : i < dim) {m : Nat → BitVec 32}
    (hm : IsDirection i m) {n v : Nat} (hn : n ≤ 2 ^ 32 - 1) : CoordValue dim i n v ↔ v = (sobolValue m n).toNat := by
  constructor
  · rintro (⟨rfl, rfl⟩ | ⟨p, hp, rfl⟩)
    · rw [sobolValue_zero]; rfl
    · rw [(isPoint_at hp).1.2 i hi m hm]
  · intro hv
    rcases Nat.eq_zero_or_pos n with h0 | h0
    · subst h0
      rw [sobolValue_zero] at hv
      exact Or.inl ⟨rfl, hv⟩
    · obtain ⟨p, hp⟩ := C09_point_exists h1 h2 h0 hn
      refine Or.inr ⟨p, hp, ?_⟩
      rw [(isPoint_at hp).1.2 i hi m hm, hv]

theorem coordDegree_pos {i : Nat} (hi : i < 1111) : 0 < coordDegree i := by
  rw [← coordDegree_eq hi]
  exact (irreducible_coord hi).natDegree_pos

/-- **C63**, in its sharpest form: take any set of coordinates, and cut the range of coordinate `i` into `2 ^ e i` equal
parts.  If the numbers `e i`, rounded up to multiples of the degrees, add up to at most `k`, then every aligned block of
`2 ^ k` positions has the same number of points, `2 ^ (k - ∑ e i)`, in each of the boxes. -/
theorem C63_joint {dim k j : Nat} {I : Finset Nat} {e t : Nat → Nat} (h1 : 1 ≤ dim) (h2 : dim ≤ 1111)
    (hI : ∀ i ∈ I, i < dim) (ht : ∀ i ∈ I, t i < 2 ^ e i) (hk : k ≤ 32) (hj : (j + 1) * 2 ^ k ≤ 2 ^ 32)
    (he : ∑ i ∈ I, ((e i + coordDegree i - 1) / coordDegree i) * coordDegree i ≤ k) :
    Set.ncard {n | j * 2 ^ k ≤ n ∧ n < (j + 1) * 2 ^ k ∧ InBox dim I e t n} = 2 ^ (k - ∑ i ∈ I, e i) := by
  have hex : ∀ i, ∃ m, i ∈ I → IsDirection i m := by
    intro i
    by_cases hi : i ∈ I
    · obtain ⟨⟨m, hm⟩, -⟩ := C09_direction_numbers (i := i) (by have := hI i hi; omega)
      exact ⟨m, fun _ => hm⟩
    · exact ⟨fun _ => 0, fun h => absurd h hi⟩
  choose m hm using hex
  rw [← count_block (m := m) (fun i hi => by have := hI i hi; omega) hm (J := fun i => (e i + coordDegree i - 1) / coordDegree i)
    (e := e) (t := t) ?_ ht hk hj he]
  · congr 1
    ext n
    simp only [Set.mem_setOf_eq]
    refine and_congr_right fun _ => and_congr_right fun hn => ?_
    refine forall₂_congr fun i hi => ?_
    have hpos : 0 < 2 ^ (32 - e i) := Nat.two_pow_pos _
    have hsplit : (t i + 1) * 2 ^ (32 - e i) = t i * 2 ^ (32 - e i) + 2 ^ (32 - e i) := by ring
    rw [Nat.div_eq_iff hpos]
    constructor
    · rintro ⟨v, hv, hv1, hv2⟩
      rw [coordValue_iff h1 h2 (hI i hi) (hm i hi) (by omega)] at hv
      subst hv
      omega
    · intro hv
      exact ⟨_, (coordValue_iff h1 h2 (hI i hi) (hm i hi) (by omega)).mpr rfl, by omega, by omega⟩
  · intro i hi
    have hd := coordDegree_pos (i := i) (by have := hI i hi; omega)
    have := Nat.div_add_mod (e i + coordDegree i - 1) (coordDegree i)
    have h3 := Nat.mod_lt (e i + coordDegree i - 1) hd
    rw [Nat.mul_comm]
    omega

/-- **C63.**  The coordinates `I` of the sequence form a (t, s)-sequence in base 2 with `t` the sum of the degrees less one:
every aligned block of `2 ^ k` positions has exactly `2 ^ (k - ∑ e i)` points in every box of sides `2 ^ (-e i)`, as long as that
number is at least `2 ^ t`. -/
theorem C63_ts_sequence {dim k j : Nat} {I : Finset Nat} {e t : Nat → Nat} (h1 : 1 ≤ dim) (h2 : dim ≤ 1111)
    (hI : ∀ i ∈ I, i < dim) (ht : ∀ i ∈ I, t i < 2 ^ e i) (hk : k ≤ 32) (hj : (j + 1) * 2 ^ k ≤ 2 ^ 32)
    (he : ∑ i ∈ I, e i + ∑ i ∈ I, (coordDegree i - 1) ≤ k) :
    Set.ncard {n | j * 2 ^ k ≤ n ∧ n < (j + 1) * 2 ^ k ∧ InBox dim I e t n} = 2 ^ (k - ∑ i ∈ I, e i) := by
  apply C63_joint h1 h2 hI ht hk hj
  rw [← Finset.sum_add_distrib] at he
  refine le_trans (Finset.sum_le_sum fun i hi => ?_) he
  have hd := coordDegree_pos (i := i) (by have := hI i hi; omega)
  have := Nat.div_mul_le_self (e i + coordDegree i - 1) (coordDegree i)
  omega

/-- The degrees of the first coordinates: 1, 1, 2, 3, 3, 4. -/
example : (List.range 6).map coordDegree = [1, 1, 2, 3, 3, 4] := by decide +kernel

/-- The hypotheses are met: blocks of 2^20 points in boxes of the first four coordinates. -/
example : ∑ i ∈ Finset.range 4, (fun _ => 4) i + ∑ i ∈ Finset.range 4, (coordDegree i - 1) ≤ 20 := by decide +kernel

/-- **C63** for the first two coordinates: every rectangle of sides `2 ^ (-a)` and `2 ^ (-b)` contains exactly one point of
every aligned block of `2 ^ (a + b)`. -/
theorem C63_first_two {dim a b j u v : Nat} (h1 : 2 ≤ dim) (h2 : dim ≤ 1111) (hu : u < 2 ^ a) (hv : v < 2 ^ b)
    (hk : a + b ≤ 32) (hj : (j + 1) * 2 ^ (a + b) ≤ 2 ^ 32) :
    ∃! n, j * 2 ^ (a + b) ≤ n ∧ n < (j + 1) * 2 ^ (a + b) ∧
      (∃ x, CoordValue dim 0 n x ∧ u * 2 ^ (32 - a) ≤ x ∧ x < (u + 1) * 2 ^ (32 - a)) ∧
      ∃ y, CoordValue dim 1 n y ∧ v * 2 ^ (32 - b) ≤ y ∧ y < (v + 1) * 2 ^ (32 - b) := by
  have hd0 : coordDegree 0 = 1 := rfl
  have hd1 : coordDegree 1 = 1 := by decide +kernel
  have := C63_ts_sequence (dim := dim) (k := a + b) (j := j) (I := {0, 1}) (e := fun i => if i = 0 then a else b)
    (t := fun i => if i = 0 then u else v) (by omega) h2 (by intro i hi; simp at hi; omega)
    (by intro i hi; simp at hi; rcases hi with rfl | rfl <;> simpa) hk hj (by simp [hd0, hd1])
  rw [Finset.sum_pair (by omega)] at this
  simp only [if_true, Nat.one_ne_zero, if_false, Nat.sub_self, pow_zero, Set.ncard_eq_one] at this
  obtain ⟨n, hn⟩ := this
  have hbox : ∀ q, InBox dim {0, 1} (fun i => if i = 0 then a else b) (fun i => if i = 0 then u else v) q ↔
      ((∃ x, CoordValue dim 0 q x ∧ u * 2 ^ (32 - a) ≤ x ∧ x < (u + 1) * 2 ^ (32 - a)) ∧
      ∃ y, CoordValue dim 1 q y ∧ v * 2 ^ (32 - b) ≤ y ∧ y < (v + 1) * 2 ^ (32 - b)) := by
    intro q
    unfold InBox
    simp
  have hmem : ∀ q, (j * 2 ^ (a + b) ≤ q ∧ q < (j + 1) * 2 ^ (a + b) ∧
      (∃ x, CoordValue dim 0 q x ∧ u * 2 ^ (32 - a) ≤ x ∧ x < (u + 1) * 2 ^ (32 - a)) ∧
      ∃ y, CoordValue dim 1 q y ∧ v * 2 ^ (32 - b) ≤ y ∧ y < (v + 1) * 2 ^ (32 - b)) ↔ q = n := by
    intro q
    rw [← hbox, ← Set.mem_singleton_iff, ← hn]
    rfl
  exact ⟨n, (hmem n).mpr rfl, fun q hq => (hmem q).mp hq⟩

example : (2 : Nat) ≤ 5 ∧ 5 ≤ 1111 ∧ 7 < 2 ^ 3 ∧ 100 < 2 ^ 10 ∧ 3 + 10 ≤ 32 ∧ (2 + 1) * 2 ^ (3 + 10) ≤ 2 ^ 32 := by decide

/-- **C64.**  Different coordinates are different: within the first 2^26 positions there is a point at which coordinate `i` is
below and coordinate `j` is above one half. -/
theorem C64_coordinates_differ {dim i j : Nat} (h2 : dim ≤ 1111) (hi : i < dim) (hj : j < dim) (hij : i ≠ j) :
    ∃ n p, 0 < n ∧ n < 2 ^ 26 ∧ IsPoint dim n p ∧ (p.getD i 0).toNat < 2 ^ 31 ∧ 2 ^ 31 ≤ (p.getD j 0).toNat := by
  have hdeg : ∀ q < dim, coordDegree q ≤ 13 := by
    intro q hq
    obtain ⟨h3, h4⟩ := coordPoly_range (i := q) (by omega)
    rw [← coordDegree_eq (by omega), natDegree_poly (by omega) (by omega)]
    have := (Nat.log2_lt (n := coordPoly q) (k := 14) (by omega)).mpr h4
    omega
  have h26 := C63_ts_sequence (dim := dim) (k := 26) (j := 0) (I := {i, j}) (e := fun _ => 1)
    (t := fun q => if q = j then 1 else 0) (by omega) h2
    (by intro q hq; simp at hq; omega) (by intro q hq; show (if q = j then 1 else 0) < 2 ^ 1; split <;> omega) (by omega) (by omega)
    (by
      rw [Finset.sum_pair hij, Finset.sum_pair hij]
      have := hdeg i hi
      have := hdeg j hj
      omega)
  rw [Finset.sum_pair hij] at h26
  have hne : Set.Nonempty {n | 0 * 2 ^ 26 ≤ n ∧ n < (0 + 1) * 2 ^ 26 ∧
      InBox dim {i, j} (fun _ => 1) (fun q => if q = j then 1 else 0) n} := by
    apply Set.nonempty_of_ncard_ne_zero
    rw [h26]
    positivity
  obtain ⟨n, -, hn, hbox⟩ := hne
  obtain ⟨v, hv, hv1, hv2⟩ := hbox i (by simp)
  obtain ⟨w, hw, hw1, -⟩ := hbox j (by simp)
  simp only [if_neg hij, if_true] at hv2 hw1
  have hpos : 0 < n := by
    rcases Nat.eq_zero_or_pos n with h0 | h0
    · exfalso
      subst h0
      rcases hw with ⟨-, rfl⟩ | ⟨p, hp, -⟩
      · omega
      · exact absurd hp.1 (by omega)
    · exact h0
  rcases hv with ⟨h0, -⟩ | ⟨p, hp, rfl⟩
  · omega
  rcases hw with ⟨h0, -⟩ | ⟨p', hp', rfl⟩
  · omega
  have := C09_point_unique hp hp'
  subst this
  exact ⟨n, p, hpos, by omega, hp, by omega, by omega⟩

example : (1111 : Nat) ≤ 1111 ∧ 1109 < 1111 ∧ 1110 < 1111 := by decide

end HL

import Verif.Props.SobolJoint
import Verif.Proof.Discrepancy

/-
C91: the Sobol sequence has low discrepancy.
-/

namespace HL
open Discrepancy

/-- At position `n` every coordinate `i` of `I` is below `X i` (in units of `2 ^ -32`). -/
def Below (dim : Nat) (I : Finset Nat) (X : Nat → Nat) (n : Nat) : Prop := ∀ i ∈ I, ∃ v, CoordValue dim i n v ∧ v < X i

/-- The share of the unit cube below `X`. -/
def shareBelow (I : Finset Nat) (X : Nat → Nat) : ℚ := ∏ i ∈ I, (X i : ℚ) / 2 ^ 32

/-- the values of the coordinates as a function of the position -/
theorem exists_values {dim : Nat} (h1 : 1 ≤ dim) (h2 : dim ≤ 1111) {I : Finset Nat} (hI : ∀ i ∈ I, i < dim) :
    ∃ f : Nat → Nat → Nat, ∀ i ∈ I, ∀ n < 2 ^ 32, ∀ v, CoordValue dim i n v ↔ v = f n i := by
  have hex : ∀ i, ∃ m, i ∈ I → IsDirection i m := by
    intro i
    by_cases hi : i ∈ I
    · obtain ⟨⟨m, hm⟩, -⟩ := C09_direction_numbers (i := i) (by have := hI i hi; omega)
      exact ⟨m, fun _ => hm⟩
    · exact ⟨fun _ => 0, fun h => absurd h hi⟩
  choose m hm using hex
  exact ⟨fun n i => (sobolValue (m i) n).toNat, fun i hi n hn v => coordValue_iff h1 h2 (hI i hi) (hm i hi) (by omega)⟩

theorem ncard_filter (B : Finset Nat) (p : Nat → Prop) [DecidablePred p] : Set.ncard {n | n ∈ B ∧ p n} = (B.filter p).card := by
  rw [← Set.ncard_coe_finset]
  congr 1
  ext n
  simp

theorem cnt_below {dim : Nat} {I : Finset Nat} {f : Nat → Nat → Nat}
    (hf : ∀ i ∈ I, ∀ n < 2 ^ 32, ∀ v, CoordValue dim i n v ↔ v = f n i) {B : Finset Nat} (hB : ∀ n ∈ B, n < 2 ^ 32) (X : Nat → Nat) :
    Set.ncard {n | n ∈ B ∧ Below dim I X n} = cnt B I f (fun _ => 0) X := by
  unfold cnt
  rw [← ncard_filter]
  congr 1
  ext n
  simp only [Set.mem_setOf_eq]
  refine and_congr_right fun hn => forall₂_congr fun i hi => ?_
  constructor
  · rintro ⟨v, hv, hlt⟩
    rw [hf i hi n (hB n hn)] at hv
    subst hv
    exact ⟨Nat.zero_le _, hlt⟩
  · exact fun h => ⟨_, (hf i hi n (hB n hn) _).mpr rfl, h.2⟩

theorem sobol_net {dim : Nat} (h1 : 1 ≤ dim) (h2 : dim ≤ 1111) {I : Finset Nat} (hI : ∀ i ∈ I, i < dim) {f : Nat → Nat → Nat}
    (hf : ∀ i ∈ I, ∀ n < 2 ^ 32, ∀ v, CoordValue dim i n v ↔ v = f n i) {T : Nat}
    (hT : ∀ (k j : Nat) (e t : Nat → Nat), k ≤ 32 → (j + 1) * 2 ^ k ≤ 2 ^ 32 → (∀ i ∈ I, t i < 2 ^ e i) → ∑ i ∈ I, e i + T ≤ k →
      Set.ncard {n | j * 2 ^ k ≤ n ∧ n < (j + 1) * 2 ^ k ∧ InBox dim I e t n} = 2 ^ (k - ∑ i ∈ I, e i))
    (k j : Nat) (hk : k ≤ 32) (hj : (j + 1) * 2 ^ k ≤ 2 ^ 32) : Net (Finset.Ico (j * 2 ^ k) ((j + 1) * 2 ^ k)) I f T k := by
  intro e lo hi hd hs
  have hex : ∀ i, ∃ t, i ∈ I → t < 2 ^ e i ∧ lo i = t * 2 ^ (32 - e i) ∧ hi i = (t + 1) * 2 ^ (32 - e i) := by
    intro i
    by_cases hi' : i ∈ I
    · obtain ⟨-, t, ht⟩ := hd i hi'
      exact ⟨t, fun _ => ht⟩
    · exact ⟨0, fun h => absurd h hi'⟩
  choose t ht using hex
  rw [← hT k j e t hk hj (fun i hi' => (ht i hi').1) hs]
  unfold cnt
  rw [← ncard_filter]
  congr 1
  ext n
  simp only [Set.mem_setOf_eq, Finset.mem_Ico, and_assoc]
  refine and_congr_right fun _ => and_congr_right fun hn => forall₂_congr fun i hi' => ?_
  rw [(ht i hi').2.1, (ht i hi').2.2]
  constructor
  · exact fun h => ⟨_, (hf i hi' n (by omega) _).mpr rfl, h.1, h.2⟩
  · rintro ⟨v, hv, hv1, hv2⟩
    rw [hf i hi' n (by omega)] at hv
    subst hv
    exact ⟨hv1, hv2⟩

theorem vol_below (I : Finset Nat) (X : Nat → Nat) : vol I (fun _ => 0) X = shareBelow I X := by
  unfold vol shareBelow
  simp

theorem discrepancy_of {dim : Nat} (h1 : 1 ≤ dim) (h2 : dim ≤ 1111) {I : Finset Nat} (hI : ∀ i ∈ I, i < dim) {T : Nat}
    (hT : ∀ (k j : Nat) (e t : Nat → Nat), k ≤ 32 → (j + 1) * 2 ^ k ≤ 2 ^ 32 → (∀ i ∈ I, t i < 2 ^ e i) → ∑ i ∈ I, e i + T ≤ k →
      Set.ncard {n | j * 2 ^ k ≤ n ∧ n < (j + 1) * 2 ^ k ∧ InBox dim I e t n} = 2 ^ (k - ∑ i ∈ I, e i))
    {X : Nat → Nat} (hX : ∀ i ∈ I, X i ≤ 2 ^ 32) {N : Nat} (hN : 0 < N) (hN' : N < 2 ^ 32) :
    |(Set.ncard {n | n < N ∧ Below dim I X n} : ℚ) - N * shareBelow I X| ≤ 2 ^ T * ((Nat.log2 N : ℚ) + 1) ^ I.card := by
  obtain ⟨f, hf⟩ := exists_values h1 h2 hI
  have hc := cnt_below hf (B := Finset.range N) (fun n hn => by have := Finset.mem_range.mp hn; omega) X
  simp only [Finset.mem_range] at hc
  rw [hc, ← vol_below]
  rcases I.eq_empty_or_nonempty with rfl | hne
  · simp [cnt, vol]
  · have hlog : Nat.log2 N < 32 := (Nat.log2_lt hN.ne').mpr hN'
    have := prefix_bound hne (sobol_net h1 h2 hI hf hT) hX (N := N) (m := Nat.log2 N + 1) (by omega) Nat.lt_log2_self
    push_cast at this
    exact this

/-- **C91.**  Take any set of coordinates `I` of a Sobol sequence and any box `∏ [0, X i / 2^32)`.  The number of the positions
`0, …, N - 1` (position 0 being the origin) in the box differs from `N` times its volume by at most `2^t (⌊log₂ N⌋ + 1)^s`, `s`
the number of coordinates and `t` the sum of their degrees less one, for every `N` below `2^32`. -/
theorem C91_discrepancy {dim : Nat} (h1 : 1 ≤ dim) (h2 : dim ≤ 1111) {I : Finset Nat} (hI : ∀ i ∈ I, i < dim) {X : Nat → Nat}
    (hX : ∀ i ∈ I, X i ≤ 2 ^ 32) {N : Nat} (hN : 0 < N) (hN' : N < 2 ^ 32) :
    |(Set.ncard {n | n < N ∧ Below dim I X n} : ℚ) - N * shareBelow I X| ≤
      2 ^ (∑ i ∈ I, (coordDegree i - 1)) * ((Nat.log2 N : ℚ) + 1) ^ I.card :=
  discrepancy_of h1 h2 hI (fun _ _ _ _ hk hj ht hs => C63_ts_sequence h1 h2 hI ht hk hj hs) hX hN hN'

theorem stratified_coarse {dim i k j e t : Nat} (h1 : 1 ≤ dim) (h2 : dim ≤ 1111) (hi : i < dim) (hk : k ≤ 32)
    (hj : (j + 1) * 2 ^ k ≤ 2 ^ 32) (he : e ≤ k) (ht : t < 2 ^ e) :
    Set.ncard {n | j * 2 ^ k ≤ n ∧ n < (j + 1) * 2 ^ k ∧
      ∃ v, CoordValue dim i n v ∧ t * 2 ^ (32 - e) ≤ v ∧ v < (t + 1) * 2 ^ (32 - e)} = 2 ^ (k - e) := by
  obtain ⟨f, hf⟩ := exists_values h1 h2 (I := {i}) (by simpa using hi)
  have hf : ∀ n < 2 ^ 32, ∀ v, CoordValue dim i n v ↔ v = f n i := hf i (by simp)
  have hw : 2 ^ (32 - e) = 2 ^ (k - e) * 2 ^ (32 - k) := by rw [← pow_add]; congr 1; omega
  have hpos : 0 < 2 ^ (32 - k) := by positivity
  have hset : {n | j * 2 ^ k ≤ n ∧ n < (j + 1) * 2 ^ k ∧ ∃ v, CoordValue dim i n v ∧ t * 2 ^ (32 - e) ≤ v ∧ v < (t + 1) * 2 ^ (32 - e)} =
      {n | n ∈ Finset.Ico (j * 2 ^ k) ((j + 1) * 2 ^ k) ∧
        f n i / 2 ^ (32 - k) ∈ Finset.Ico (t * 2 ^ (k - e)) ((t + 1) * 2 ^ (k - e))} := by
    ext n
    simp only [Set.mem_setOf_eq, Finset.mem_Ico, and_assoc]
    refine and_congr_right fun _ => and_congr_right fun hn => ?_
    rw [Nat.le_div_iff_mul_le hpos, Nat.div_lt_iff_lt_mul hpos, Nat.mul_assoc, Nat.mul_assoc, ← hw]
    constructor
    · rintro ⟨v, hv, h3, h4⟩
      rw [hf n (by omega)] at hv
      subst hv
      exact ⟨h3, h4⟩
    · exact fun h => ⟨_, (hf n (by omega) _).mpr rfl, h.1, h.2⟩
  rw [hset, ncard_filter]
  have hcard : (Finset.Ico (t * 2 ^ (k - e)) ((t + 1) * 2 ^ (k - e))).card = 2 ^ (k - e) := by
    rw [Nat.card_Ico, ← Nat.sub_mul]; simp
  refine Eq.trans ?_ hcard
  have hint : ∀ n u, j * 2 ^ k ≤ n ∧ n < (j + 1) * 2 ^ k → ((∃ v, CoordValue dim i n v ∧ u * 2 ^ (32 - k) ≤ v ∧ v < (u + 1) * 2 ^ (32 - k)) ↔
      f n i / 2 ^ (32 - k) = u) := by
    intro n u hn
    have e3 : f n i / 2 ^ (32 - k) = u ↔ u * 2 ^ (32 - k) ≤ f n i ∧ f n i < (u + 1) * 2 ^ (32 - k) := by
      rw [← Nat.le_div_iff_mul_le hpos, ← Nat.div_lt_iff_lt_mul hpos]; omega
    rw [e3]
    constructor
    · rintro ⟨v, hv, h3, h4⟩
      rw [hf n (by omega)] at hv
      subst hv
      exact ⟨h3, h4⟩
    · exact fun h => ⟨_, (hf n (by omega) _).mpr rfl, h.1, h.2⟩
  have hbnd : (t + 1) * 2 ^ (k - e) ≤ 2 ^ k := by
    calc (t + 1) * 2 ^ (k - e) ≤ 2 ^ e * 2 ^ (k - e) := Nat.mul_le_mul_right _ ht
      _ = 2 ^ k := by rw [← pow_add]; congr 1; omega
  refine Finset.card_bij (fun n _ => f n i / 2 ^ (32 - k)) (fun n hn => (Finset.mem_filter.mp hn).2) ?_ ?_
  · intro n hn n' hn' heq
    simp only [Finset.mem_filter, Finset.mem_Ico] at hn hn' heq
    obtain ⟨m, -, huniq⟩ := C12_stratified h1 h2 hi hk hj (t := f n i / 2 ^ (32 - k)) (by omega)
    rw [huniq n ⟨hn.1.1, hn.1.2, (hint n _ hn.1).mpr rfl⟩, huniq n' ⟨hn'.1.1, hn'.1.2, (hint n' _ hn'.1).mpr heq.symm⟩]
  · intro u hu
    have hu' := Finset.mem_Ico.mp hu
    obtain ⟨m, ⟨h3, h4, h5⟩, -⟩ := C12_stratified h1 h2 hi hk hj (t := u) (by omega)
    have := (hint m u ⟨h3, h4⟩).mp h5
    exact ⟨m, Finset.mem_filter.mpr ⟨Finset.mem_Ico.mpr ⟨h3, h4⟩, by rw [this]; exact hu⟩, this⟩

/-- **C91** for a single coordinate, whatever its degree: the number of the first `N` positions with a value below `x` differs
from `N x / 2^32` by at most `⌊log₂ N⌋ + 1`. -/
theorem C91_one_coordinate {dim i : Nat} (h2 : dim ≤ 1111) (hi : i < dim) {x : Nat} (hx : x ≤ 2 ^ 32) {N : Nat} (hN : 0 < N)
    (hN' : N < 2 ^ 32) :
    |(Set.ncard {n | n < N ∧ ∃ v, CoordValue dim i n v ∧ v < x} : ℚ) - N * (x / 2 ^ 32)| ≤ (Nat.log2 N : ℚ) + 1 := by
  have h1 : 1 ≤ dim := by omega
  have := discrepancy_of h1 h2 (I := {i}) (by simpa using hi) (T := 0) ?_ (X := fun _ => x) (by simpa using hx) hN hN'
  · simpa [Below, shareBelow] using this
  · intro k j e t hk hj ht hs
    simp only [Finset.mem_singleton, forall_eq, Finset.sum_singleton, Nat.add_zero] at ht hs ⊢
    have := stratified_coarse h1 h2 hi hk hj hs ht
    rw [← this]
    congr 1
    ext n
    simp [InBox]

/-- **C91** for the points the generator returns: of the points number `a + 1` to `b`, the number in the box differs from its
share by at most twice the bound, wherever the sequence is entered. -/
theorem C91_points {dim : Nat} (h1 : 1 ≤ dim) (h2 : dim ≤ 1111) {I : Finset Nat} (hI : ∀ i ∈ I, i < dim) {X : Nat → Nat}
    (hX : ∀ i ∈ I, X i ≤ 2 ^ 32) {a b : Nat} (hab : a ≤ b) (hb : b < 2 ^ 32 - 1) :
    |(Set.ncard {n | a < n ∧ n ≤ b ∧ ∃ p, IsPoint dim n p ∧ ∀ i ∈ I, (p.getD i 0).toNat < X i} : ℚ) - (b - a : ℕ) * shareBelow I X| ≤
      2 * (2 ^ (∑ i ∈ I, (coordDegree i - 1)) * ((Nat.log2 (b + 1) : ℚ) + 1) ^ I.card) := by
  have hset : {n | a < n ∧ n ≤ b ∧ ∃ p, IsPoint dim n p ∧ ∀ i ∈ I, (p.getD i 0).toNat < X i} =
      {n | n ∈ Finset.Ico (a + 1) (b + 1) ∧ Below dim I X n} := by
    ext n
    simp only [Set.mem_setOf_eq, Finset.mem_Ico, Nat.succ_le_iff, Nat.lt_succ_iff, and_assoc]
    refine and_congr_right fun h3 => and_congr_right fun h4 => ?_
    constructor
    · rintro ⟨p, hp, h⟩ i hi
      exact ⟨_, Or.inr ⟨p, hp, rfl⟩, h i hi⟩
    · intro h
      obtain ⟨p, hp⟩ := C09_point_exists h1 h2 (n := n) (by omega) (by omega)
      refine ⟨p, hp, fun i hi => ?_⟩
      obtain ⟨v, (⟨h0, -⟩ | ⟨q, hq, rfl⟩), hv⟩ := h i hi
      · omega
      · rwa [C09_point_unique hp hq]
  obtain ⟨f, hf⟩ := exists_values h1 h2 hI
  have hc : ∀ N, N < 2 ^ 32 → Set.ncard {n | n < N ∧ Below dim I X n} = cnt (Finset.range N) I f (fun _ => 0) X := by
    intro N hN
    have := cnt_below hf (B := Finset.range N) (fun n hn => by have := Finset.mem_range.mp hn; omega) X
    simpa only [Finset.mem_range] using this
  rw [hset, cnt_below hf (fun n hn => by have := Finset.mem_Ico.mp hn; omega)]
  have h3 := C91_discrepancy h1 h2 hI hX (N := b + 1) (by omega) (by omega)
  have h4 := C91_discrepancy h1 h2 hI hX (N := a + 1) (by omega) (by omega)
  rw [hc _ (by omega)] at h3 h4
  have h5 := cnt_Ico (I := I) (f := f) (Nat.zero_le (a + 1)) (by omega : a + 1 ≤ b + 1) (fun _ => 0) X
  rw [← Finset.range_eq_Ico, ← Finset.range_eq_Ico] at h5
  rw [h5] at h3
  have h6 : Nat.log2 (a + 1) ≤ Nat.log2 (b + 1) := by
    rw [Nat.log2_eq_log_two, Nat.log2_eq_log_two]
    exact Nat.log_mono_right (by omega)
  have h7 : (2 : ℚ) ^ (∑ i ∈ I, (coordDegree i - 1)) * ((Nat.log2 (a + 1) : ℚ) + 1) ^ I.card ≤
      2 ^ (∑ i ∈ I, (coordDegree i - 1)) * ((Nat.log2 (b + 1) : ℚ) + 1) ^ I.card := by
    refine mul_le_mul_of_nonneg_left (pow_le_pow_left₀ (by positivity) ?_ _) (by positivity)
    have : (Nat.log2 (a + 1) : ℚ) ≤ Nat.log2 (b + 1) := by exact_mod_cast h6
    linarith
  rw [Nat.cast_sub hab]
  push_cast at h3 h4
  rw [abs_le] at h3 h4 ⊢
  constructor <;> nlinarith

/-- For the first two coordinates, and a generator that has just been made: of the first `N` points the number in any rectangle
at the origin differs from its share by at most `2 (⌊log₂ (N + 1)⌋ + 1)²`. -/
theorem C91_first_two {dim N : Nat} (h1 : 2 ≤ dim) (h2 : dim ≤ 1111) (hN : N < 2 ^ 32 - 1) {x y : Nat} (hx : x ≤ 2 ^ 32) (hy : y ≤ 2 ^ 32) :
    |(Set.ncard {n | 0 < n ∧ n ≤ N ∧ ∃ p, IsPoint dim n p ∧ (p.getD 0 0).toNat < x ∧ (p.getD 1 0).toNat < y} : ℚ) -
      N * (x / 2 ^ 32 * (y / 2 ^ 32))| ≤ 2 * ((Nat.log2 (N + 1) : ℚ) + 1) ^ 2 := by
  have hd0 : coordDegree 0 = 1 := rfl
  have hd1 : coordDegree 1 = 1 := by decide +kernel
  have := C91_points (dim := dim) (by omega) h2 (I := {0, 1}) (by intro i hi; simp at hi; omega)
    (X := fun i => if i = 0 then x else y) (by intro i hi; split <;> assumption) (a := 0) (b := N) (Nat.zero_le _) hN
  rw [Finset.sum_pair (by omega), hd0, hd1] at this
  have e : ∀ u v : ℚ, u / 2 ^ 32 * (v / 2 ^ 32) = u * v / (2 ^ 32) ^ 2 := fun u v => by field_simp
  rw [e]
  simpa [shareBelow] using this

/-- The bound says something: among the first million points, in the first two coordinates, any quarter of the square at the
origin has 250000 points within 800. -/
example : (2 : ℚ) * ((Nat.log2 (1000000 + 1) : ℚ) + 1) ^ 2 = 800 := by
  have : Nat.log2 (1000000 + 1) = 19 := by decide +kernel
  rw [this]; norm_num

end HL

import Verif.Proof.DDWRLemmas
import Mathlib.Tactic.IntervalCases

/-
C57, C58: the discrete samplers with and without replacement.  `fp` is the floating-point arithmetic the random number is
scaled with.
-/

namespace HL
variable {fp : FP}

/-- The number of individuals in a vector of frequencies. -/
def individuals (freq : List U32) : Nat := (freq.map BitVec.toNat).sum

/-! ### C57 -/

/-- **C57**: from frequencies with a total below 2^32, drawing as many samples as the total returns every state exactly as
often as its frequency, whatever the random numbers; and the next draw throws. -/
theorem C57_exhausts_partial (hfp : fp.Good) {freq : List U32} (h : individuals freq < 2 ^ 32) (rs : List U32)
    (hl : rs.length = individuals freq) :
    ∃ out d, (WithoutRep.new freq).draws fp rs = .ok (out, d) ∧ (∀ j, out.count j = (freq.getD j 0).toNat) ∧
      (∀ j ∈ out, j < freq.length) ∧ d.isEmpty = true ∧ ∀ r, d.sample fp r = .thrown .depleted := by
  obtain ⟨out, d, h1, -, h3, -, h5, h6⟩ := WithoutRep.draws_ok hfp rs (WithoutRep.new freq) 0
    (by rw [Nat.zero_add, hl]; exact WithoutRep.new_inv h)
  have hz : d.sum = 0 := by
    apply BitVec.eq_of_toNat_eq
    rw [h3.sum]; rfl
  refine ⟨out, d, h1, ?_, h5, ?_, ?_⟩
  · intro j
    have := h6 j
    rw [WithoutRep.natTotal_zero h3.total j] at this
    exact this
  · unfold WithoutRep.isEmpty; rw [hz]; rfl
  · intro r
    unfold WithoutRep.sample
    rw [if_pos hz]

/-- **C57**, on the way: after any number of draws, what has been drawn and what is left add up to the frequencies, and the
sampler is empty only when all have been drawn. -/
theorem C57_conserves_partial (hfp : fp.Good) {freq : List U32} (h : individuals freq < 2 ^ 32) (rs : List U32)
    (hl : rs.length ≤ individuals freq) :
    ∃ out d, (WithoutRep.new freq).draws fp rs = .ok (out, d) ∧ out.length = rs.length ∧
      (∀ j, out.count j + (d.freq.getD j 0).toNat = (freq.getD j 0).toNat) ∧
      (d.isEmpty = true ↔ rs.length = individuals freq) := by
  obtain ⟨out, d, h1, h2, h3, -, -, h6⟩ := WithoutRep.draws_ok hfp rs (WithoutRep.new freq) (individuals freq - rs.length)
    (by rw [Nat.sub_add_cancel hl]; exact WithoutRep.new_inv h)
  refine ⟨out, d, h1, h2, h6, ?_⟩
  unfold WithoutRep.isEmpty
  rw [beq_iff_eq]
  have hs := h3.sum
  constructor
  · intro hc
    rw [hc] at hs
    simp at hs
    omega
  · intro hc
    apply BitVec.eq_of_toNat_eq
    rw [hs, hc]; simp

/-- **C57** needs the bound: with frequencies `[2^31, 2^31]` the total wraps to 0 and the first draw throws. -/
theorem C57_negation_wrap (r : U32) : individuals [2 ^ 31, 2 ^ 31] = 2 ^ 32 ∧
    (WithoutRep.new [2 ^ 31, 2 ^ 31]).sample fp r = .thrown .depleted := by
  refine ⟨by decide, ?_⟩
  unfold WithoutRep.sample
  rw [if_pos (by decide)]

example (hfp : fp.Good) (a b c : U32) : ∃ out d, (WithoutRep.new [2, 0, 1]).draws fp [a, b, c] = .ok (out, d) ∧
    out.count 0 = 2 ∧ out.count 1 = 0 ∧ out.count 2 = 1 := by
  obtain ⟨out, d, h1, h2, -⟩ := C57_exhausts_partial hfp (freq := [2, 0, 1]) (by decide) [a, b, c] (by rfl)
  exact ⟨out, d, h1, h2 0, h2 1, h2 2⟩

/-! ### C58 -/

/-- **C58**, with replacement, integer frequencies: only states with positive frequency are returned, for every positive
total below 2^32. -/
theorem C58_with_replacement (hfp : fp.Good) {freq : List U32} (h0 : 0 < individuals freq) (h : individuals freq < 2 ^ 32) (r : U32) :
    ∃ i, (WithRep.new (weightU32 fp) freq).sample fp (weightU32 fp) r = .ok i ∧ i < freq.length ∧ 0 < (freq.getD i 0).toNat := by
  have hs : (WithRep.new (weightU32 fp) freq).sum.toNat = individuals freq := foldl_zero_toNat h
  obtain ⟨q, hq, hq'⟩ := scale_ok hfp r (t := (WithRep.new (weightU32 fp) freq).sum) (by omega)
  unfold WithRep.sample
  have hq2 : (weightU32 fp).ofFl (fp.mul (unitOf fp r) ((weightU32 fp).toFl (WithRep.new (weightU32 fp) freq).sum)) = .ok q := hq
  rw [hq2]
  simp only [Out.ok_bind]
  cases freq with
  | nil => simp [individuals] at h0
  | cons f rest =>
    simp only [WithRep.new]
    have e : (weightU32 fp).toFl q = fp.ofInt q.toNat := rfl
    rw [e, WithRep.walk_eq hfp]
    obtain ⟨i, h1, h2, h3⟩ := WithoutRep.walk_ok (r := q) rest f f 0 0 (by simp) (by omega)
      (by rw [Nat.zero_add]; rw [hs] at hq'; exact hq') (by rw [Nat.zero_add]; exact h)
    exact ⟨i, by rw [h1, Nat.zero_add], h2, h3⟩

/-- **C58**, with replacement, `double` frequencies (any doubles that are not negative, with a computed total from 2^-990
to 2^1023): only states with positive frequency are returned. -/
theorem C58_with_replacement_double (hfp : fp.Good) {w : List ℚ} (hn : ∀ x ∈ w, 0 ≤ x) (hd : ∀ x ∈ w, fp.rnd x = .fin x) {t : ℚ}
    (ht : (w.map Fl.fin).foldl fp.add (.fin 0) = .fin t) (h1 : (2 : ℚ) ^ (-990 : ℤ) ≤ t) (h2 : t ≤ 2 ^ 1023) (r : U32) :
    ∃ i, (WithRep.new (weightFl fp) (w.map Fl.fin)).sample fp (weightFl fp) r = .ok i ∧ i < w.length ∧ 0 < w.getD i 0 := by
  obtain ⟨a, ha, h3, h4⟩ := scaled_lt hfp r h1 h2
  rw [variate_eq hfp] at ha
  have hs : (WithRep.new (weightFl fp) (w.map Fl.fin)).sum = .fin t := ht
  unfold WithRep.sample
  have hq : (weightFl fp).ofFl (fp.mul (unitOf fp r) ((weightFl fp).toFl (WithRep.new (weightFl fp) (w.map Fl.fin)).sum)) = .ok (.fin a) := by
    rw [hs, unitOf_eq hfp]
    exact congrArg Out.ok ha
  rw [hq]
  simp only [Out.ok_bind]
  cases w with
  | nil =>
    simp only [List.map_nil, List.foldl_nil, Fl.fin.injEq] at ht
    rw [← ht] at h1
    exact absurd h1 (not_le.mpr (by positivity))
  | cons f rest =>
    simp only [WithRep.new, List.map_cons]
    have hf := hd f (by simp)
    have e0 : fp.add (.fin 0) (.fin f) = .fin f := by
      show fp.rnd (0 + f) = _
      rw [zero_add, hf]
    rw [List.map_cons, List.foldl_cons, e0] at ht
    obtain ⟨i, g1, g2, g3⟩ := WithRep.walk_fl hfp (q := a) rest f 0 f 0 (fun x hx => hn x (by simp [hx])) (hn f (by simp)) hf
      (fun h => h) ht h3 h4
    exact ⟨i, by rw [Nat.zero_add] at g1; exact g1, g2, g3⟩

/-- **C58 is false** when no state has positive frequency: unlike the sampler without replacement there is no check, and the
loop reads beyond the frequencies. -/
theorem C58_negation_zero (hfp : fp.Good) {freq : List U32} (h0 : individuals freq = 0) (r : U32) :
    (WithRep.new (weightU32 fp) freq).sample fp (weightU32 fp) r = .ub .oob := by
  have hs : (WithRep.new (weightU32 fp) freq).sum = 0 := by
    apply BitVec.eq_of_toNat_eq
    have : (WithRep.new (weightU32 fp) freq).sum.toNat = individuals freq := foldl_zero_toNat (by show individuals freq < _; omega)
    rw [this, h0]; rfl
  unfold WithRep.sample
  have hq2 : (weightU32 fp).ofFl (fp.mul (unitOf fp r) ((weightU32 fp).toFl (WithRep.new (weightU32 fp) freq).sum)) = .ok 0 := by
    rw [hs]; exact scale_zero hfp r
  rw [hq2]
  simp only [Out.ok_bind]
  cases freq with
  | nil => rfl
  | cons f rest =>
    simp only [WithRep.new]
    have e : (weightU32 fp).toFl 0 = fp.ofInt (0 : U32).toNat := rfl
    have hc : f.toNat + natTotal rest = 0 := h0
    rw [e, WithRep.walk_eq hfp]
    exact WithRep.walk_zero_oob 0 rest f 0 (by omega) (by omega)

/-- **C58**, constrained sampling, what is true: with a limit of at least one state, at every point of the life of a sampler
(the frequencies add up to the total), either a state below the limit with positive frequency is returned and removed, or no state
below the limit is left, nothing changes and the invalid state is returned. -/
theorem C58_constrained_partial (hfp : fp.Good) {d : WithoutRep} {n : Nat} (hn : individuals d.freq = n) (hs : d.sum.toNat = n)
    (h0 : 0 < n) {limit : Nat} (hl : 0 < limit) (r : U32) :
    (∃ i, d.constrainedSample fp r limit = .ok (some i, d.take i) ∧ i < limit ∧ i < d.freq.length ∧ 0 < (d.freq.getD i 0).toNat) ∨
    ((∀ i < limit, (d.freq.getD i 0).toNat = 0) ∧ d.constrainedSample fp r limit = .ok (none, d)) := by
  have hlt := d.sum.isLt
  have hne : d.sum ≠ 0 := by
    intro hc; rw [hc] at hs; simp at hs; omega
  unfold WithoutRep.constrainedSample
  rw [if_neg hne]
  simp only
  have hlen : 0 < d.freq.length := by
    rcases hf : d.freq with _ | ⟨f, rest⟩
    · rw [hf] at hn; simp [individuals] at hn; omega
    · simp
  have htot : natTotal (d.freq.take (min d.freq.length limit)) ≤ n := by
    rw [← hn]; exact WithoutRep.natTotal_take_le _ _
  have hsum := foldl_zero_toNat (l := d.freq.take (min d.freq.length limit)) (by omega)
  rcases Nat.eq_zero_or_pos (natTotal (d.freq.take (min d.freq.length limit))) with hz | hp
  · right
    have hlim : limit < d.freq.length := by
      by_contra hge
      rw [min_eq_left (by omega), List.take_length] at hz
      have : natTotal d.freq = n := hn
      omega
    rw [min_eq_right hlim.le] at hz hsum ⊢
    have hzero : (d.freq.take limit).foldl (· + ·) (0 : U32) = 0 := by
      apply BitVec.eq_of_toNat_eq
      rw [hsum, hz]; rfl
    refine ⟨?_, ?_⟩
    · intro i hi
      have := WithoutRep.natTotal_zero hz i
      rw [List.getD_eq_getElem?_getD, List.getElem?_take, if_pos hi, ← List.getD_eq_getElem?_getD] at this
      exact this
    · rw [hzero, scale_zero hfp]
      simp only [Out.ok_bind]
      cases hf : d.freq with
      | nil => rw [hf] at hlen; simp at hlen
      | cons f rest =>
        simp only
        rw [hf] at hz hlim
        have hf0 : f.toNat = 0 := by
          have := WithoutRep.natTotal_zero hz 0
          rw [show limit = (limit - 1) + 1 by omega, List.take_succ_cons] at this
          simpa using this
        rw [WithoutRep.walkTo_none rest f f 0 hf0 hf0 hl (by simpa using hlim) (by rw [Nat.sub_zero]; exact hz)]
        rfl
  · left
    obtain ⟨q, hq, hq'⟩ := scale_ok hfp r (t := (d.freq.take (min d.freq.length limit)).foldl (· + ·) 0) (by omega)
    rw [hq]
    simp only [Out.ok_bind]
    rw [hsum] at hq'
    cases hf : d.freq with
    | nil => rw [hf] at hlen; simp at hlen
    | cons f rest =>
      simp only
      rw [hf] at hq' htot hlen
      obtain ⟨i, h1, h2, h3⟩ := WithoutRep.walkTo_ok (r := q) (limit := min (f :: rest).length limit) rest f f 0 0 (by simp) (by omega)
        (by omega) (by omega) (by rw [Nat.zero_add, Nat.sub_zero]; exact hq') (by rw [Nat.zero_add, Nat.sub_zero]; omega)
      rw [h1]
      simp only [Out.ok_bind, Out.pure_eq, Nat.zero_add]
      refine ⟨i, rfl, by omega, by omega, h3⟩

/-- **C58 is false** for a limit of 0, with which every state is forbidden: state 0 is returned whenever it has positive
frequency. -/
theorem C58_negation_limit (hfp : fp.Good) {f : U32} {rest : List U32} (h : individuals (f :: rest) < 2 ^ 32) (hf : 0 < f.toNat) (r : U32) :
    ∃ d, (WithoutRep.new (f :: rest)).constrainedSample fp r 0 = .ok (some 0, d) := by
  have hinv := WithoutRep.new_inv (freq := f :: rest) h
  have hpos : 0 < natTotal (f :: rest) := by rw [natTotal_cons]; omega
  have hne : (WithoutRep.new (f :: rest)).sum ≠ 0 := by
    intro hc
    have := hinv.sum
    rw [hc] at this
    simp at this
    omega
  unfold WithoutRep.constrainedSample
  rw [if_neg hne]
  simp only [Nat.min_zero, List.take_zero, List.foldl_nil]
  rw [scale_zero hfp]
  have hlt : ¬ f ≤ (0 : U32) := by
    rw [BitVec.le_def]; simp; omega
  have hw : WithoutRep.walkTo 0 0 rest f 0 = .ok (some 0) := by
    cases rest with
    | nil => unfold WithoutRep.walkTo; rw [if_neg hlt]
    | cons g l => unfold WithoutRep.walkTo; rw [if_neg hlt]
  simp only [Out.ok_bind, WithoutRep.new]
  rw [hw]
  exact ⟨_, rfl⟩

/-- **C58 is false** after an assignment through `operator[]`, which does not update the total: taking the only individual away
and drawing reads beyond the frequencies. -/
theorem C58_negation_assign (hfp : fp.Good) (r : U32) :
    ∃ d, (WithoutRep.new [1]).assign 0 0 = .ok d ∧ d.sample fp r = .ub .oob := by
  refine ⟨⟨[0], 1⟩, by decide, ?_⟩
  unfold WithoutRep.sample
  rw [if_neg (by decide)]
  obtain ⟨q, hq, -⟩ := scale_ok hfp r (t := (1 : U32)) (by decide)
  simp only [hq, Out.ok_bind]
  rw [WithRep.walk_zero_oob q [] 0 0 rfl rfl]
  rfl

example (hfp : fp.Good) (r : U32) : ∃ i, (WithRep.new (weightU32 fp) [2, 0, 1]).sample fp (weightU32 fp) r = .ok i ∧ i < 3 ∧
    0 < (([2, 0, 1] : List U32).getD i 0).toNat :=
  C58_with_replacement hfp (freq := [2, 0, 1]) (by decide) (by decide) r

example (r : U32) : ∃ i, (WithRep.new (weightFl FP.exact) ([1 / 3, 0, 2].map Fl.fin)).sample FP.exact (weightFl FP.exact) r = .ok i ∧ i < 3 ∧
    0 < ([1 / 3, 0, 2] : List ℚ).getD i 0 := by
  refine C58_with_replacement_double FP.exact_good (w := [1 / 3, 0, 2]) (by norm_num) (fun _ _ => rfl) (t := 7 / 3) ?_ ?_ ?_ r
  · show Fl.fin (0 + 1 / 3 + 0 + 2) = _
    norm_num
  · refine le_trans (zpow_le_one_of_nonpos₀ (by norm_num) (by norm_num)) (by norm_num)
  · calc (7 / 3 : ℚ) ≤ 2 ^ 2 := by norm_num
      _ ≤ 2 ^ 1023 := pow_le_pow_right₀ (by norm_num) (by norm_num)

/-- Both alternatives of `C58_constrained_partial` occur. -/
example (hfp : fp.Good) (r : U32) : (WithoutRep.new [0, 3]).constrainedSample fp r 1 = .ok (none, WithoutRep.new [0, 3]) ∧
    ∃ i, (WithoutRep.new [0, 3]).constrainedSample fp r 2 = .ok (some i, (WithoutRep.new [0, 3]).take i) := by
  constructor
  · rcases C58_constrained_partial hfp (d := WithoutRep.new [0, 3]) (n := 3) (by decide) (by decide) (by norm_num) (limit := 1) (by norm_num) r with
      ⟨i, -, h2, -, h4⟩ | ⟨-, h⟩
    · interval_cases i; exact absurd h4 (by decide)
    · exact h
  · rcases C58_constrained_partial hfp (d := WithoutRep.new [0, 3]) (n := 3) (by decide) (by decide) (by norm_num) (limit := 2) (by norm_num) r with
      ⟨i, h, -⟩ | ⟨h, -⟩
    · exact ⟨i, h⟩
    · exact absurd (h 1 (by norm_num)) (by decide)

end HL

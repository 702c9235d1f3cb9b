import Verif.Props.DDWR

/-
C120: editing the frequencies of the sampler without replacement through `operator[]`.
-/

namespace HL
variable {fp : FP}

namespace WithoutRep

/-- Assign one after the other, `d[i] = x`. -/
def assigns (d : WithoutRep) : List (Nat × U32) → Out WithoutRep
  | [] => .ok d
  | e :: es => d.assign e.1 e.2 >>= fun d => d.assigns es

theorem assigns_eq : ∀ (es : List (Nat × U32)) (d : WithoutRep), (∀ e ∈ es, e.1 < d.freq.length) →
    d.assigns es = .ok ⟨es.foldl (fun l e => l.set e.1 e.2) d.freq, d.sum⟩
  | [], _, _ => rfl
  | e :: es, d, h => by
    unfold assigns assign
    rw [if_pos (h e (by simp)), Out.ok_bind, assigns_eq es _ (by
      intro e' he'
      simpa using h e' (by simp [he']))]
    rfl

theorem natTotal_assign : ∀ (l : List U32) (i : Nat) (x : U32), i < l.length →
    natTotal (l.set i x) + (l.getD i 0).toNat = natTotal l + x.toNat
  | [], i, x, h => by simp at h
  | f :: l, 0, x, _ => by
    rw [List.set_cons_zero, natTotal_cons, natTotal_cons, List.getD_cons_zero]
    omega
  | f :: l, i + 1, x, h => by
    rw [List.set_cons_succ, natTotal_cons, natTotal_cons, List.getD_cons_succ]
    have := natTotal_assign l i x (by simpa using h)
    omega

/-- the last random number asks for the last individual -/
theorem scale_last (hfp : fp.Good) {t : U32} (h0 : 0 < t.toNat) :
    ∃ q : U32, scale fp (BitVec.ofNat 32 (2 ^ 32 - 1)) t = .ok q ∧ q.toNat = t.toNat - 1 := by
  have ht := t.isLt
  obtain ⟨a, ha, h1, h2⟩ := unit_scaled hfp (BitVec.ofNat 32 (2 ^ 32 - 1)) h0 (by omega)
  have ha' := ha
  rw [unitOf_eq hfp] at ha'
  have hm : fp.rnd (((2 : ℚ) ^ 32 - 1) / 2 ^ 32 * t.toNat) = .fin a := by
    have e : (((BitVec.ofNat 32 (2 ^ 32 - 1)).toNat : Nat) : ℚ) = 2 ^ 32 - 1 := by
      rw [BitVec.toNat_ofNat]; norm_num
    rw [← e]; exact ha'
  have hlow : (t.toNat : ℚ) - 1 ≤ a := by
    have hi := rnd_int hfp (t := (t.toNat : Int) - 1) (by rw [abs_of_nonneg (by omega)]; omega)
    push_cast at hi
    refine hfp.mono _ _ _ _ ?_ hi hm
    have : (t.toNat : ℚ) < 2 ^ 32 := by exact_mod_cast ht
    have e : ((2 : ℚ) ^ 32 - 1) / 2 ^ 32 * t.toNat = t.toNat - t.toNat / 2 ^ 32 := by ring
    rw [e]
    have : (t.toNat : ℚ) / 2 ^ 32 ≤ 1 := by rw [div_le_one (by norm_num)]; exact this.le
    linarith
  unfold scale
  have e : fp.ofInt (t.toNat : Int) = .fin (t.toNat : ℚ) := by
    rw [ofInt_exact hfp (by rw [abs_of_nonneg (by positivity)]; omega)]
    norm_cast
  rw [e, ha]
  have hf0 : ⌊a⌋ = (t.toNat : Int) - 1 := by
    rw [Int.floor_eq_iff]
    push_cast
    constructor <;> linarith
  have htr : FP.truncQ a = ⌊a⌋ := by unfold FP.truncQ; rw [if_pos h1]
  unfold FP.toU32
  simp only [htr, hf0]
  rw [if_pos ⟨by omega, by omega⟩]
  refine ⟨_, rfl, ?_⟩
  rw [BitVec.toNat_ofNat, Nat.mod_eq_of_lt (by omega)]
  omega

theorem walk_off {r : U32} : ∀ (l : List U32) (s : U32) (k : Nat), s.toNat + natTotal l ≤ r.toNat → walk r l s k = .ub .oob
  | [], s, k, h => by
    unfold walk
    rw [natTotal_nil] at h
    rw [if_pos (by rw [BitVec.le_def]; omega)]
  | f :: l, s, k, h => by
    unfold walk
    rw [natTotal_cons] at h
    have hr := r.isLt
    rw [if_pos (by rw [BitVec.le_def]; omega)]
    apply walk_off
    rw [BitVec.toNat_add, Nat.mod_eq_of_lt (by omega)]
    omega

/-- at least as many individuals as the total says -/
theorem sample_surplus (hfp : fp.Good) {d : WithoutRep} {n m : Nat} (hm : natTotal d.freq = m + 1) (hs : d.sum.toNat = n + 1) (hnm : n ≤ m)
    (hlt : m + 1 < 2 ^ 32) (r : U32) :
    ∃ i, d.sample fp r = .ok (i, d.take i) ∧ i < d.freq.length ∧ 0 < (d.freq.getD i 0).toNat ∧ natTotal (d.take i).freq = m ∧
      (d.take i).sum.toNat = n := by
  unfold sample
  have hne : d.sum ≠ 0 := by
    intro hc; rw [hc] at hs; simp at hs
  rw [if_neg hne]
  obtain ⟨q, hq, hq'⟩ := scale_ok hfp r (t := d.sum) (by omega)
  rw [hq]
  simp only [Out.ok_bind]
  cases hf : d.freq with
  | nil => rw [hf] at hm; simp [natTotal] at hm
  | cons f rest =>
    simp only
    rw [hf] at hm
    obtain ⟨i, h1, h2, h3⟩ := walk_ok (r := q) rest f f 0 0 (by simp) (by omega) (by omega) (by omega)
    rw [h1]
    simp only [Out.ok_bind, Out.pure_eq, zero_add]
    refine ⟨i, rfl, h2, h3, ?_, ?_⟩
    · have := natTotal_set (f :: rest) i h2 h3
      show natTotal (d.freq.set i (d.freq.getD i 0 - 1)) = m
      rw [hf]; omega
    · show (d.sum - 1).toNat = n
      rw [sub_one_toNat (by omega)]
      omega

theorem draws_surplus (hfp : fp.Good) : ∀ (rs : List U32) (d : WithoutRep) (m : Nat), natTotal d.freq = m + rs.length →
    d.sum.toNat = rs.length → m + rs.length < 2 ^ 32 →
    ∃ out d', d.draws fp rs = .ok (out, d') ∧ out.length = rs.length ∧ d'.sum.toNat = 0 ∧ natTotal d'.freq = m ∧
      ∀ j, out.count j + (d'.freq.getD j 0).toNat = (d.freq.getD j 0).toNat
  | [], d, m, h, hs, _ => ⟨[], d, rfl, rfl, by simpa using hs, by simpa using h, by simp⟩
  | r :: rs, d, m, h, hs, hlt => by
    obtain ⟨i, h1, h2, h3, h4, h5⟩ := sample_surplus hfp (n := rs.length) (m := m + rs.length) (by simpa [add_assoc] using h)
      (by simpa using hs) (by omega) (by simpa [add_assoc] using hlt) r
    obtain ⟨out, d', g1, g2, g3, g4, g6⟩ := draws_surplus hfp rs (d.take i) m h4 h5 (by simp at hlt; omega)
    unfold draws
    rw [h1]
    simp only [Out.ok_bind]
    rw [g1]
    simp only [Out.ok_bind, Out.pure_eq]
    refine ⟨i :: out, d', rfl, by simp [g2], g3, g4, ?_⟩
    intro j
    have h5 := take_getD h2 h3 j
    have h6 := g6 j
    rw [List.count_cons]
    by_cases hj : j = i
    · subst hj
      rw [if_pos rfl] at h5
      rw [if_pos (by simp)]
      omega
    · have : (i == j) = false := by simpa using fun hc => hj hc.symm
      rw [if_neg hj] at h5
      rw [this, if_neg (by simp)]
      omega

end WithoutRep

/-! ### C120 -/

/-- **C120 is false** when an edit takes individuals away: whatever the frequencies, after lowering one of them the largest random number
makes the sampler read past the end of its vector. -/
theorem C120_negation_lowered (hfp : fp.Good) {freq : List U32} (h : individuals freq < 2 ^ 32) {i : Nat} (hi : i < freq.length) {x : U32}
    (hx : x.toNat < (freq.getD i 0).toNat) :
    ∃ d, (WithoutRep.new freq).assign i x = .ok d ∧ d.freq = freq.set i x ∧ d.sample fp (BitVec.ofNat 32 (2 ^ 32 - 1)) = .ub .oob := by
  refine ⟨⟨freq.set i x, (WithoutRep.new freq).sum⟩, if_pos hi, rfl, ?_⟩
  have hs : (WithoutRep.new freq).sum.toNat = individuals freq := foldl_zero_toNat h
  have ht := WithoutRep.natTotal_assign freq i x hi
  have ht' : natTotal (freq.set i x) < individuals freq := by
    show _ < natTotal freq
    omega
  unfold WithoutRep.sample
  have hne : (WithoutRep.new freq).sum ≠ 0 := by
    intro hc; rw [hc] at hs; simp at hs; omega
  simp only
  rw [if_neg hne]
  obtain ⟨q, hq, hq'⟩ := WithoutRep.scale_last hfp (t := (WithoutRep.new freq).sum) (by omega)
  rw [hq]
  simp only [Out.ok_bind]
  cases hf : freq.set i x with
  | nil => rfl
  | cons f rest =>
    simp only
    rw [WithoutRep.walk_off rest f 0 (by
      rw [hf, natTotal_cons] at ht'
      omega)]
    rfl

/-- **C120 is false** when an edit adds individuals: whatever the frequencies and the random numbers, after raising one of them as many
individuals can be drawn as before, and then the sampler says it is empty and raises, with the added number of individuals left in it. -/
theorem C120_negation_raised (hfp : fp.Good) {freq : List U32} {i : Nat} (hi : i < freq.length) {x : U32}
    (hx : (freq.getD i 0).toNat < x.toNat) (h : individuals (freq.set i x) < 2 ^ 32) (rs : List U32) (hl : rs.length = individuals freq) :
    ∃ d out d', (WithoutRep.new freq).assign i x = .ok d ∧ d.draws fp rs = .ok (out, d') ∧ out.length = individuals freq ∧
      d'.isEmpty = true ∧ (∀ r, d'.sample fp r = .thrown .depleted) ∧
      individuals d'.freq + (freq.getD i 0).toNat = x.toNat := by
  have ht := WithoutRep.natTotal_assign freq i x hi
  have h' : individuals freq < 2 ^ 32 := by
    change natTotal (freq.set i x) < 2 ^ 32 at h
    show natTotal freq < 2 ^ 32
    omega
  have hs : (WithoutRep.new freq).sum.toNat = individuals freq := foldl_zero_toNat h'
  obtain ⟨out, d', g1, g2, g3, g4, -⟩ := WithoutRep.draws_surplus hfp rs ⟨freq.set i x, (WithoutRep.new freq).sum⟩
    (x.toNat - (freq.getD i 0).toNat) (by rw [hl]; show natTotal (freq.set i x) = _ + natTotal freq; omega) (by rw [hl]; exact hs)
    (by rw [hl]; change natTotal (freq.set i x) < 2 ^ 32 at h; show _ + natTotal freq < _; omega)
  have hz : d'.sum = 0 := BitVec.eq_of_toNat_eq (by rw [g3]; rfl)
  refine ⟨_, out, d', if_pos hi, g1, g2.trans hl, ?_, ?_, ?_⟩
  · unfold WithoutRep.isEmpty; rw [hz]; rfl
  · intro r
    unfold WithoutRep.sample
    rw [if_pos hz]
  · show natTotal d'.freq + _ = _
    omega

/-- **C120**, what is true: after any edits that leave the number of individuals as it was, drawing them all returns every state exactly as
often as its edited frequency.  Missing: edits that change the number of individuals, where it is false. -/
theorem C120_balanced_partial (hfp : fp.Good) {freq : List U32} (es : List (Nat × U32)) (hes : ∀ e ∈ es, e.1 < freq.length)
    (h : individuals freq < 2 ^ 32) (he : individuals (es.foldl (fun l e => l.set e.1 e.2) freq) = individuals freq) (rs : List U32)
    (hl : rs.length = individuals freq) :
    ∃ d out d', (WithoutRep.new freq).assigns es = .ok d ∧ d.draws fp rs = .ok (out, d') ∧
      (∀ j, out.count j = ((es.foldl (fun l e => l.set e.1 e.2) freq).getD j 0).toNat) ∧ d'.isEmpty = true := by
  have hs : (WithoutRep.new freq).sum.toNat = individuals freq := foldl_zero_toNat h
  obtain ⟨out, d', g1, -, g3, -, -, g6⟩ := WithoutRep.draws_ok hfp rs
    ⟨es.foldl (fun l e => l.set e.1 e.2) freq, (WithoutRep.new freq).sum⟩ 0
    ⟨by rw [Nat.zero_add, hl]; exact he, by rw [Nat.zero_add, hl]; exact hs⟩
  refine ⟨_, out, d', WithoutRep.assigns_eq es _ hes, g1, ?_, ?_⟩
  · intro j
    have := g6 j
    rw [WithoutRep.natTotal_zero g3.total j] at this
    exact this
  · have hz : d'.sum = 0 := BitVec.eq_of_toNat_eq (by rw [g3.sum]; rfl)
    unfold WithoutRep.isEmpty; rw [hz]; rfl

/-- an edit that lowers, one that raises, and two that balance -/
example : individuals [2, 0, 1] < 2 ^ 32 ∧ (1 : U32).toNat < (([2, 0, 1] : List U32).getD 0 0).toNat ∧
    (([2, 0, 1] : List U32).getD 1 0).toNat < (5 : U32).toNat ∧ individuals (([2, 0, 1] : List U32).set 1 5) < 2 ^ 32 ∧
    individuals (([(0, 1), (1, 1)] : List (Nat × U32)).foldl (fun l e => l.set e.1 e.2) [2, 0, 1]) = individuals [2, 0, 1] := by decide

end HL

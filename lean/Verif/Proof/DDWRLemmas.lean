import Verif.Model.DDWR
import Verif.Proof.Pick

/-
Lemmas about the samplers of DDWR.h.
-/

namespace HL
variable {fp : FP}

/-- the sum of the frequencies -/
def natTotal (l : List U32) : Nat := (l.map BitVec.toNat).sum

theorem natTotal_cons (f : U32) (l : List U32) : natTotal (f :: l) = f.toNat + natTotal l := rfl

theorem natTotal_nil : natTotal [] = 0 := rfl

theorem sub_one_toNat {f : U32} (h : 0 < f.toNat) : (f - 1).toNat = f.toNat - 1 := by
  have h1 := f.isLt
  rw [BitVec.toNat_sub, show (1 : U32).toNat = 1 from rfl]
  omega

theorem foldl_add_toNat : ∀ (l : List U32) (a : U32), a.toNat + natTotal l < 2 ^ 32 →
    (l.foldl (· + ·) a).toNat = a.toNat + natTotal l
  | [], a, _ => by simp [natTotal]
  | f :: l, a, h => by
    rw [natTotal_cons] at h ⊢
    have e : (a + f).toNat = a.toNat + f.toNat := by
      rw [BitVec.toNat_add, Nat.mod_eq_of_lt (by omega)]
    rw [List.foldl_cons, foldl_add_toNat l (a + f) (by omega), e]
    omega

theorem foldl_zero_toNat {l : List U32} (h : natTotal l < 2 ^ 32) : (l.foldl (· + ·) (0 : U32)).toNat = natTotal l := by
  rw [foldl_add_toNat l 0 (by simpa using h)]
  simp

theorem unitOf_eq (hfp : fp.Good) (r : U32) : unitOf fp r = .fin ((r.toNat : ℚ) / 2 ^ 32) := by
  unfold unitOf
  have hr := r.isLt
  rw [ofInt_exact hfp (by rw [abs_of_nonneg (by positivity)]; omega), ofInt_exact hfp (by norm_num)]
  unfold FP.div
  simp only []
  rw [if_neg (by norm_num)]
  have := hfp.dyadic (r.toNat : Int) 32 (by rw [abs_of_nonneg (by positivity)]; omega) (by omega)
  push_cast at this ⊢
  exact this

/-- a unit value times a positive total below 2^53 stays below the total, truncated -/
theorem unit_scaled (hfp : fp.Good) (r : U32) {n : Nat} (h0 : 0 < n) (h : n < 2 ^ 53) :
    ∃ a : ℚ, fp.mul (unitOf fp r) (.fin n) = .fin a ∧ 0 ≤ a ∧ a < n := by
  have h1 : (1 : ℚ) ≤ (n : ℚ) := by exact_mod_cast h0
  have h2 : (n : ℚ) ≤ 2 ^ 53 := by exact_mod_cast h.le
  have := scaled_lt hfp r (t := n) (le_trans (by
      rw [← zpow_zero (2 : ℚ)]
      exact zpow_le_zpow_right₀ (by norm_num) (by norm_num)) h1)
    (le_trans h2 (pow_le_pow_right₀ (by norm_num) (by norm_num)))
  rw [variate_eq hfp] at this
  rw [unitOf_eq hfp]
  exact this

theorem scale_ok (hfp : fp.Good) (r : U32) {t : U32} (h0 : 0 < t.toNat) :
    ∃ q : U32, WithoutRep.scale fp r t = .ok q ∧ q.toNat < t.toNat := by
  obtain ⟨a, ha, h1, h2⟩ := unit_scaled hfp r h0 (by have := t.isLt; omega)
  unfold WithoutRep.scale
  have ht := t.isLt
  have e : fp.ofInt (t.toNat : Int) = .fin (t.toNat : ℚ) := by
    rw [ofInt_exact hfp (by rw [abs_of_nonneg (by positivity)]; omega)]
    norm_cast
  rw [e, ha]
  have hf0 : 0 ≤ ⌊a⌋ := Int.floor_nonneg.mpr h1
  have hf1 : ⌊a⌋ < (t.toNat : Int) := by rw [Int.floor_lt]; exact_mod_cast h2
  have htr : FP.truncQ a = ⌊a⌋ := by unfold FP.truncQ; rw [if_pos h1]
  unfold FP.toU32
  simp only [htr]
  rw [if_pos ⟨hf0, by omega⟩]
  refine ⟨_, rfl, ?_⟩
  rw [BitVec.toNat_ofNat, Nat.mod_eq_of_lt (by omega)]
  omega

theorem scale_zero (hfp : fp.Good) (r : U32) : WithoutRep.scale fp r 0 = .ok 0 := by
  unfold WithoutRep.scale
  rw [unitOf_eq hfp]
  have e : fp.ofInt (((0 : U32).toNat : Nat) : Int) = .fin 0 := by
    have := ofInt_exact hfp (t := 0) (by norm_num)
    simpa using this
  rw [e]
  have e2 : fp.mul (.fin ((r.toNat : ℚ) / 2 ^ 32)) (.fin 0) = .fin 0 := by
    show fp.rnd _ = _
    rw [mul_zero]
    have := rnd_int hfp (t := 0) (by norm_num)
    simpa using this
  rw [e2]
  unfold FP.toU32
  have : FP.truncQ 0 = 0 := by unfold FP.truncQ; simp
  simp only [this]
  rfl

namespace WithoutRep

theorem walk_ok {r : U32} : ∀ (l : List U32) (f s : U32) (prev k : Nat), s.toNat = prev + f.toNat → prev ≤ r.toNat →
    r.toNat < prev + natTotal (f :: l) → prev + natTotal (f :: l) < 2 ^ 32 →
    ∃ i, walk r l s k = .ok (k + i) ∧ i < (f :: l).length ∧ 0 < ((f :: l).getD i 0).toNat
  | [], f, s, prev, k, hs, h1, h2, _ => by
    unfold walk
    rw [natTotal_cons, natTotal_nil] at h2
    have : ¬ s ≤ r := by rw [BitVec.le_def]; omega
    rw [if_neg this]
    exact ⟨0, rfl, by simp, by simp; omega⟩
  | g :: l, f, s, prev, k, hs, h1, h2, h3 => by
    unfold walk
    by_cases hc : s ≤ r
    · rw [if_pos hc]
      rw [BitVec.le_def] at hc
      rw [natTotal_cons f] at h2 h3
      have hg := h3
      rw [natTotal_cons g] at hg
      have e : (s + g).toNat = s.toNat + g.toNat := by
        rw [BitVec.toNat_add, Nat.mod_eq_of_lt (by omega)]
      obtain ⟨i, h4, h5, h6⟩ := walk_ok l g (s + g) s.toNat (k + 1) e hc (by omega) (by omega)
      refine ⟨i + 1, by rw [h4]; congr 1; omega, by simpa using h5, by simpa using h6⟩
    · rw [if_neg hc]
      rw [BitVec.le_def] at hc
      exact ⟨0, rfl, by simp, by simp; omega⟩

/-- the frequencies add up to the total, `n` -/
structure Inv (d : WithoutRep) (n : Nat) : Prop where
  total : natTotal d.freq = n
  sum : d.sum.toNat = n

theorem new_inv {freq : List U32} (h : natTotal freq < 2 ^ 32) : Inv (new freq) (natTotal freq) :=
  ⟨rfl, foldl_zero_toNat h⟩

theorem natTotal_set : ∀ (l : List U32) (i : Nat), i < l.length → 0 < (l.getD i 0).toNat →
    natTotal (l.set i (l.getD i 0 - 1)) + 1 = natTotal l
  | [], i, h, _ => by simp at h
  | f :: l, 0, _, h => by
    simp only [List.getD_cons_zero] at h ⊢
    rw [List.set_cons_zero, natTotal_cons, natTotal_cons]
    have := sub_one_toNat h
    omega
  | f :: l, i + 1, h, h2 => by
    simp only [List.getD_cons_succ] at h2 ⊢
    rw [List.set_cons_succ, natTotal_cons, natTotal_cons]
    have := natTotal_set l i (by simpa using h) h2
    omega

theorem take_inv {d : WithoutRep} {n : Nat} (h : Inv d (n + 1)) {i : Nat} (hi : i < d.freq.length) (hp : 0 < (d.freq.getD i 0).toNat) :
    Inv (d.take i) n := by
  refine ⟨?_, ?_⟩
  · have := natTotal_set d.freq i hi hp
    have := h.total
    show natTotal (d.freq.set i (d.freq.getD i 0 - 1)) = n
    omega
  · show (d.sum - 1).toNat = n
    have h1 := h.sum
    rw [sub_one_toNat (by omega)]
    omega

theorem sample_ok (hfp : fp.Good) {d : WithoutRep} {n : Nat} (h : Inv d (n + 1)) (r : U32) :
    ∃ i, d.sample fp r = .ok (i, d.take i) ∧ i < d.freq.length ∧ 0 < (d.freq.getD i 0).toNat ∧ Inv (d.take i) n := by
  have hs := h.sum
  have ht := h.total
  have hlt := d.sum.isLt
  unfold sample
  have hne : d.sum ≠ 0 := by
    intro hc; rw [hc] at hs; simp at hs
  rw [if_neg hne]
  obtain ⟨q, hq, hq'⟩ := scale_ok hfp r (t := d.sum) (by omega)
  rw [hq]
  simp only [Out.ok_bind]
  cases hf : d.freq with
  | nil => rw [hf] at ht; simp [natTotal] at ht
  | cons f rest =>
    simp only
    rw [hf] at ht
    obtain ⟨i, h1, h2, h3⟩ := walk_ok (r := q) rest f f 0 0 (by simp) (by omega) (by omega) (by omega)
    rw [h1]
    simp only [Out.ok_bind, Out.pure_eq, zero_add]
    exact ⟨i, rfl, h2, h3, take_inv h (by rw [hf]; exact h2) (by rw [hf]; exact h3)⟩

theorem getD_set' (l : List U32) (i j : Nat) (x : U32) (hi : i < l.length) :
    (l.set i x).getD j 0 = if j = i then x else l.getD j 0 := by
  simp only [List.getD_eq_getElem?_getD, List.getElem?_set]
  split
  · next h => subst h; simp [hi]
  · next h => rw [if_neg (fun hc => h hc.symm)]

theorem take_getD {d : WithoutRep} {i : Nat} (hi : i < d.freq.length) (hp : 0 < (d.freq.getD i 0).toNat) (j : Nat) :
    ((d.take i).freq.getD j 0).toNat + (if j = i then 1 else 0) = (d.freq.getD j 0).toNat := by
  unfold take
  simp only
  rw [getD_set' _ _ _ _ hi]
  split
  · next h =>
    subst h
    rw [sub_one_toNat hp]
    omega
  · omega

theorem draws_ok (hfp : fp.Good) : ∀ (rs : List U32) (d : WithoutRep) (n : Nat), Inv d (n + rs.length) →
    ∃ out d', d.draws fp rs = .ok (out, d') ∧ out.length = rs.length ∧ Inv d' n ∧ d'.freq.length = d.freq.length ∧
      (∀ i ∈ out, i < d.freq.length) ∧
      ∀ j, out.count j + (d'.freq.getD j 0).toNat = (d.freq.getD j 0).toNat
  | [], d, n, h => ⟨[], d, rfl, rfl, by simpa using h, rfl, by simp, by simp⟩
  | r :: rs, d, n, h => by
    have h' : Inv d (n + rs.length + 1) := by simpa [add_assoc] using h
    obtain ⟨i, h1, h2, h3, h4⟩ := sample_ok hfp h' r
    obtain ⟨out, d', g1, g2, g3, g4, g5, g6⟩ := draws_ok hfp rs (d.take i) n h4
    have hl : (d.take i).freq.length = d.freq.length := by simp [take]
    unfold draws
    rw [h1]
    simp only [Out.ok_bind]
    rw [g1]
    simp only [Out.ok_bind, Out.pure_eq]
    refine ⟨i :: out, d', rfl, by simp [g2], g3, by rw [g4, hl], ?_, ?_⟩
    · intro k hk
      rcases List.mem_cons.mp hk with rfl | hk
      · exact h2
      · rw [← hl]; exact g5 k hk
    · intro j
      have h5 := take_getD h2 h3 j
      have h6 := g6 j
      rw [List.count_cons]
      by_cases hj : j = i
      · subst hj
        rw [if_pos rfl] at h5
        rw [if_pos (by simp)]
        omega
      · have : (i == j) = false := by simpa using fun hc => hj hc.symm
        rw [if_neg hj] at h5
        rw [this, if_neg (by simp)]
        omega

theorem natTotal_zero : ∀ {l : List U32}, natTotal l = 0 → ∀ j, (l.getD j 0).toNat = 0
  | [], _, j => by simp
  | f :: l, h, 0 => by rw [natTotal_cons] at h; simp; omega
  | f :: l, h, j + 1 => by
    rw [natTotal_cons] at h
    rw [List.getD_cons_succ]
    exact natTotal_zero (l := l) (by omega) j

theorem walkTo_ok {r : U32} {limit : Nat} : ∀ (l : List U32) (f s : U32) (prev k : Nat), s.toNat = prev + f.toNat → prev ≤ r.toNat →
    k < limit → limit ≤ k + (f :: l).length → r.toNat < prev + natTotal ((f :: l).take (limit - k)) →
    prev + natTotal ((f :: l).take (limit - k)) < 2 ^ 32 →
    ∃ i, walkTo limit r l s k = .ok (some (k + i)) ∧ k + i < limit ∧ 0 < ((f :: l).getD i 0).toNat
  | [], f, s, prev, k, hs, h1, hk, hk2, h2, _ => by
    unfold walkTo
    have hlim : limit - k = 1 := by simp at hk2; omega
    rw [hlim, List.take_succ_cons, List.take_zero] at h2
    rw [natTotal_cons, natTotal_nil] at h2
    have : ¬ s ≤ r := by rw [BitVec.le_def]; omega
    rw [if_neg this]
    exact ⟨0, rfl, by omega, by simp; omega⟩
  | g :: l, f, s, prev, k, hs, h1, hk, hk2, h2, h3 => by
    unfold walkTo
    have hlim : limit - k = (limit - (k + 1)) + 1 := by omega
    rw [hlim, List.take_succ_cons, natTotal_cons] at h2 h3
    by_cases hc : s ≤ r
    · rw [if_pos hc]
      rw [BitVec.le_def] at hc
      have hlt : k + 1 < limit := by
        by_contra hge
        have : limit - (k + 1) = 0 := by omega
        rw [this, List.take_zero] at h2
        rw [natTotal_nil] at h2
        omega
      rw [if_neg (by omega)]
      have hg := h3
      rw [show limit - (k + 1) = (limit - (k + 1 + 1)) + 1 by omega, List.take_succ_cons, natTotal_cons] at hg
      have e : (s + g).toNat = s.toNat + g.toNat := by
        rw [BitVec.toNat_add, Nat.mod_eq_of_lt (by omega)]
      obtain ⟨i, h4, h5, h6⟩ := walkTo_ok l g (s + g) s.toNat (k + 1) e hc hlt (by simp at hk2 ⊢; omega) (by omega) (by omega)
      refine ⟨i + 1, by rw [h4, show k + 1 + i = k + (i + 1) by omega], by omega, by simpa using h6⟩
    · rw [if_neg hc]
      rw [BitVec.le_def] at hc
      exact ⟨0, rfl, by omega, by simp; omega⟩

/-- no frequency before the limit: the walk runs into the limit, provided there is a state to read there -/
theorem walkTo_none {limit : Nat} : ∀ (l : List U32) (f s : U32) (k : Nat), s.toNat = 0 → f.toNat = 0 → k < limit →
    limit < k + (f :: l).length → natTotal ((f :: l).take (limit - k)) = 0 → walkTo limit 0 l s k = .ok none
  | [], f, s, k, hs, hf, hk, hk2, _ => by simp at hk2; omega
  | g :: l, f, s, k, hs, hf, hk, hk2, h2 => by
    unfold walkTo
    have hle : s ≤ (0 : U32) := by rw [BitVec.le_def]; simp [hs]
    rw [if_pos hle]
    by_cases hlt : limit ≤ k + 1
    · rw [if_pos hlt]
    · rw [if_neg hlt]
      rw [show limit - k = (limit - (k + 1 + 1)) + 1 + 1 by omega, List.take_succ_cons, natTotal_cons, List.take_succ_cons, natTotal_cons] at h2
      apply walkTo_none l g (s + g) (k + 1)
      · rw [BitVec.toNat_add, hs]
        have : g.toNat = 0 := by omega
        simp [this]
      · omega
      · omega
      · simp at hk2 ⊢; omega
      · rw [show limit - (k + 1) = (limit - (k + 1 + 1)) + 1 by omega, List.take_succ_cons, natTotal_cons]; omega

theorem natTotal_take_le (l : List U32) (k : Nat) : natTotal (l.take k) ≤ natTotal l := by
  conv_rhs => rw [← List.take_append_drop k l]
  unfold natTotal
  rw [List.map_append, List.sum_append]
  omega

end WithoutRep

namespace WithRep

theorem ofU32 (hfp : fp.Good) (x : U32) : fp.ofInt (x.toNat : Int) = .fin (x.toNat : ℚ) := by
  have := x.isLt
  rw [ofInt_exact hfp (by rw [abs_of_nonneg (by positivity)]; omega)]
  norm_cast

theorem le_iff (hfp : fp.Good) (s r : U32) : FP.le ((weightU32 fp).toFl s) (fp.ofInt r.toNat) = true ↔ s ≤ r := by
  show FP.le (fp.ofInt s.toNat) _ = true ↔ _
  rw [ofU32 hfp, ofU32 hfp, BitVec.le_def]
  show decide _ = true ↔ _
  rw [decide_eq_true_iff]
  exact_mod_cast Iff.rfl

theorem walk_eq (hfp : fp.Good) (r : U32) : ∀ (l : List U32) (s : U32) (k : Nat),
    walk (weightU32 fp) (fp.ofInt r.toNat) l s k = WithoutRep.walk r l s k
  | [], s, k => by
    unfold walk WithoutRep.walk
    by_cases h : s ≤ r
    · rw [if_pos h, if_pos ((le_iff hfp s r).mpr h)]
    · rw [if_neg h, if_neg (fun hc => h ((le_iff hfp s r).mp hc))]
  | f :: l, s, k => by
    unfold walk WithoutRep.walk
    by_cases h : s ≤ r
    · rw [if_pos h, if_pos ((le_iff hfp s r).mpr h)]
      exact walk_eq hfp r l (s + f) (k + 1)
    · rw [if_neg h, if_neg (fun hc => h ((le_iff hfp s r).mp hc))]

theorem walk_zero_oob (r : U32) : ∀ (l : List U32) (s : U32) (k : Nat), s.toNat = 0 → natTotal l = 0 → WithoutRep.walk r l s k = .ub .oob
  | [], s, k, hs, _ => by
    unfold WithoutRep.walk
    rw [if_pos (by rw [BitVec.le_def]; omega)]
  | f :: l, s, k, hs, hl => by
    rw [natTotal_cons] at hl
    unfold WithoutRep.walk
    rw [if_pos (by rw [BitVec.le_def]; omega)]
    apply walk_zero_oob r l
    · rw [BitVec.toNat_add, hs]
      have : f.toNat = 0 := by omega
      simp [this]
    · omega

theorem walk_fl (hfp : fp.Good) {q t : ℚ} : ∀ (l : List ℚ) (x run y : ℚ) (k : Nat), (∀ x ∈ l, 0 ≤ x) → 0 ≤ x →
    fp.rnd y = .fin y → (x = 0 → y = run) → (l.map Fl.fin).foldl fp.add (.fin y) = .fin t → run ≤ q → q < t →
    ∃ i, walk (weightFl fp) (.fin q) (l.map Fl.fin) (.fin y) k = .ok (k + i) ∧ i < (x :: l).length ∧ 0 < (x :: l).getD i 0
  | [], x, run, y, k, _, hx, _, hxy, ht, h1, h2 => by
    simp only [List.map_nil, List.foldl_nil, Fl.fin.injEq] at ht
    subst ht
    unfold walk
    have : FP.le ((weightFl fp).toFl (.fin y)) (.fin q) = false := decide_eq_false (not_le.mpr h2)
    rw [List.map_nil]
    simp only [this]
    refine ⟨0, rfl, by simp, ?_⟩
    simp only [List.getD_cons_zero]
    rcases hx.lt_or_eq with h | h
    · exact h
    · exact absurd (hxy h.symm) (by intro e; rw [e] at h2; exact absurd h2 (not_lt.mpr h1))
  | z :: l, x, run, y, k, hn, hx, hy, hxy, ht, h1, h2 => by
    have hz := hn z (by simp)
    rw [List.map_cons, List.foldl_cons] at ht
    rw [List.map_cons]
    unfold walk
    by_cases hc : y ≤ q
    · have : FP.le ((weightFl fp).toFl (.fin y)) (.fin q) = true := decide_eq_true hc
      rw [if_pos this]
      have hw : ∃ w, fp.add (.fin y) (.fin z) = .fin w := by
        by_contra hne
        exact foldl_not_fin (fp := fp) (l.map Fl.fin) _ (fun q hq => hne ⟨q, hq⟩) t ht
      obtain ⟨w, hw⟩ := hw
      obtain ⟨-, m2, m3⟩ := add_nonneg_mono hfp hy hz hw
      rw [hw] at ht
      have e : (weightFl fp).add (.fin y) (.fin z) = .fin w := hw
      rw [e]
      obtain ⟨i, h3, h4, h5⟩ := walk_fl hfp l z y w (k + 1) (fun a ha => hn a (by simp [ha])) hz m2 m3 ht hc h2
      exact ⟨i + 1, by rw [h3, show k + 1 + i = k + (i + 1) by omega], by simpa using h4, by simpa using h5⟩
    · have : FP.le ((weightFl fp).toFl (.fin y)) (.fin q) = false := decide_eq_false hc
      rw [if_neg (by rw [this]; simp)]
      refine ⟨0, rfl, by simp, ?_⟩
      simp only [List.getD_cons_zero]
      rcases hx.lt_or_eq with h | h
      · exact h
      · exact absurd (hxy h.symm) (by intro e; rw [e] at hc; exact hc h1)

end WithRep

end HL

import Verif.Proof.IntegeriseVector
import Verif.Props.QISIPad

/-
Arrays with empty slices.
-/

namespace HL
namespace Integerise
variable {e : Nat → Nat → Nat} {s s' : List Nat} {fp : FP}

theorem inRange_one {n : Nat} {j : List Int} : InRange [n] j ↔ ∃ i < n, j = [(i : Int)] := by
  rw [← mem_allIdx, allIdx_one]
  simp [eq_comm]

theorem place_one (d i : Nat) : place e [d] [(i : Int)] = [((e d i : Nat) : Int)] := by simp [place]

theorem tol4_good (h : fp.Good) : ∃ t, fp.rnd (1 / 10 ^ 4) = .fin t ∧ 0 < t := by
  have h1 : (2 : ℚ) ^ (-1022 : ℤ) ≤ |1 / 10 ^ 4| := by
    have : (2 : ℚ) ^ (-1022 : ℤ) ≤ 2 ^ (-27 : ℤ) := zpow_le_zpow_right₀ (by norm_num) (by norm_num)
    refine this.trans ?_
    rw [abs_of_pos (by norm_num)]
    norm_num
  have h2 : |(1 : ℚ) / 10 ^ 4| ≤ 2 ^ 1023 := by
    have : (2 : ℚ) ^ 0 ≤ 2 ^ 1023 := pow_le_pow_right₀ (by norm_num) (by norm_num)
    refine le_trans ?_ this
    rw [abs_of_pos (by norm_num)]
    norm_num
  obtain ⟨a, ha, hb⟩ := h.near _ h1 h2
  refine ⟨a, ha, ?_⟩
  rw [abs_of_pos (a := (1 : ℚ) / 10 ^ 4) (by norm_num)] at hb
  have := (abs_le.mp hb).1
  norm_num at this ⊢
  linarith

theorem checkedRound_zero (hfp : fp.Good) : checkedRound fp (.fin 0) = .ok 0 := by
  obtain ⟨t, ht, h0⟩ := tol4_good hfp
  have h : NearInt fp (.fin 0) 0 := by
    refine ⟨by rw [round_fin, roundHalfAway_eq (n := 0) (by norm_num)], ?_⟩
    have e0 : fp.sub (.fin 0) (.fin ((0 : Int) : ℚ)) = .fin 0 := by
      show fp.rnd (0 + -((0 : Int) : ℚ)) = _
      simpa using rnd_zero hfp
    rw [e0, ht]
    show decide (t < |0|) = false
    simpa using h0.le
  exact checkedRound_of h (by norm_num)

theorem fsum_one (hfp : fp.Good) (he : Places e s s') {a a' : List Int → Fl} (ha : PadF e s s' a a') {d i : Nat} (hd : d < s.length)
    (hi : i < s.getD d 0) : fsum fp s' [d] a' [((e d i : Nat) : Int)] = fsum fp s [d] a [(i : Int)] := by
  rw [← place_one]
  exact fsum_pad hfp he (by simpa using hd) ha (inRange_one.mpr ⟨i, hi, rfl⟩)

theorem fsum_one_zero (hfp : fp.Good) (he : Places e s s') {a a' : List Int → Fl} (ha : PadF e s s' a a') {d i' : Nat} (hd : d < s.length)
    (hno : ∀ i < s.getD d 0, e d i ≠ i') : fsum fp s' [d] a' [(i' : Int)] = .fin 0 := by
  apply fsum_pad_zero hfp he (by simpa using hd) ha
  intro j hj
  obtain ⟨i, hi, rfl⟩ := inRange_one.mp hj
  rw [place_one]
  intro h
  simp only [List.cons.injEq, and_true] at h
  exact hno i hi (by exact_mod_cast h)

/-- the 1-d sums of the arrays, rounded -/
def Rounded (fp : FP) (s : List Nat) (a : List Int → Fl) (N : Nat → Nat → Int) : Prop :=
  ∀ d < s.length, ∀ i < s.getD d 0, checkedRound fp (fsum fp s [d] a [(i : Int)]) = .ok (N d i)

theorem rounded_pad (hfp : fp.Good) (he : Places e s s') {a a' : List Int → Fl} (ha : PadF e s s' a a') {N : Nat → Nat → Int}
    (h : Rounded fp s a N) : ∃ N', Rounded fp s' a' N' := by
  classical
  refine ⟨fun d i' => if h : ∃ i < s.getD d 0, e d i = i' then N d (Classical.choose h) else 0, ?_⟩
  intro d hd i' _
  rw [he.length] at hd
  beta_reduce
  by_cases hex : ∃ i < s.getD d 0, e d i = i'
  · rw [dif_pos hex]
    obtain ⟨h1, h2⟩ := Classical.choose_spec hex
    rw [← h d hd _ h1, ← fsum_one hfp he ha hd h1, h2]
  · rw [dif_neg hex, fsum_one_zero hfp he ha hd (fun i hi h => hex ⟨i, hi, h⟩), checkedRound_zero hfp]

theorem rounded_unpad (hfp : fp.Good) (he : Places e s s') {a a' : List Int → Fl} (ha : PadF e s s' a a') {N' : Nat → Nat → Int}
    (h : Rounded fp s' a' N') : Rounded fp s a (fun d i => N' d (e d i)) := by
  intro d hd i hi
  rw [← fsum_one hfp he ha hd hi]
  exact h d (by rw [he.length]; exact hd) _ (he.bound d hd i hi)

theorem rounded_padded (hfp : fp.Good) (he : Places e s s') {a a' : List Int → Fl} (ha : PadF e s s' a a') {N N' : Nat → Nat → Int}
    (h : Rounded fp s a N) (h' : Rounded fp s' a' N') : Padded e s s' (roundProb s N) (roundProb s' N') := by
  unfold Padded roundProb
  rw [he.length, List.forall₂_map_left_iff, List.forall₂_map_right_iff, List.forall₂_same]
  intro d hd
  have hd := List.mem_range.mp hd
  refine ⟨rfl, ?_, ?_⟩
  · intro j hj
    obtain ⟨i, hi, rfl⟩ := inRange_one.mp hj
    rw [place_one]
    have h1 := h' d (by rw [he.length]; exact hd) _ (he.bound d hd i hi)
    rw [fsum_one hfp he ha hd hi, h d hd i hi] at h1
    injection h1 with h1
    simpa using h1.symm
  · intro j' hj' hno
    obtain ⟨i', hi', rfl⟩ := inRange_one.mp hj'
    have h1 := h' d (by rw [he.length]; exact hd) i' hi'
    rw [fsum_one_zero hfp he ha hd (fun i hi h => hno [(i : Int)] (inRange_one.mpr ⟨i, hi, rfl⟩) (by rw [place_one, h])),
      checkedRound_zero hfp] at h1
    injection h1 with h1
    simpa using h1.symm

/-- what comes after `QISI` always succeeds -/
theorem array_after {s : List Nat} (hg : GoodShape s) {lm : Libm} {a : List Int → Fl} {N : Nat → Nat → Int} (hN : Rounded fp s a N)
    {x : QISI} (hx : qisi fp lm s (roundProb s N) a 0 = .ok x) {f : List Int → Int} (hf : x.micro.array = arr s f) :
    ∃ E, array false fp lm (arr s a) = .ok ⟨arr s f, x.conv, E⟩ := by
  rw [array_eq hg lm hN, hx, Out.ok_bind, hf, copy_empty hg, Out.ok_bind]
  obtain ⟨q, hq⟩ := sqErr_ok (fp := fp) hg f a
  rw [hq]
  exact ⟨_, rfl⟩

theorem roundProb_ok {s : List Nat} (hg : GoodShape s) (h2 : 2 ≤ s.length) {N : Nat → Nat → Int} {pop : Int} :
    ProbOK s (roundProb s N) pop ↔
      ∀ d < s.length, (∀ i < s.getD d 0, 0 ≤ N d i) ∧ ∑ i ∈ Finset.range (s.getD d 0), N d i = pop := by
  constructor
  · intro h d hd
    have hmem : (([d] : List Nat), fun j : List Int => N d (j.getD 0 0).toNat) ∈ roundProb s N :=
      List.mem_map.mpr ⟨d, List.mem_range.mpr hd, rfl⟩
    refine ⟨fun i hi => ?_, ?_⟩
    · simpa using h.nonneg _ hmem [(i : Int)] (inRange_one.mpr ⟨i, hi, rfl⟩)
    · rw [← h.total _ hmem, roundProb_sum]
  · intro h
    refine ⟨roundProb_shape hg h2 N, ?_, ?_, ?_⟩
    · intro p hp j hj
      obtain ⟨d, hd, rfl⟩ := List.mem_map.mp hp
      obtain ⟨i, hi, rfl⟩ := inRange_one.mp hj
      simpa using (h d (List.mem_range.mp hd)).1 i hi
    · intro p hp
      obtain ⟨d, hd, rfl⟩ := List.mem_map.mp hp
      rw [roundProb_sum]
      exact (h d (List.mem_range.mp hd)).2
    · intro p hp q hq a b d ha hb x _
      obtain ⟨d1, -, rfl⟩ := List.mem_map.mp hp
      obtain ⟨d2, -, rfl⟩ := List.mem_map.mp hq
      have h1 : a = 0 ∧ d1 = d := by
        rcases a with _ | a
        · simpa using ha
        · simp at ha
      have h2 : b = 0 ∧ d2 = d := by
        rcases b with _ | b
        · simpa using hb
        · simp at hb
      obtain ⟨rfl, rfl⟩ := h1
      obtain ⟨rfl, rfl⟩ := h2
      rfl

theorem rounded_sum (hfp : fp.Good) (he : Places e s s') {a a' : List Int → Fl} (ha : PadF e s s' a a') {N N' : Nat → Nat → Int}
    (h : Rounded fp s a N) (h' : Rounded fp s' a' N') {d : Nat} (hd : d < s.length) :
    (∀ i < s.getD d 0, N' d (e d i) = N d i) ∧
    ∑ i ∈ Finset.range (s'.getD d 0), N' d i = ∑ i ∈ Finset.range (s.getD d 0), N d i := by
  have e1 : ∀ i < s.getD d 0, N' d (e d i) = N d i := by
    intro i hi
    have h1 := rounded_unpad hfp he ha h' d hd i hi
    rw [h d hd i hi] at h1
    injection h1 with h1
    exact h1.symm
  refine ⟨e1, total_pad (em := e d) (he.mono d hd) e1 ?_ (he.bound d hd)⟩
  intro k hk hno
  have h1 := h' d (by rw [he.length]; exact hd) k hk
  rw [fsum_one_zero hfp he ha hd hno, checkedRound_zero hfp] at h1
  injection h1 with h1
  exact h1.symm

/-- `QISI` accepts the rounded sums whenever it returns. -/
theorem roundProb_of_run (hfp : fp.Good) {s : List Nat} (hg : GoodShape s) (h2 : 2 ≤ s.length) {N : Nat → Nat → Int}
    (hb : ∀ d < s.length, |∑ i ∈ Finset.range (s.getD d 0), N d i| < 2 ^ 52) {lm : Libm} {a : List Int → Fl} {x : QISI}
    (hx : qisi fp lm s (roundProb s N) a 0 = .ok x) : ∃ pop, ProbOK s (roundProb s N) pop ∧ pop < 2 ^ 52 := by
  rcases roundProb_new hfp hg h2 hb with h' | ⟨e, he⟩
  · exact h'
  · exfalso
    unfold qisi QISI.run QISI.new at hx
    rw [he] at hx
    cases hx

theorem roundProb_nodup {s : List Nat} (h2 : 2 ≤ s.length) (N : Nat → Nat → Int) :
    ∀ p ∈ roundProb s N, p.1.Nodup ∧ p.1.length < s.length := by
  intro p hp
  obtain ⟨d, -, rfl⟩ := List.mem_map.mp hp
  exact ⟨by simp, by simp only [List.length_singleton]; omega⟩

/-- sums that can be rounded to a population which all doubles can count -/
def Bounded (fp : FP) (s : List Nat) (a : List Int → Fl) : Prop :=
  ∀ d < s.length, ∀ N : Nat → Int, (∀ i < s.getD d 0, NearInt fp (fsum fp s [d] a [(i : Int)]) (N i)) →
      |∑ i ∈ Finset.range (s.getD d 0), N i| < 2 ^ 52

theorem sum_pad (hfp : fp.Good) (he : Places e s s') {a a' : List Int → Fl} (ha : PadF e s s' a a') :
    seqSum (numFl fp) s' a' = seqSum (numFl fp) s a := by
  have := seqSum_pad (padNum_fl hfp) he (ds := List.range s.length) (by simp) ha
  rwa [projSizes_all, projSizes_all' he] at this

theorem run_pad (hfp : fp.Good) (hsg : SignOK fp) {lm : Libm} (he : Places e s s') (hg : GoodShape s) (h2 : 2 ≤ s.length)
    {a a' : List Int → Fl} (ha : PadF e s s' a a') (h0 : ∀ v, InRange s v → NonNegNan (a v)) (hb : Bounded fp s a)
    (hfin : ∀ N, Rounded fp s a N → ∀ Q c, FitDone fp s (roundProb s N) a Q c → ∀ v, InRange s v → ∃ q, c v = .fin q)
    {r : Result} (h : run false fp lm (arr s a) = .ok r) :
    ∃ f f' E', r.result = arr s f ∧ PadOf e s s' (List.range s.length) f f' ∧
      run false fp lm (arr s' a') = .ok ⟨arr s' f', r.conv, E'⟩ := by
  have hg' := good_of he hg
  rw [run_array h2] at h
  obtain ⟨T, hT, h⟩ := Out.bind_eq_ok.mp h
  obtain ⟨N, hN⟩ := array_inv hg h
  have hN : Rounded fp s a N := hN
  obtain ⟨N', hN'⟩ := rounded_pad hfp he ha hN
  rw [array_eq hg lm hN] at h
  obtain ⟨x, hx, h⟩ := Out.bind_eq_ok.mp h
  obtain ⟨pop, hok, hpop⟩ := roundProb_of_run hfp hg h2 (fun d hd => hb d hd (N d) (fun i hi => checkedRound_inv (hN d hd i hi))) hx
  obtain ⟨y, f, f', E, E', hy, hf, hf', hff, -, -, -, hc⟩ := qisi_pad hfp hsg he hok hpop (roundProb_nodup h2 N)
    (rounded_padded hfp he ha hN hN') ha h0 (hfin N hN) hx
  obtain ⟨q, hq⟩ := array_after hg hN hx hf
  obtain ⟨q', hq'⟩ := array_after hg' hN' hy hf'
  rw [array_eq hg lm hN, hx, Out.ok_bind, h] at hq
  injection hq with hq
  subst hq
  refine ⟨f, f', q', rfl, hff, ?_⟩
  rw [run_array (by rw [he.length]; exact h2), sum_pad hfp he ha, hT, Out.ok_bind, hq', hc]

theorem run_unpad (hfp : fp.Good) (hsg : SignOK fp) {lm : Libm} (he : Places e s s') (hg : GoodShape s) (h2 : 2 ≤ s.length)
    {a a' : List Int → Fl} (ha : PadF e s s' a a') (h0 : ∀ v, InRange s v → NonNegNan (a v)) (hb : Bounded fp s a)
    (hfin : ∀ N, Rounded fp s a N → ∀ Q c, FitDone fp s (roundProb s N) a Q c → ∀ v, InRange s v → ∃ q, c v = .fin q)
    {r' : Result} (h : run false fp lm (arr s' a') = .ok r') : ∃ r, run false fp lm (arr s a) = .ok r := by
  have hg' := good_of he hg
  have h2' : 2 ≤ s'.length := by rw [he.length]; exact h2
  rw [run_array h2', sum_pad hfp he ha] at h
  obtain ⟨T, hT, h⟩ := Out.bind_eq_ok.mp h
  obtain ⟨N', hN'⟩ := array_inv hg' h
  have hN' : Rounded fp s' a' N' := hN'
  have hN := rounded_unpad hfp he ha hN'
  rw [array_eq hg' lm hN'] at h
  obtain ⟨y, hy, h⟩ := Out.bind_eq_ok.mp h
  have hs := fun d hd => rounded_sum hfp he ha hN hN' (d := d) hd
  have hbN : ∀ d < s.length, |∑ i ∈ Finset.range (s.getD d 0), N' d (e d i)| < 2 ^ 52 :=
    fun d hd => hb d hd (fun i => N' d (e d i)) (fun i hi => checkedRound_inv (hN d hd i hi))
  obtain ⟨pop, hok, hpop⟩ := roundProb_of_run hfp hg' h2' (fun d hd => by
    rw [he.length] at hd
    rw [(hs d hd).2]
    exact hbN d hd) hy
  have hok' : ProbOK s (roundProb s (fun d i => N' d (e d i))) pop := by
    rw [roundProb_ok hg h2]
    rw [roundProb_ok hg' h2'] at hok
    intro d hd
    obtain ⟨i1, i2⟩ := hok d (by rw [he.length]; exact hd)
    exact ⟨fun i hi => i1 _ (he.bound d hd i hi), by rw [← (hs d hd).2, i2]⟩
  obtain ⟨x, hx⟩ := qisi_unpad hfp hsg he hok' hpop (roundProb_nodup h2 _) (rounded_padded hfp he ha hN hN') ha h0 (hfin _ hN) hy
  obtain ⟨y', f, f', E, E', -, hf, -⟩ := qisi_pad hfp hsg he hok' hpop (roundProb_nodup h2 _) (rounded_padded hfp he ha hN hN') ha h0 (hfin _ hN) hx
  obtain ⟨q, hq⟩ := array_after hg hN hx hf
  exact ⟨_, by rw [run_array h2, hT, Out.ok_bind, hq]⟩

end Integerise
end HL

import Verif.Props.IntegeriseLargest
import Verif.Props.IntegeriseClosest
import Verif.Proof.IntegerisePad1

/-
C113: empty categories make no difference to `integerise`.
-/

namespace HL
open Integerise
variable {em : Nat → Nat} {e : Nat → Nat → Nat} {s s' : List Nat}

/-- **C113**: `integerise(frac, pop)` in exact arithmetic or that of doubles: with zeros added between the entries the result has
zeros in the same places and is unchanged elsewhere. -/
theorem C113_integerise {fp : FP} (hfp : Usual fp) {xs xs' : List ℚ} (hpad : PadList em xs xs') {pop : Int} (h0 : 0 ≤ pop) (h1 : pop < 2 ^ 31)
    (hn : (pop + 2) * (xs'.length + 3) ≤ 2 ^ 51) (hr : ∀ x ∈ xs, fp.rnd x = .fin x)
    (hx : ∀ x ∈ xs, x = 0 ∨ (2 : ℚ) ^ (-1022 : ℤ) ≤ x) (hs0 : 0 < xs.sum) (hs1 : xs.sum ≤ 2 ^ 1022) :
    ∃ f f' E E', oneD fp (xs.map Fl.fin) pop = .ok (f, E) ∧ oneD fp (xs'.map Fl.fin) pop = .ok (f', E') ∧ PadList em f f' :=
  oneD_pad (usual_good hfp).1 (usual_fine hfp) hpad h0 h1 hn hr (by rw [tinyQ_eq]; exact hx) hs0 (by unfold hugeQ; exact hs1)

/-- **C113**: the same in exact arithmetic, without bounds on the entries and their number. -/
theorem C113_exact (sqrt : Fl → Fl) {xs xs' : List ℚ} (hpad : PadList em xs xs') {pop : Int} (h0 : 0 ≤ pop) (h1 : pop < 2 ^ 31)
    (hx : ∀ x ∈ xs, 0 ≤ x) (hs0 : 0 < xs.sum) :
    ∃ f f' E E', oneD (FP.exactWith sqrt) (xs.map Fl.fin) pop = .ok (f, E) ∧ oneD (FP.exactWith sqrt) (xs'.map Fl.fin) pop = .ok (f', E') ∧
      PadList em f f' := by
  have hsum := sum_padList hpad
  obtain ⟨E, h⟩ := C112_integerise sqrt h0 h1 hx hs0
  obtain ⟨E', h'⟩ := C112_integerise sqrt h0 h1 (padList_nonneg hpad hx) (by rw [hsum]; exact hs0)
  refine ⟨_, _, E, E', h, h', largest_pad ?_ (sharesOf_pad hpad)⟩
  have : (sharesOf xs pop).sum = pop := by
    rw [← sharesOf_probs, List.sum_map_mul_right (probs xs) (fun x => x) (pop : ℚ), List.map_id', probs_sum hs0.ne', one_mul]
  rw [this]; linarith

/-- **C113**: `prob2IntFreq`. -/
theorem C113_prob2IntFreq (sqrt : Fl → Fl) {p p' : List ℚ} (hpad : PadList em p p') {pop : Int} (h0 : 0 ≤ pop) (h1 : pop < 2 ^ 31)
    (hp : ∀ x ∈ p, 0 ≤ x) (hs : |p.sum - 1| ≤ 1000 / 2 ^ 52) :
    ∃ f f' E E', prob2IntFreq (FP.exactWith sqrt) (p.map Fl.fin) pop = .ok (f, E) ∧
      prob2IntFreq (FP.exactWith sqrt) (p'.map Fl.fin) pop = .ok (f', E') ∧ PadList em f f' := by
  have hsum := sum_padList hpad
  obtain ⟨E, h⟩ := C112_prob2IntFreq sqrt h0 h1 hp hs
  obtain ⟨E', h'⟩ := C112_prob2IntFreq sqrt h0 h1 (padList_nonneg hpad hp) (by rw [hsum]; exact hs)
  refine ⟨_, _, E, E', h, h', largest_pad ?_ (padList_map hpad (g := fun x => x * (pop : ℚ)) (by simp))⟩
  rw [List.sum_map_mul_right p (fun x => x) (pop : ℚ), List.map_id']
  have hpq : (0 : ℚ) ≤ pop := by exact_mod_cast h0
  have hpq1 : (pop : ℚ) ≤ 2 ^ 31 := by exact_mod_cast h1.le
  obtain ⟨hl, hu⟩ := abs_le.mp hs
  have hb : (pop : ℚ) * (1000 / 2 ^ 52) < 1 := by
    calc (pop : ℚ) * (1000 / 2 ^ 52) ≤ 2 ^ 31 * (1000 / 2 ^ 52) := by gcongr
      _ < 1 := by norm_num
  have : (1 - 1000 / 2 ^ 52) * (pop : ℚ) ≤ p.sum * pop := by gcongr; linarith
  linarith

/-- **C113**: `integerise` of a 1-d array. -/
theorem C113_vector (dbg : Bool) (sqrt : Fl → Fl) (lm : Libm) {xs xs' : List ℚ} (hpad : PadList em xs xs') (hx : ∀ x ∈ xs, 0 ≤ x)
    (h1 : 1 ≤ xs.sum) (h2 : xs.sum < 2 ^ 31) {n : Int} (hn : |xs.sum - n| ≤ 1 / 10 ^ 4) :
    ∃ f f' E E', run dbg (FP.exactWith sqrt) lm (vec xs) = .ok ⟨intVec f, true, E⟩ ∧
      run dbg (FP.exactWith sqrt) lm (vec xs') = .ok ⟨intVec f', true, E'⟩ ∧ PadList em f f' := by
  have hsum := sum_padList hpad
  obtain ⟨E, h⟩ := C112_vector dbg sqrt lm hx h1 h2 hn
  obtain ⟨E', h'⟩ := C112_vector dbg sqrt lm (padList_nonneg hpad hx) (by rw [hsum]; exact h1) (by rw [hsum]; exact h2) (by rw [hsum]; exact hn)
  rw [hsum] at h'
  refine ⟨_, _, E, E', h, h', largest_pad ?_ hpad⟩
  have := Int.floor_le xs.sum
  linarith

/-- **C113**: `integerise` of a 1-d array, in doubles too, if its sum as computed is a whole number. -/
theorem C113_vector_rounded (dbg : Bool) {fp : FP} (hfp : Usual fp) (lm : Libm) {xs xs' : List ℚ} (hpad : PadList em xs xs') {N : Int}
    (hN0 : 1 ≤ N) (hN : N < 2 ^ 31) (hn : (N + 2) * (xs'.length + 3) ≤ 2 ^ 51) (hr : ∀ x ∈ xs, fp.rnd x = .fin x)
    (hx : ∀ x ∈ xs, x = 0 ∨ (2 : ℚ) ^ (-1022 : ℤ) ≤ x) (hs1 : xs.sum ≤ 2 ^ 1022)
    (hs : (xs.map Fl.fin).foldl fp.add (.fin 0) = .fin N) :
    ∃ f f' E E', run dbg fp lm (vec xs) = .ok ⟨intVec f, true, E⟩ ∧ run dbg fp lm (vec xs') = .ok ⟨intVec f', true, E'⟩ ∧ PadList em f f' := by
  have hg := (usual_good hfp).1
  have hs : sumVec (numFl fp) (xs.map Fl.fin) = .fin N := hs
  have hle := padList_length hpad
  have hx : ∀ x ∈ xs, x = 0 ∨ tinyQ ≤ x := by rw [tinyQ_eq]; exact hx
  have hs1 : xs.sum ≤ hugeQ := by unfold hugeQ; exact hs1
  have hn' : (N + 2) * (xs'.length + 3) ≤ 2 ^ 53 := hn.trans (by norm_num)
  have hn2 : (N + 2) * (xs.length + 3) ≤ 2 ^ 53 := by
    refine le_trans ?_ hn'
    exact mul_le_mul_of_nonneg_left (by omega) (by omega)
  obtain ⟨hpos, f, E, a1, -, -, -, a2⟩ := run_vec_rounded dbg hg lm hN0 hN hn2 hr hx hs1 hs
  obtain ⟨-, f', E', b1, -, -, -, b2⟩ := run_vec_rounded dbg hg lm hN0 hN hn' (padList_all hpad (rnd_zero hg) hr)
    (padList_all hpad (.inl rfl) hx) (by rw [sum_padList hpad]; exact hs1) (by rw [sumVec_pad hg hpad]; exact hs)
  obtain ⟨g, g', F, F', c1, c2, c3⟩ := oneD_pad hg (usual_fine hfp) hpad (by omega) hN hn hr hx hpos hs1
  rw [a2] at c1
  rw [b2] at c2
  injection c1 with c1
  injection c2 with c2
  injection c1 with c1 _
  injection c2 with c2 _
  exact ⟨f, f', E, E', a1, b1, by rw [c1, c2]; exact c3⟩

/-- **C113**: an array with two or more dimensions. If `integerise` returns and all the fits it performs consist of numbers, then it
also returns for the array with slices of zeros: with zeros there, the same elsewhere, and the same `conv`. -/
theorem C113_array {fp : FP} (hfp : Usual fp) {lm : Libm} (he : Places e s s') (hg : GoodShape s) (h2 : 2 ≤ s.length)
    {a a' : List Int → Fl} (ha : PadOf e s s' (List.range s.length) a a') (h0 : ∀ v, InRange s v → FP.le (.fin 0) (a v) = true)
    (hb : Bounded fp s a)
    (hfin : ∀ N, Rounded fp s a N → ∀ Q c, FitDone fp s (roundProb s N) a Q c → ∀ v, InRange s v → ∃ q, c v = .fin q)
    {r : Result} (h : run false fp lm (arr s a) = .ok r) :
    ∃ f f' E', r.result = arr s f ∧ run false fp lm (arr s' a') = .ok ⟨arr s' f', r.conv, E'⟩ ∧
      PadOf e s s' (List.range s.length) f f' := by
  obtain ⟨f, f', E', h3, h4, h5⟩ := Integerise.run_pad (usual_good hfp).1 (usual_good hfp).2 he hg h2 ha (fun v hv => nonNegNan_of_le (h0 v hv)) hb hfin h
  exact ⟨f, f', E', h3, h5, h4⟩

/-- **C113**: and it returns for the one exactly if it does for the other. -/
theorem C113_returns {fp : FP} (hfp : Usual fp) {lm : Libm} (he : Places e s s') (hg : GoodShape s) (h2 : 2 ≤ s.length)
    {a a' : List Int → Fl} (ha : PadOf e s s' (List.range s.length) a a') (h0 : ∀ v, InRange s v → FP.le (.fin 0) (a v) = true)
    (hb : Bounded fp s a)
    (hfin : ∀ N, Rounded fp s a N → ∀ Q c, FitDone fp s (roundProb s N) a Q c → ∀ v, InRange s v → ∃ q, c v = .fin q) :
    (∃ r', run false fp lm (arr s' a') = .ok r') ↔ ∃ r, run false fp lm (arr s a) = .ok r := by
  constructor
  · rintro ⟨r', hr'⟩
    exact Integerise.run_unpad (usual_good hfp).1 (usual_good hfp).2 he hg h2 ha (fun v hv => nonNegNan_of_le (h0 v hv)) hb hfin hr'
  · rintro ⟨r, hr⟩
    obtain ⟨f, f', E', -, h3, -⟩ := C113_array hfp he hg h2 ha h0 hb hfin hr
    exact ⟨_, h3⟩

/-- **C113** in exact arithmetic, where the fits always consist of numbers. -/
theorem C113_array_exact {lm : Libm} (he : Places e s s') (hg : GoodShape s) (h2 : 2 ≤ s.length)
    {a a' : List Int → ℚ} (ha : PadOf e s s' (List.range s.length) a a') (h0 : ∀ v, InRange s v → 0 ≤ a v)
    (hb : ∀ d < s.length, ∀ N : Nat → Int, (∀ i < s.getD d 0, |marginalSum s [d] a [(i : Int)] - N i| ≤ 1 / 10 ^ 4) →
      |∑ i ∈ Finset.range (s.getD d 0), N i| < 2 ^ 52) :
    (∀ r, run false FP.exact lm (arr s (fun v => .fin (a v))) = .ok r →
      ∃ f f' E', r.result = arr s f ∧ run false FP.exact lm (arr s' (fun v => .fin (a' v))) = .ok ⟨arr s' f', r.conv, E'⟩ ∧
        PadOf e s s' (List.range s.length) f f') ∧
    ((∃ r', run false FP.exact lm (arr s' (fun v => .fin (a' v))) = .ok r') ↔ ∃ r, run false FP.exact lm (arr s (fun v => .fin (a v))) = .ok r) := by
  have ha' : PadOf e s s' (List.range s.length) (fun v => Fl.fin (a v)) (fun v => Fl.fin (a' v)) :=
    ⟨fun j hj => congrArg Fl.fin (ha.1 j hj), fun j' hj' hno => congrArg Fl.fin (ha.2 j' hj' hno)⟩
  have h0' : ∀ v, InRange s v → FP.le (.fin 0) (Fl.fin (a v)) = true := fun v hv => by simpa [FP.le] using h0 v hv
  have hb' : Bounded FP.exact s (fun v => .fin (a v)) := by
    intro d hd N hN
    refine hb d hd N (fun i hi => ?_)
    have := hN i hi
    rw [fsum_exact (fun _ _ => rfl)] at this
    exact nearInt_exact.mp this
  have hfin : ∀ N, Rounded FP.exact s (fun v => .fin (a v)) N → ∀ Q c, FitDone FP.exact s (roundProb s N) (fun v => .fin (a v)) Q c →
      ∀ v, InRange s v → ∃ q, c v = .fin q :=
    fun N _ Q c => fits_finite (roundProb_shape hg h2 N) (fun p hp => properDims_of_nodup (roundProb_nodup h2 N p hp).1 (roundProb_nodup h2 N p hp).2) a
  exact ⟨fun r hr => C113_array (.inl rfl) he hg h2 ha' h0' hb' hfin hr, C113_returns (.inl rfl) he hg h2 ha' h0' hb' hfin⟩

/-- The hypotheses hold, and the zeros in the result are where they are in the vector. -/
example (sqrt : Fl → Fl) : PadList (fun i => 2 * i) [(1 : ℚ), 3, 2] [1, 0, 3, 0, 2, 0] ∧
    ∃ f' E', oneD (FP.exactWith sqrt) ([(1 : ℚ), 0, 3, 0, 2, 0].map Fl.fin) 4 = .ok (f', E') ∧ f' = [1, 0, 2, 0, 1, 0] := by
  have h : PadList (fun i => 2 * i) [(1 : ℚ), 3, 2] [1, 0, 3, 0, 2, 0] := by
    refine ⟨fun i j hij _ => by omega, ?_, ?_, ?_⟩
    · intro i hi
      simp only [List.length_cons, List.length_nil] at hi ⊢
      omega
    · decide +kernel
    · decide +kernel
  obtain ⟨E', h'⟩ := C112_integerise sqrt (xs := [1, 0, 3, 0, 2, 0]) (pop := 4) (by norm_num) (by norm_num) (by norm_num) (by norm_num)
  exact ⟨h, _, E', h', by decide +kernel⟩

/-- the table of C75 with rows of zeros between the others -/
def gapTable (v : List Int) : ℚ := if v.getD 0 0 = 1 ∨ v.getD 0 0 = 3 then 0 else tab3 t0 [v.getD 0 0 / 2, v.getD 1 0]

/-- The hypotheses hold for an array, `integerise` returns for both, and the rows of zeros stay so. -/
example (lm : Libm) : Places gapAt [3, 3] [5, 3] ∧ PadOf gapAt [3, 3] [5, 3] (List.range 2) (tab3 t0) gapTable ∧
    (∀ v, InRange [3, 3] v → 0 ≤ tab3 t0 v) ∧
    ∃ f' E', run false FP.exact lm (arr [5, 3] (fun v => .fin (gapTable v))) = .ok ⟨arr [5, 3] f', true, E'⟩ ∧
      ∀ b ∈ [(0 : Int), 1, 2], f' [1, b] = 0 ∧ f' [3, b] = 0 := by
  have mem : ∀ {t : List Nat} {j : List Int}, InRange t j → j ∈ allIdx t := fun hj => mem_allIdx.mpr hj
  have hpl : Places gapAt [3, 3] [5, 3] := by
    refine ⟨rfl, ?_, ?_⟩
    · intro d hd i j hij hj
      unfold gapAt
      split <;> omega
    · intro d hd i hi
      simp only [List.length_cons, List.length_nil] at hd
      interval_cases d <;> simp only [gapAt, List.getD_cons_zero, List.getD_cons_succ] at hi ⊢ <;> simp <;> omega
  have ha : PadOf gapAt [3, 3] [5, 3] (List.range 2) (tab3 t0) gapTable := by
    constructor
    · have : ∀ j ∈ allIdx (projSizes (List.range 2) [3, 3]), gapTable (place gapAt (List.range 2) j) = tab3 t0 j := by decide +kernel
      exact fun j hj => this j (mem hj)
    · have : ∀ j' ∈ allIdx (projSizes (List.range 2) [5, 3]), (∀ j ∈ allIdx (projSizes (List.range 2) [3, 3]), place gapAt (List.range 2) j ≠ j') →
          gapTable j' = 0 := by decide +kernel
      exact fun j' hj' hno => this j' (mem hj') (fun j hj => hno j (mem_allIdx.mp hj))
  have h0 : ∀ v, InRange [3, 3] v → 0 ≤ tab3 t0 v := by
    have : ∀ v ∈ allIdx [3, 3], 0 ≤ tab3 t0 v := by decide +kernel
    exact fun v hv => this v (mem hv)
  obtain ⟨r, h1, h2, -⟩ := run3 lm
  obtain ⟨f, f', E', -, h3, h4⟩ := (C113_array_exact (lm := lm) hpl ⟨by decide, by decide⟩ (by decide) ha h0 (by
    have hm : ∀ d < 2, ∀ i < 3, marginalSum [3, 3] [d] (tab3 t0) [((i : Nat) : Int)] = 1 := by decide +kernel
    intro d hd N hN
    have hs : [3, 3].getD d 0 = 3 := by
      simp only [List.length_cons, List.length_nil] at hd
      interval_cases d <;> rfl
    rw [hs] at hN ⊢
    have hN1 : ∀ i < 3, N i = 1 := by
      intro i hi
      have := hN i hi
      rw [hm d hd i hi] at this
      have h5 : |(1 : ℚ) - N i| < 1 := lt_of_le_of_lt this (by norm_num)
      have h6 : |(1 : Int) - N i| < 1 := by exact_mod_cast h5
      have := abs_lt.mp h6
      omega
    rw [Finset.sum_congr rfl (fun i hi => hN1 i (Finset.mem_range.mp hi))]
    norm_num)).1 r h1
  rw [h2] at h3
  refine ⟨hpl, ha, h0, f', E', h3, ?_⟩
  have no : ∀ j ∈ allIdx (projSizes (List.range 2) [3, 3]), ∀ b ∈ [(0 : Int), 1, 2], ∀ k ∈ [(1 : Int), 3], place gapAt (List.range 2) j ≠ [k, b] := by
    decide +kernel
  have hin : ∀ b ∈ [(0 : Int), 1, 2], ∀ k ∈ [(1 : Int), 3], [k, b] ∈ allIdx (projSizes (List.range 2) [5, 3]) := by decide +kernel
  have hz : ∀ b ∈ [(0 : Int), 1, 2], ∀ k ∈ [(1 : Int), 3], f' [k, b] = 0 := fun b hb k hk =>
    h4.2 [k, b] (mem_allIdx.mp (hin b hb k hk)) (fun j hj => no j (mem hj) b hb k hk)
  exact fun b hb => ⟨hz b hb 1 (by simp), hz b hb 3 (by simp)⟩

end HL

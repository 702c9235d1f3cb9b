import Verif.Proof.QISIPadRun
import Verif.Proof.QISFollow
import Verif.Props.QISIDraws
import Verif.Props.QISRule
import Verif.QISIRuleSpec

/-
C117: `qisi` is the rule of `QISIRuleSpec.lean`, no more and no less.
-/

namespace HL
open QISI
variable {fp : FP}

theorem firstPastQ_pick {w : Nat → ℚ} {n : Nat} {u : U32} {z : Int}
    (h : FirstPastQ w n ((u.toNat : ℚ) / 2 ^ 32 * ∑ x ∈ Finset.range n, w x) z) :
    ∃ i : Nat, z = i ∧ i < n ∧ pick FP.exact (numFl FP.exact) ((List.range n).map (fun x => Fl.fin (w x))) (variate FP.exact u) = .ok i := by
  obtain ⟨i, rfl, hi, h1, h2⟩ := h
  refine ⟨i, rfl, hi, ?_⟩
  have e : (List.range n).map (fun x => Fl.fin (w x)) = ((List.range n).map w).map Fl.fin := by rw [List.map_map]; rfl
  rw [e]
  have hs : ((List.range n).map w).sum = ∑ x ∈ Finset.range n, w x := by
    have := take_map_range_sumQ w (le_refl n)
    rwa [List.take_of_length_le (by simp)] at this
  unfold pick
  have ht : (((List.range n).map w).map Fl.fin).foldl (fun acc x => FP.exact.add acc ((numFl FP.exact).toFl x)) (.fin 0) =
      .fin (∑ x ∈ Finset.range n, w x) := by
    have := foldl_fin_exact ((List.range n).map w) 0
    rw [zero_add, hs] at this
    exact this
  rw [ht, variate_eq FP.exact_good]
  have hm : FP.exact.mul (.fin ((u.toNat : ℚ) / 2 ^ 32)) (.fin (∑ x ∈ Finset.range n, w x)) =
    .fin ((u.toNat : ℚ) / 2 ^ 32 * ∑ x ∈ Finset.range n, w x) := rfl
  rw [hm]
  have key : ∀ k < n, (numFl FP.exact).toFl ((numFl FP.exact).add
      (((((List.range n).map w).map Fl.fin).take k).foldl (numFl FP.exact).add (.fin 0)) (.fin (w k))) =
        .fin (∑ a ∈ Finset.range (k + 1), w a) := by
    intro k hk
    rw [← List.map_take]
    have e : ((((List.range n).map w).take k).map Fl.fin).foldl (numFl FP.exact).add (.fin 0) = .fin (∑ a ∈ Finset.range k, w a) := by
      have := foldl_fin_exact (((List.range n).map w).take k) 0
      rw [zero_add, take_map_range_sumQ w (by omega)] at this
      exact this
    rw [e, Finset.sum_range_succ]
    rfl
  have hget : ∀ k < n, (((List.range n).map w).map Fl.fin)[k]? = some (.fin (w k)) := by
    intro k hk
    simp [hk]
  have := pickLoop_of (numFl FP.exact) (.fin ((u.toNat : ℚ) / 2 ^ 32 * ∑ x ∈ Finset.range n, w x)) (((List.range n).map w).map Fl.fin)
    (.fin 0) 0 i (.fin (w i)) (hget i hi) (by rw [key i hi]; simpa only [FP.lt, decide_eq_true_eq] using h2) (by
      intro j hj
      refine ⟨_, hget j (by omega), ?_⟩
      rw [key j (by omega)]
      simpa only [FP.lt, decide_eq_false_iff_not, not_lt] using h1 j hj)
  rw [zero_add] at this
  exact this

theorem drawn_of_exact {seq : List U32} (t : List Nat) : t ≠ [] → ∀ {a : List Int → Fl} {b : List Int → ℚ} {v : List Int},
    Agree t a b → InRange t v → (∀ d < t.length, FirstPastQ (sliceWeight t b v d) (t.getD d 0)
        (((seq.getD d 0).toNat : ℚ) / 2 ^ 32 * ∑ x ∈ Finset.range (t.getD d 0), sliceWeight t b v d x) (v.getD d 0)) →
    Drawn FP.exact seq t a v := by
  induction t using List.reverseRecOn with
  | nil => intro h; exact absurd rfl h
  | append_singleton t n ih =>
    intro _ a b v hab hv hF
    obtain ⟨v, z, rfl, hvl⟩ := exists_snocI (t := v) (k := t.length) (by
      have := inRange_length hv
      simpa using this)
    obtain ⟨hv1, hz0, hz1⟩ := inRange_unsnoc hvl hv
    have hlast := hF t.length (by simp)
    have e : (t ++ [n]).getD t.length 0 = n := by simp [List.getD_eq_getElem?_getD]
    rw [e, getD_snoc_eq hvl.symm] at hlast
    obtain ⟨i, rfl, hi, hp⟩ := firstPastQ_pick hlast
    by_cases ht : t = []
    · subst ht
      have hv0 : v = [] := List.length_eq_zero_iff.mp (by simpa using hvl)
      subst hv0
      refine Drawn.one n a i hi ?_
      have e : (List.range n).map (fun j : Nat => a [(j : Int)]) = (List.range n).map (fun x => Fl.fin (sliceWeight [n] b [(i : Int)] 0 x)) := by
        apply List.map_congr_left
        intro x hx
        have hx' := List.mem_range.mp hx
        have := sliceWeight_last (t := []) hx' b [(i : Int)]
        rw [List.nil_append, List.length_nil] at this
        rw [this, hab _ (.cons ⟨by positivity, by exact_mod_cast hx'⟩ .nil)]
        simp [cells, allIdx]
      rw [e]
      exact hp
    · have hl : lastSumsF FP.exact t n a = (List.range n).map (fun x => Fl.fin (sliceWeight (t ++ [n]) b (v ++ [(i : Int)]) t.length x)) := by
        unfold lastSumsF
        apply List.map_congr_left
        intro x hx
        have hx' := List.mem_range.mp hx
        rw [sliceWeight_last hx', foldl_add_exact (fun w => b (w ++ [(x : Int)])) _ (fun w => a (w ++ [(x : Int)])) 0 (by
          intro w hw
          exact hab _ (inRange_snoc (mem_allIdx.mp hw) (by positivity) (by exact_mod_cast hx'))), zero_add, sum_allIdx]
      refine Drawn.snoc t n a i v ht hi (by rw [hl]; exact hp) (ih ht (b := fun w => b (w ++ [(i : Int)])) ?_ hv1 ?_)
      · exact fun w hw => hab _ (inRange_snoc hw (by positivity) (by exact_mod_cast hi))
      · intro d hd
        have := hF d (by simp; omega)
        have e : (t ++ [n]).getD d 0 = t.getD d 0 := by simp [List.getD_eq_getElem?_getD, List.getElem?_append_left hd]
        rw [e, getD_snoc_lt (by omega)] at this
        have hf : sliceWeight (t ++ [n]) b (v ++ [(i : Int)]) d = sliceWeight t (fun w => b (w ++ [(i : Int)])) v d := by
          funext x
          exact sliceWeight_init hi b hvl hd x
        rw [hf] at this
        exact this

theorem sobol_seq {n : Nat} (hn : n ≤ 1111) {pt : Nat → Nat → Nat} (hpt : SobolAfter n 0 pt) (i : Nat) :
    ∃ seq, PointAt n (i + 1) seq ∧ ∀ d < n, (seq.getD d 0).toNat = pt i d := by
  have hlt : ∀ d < n, ∃ b : BitVec 32, pt i d = b.toNat ∧ ∀ m, IsDirection d m → b = sobolValue m (i + 1) := by
    intro d hd
    obtain ⟨⟨m, hm⟩, hu⟩ := C09_direction_numbers (i := d) (by omega)
    refine ⟨sobolValue m (i + 1), ?_, fun m' hm' => sobolValue_congr (hu m m' hm hm') _⟩
    have := hpt i d hd m hm
    rwa [Nat.zero_add] at this
  have hseq : ∀ d, ∃ b : BitVec 32, d < n → pt i d = b.toNat ∧ ∀ m, IsDirection d m → b = sobolValue m (i + 1) := by
    intro d
    by_cases hd : d < n
    · obtain ⟨b, hb⟩ := hlt d hd
      exact ⟨b, fun _ => hb⟩
    · exact ⟨0, fun h => absurd h hd⟩
  obtain ⟨g, hg⟩ := Classical.axiomOfChoice hseq
  have hget : ∀ d < n, ((List.range n).map g).getD d 0 = g d := by
    intro d hd
    simp [List.getD_eq_getElem?_getD, hd]
  refine ⟨(List.range n).map g, ⟨by simp, fun d hd m hm => ?_⟩, fun d hd => ?_⟩
  · rw [hget d hd]; exact (hg d hd).2 m hm
  · rw [hget d hd]; exact (hg d hd).1.symm

theorem remaining_reverse (hs : List (List Int)) (P : Prob Int) : remaining hs.reverse P = remaining hs P := by
  unfold remaining
  simp only [List.countP_reverse]

/-- the individuals of the rule are placed -/
theorem placed_of_rule {s : List Nat} (hdim : s.length ≤ 1111) (hs0 : s ≠ []) {P : Prob Int} {sd : List Int → ℚ} {pt : Nat → Nat → Nat}
    (hpt : SobolAfter s.length 0 pt) {vs : List (List Int)} {W : Nat → List Int → ℚ} (h : SampledByRule s P sd pt vs W) :
    ∀ i ≤ vs.length, ∃ a, Placed FP.exact s P (fun v => .fin (sd v)) (vs.take i).reverse a ∧ Agree s a (W i) := by
  intro i
  induction i with
  | zero => intro _; exact ⟨_, .start _ h.1, fun _ _ => rfl⟩
  | succ i ih =>
    intro hi
    obtain ⟨a, ha, hag⟩ := ih (by omega)
    have hvi := List.getElem?_eq_getElem (show i < vs.length by omega)
    obtain ⟨hv, hF, h1, h2⟩ := h.2 i _ hvi
    obtain ⟨seq, hseq, hse⟩ := sobol_seq hdim hpt i
    have hlen : ((vs.take i).reverse).length = i := by simp; omega
    have hd : Drawn FP.exact seq s a vs[i] := drawn_of_exact s hs0 hag hv (fun d hd => by rw [hse d hd]; exact hF d hd)
    have hrev : (vs.take (i + 1)).reverse = vs[i] :: (vs.take i).reverse := by
      rw [List.take_succ_eq_append_getElem (by omega), List.reverse_append]
      rfl
    rw [hrev]
    have hsub : FP.exact.sub (a vs[i]) (.fin 1) = .fin (W i vs[i] - 1) := by
      rw [hag _ hv, sub_one_exact]
      simp [sub_eq_add_neg]
    rcases lt_or_ge (W i vs[i]) 1 with hlt | hge
    · have hf := h2 hlt
      refine ⟨_, .refit _ a seq _ (fun v => .fin (W (i + 1) v)) ha (by rw [hlen]; exact hseq) hd ?_ ?_, fun _ _ => rfl⟩
      · rw [hsub]
        simp only [FP.lt, decide_eq_true_eq]
        linarith
      · rw [← hrev, remaining_reverse]
        exact hf
    · refine ⟨_, .keep _ a seq _ ha (by rw [hlen]; exact hseq) hd ?_, ?_⟩
      · rw [hsub]
        simp only [FP.lt, decide_eq_false_iff_not, not_lt]
        linarith
      · intro u hu
        rw [h1 hge u hu, hsub]
        by_cases huv : u = vs[i]
        · rw [if_pos huv, huv, Function.update_self]
        · rw [if_neg huv, Function.update_of_ne huv, hag u hu]

theorem qisi_byRule {lm : Libm} {s : List Nat} {P : Prob Int} {pop : Int} (h : ProbOK s P pop) (hpop : pop < 2 ^ 52)
    (hp : ProperProb s P) {sd : List Int → ℚ} {skips : Int} {pt : Nat → Nat → Nat} (hpt : SobolAfter s.length 0 pt) {x : QISI}
    (hx : qisi FP.exact lm s P (fun v => .fin (sd v)) skips = .ok x) :
    pop ≤ 2 ^ 32 - 1 ∧ ∃ (vs : List (List Int)) (W : Nat → List Int → ℚ), (vs.length : Int) = pop ∧ SampledByRule s P sd pt vs W ∧
      x.micro.array = arr s (fun v => (vs.count v : Int)) ∧ x.expected = arr s (fun v => .fin (W 0 v)) ∧
      (x.conv = true ↔ ∀ p ∈ P, ∀ j, InRange (projSizes p.1 s) j → marginalSum s p.1 (fun v => (vs.count v : Int)) j = p.2 j) := by
  obtain ⟨E, a, vs, hs⟩ := qisi_run_ok FP.exact_good h hpop hp hx
  have h0 := h.pop_nonneg
  obtain ⟨W, h1, h2, h3⟩ := placed_tables h hp hs.placed
  obtain ⟨hdim, -⟩ := qisi_ok_args FP.exact_good h hpop hx
  have hb := hs.bound
  have hsz := hs.size
  refine ⟨by omega, vs.reverse, W, by rw [List.length_reverse, hs.size, Int.toNat_of_nonneg h0], ⟨h2, ?_⟩, ?_, ?_, ?_⟩
  · intro i v hv
    have hi : i < vs.length := by
      have := (List.getElem?_eq_some_iff.mp hv).1
      simpa using this
    obtain ⟨seq, v', g1, g2, g3, g4, g5⟩ := h3 i hi
    rw [hv] at g2
    injection g2 with g2
    subst g2
    refine ⟨g3, fun d hd => ?_, g5⟩
    rw [← sobolAfter_point hdim hpt (by rw [Nat.zero_add]; exact g1) d hd]
    exact g4 d hd
  · rw [hs.at_.micro]
    simp only [List.count_reverse]
  · rw [hs.expected]
    apply arr_congr
    exact fit_unique hs.fit h2
  · rw [hs.conv, unspent_iff h hs.placed.range hs.size]
    simp only [List.count_reverse]

/-! ### C117 -/

/-- **C117.**  The rule leaves no choice in the individuals. -/
theorem C117_unique {s : List Nat} (hdim : s.length ≤ 1111) (hs0 : s ≠ []) {P : Prob Int} {sd : List Int → ℚ} {pt : Nat → Nat → Nat}
    (hpt : SobolAfter s.length 0 pt) {vs vs' : List (List Int)} {W W' : Nat → List Int → ℚ} (h : SampledByRule s P sd pt vs W)
    (h' : SampledByRule s P sd pt vs' W') (hl : vs.length = vs'.length) : vs = vs' := by
  obtain ⟨a, h1, -⟩ := placed_of_rule hdim hs0 hpt h vs.length (le_refl _)
  obtain ⟨a', h2, -⟩ := placed_of_rule hdim hs0 hpt h' vs'.length (le_refl _)
  rw [List.take_length] at h1 h2
  exact List.reverse_injective (placed_unique hdim h1 h2 (by simpa using hl)).1

/-- **C117** (exact arithmetic)  `qisi` returns a population exactly when there are individuals that follow the rule, as many as the
marginals ask for (and no more than the sequence has points). -/
theorem C117_returns (lm : Libm) {s : List Nat} {P : Prob Int} {pop : Int} (h : ProbOK s P pop) (hpop : pop < 2 ^ 52)
    (hp : ProperProb s P) (hdim : s.length ≤ 1111) {sd : List Int → ℚ} {skips : Int} (h0 : 0 ≤ skips) (h1 : skips ≤ 2 ^ 31)
    {pt : Nat → Nat → Nat} (hpt : SobolAfter s.length 0 pt) :
    (∃ x, qisi FP.exact lm s P (fun v => .fin (sd v)) skips = .ok x) ↔
      pop ≤ 2 ^ 32 - 1 ∧ ∃ (vs : List (List Int)) (W : Nat → List Int → ℚ), (vs.length : Int) = pop ∧ SampledByRule s P sd pt vs W := by
  constructor
  · rintro ⟨x, hx⟩
    obtain ⟨g1, vs, W, g2, g3, -⟩ := qisi_byRule h hpop hp hpt hx
    exact ⟨g1, vs, W, g2, g3⟩
  · rintro ⟨g1, vs, W, g2, g3⟩
    have hs0 : s ≠ [] := by
      rintro rfl
      have := h.two
      simp at this
    obtain ⟨a, h2, -⟩ := placed_of_rule hdim hs0 hpt g3 vs.length (le_refl _)
    rw [List.take_length] at h2
    obtain ⟨x, E, b, hx, -⟩ := qisi_of_placed FP.exact_good lm h hp hdim (skips := skips) (by omega) h2 (by simpa using g2)
      (by rw [List.length_reverse]; omega)
    exact ⟨x, hx⟩

/-- **C117** (exact arithmetic)  The population it returns is the one of those individuals, and the expectation it reports is the first
table. -/
theorem C117_result {lm : Libm} {s : List Nat} {P : Prob Int} {pop : Int} (h : ProbOK s P pop) (hpop : pop < 2 ^ 52)
    (hp : ProperProb s P) {sd : List Int → ℚ} {skips : Int} {pt : Nat → Nat → Nat} (hpt : SobolAfter s.length 0 pt) {x : QISI}
    (hx : qisi FP.exact lm s P (fun v => .fin (sd v)) skips = .ok x) {vs : List (List Int)} {W : Nat → List Int → ℚ}
    (hl : (vs.length : Int) = pop) (hvs : SampledByRule s P sd pt vs W) :
    x.micro.array = arr s (fun v => (vs.count v : Int)) ∧ x.expected = arr s (fun v => .fin (W 0 v)) ∧
      (x.conv = true ↔ ∀ p ∈ P, ∀ j, InRange (projSizes p.1 s) j → marginalSum s p.1 (fun v => (vs.count v : Int)) j = p.2 j) := by
  obtain ⟨-, vs', W', g2, g3, g4, g5, g6⟩ := qisi_byRule h hpop hp hpt hx
  have hs0 : s ≠ [] := by
    rintro rfl
    have := h.two
    simp at this
  obtain ⟨hdim, -⟩ := qisi_ok_args FP.exact_good h hpop hx
  have : vs = vs' := C117_unique hdim hs0 hpt hvs g3 (by omega)
  subst this
  refine ⟨g4, ?_, g6⟩
  rw [g5]
  exact arr_congr (fit_unique g3.1 hvs.1)

/-- **C117** (any rounding)  In double precision `qisi` is the same rule with rounded tables: it returns exactly when all individuals
can be placed, and then what it returns is the placing. -/
theorem C117_rounded (hfp : fp.Good) (lm : Libm) {s : List Nat} {P : Prob Int} {pop : Int} (h : ProbOK s P pop) (hpop : pop < 2 ^ 52)
    (hp : ProperProb s P) (hdim : s.length ≤ 1111) {sd : List Int → Fl} {skips : Int} (h0 : 0 ≤ skips) (h1 : skips ≤ 2 ^ 31)
    {f : List Int → Int} :
    (∃ x, qisi fp lm s P sd skips = .ok x ∧ x.micro.array = arr s f) ↔
      pop ≤ 2 ^ 32 - 1 ∧ ∃ (vs : List (List Int)) (a : List Int → Fl), (vs.length : Int) = pop ∧ Placed fp s P sd vs a ∧
        ∀ v, InRange s v → f v = vs.count v := by
  constructor
  · rintro ⟨x, hx, hf⟩
    obtain ⟨E, a, vs, hs⟩ := qisi_run_ok hfp h hpop hp hx
    have hn := h.pop_nonneg
    have hb := hs.bound
    have hsz := hs.size
    refine ⟨by omega, vs, a, by omega, hs.placed, ?_⟩
    have : x.micro.array = arr s (fun v => (vs.count v : Int)) := by rw [hs.at_.micro]
    rw [hf] at this
    exact arr_inj this
  · rintro ⟨g1, vs, a, g2, g3, g4⟩
    obtain ⟨x, E, b, hx, hs⟩ := qisi_of_placed hfp lm h hp hdim (skips := skips) (by omega) g3 g2 (by omega)
    refine ⟨x, hx, ?_⟩
    rw [hs.at_.micro]
    exact (arr_congr g4).symm

/-- The hypotheses are met: `qisi` returns, so the individuals of the rule exist. -/
example {pt : Nat → Nat → Nat} (hpt : SobolAfter 2 0 pt) : ProperProb [2, 3] exProb ∧
    ∃ (vs : List (List Int)) (W : Nat → List Int → ℚ), SampledByRule [2, 3] exProb (fun _ => 1) pt vs W ∧ 0 < vs.length := by
  obtain ⟨x, hx, -⟩ := exProb_qisi ⟨id, id, id, id, id⟩ (skips := 7) (by norm_num) (by norm_num)
  obtain ⟨-, vs, W, h1, h2, -⟩ := qisi_byRule exProb_ok (by norm_num) exProb_proper hpt hx
  exact ⟨exProb_proper, vs, W, h2, by omega⟩

end HL

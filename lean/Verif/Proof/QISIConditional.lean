import Verif.Proof.QISDraw
import Verif.Proof.QISIExact

/-
What one individual of `qisi` is drawn from, in exact arithmetic.
-/

namespace HL
open QISI

theorem foldl_add_exact (f : List Int → ℚ) : ∀ (l : List (List Int)) (a : List Int → Fl) (x : ℚ), (∀ v ∈ l, a v = .fin (f v)) →
    l.foldl (fun acc v => FP.exact.add acc (a v)) (.fin x) = .fin (x + (l.map f).sum)
  | [], _, x, _ => by simp
  | v :: l, a, x, h => by
    rw [List.foldl_cons, h v (by simp)]
    have e : FP.exact.add (.fin x) (.fin (f v)) = .fin (x + f v) := rfl
    rw [e, foldl_add_exact f l a _ (fun w hw => h w (by simp [hw]))]
    simp [add_assoc]

theorem foldl_fin_exact : ∀ (l : List ℚ) (x : ℚ), (l.map Fl.fin).foldl FP.exact.add (.fin x) = .fin (x + l.sum)
  | [], x => by simp
  | y :: l, x => by
    rw [List.map_cons, List.foldl_cons]
    have e : FP.exact.add (.fin x) (.fin y) = .fin (x + y) := rfl
    rw [e, foldl_fin_exact l]
    simp [add_assoc]

/-- `pick` on exact weights. -/
theorem pick_exact {w : List ℚ} {u : U32} {i : Nat}
    (hp : pick FP.exact (numFl FP.exact) (w.map Fl.fin) (variate FP.exact u) = .ok i) :
    i < w.length ∧ (∀ m < i, (w.take (m + 1)).sum ≤ (u.toNat : ℚ) / 2 ^ 32 * w.sum) ∧
      (u.toNat : ℚ) / 2 ^ 32 * w.sum < (w.take (i + 1)).sum := by
  unfold pick at hp
  have ht : (w.map Fl.fin).foldl (fun acc x => FP.exact.add acc ((numFl FP.exact).toFl x)) (.fin 0) = .fin w.sum := by
    have := foldl_fin_exact w 0
    rw [zero_add] at this
    exact this
  rw [ht, variate_eq FP.exact_good] at hp
  have hm : FP.exact.mul (.fin ((u.toNat : ℚ) / 2 ^ 32)) (.fin w.sum) = .fin ((u.toNat : ℚ) / 2 ^ 32 * w.sum) := rfl
  rw [hm, show i = 0 + i by omega] at hp
  obtain ⟨x, h1, h2, h3⟩ := pickLoop_spec (numFl FP.exact) _ (w.map Fl.fin) (.fin 0) 0 i hp
  have key : ∀ k y, (w.map Fl.fin)[k]? = some y →
      (numFl FP.exact).toFl ((numFl FP.exact).add (((w.map Fl.fin).take k).foldl (numFl FP.exact).add (.fin 0)) y) =
        .fin (w.take (k + 1)).sum := by
    intro k y hk
    rw [List.getElem?_map] at hk
    cases hwk : w[k]? with
    | none => rw [hwk] at hk; cases hk
    | some z =>
      rw [hwk] at hk
      simp only [Option.map_some, Option.some.injEq] at hk
      subst hk
      rw [← List.map_take]
      have e : ((w.take k).map Fl.fin).foldl (numFl FP.exact).add (.fin 0) = .fin (w.take k).sum := by
        have := foldl_fin_exact (w.take k) 0
        rw [zero_add] at this
        exact this
      rw [e, List.take_add_one, hwk]
      simp only [Option.toList_some, List.sum_append, List.sum_singleton]
      rfl
  have hi : i < w.length := by
    by_contra hc
    rw [List.getElem?_eq_none (by simp; omega)] at h1
    cases h1
  refine ⟨hi, ?_, ?_⟩
  · intro m hm'
    obtain ⟨y, hy, hc⟩ := h3 m hm'
    rw [key m y hy] at hc
    simpa only [FP.lt, decide_eq_false_iff_not, not_lt] using hc
  · rw [key i x h1] at h2
    simpa only [FP.lt, decide_eq_true_eq] using h2

theorem take_map_range_sumQ (f : Nat → ℚ) {n m : Nat} (hm : m ≤ n) :
    (((List.range n).map f).take m).sum = ∑ a ∈ Finset.range m, f a := by
  rw [← List.map_take, List.take_range, Nat.min_eq_left hm]
  induction m with
  | zero => simp
  | succ k ih =>
    rw [List.range_succ, List.map_append, List.sum_append, ih (by omega), Finset.sum_range_succ]
    simp

theorem pick_first {w : Nat → ℚ} {n : Nat} {u : U32} {i : Nat}
    (hp : pick FP.exact (numFl FP.exact) ((List.range n).map (fun x => Fl.fin (w x))) (variate FP.exact u) = .ok i) :
    FirstPastQ w n ((u.toNat : ℚ) / 2 ^ 32 * ∑ x ∈ Finset.range n, w x) i := by
  have e : (List.range n).map (fun x => Fl.fin (w x)) = ((List.range n).map w).map Fl.fin := by rw [List.map_map]; rfl
  rw [e] at hp
  obtain ⟨h1, h2, h3⟩ := pick_exact hp
  have hn : i < n := by simpa using h1
  have hs : ((List.range n).map w).sum = ∑ x ∈ Finset.range n, w x := by
    have := take_map_range_sumQ w (le_refl n)
    rwa [List.take_of_length_le (by simp)] at this
  rw [hs] at h2 h3
  refine ⟨i, rfl, hn, ?_, ?_⟩
  · intro m hm
    have := h2 m hm
    rwa [take_map_range_sumQ w (by omega)] at this
  · rwa [take_map_range_sumQ w (by omega)] at h3

theorem sliceWeight_last {t : List Nat} {n x : Nat} (hx : x < n) (b : List Int → ℚ) (v : List Int) :
    sliceWeight (t ++ [n]) b v t.length x = ∑ w ∈ cells t, b (w ++ [(x : Int)]) := by
  unfold sliceWeight
  rw [sum_filter_snoc hx b (fun _ => True)]
  · simp
  · intro w hw y _
    have hl := inRange_length (mem_cells.mp hw)
    rw [getD_snoc_eq hl.symm]
    constructor
    · intro h1; exact ⟨trivial, by exact_mod_cast h1.1⟩
    · rintro ⟨-, rfl⟩
      refine ⟨rfl, fun e he hk => ?_⟩
      simp at he; omega

theorem sliceWeight_init {t : List Nat} {n i : Nat} (hi : i < n) (b : List Int → ℚ) {v : List Int} (hv : v.length = t.length)
    {d : Nat} (hd : d < t.length) (x : Nat) :
    sliceWeight (t ++ [n]) b (v ++ [(i : Int)]) d x = sliceWeight t (fun w => b (w ++ [(i : Int)])) v d x := by
  unfold sliceWeight
  apply sum_filter_snoc hi
  intro w hw y _
  have hl := inRange_length (mem_cells.mp hw)
  rw [getD_snoc_lt (by omega)]
  constructor
  · rintro ⟨h1, h2⟩
    refine ⟨⟨h1, fun e he hde => ?_⟩, ?_⟩
    · have := h2 e (by simp; omega) hde
      rwa [getD_snoc_lt (by omega), getD_snoc_lt (by omega)] at this
    · have := h2 t.length (by simp) hd
      rw [getD_snoc_eq hl.symm, getD_snoc_eq hv.symm] at this
      exact_mod_cast this
  · rintro ⟨⟨h1, h2⟩, rfl⟩
    refine ⟨h1, fun e he hde => ?_⟩
    rcases Nat.lt_or_ge e t.length with he' | he'
    · rw [getD_snoc_lt (by omega), getD_snoc_lt (by omega)]
      exact h2 e he' hde
    · have : e = t.length := by simp at he; omega
      rw [getD_snoc_eq (by omega), getD_snoc_eq (by omega)]

theorem drawn_exact {seq : List U32} {t : List Nat} {a : List Int → Fl} {v : List Int} (h : Drawn FP.exact seq t a v) :
    ∀ {b : List Int → ℚ}, Agree t a b → ∀ d < t.length,
      FirstPastQ (sliceWeight t b v d) (t.getD d 0)
        (((seq.getD d 0).toNat : ℚ) / 2 ^ 32 * ∑ x ∈ Finset.range (t.getD d 0), sliceWeight t b v d x) (v.getD d 0) := by
  induction h with
  | one n a i hi hp =>
    intro b hab d hd
    have : d = 0 := by simpa using hd
    subst this
    have e : (List.range n).map (fun j : Nat => a [(j : Int)]) = (List.range n).map (fun x => Fl.fin (sliceWeight [n] b [(i : Int)] 0 x)) := by
      apply List.map_congr_left
      intro x hx
      have hx' := List.mem_range.mp hx
      have := sliceWeight_last (t := []) hx' b [(i : Int)]
      rw [List.nil_append, List.length_nil] at this
      rw [this, hab _ (.cons ⟨by positivity, by exact_mod_cast hx'⟩ .nil)]
      simp [cells, allIdx]
    rw [e] at hp
    exact pick_first hp
  | snoc t n a i v ht hi hp hd ih =>
    intro b hab d hdl
    have hvl := inRange_length hd.inRange
    have hab' : Agree t (fun w => a (w ++ [(i : Int)])) (fun w => b (w ++ [(i : Int)])) :=
      fun w hw => hab _ (inRange_snoc hw (by positivity) (by exact_mod_cast hi))
    rcases Nat.lt_or_ge d t.length with hdt | hdt
    · have := ih hab' d hdt
      have e : (t ++ [n]).getD d 0 = t.getD d 0 := by simp [List.getD_eq_getElem?_getD, List.getElem?_append_left hdt]
      rw [e, getD_snoc_lt (by omega)]
      have hf : sliceWeight (t ++ [n]) b (v ++ [(i : Int)]) d = sliceWeight t (fun w => b (w ++ [(i : Int)])) v d := by
        funext x
        exact sliceWeight_init hi b hvl hdt x
      rw [hf]; exact this
    · have hde : d = t.length := by simp at hdl; omega
      subst hde
      have e : (t ++ [n]).getD t.length 0 = n := by simp [List.getD_eq_getElem?_getD]
      rw [e, getD_snoc_eq hvl.symm]
      have hl : lastSumsF FP.exact t n a = (List.range n).map (fun x => Fl.fin (sliceWeight (t ++ [n]) b (v ++ [(i : Int)]) t.length x)) := by
        unfold lastSumsF
        apply List.map_congr_left
        intro x hx
        have hx' := List.mem_range.mp hx
        rw [sliceWeight_last hx', foldl_add_exact (fun w => b (w ++ [(x : Int)])) _ (fun w => a (w ++ [(x : Int)])) 0 (by
          intro w hw
          exact hab _ (inRange_snoc (mem_allIdx.mp hw) (by positivity) (by exact_mod_cast hx'))), zero_add, sum_allIdx]
      rw [hl] at hp
      exact pick_first hp

/-- The run of `qisi`, as a sequence of working tables. -/
theorem placed_tables {s : List Nat} {P : Prob Int} {pop : Int} (h : ProbOK s P pop) (hp : ProperProb s P) {sd : List Int → ℚ}
    {hs : List (List Int)} {a : List Int → Fl} (hpl : Placed FP.exact s P (fun v => .fin (sd v)) hs a) :
    ∃ W : Nat → List Int → ℚ, Agree s a (W hs.length) ∧ Fit FP.exact s P (fun v => .fin (sd v)) (fun v => .fin (W 0 v)) ∧
      ∀ i < hs.length, ∃ seq v, PointAt s.length (i + 1) seq ∧ hs.reverse[i]? = some v ∧ InRange s v ∧
        (∀ d < s.length, FirstPastQ (sliceWeight s (W i) v d) (s.getD d 0)
          (((seq.getD d 0).toNat : ℚ) / 2 ^ 32 * ∑ x ∈ Finset.range (s.getD d 0), sliceWeight s (W i) v d x) (v.getD d 0)) ∧
        (1 ≤ W i v → ∀ u, InRange s u → W (i + 1) u = if u = v then W i u - 1 else W i u) ∧
        (W i v < 1 → Fit FP.exact s (remaining (hs.reverse.take (i + 1)) P) (fun v => .fin (sd v)) (fun v => .fin (W (i + 1) v))) := by
  have hfin : ∀ {hs : List (List Int)} {c : List Int → Fl}, Fit FP.exact s (remaining hs P) (fun v => .fin (sd v)) c → ∃ b, Agree s c b := by
    intro hs c hc
    obtain ⟨n, -, h1, -⟩ := fit_exact (shape_remaining h.toProbShape hs) (properProb_remaining hp hs) (b := sd) (fun _ _ => rfl) hc
    exact ⟨_, h1⟩
  have hcong : ∀ {Q : Prob Int} {c : List Int → Fl} {b : List Int → ℚ}, Fit FP.exact s Q (fun v => .fin (sd v)) c → Agree s c b →
      Fit FP.exact s Q (fun v => .fin (sd v)) (fun v => .fin (b v)) := by
    rintro Q c b ⟨r, hr, hc⟩ hab
    exact ⟨r, hr, hc.trans (arr_congr hab)⟩
  have ext : ∀ {hs : List (List Int)} {a : List Int → Fl} {seq : List U32} {v : List Int} {W : Nat → List Int → ℚ} {b : List Int → ℚ},
      Agree s a (W hs.length) → Fit FP.exact s P (fun v => .fin (sd v)) (fun v => .fin (W 0 v)) →
      (∀ i < hs.length, ∃ seq v, PointAt s.length (i + 1) seq ∧ hs.reverse[i]? = some v ∧ InRange s v ∧
        (∀ d < s.length, FirstPastQ (sliceWeight s (W i) v d) (s.getD d 0)
          (((seq.getD d 0).toNat : ℚ) / 2 ^ 32 * ∑ x ∈ Finset.range (s.getD d 0), sliceWeight s (W i) v d x) (v.getD d 0)) ∧
        (1 ≤ W i v → ∀ u, InRange s u → W (i + 1) u = if u = v then W i u - 1 else W i u) ∧
        (W i v < 1 → Fit FP.exact s (remaining (hs.reverse.take (i + 1)) P) (fun v => .fin (sd v)) (fun v => .fin (W (i + 1) v)))) →
      PointAt s.length (hs.length + 1) seq → Drawn FP.exact seq s a v →
      (1 ≤ W hs.length v → ∀ u, InRange s u → b u = if u = v then W hs.length u - 1 else W hs.length u) →
      (W hs.length v < 1 → Fit FP.exact s (remaining (hs.reverse ++ [v]) P) (fun v => .fin (sd v)) (fun v => .fin (b v))) →
      ∃ W' : Nat → List Int → ℚ, (W' (v :: hs).length = b) ∧ Fit FP.exact s P (fun v => .fin (sd v)) (fun v => .fin (W' 0 v)) ∧
      (∀ i < (v :: hs).length, ∃ seq w, PointAt s.length (i + 1) seq ∧ (v :: hs).reverse[i]? = some w ∧ InRange s w ∧
        (∀ d < s.length, FirstPastQ (sliceWeight s (W' i) w d) (s.getD d 0)
          (((seq.getD d 0).toNat : ℚ) / 2 ^ 32 * ∑ x ∈ Finset.range (s.getD d 0), sliceWeight s (W' i) w d x) (w.getD d 0)) ∧
        (1 ≤ W' i w → ∀ u, InRange s u → W' (i + 1) u = if u = w then W' i u - 1 else W' i u) ∧
        (W' i w < 1 → Fit FP.exact s (remaining ((v :: hs).reverse.take (i + 1)) P) (fun v => .fin (sd v)) (fun v => .fin (W' (i + 1) v)))) := by
    intro hs a seq v W b hA hF hI hpt hd h1 h2
    refine ⟨fun n => if n ≤ hs.length then W n else b, by simp, by simpa using hF, ?_⟩
    intro i hi
    rcases Nat.lt_or_ge i hs.length with hlt | hge
    · obtain ⟨sq, w, g1, g2, g3, g4, g5, g6⟩ := hI i hlt
      refine ⟨sq, w, g1, ?_, g3, ?_, ?_, ?_⟩
      · rw [List.reverse_cons, List.getElem?_append_left (by simpa using hlt)]; exact g2
      · simp only [show i ≤ hs.length by omega, if_true]; exact g4
      · simp only [show i ≤ hs.length by omega, show i + 1 ≤ hs.length by omega, if_true]; exact g5
      · simp only [show i ≤ hs.length by omega, show i + 1 ≤ hs.length by omega, if_true]
        rw [List.reverse_cons, List.take_append_of_le_length (by rw [List.length_reverse]; omega)]
        exact g6
    · have hie : i = hs.length := by simp at hi; omega
      subst hie
      refine ⟨seq, v, hpt, by simp, hd.inRange, ?_, ?_, ?_⟩
      · simp only [le_refl, if_true]
        exact drawn_exact hd hA
      · simp only [le_refl, if_true, show ¬ hs.length + 1 ≤ hs.length by omega, if_false]
        exact h1
      · simp only [le_refl, if_true, show ¬ hs.length + 1 ≤ hs.length by omega, if_false]
        rw [List.take_of_length_le (by simp), List.reverse_cons]
        exact h2
  induction hpl with
  | start c hc =>
    have er : remaining [] P = P := by simp [remaining]
    obtain ⟨b, hb⟩ := hfin (hs := []) (by rw [er]; exact hc)
    exact ⟨fun _ => b, hb, hcong hc hb, by simp⟩
  | keep hs a seq v hpl hpt hd hlt ih =>
    obtain ⟨W, hA, hF, hI⟩ := ih
    have hv := hd.inRange
    rw [hA v hv, sub_one_exact] at hlt
    have hge : 1 ≤ W hs.length v := by
      have : (0 : ℚ) ≤ W hs.length v + -1 := by simpa [FP.lt] using hlt
      linarith
    obtain ⟨W', e, h1, h2⟩ := ext (b := fun u => if u = v then W hs.length u - 1 else W hs.length u) hA hF hI hpt hd
      (fun _ _ _ => rfl) (fun hc => absurd hge (not_le.mpr hc))
    refine ⟨W', ?_, h1, h2⟩
    rw [e]
    intro u hu
    by_cases huv : u = v
    · subst huv
      rw [Function.update_self, hA u hu, sub_one_exact]
      simp [sub_eq_add_neg]
    · rw [Function.update_of_ne huv, hA u hu]
      simp [huv]
  | refit hs a seq v c hpl hpt hd hlt hc ih =>
    obtain ⟨W, hA, hF, hI⟩ := ih
    have hv := hd.inRange
    rw [hA v hv, sub_one_exact] at hlt
    have hl1 : W hs.length v < 1 := by
      have : W hs.length v + -1 < 0 := by simpa [FP.lt] using hlt
      linarith
    obtain ⟨b, hb⟩ := hfin hc
    have hrem : remaining (hs.reverse ++ [v]) P = remaining (v :: hs) P := by
      unfold remaining
      apply List.map_congr_left
      intro p _
      have : ∀ j, (hs.reverse ++ [v]).countP (fun w => proj p.1 w = j) = (v :: hs).countP (fun w => proj p.1 w = j) := by
        intro j
        rw [← List.reverse_cons, List.countP_reverse]
      simp only [this]
    obtain ⟨W', e, h1, h2⟩ := ext (b := b) hA hF hI hpt hd (fun hc' => absurd hl1 (not_lt.mpr hc'))
      (fun _ => by rw [hrem]; exact hcong hc hb)
    exact ⟨W', by rw [e]; exact hb, h1, h2⟩

end HL

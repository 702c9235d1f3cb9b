import Verif.QISISpec
import Verif.Model.QISI
import Verif.Proof.Pick
import Verif.Proof.SliceLast
import Verif.Proof.IPFExact
import Verif.Proof.MicroRat

/-
`getIndex` of QISI: which cell a point of the Sobol sequence picks from a fitted population.
-/

namespace HL
open QISI
variable {fp : FP}

theorem Drawn.inRange {seq : List U32} {t : List Nat} {a : List Int → Fl} {v : List Int} (h : Drawn fp seq t a v) :
    InRange t v := by
  induction h with
  | one n a i hi _ => exact .cons ⟨by positivity, by exact_mod_cast hi⟩ .nil
  | snoc t n a i v _ hi _ _ ih => exact inRange_snoc ih (by positivity) (by exact_mod_cast hi)

theorem readSeq_ok {seq : List U32} {d : Nat} (h : d < seq.length) : QIS.readSeq seq d = .ok (seq.getD d 0) := by
  unfold QIS.readSeq
  rw [if_neg (by omega)]
  simp [List.getElem?_eq_getElem h]

theorem writeIndex_ok {d : Nat} {v : Int} {idx : List Int} (h : d < idx.length) :
    writeIndex d v idx = .ok (idx.set d v) := if_pos h

theorem readIndex_ok {d : Nat} {v : Int} {idx : List Int} (h : d < idx.length) :
    readIndex d (idx.set d v) = .ok v := by
  unfold readIndex
  simp [h]

theorem pickSlice_cases {t : List Nat} {n : Nat} (hg : GoodShape (t ++ [n])) (ht : t ≠ []) (a : List Int → Fl)
    {seq : List U32} (hs : t.length < seq.length) {idx : List Int} (hi : t.length < idx.length) :
    (pickSlice fp t.length (arr (t ++ [n]) a) seq idx = .thrown .pickFailed ∧
      pick fp (numFl fp) (lastSumsF fp t n a) (variate fp (seq.getD t.length 0)) = .thrown .pickFailed) ∨
    ∃ i : Nat, i < n ∧ pick fp (numFl fp) (lastSumsF fp t n a) (variate fp (seq.getD t.length 0)) = .ok i ∧
      pickSlice fp t.length (arr (t ++ [n]) a) seq idx =
        .ok (arr t (fun w => a (w ++ [(i : Int)])), idx.set t.length i) := by
  unfold pickSlice
  rw [reduce1_last (numFl fp) hg]
  simp only [Out.ok_bind]
  rw [readSeq_ok hs]
  simp only [Out.ok_bind]
  have e : ((List.range n).map (fun j : Nat =>
      (allIdx t).foldl (fun acc v => (numFl fp).add acc (a (v ++ [(j : Int)]))) (numFl fp).zero)) = lastSumsF fp t n a := rfl
  rw [e]
  rcases pick_cases fp (numFl fp) (lastSumsF fp t n a) (variate fp (seq.getD t.length 0)) with h | ⟨i, h, hl⟩
  · left; rw [h]; exact ⟨rfl, rfl⟩
  · right
    have hl' : i < n := by simpa [lastSumsF] using hl
    refine ⟨i, hl', h, ?_⟩
    rw [h]
    simp only [Out.ok_bind]
    rw [writeIndex_ok hi]
    simp only [Out.ok_bind]
    rw [readIndex_ok hi]
    simp only [Out.ok_bind]
    rw [slice_last hg ht a (by positivity) (by exact_mod_cast hl')]
    rfl

theorem drawn_inv {seq : List U32} {T : List Nat} {a : List Int → Fl} {v : List Int} (h : Drawn fp seq T a v) :
    ∀ {t : List Nat} {n : Nat}, T = t ++ [n] → t ≠ [] → ∃ (i : Nat) (v' : List Int),
      v = v' ++ [(i : Int)] ∧ i < n ∧
      pick fp (numFl fp) (lastSumsF fp t n a) (variate fp (seq.getD t.length 0)) = .ok i ∧
      Drawn fp seq t (fun w => a (w ++ [(i : Int)])) v' := by
  cases h with
  | one n a i hi hp =>
    intro t m he ht
    have := congrArg List.length he
    simp only [List.length_cons, List.length_nil, List.length_append] at this
    exact absurd (List.length_eq_zero_iff.mp (by omega)) ht
  | snoc t n a i v ht hi hp hd =>
    intro t' m he ht'
    obtain ⟨rfl, h2⟩ := List.append_inj' he rfl
    injection h2 with h2
    subst h2
    exact ⟨i, v, rfl, hi, hp, hd⟩

theorem drawn_one {seq : List U32} {T : List Nat} {a : List Int → Fl} {v : List Int} (h : Drawn fp seq T a v) :
    ∀ {n : Nat}, T = [n] → ∃ i : Nat, v = [(i : Int)] ∧ i < n ∧
      pick fp (numFl fp) ((List.range n).map (fun j : Nat => a [(j : Int)])) (variate fp (seq.getD 0 0)) = .ok i := by
  cases h with
  | one n a i hi hp =>
    intro m he
    injection he with he
    subst he
    exact ⟨i, rfl, hi, hp⟩
  | snoc t n a i v ht hi hp hd =>
    intro m he
    have := congrArg List.length he
    simp only [List.length_cons, List.length_nil, List.length_append] at this
    exact absurd (List.length_eq_zero_iff.mp (by omega)) ht

/-- At most one cell is drawn. -/
theorem drawn_unique {seq : List U32} {t : List Nat} {a : List Int → Fl} {v w : List Int} (h : Drawn fp seq t a v)
    (h' : Drawn fp seq t a w) : v = w := by
  induction h generalizing w with
  | one n a i hi hp =>
    obtain ⟨j, rfl, -, hj⟩ := drawn_one h' rfl
    rw [hp] at hj
    injection hj with hj
    rw [hj]
  | snoc t n a i v ht hi hp hd ih =>
    obtain ⟨j, w', rfl, -, hj, hw⟩ := drawn_inv h' rfl ht
    rw [hp] at hj
    injection hj with hj
    subst hj
    rw [ih hw]

theorem set_drop {idx : List Int} {k : Nat} {i : Int} (h : k < idx.length) :
    (idx.set k i).drop k = i :: idx.drop (k + 1) := by
  rw [List.drop_set, if_neg (by omega), Nat.sub_self, List.drop_eq_getElem_cons h]
  rfl

theorem allIdx_one (n : Nat) : allIdx [n] = (List.range n).map (fun i : Nat => [(i : Int)]) := by
  simp [allIdx, List.map_eq_flatMap]

theorem getIndex_cases {seq : List U32} : ∀ (k : Nat) (t : List Nat) (a : List Int → Fl) (idx : List Int),
    GoodShape t → t.length = k + 2 → t.length ≤ seq.length → t.length ≤ idx.length →
    (getIndex fp seq k (arr t a) idx = .thrown .pickFailed ∧ ¬ ∃ v, Drawn fp seq t a v) ∨
    ∃ v, Drawn fp seq t a v ∧ getIndex fp seq k (arr t a) idx = .ok (v ++ idx.drop t.length) := by
  intro k
  induction k with
  | zero =>
    intro t a idx hg hl hs hi
    obtain ⟨m, n, rfl⟩ : ∃ m n, t = [m] ++ [n] := by
      match t, hl with
      | [m, n], _ => exact ⟨m, n, rfl⟩
    have h1 : ([m] : List Nat).length < seq.length := by simp at hs ⊢; omega
    have h2 : ([m] : List Nat).length < idx.length := by simp at hi ⊢; omega
    have hp := pickSlice_cases (fp := fp) hg (by simp) a h1 h2
    rw [show ([m] : List Nat).length = 1 from rfl] at hp
    unfold getIndex
    rcases hp with ⟨hp, hpk⟩ | ⟨i, hin, hpk, hp⟩
    · left; rw [hp]
      refine ⟨rfl, ?_⟩
      rintro ⟨v, hv⟩
      obtain ⟨i, v', -, -, h3, -⟩ := drawn_inv hv rfl (by simp)
      rw [show ([m] : List Nat).length = 1 from rfl, hpk] at h3
      cases h3
    · rw [hp]
      simp only [Out.ok_bind]
      rw [readAll_eq]
      simp only [Out.ok_bind]
      have hr0 : QIS.readSeq seq 0 = .ok (seq.getD 0 0) := readSeq_ok (d := 0) (by simp at hs; omega)
      rw [hr0]
      simp only [Out.ok_bind]
      rw [allIdx_one, List.map_map]
      have e : (List.range m).map ((fun w => a (w ++ [(i : Int)])) ∘ fun i : Nat => [(i : Int)]) =
          (List.range m).map (fun j : Nat => (fun w => a (w ++ [(i : Int)])) [(j : Int)]) := rfl
      rw [e]
      rcases pick_cases fp (numFl fp) ((List.range m).map (fun j : Nat => (fun w => a (w ++ [(i : Int)])) [(j : Int)]))
        (variate fp (seq.getD 0 0)) with h | ⟨i', h, hl'⟩
      · left; rw [h]
        refine ⟨rfl, ?_⟩
        rintro ⟨v, hv⟩
        obtain ⟨i2, v', -, -, h3, h4⟩ := drawn_inv hv rfl (by simp)
        rw [show ([m] : List Nat).length = 1 from rfl, hpk] at h3
        injection h3 with h3
        subst h3
        obtain ⟨i3, -, -, h5⟩ := drawn_one h4 rfl
        rw [h] at h5
        cases h5
      · right
        have him : i' < m := by simpa using hl'
        refine ⟨[(i' : Int)] ++ [(i : Int)], .snoc [m] n a i [(i' : Int)] (by simp) hin hpk (.one m _ i' him h), ?_⟩
        rw [h]
        simp only [Out.ok_bind]
        rw [writeIndex_ok (by simp at hi ⊢; omega)]
        match idx, hi with
        | x :: y :: idx, _ => simp
  | succ k ih =>
    intro t a idx hg hl hs hi
    obtain ⟨t', n, rfl⟩ : ∃ t' n, t = t' ++ [n] := by
      rcases List.eq_nil_or_concat t with rfl | ⟨t', n, h⟩
      · simp at hl
      · exact ⟨t', n, by simpa using h⟩
    simp only [List.length_append, List.length_cons, List.length_nil] at hl hs hi
    have ht : t' ≠ [] := by rintro rfl; simp at hl
    have hg' : GoodShape t' := ⟨ht, fun m hm => hg.2 m (by simp [hm])⟩
    have hk : t'.length = k + 2 := by omega
    have hp := pickSlice_cases (fp := fp) hg ht a (seq := seq) (by omega) (idx := idx) (by omega)
    rw [hk] at hp
    unfold getIndex
    rcases hp with ⟨hp, hpk⟩ | ⟨i, hin, hpk, hp⟩
    · left; rw [hp]
      refine ⟨rfl, ?_⟩
      rintro ⟨v, hv⟩
      obtain ⟨i, v', -, -, h3, -⟩ := drawn_inv hv rfl ht
      rw [hk, hpk] at h3
      cases h3
    · rw [hp]
      simp only [Out.ok_bind]
      rcases ih t' (fun w => a (w ++ [(i : Int)])) (idx.set (k + 2) i) hg' hk (by omega) (by simp; omega) with ⟨h, hno⟩ | ⟨v, hv, h⟩
      · left
        refine ⟨h, ?_⟩
        rintro ⟨v, hv⟩
        obtain ⟨i2, v', -, -, h3, h4⟩ := drawn_inv hv rfl ht
        rw [hk, hpk] at h3
        injection h3 with h3
        subst h3
        exact hno ⟨v', h4⟩
      · right
        refine ⟨v ++ [(i : Int)], .snoc t' n a i v ht hin (by rw [hk]; exact hpk) hv, ?_⟩
        rw [h, hk, set_drop (by omega)]
        simp [hk]

/-! ### What is picked has positive weight -/

/-- arithmetic in which sums of non-negative numbers behave: zero is representable, rounding keeps signs, and adding
zero to the result of a rounding changes nothing -/
structure SignOK (fp : FP) : Prop where
  zero : fp.rnd 0 = .fin 0
  nonneg : RndNonneg fp
  idem : ∀ q r, fp.rnd q = .fin r → fp.rnd r = .fin r

/-- the value of a running sum: what adding zero does not change -/
def Stable (fp : FP) (x : Fl) : Prop := fp.add x (.fin 0) = x

theorem stable_add (h : SignOK fp) (x y : Fl) : Stable fp (fp.add x y) := by
  have key : ∀ q, Stable fp (fp.rnd q) := by
    intro q
    unfold Stable
    cases hq : fp.rnd q with
    | fin r =>
      show fp.rnd (r + 0) = _
      rw [add_zero]; exact h.idem q r hq
    | pinf => rfl
    | ninf => rfl
    | nan => rfl
  cases x <;> cases y <;> first | exact key _ | rfl

theorem foldl_stable (h : SignOK fp) : ∀ (l : List Fl) (x : Fl), Stable fp x → Stable fp (l.foldl fp.add x)
  | [], _, hx => hx
  | y :: l, x, _ => foldl_stable h l _ (stable_add h x y)

theorem foldl_nn (h : SignOK fp) : ∀ (l : List Fl) (x : Fl), NonNegNan x → (∀ y ∈ l, NonNegNan y) → NonNegNan (l.foldl fp.add x)
  | [], _, hx, _ => hx
  | y :: l, x, hx, hl => foldl_nn h l _ (add_nonNeg h.nonneg hx (hl y (by simp))) (fun z hz => hl z (by simp [hz]))

theorem foldl_take_succ (l : List Fl) (i : Nat) (x y : Fl) (h : l[i]? = some y) :
    (l.take (i + 1)).foldl fp.add x = fp.add ((l.take i).foldl fp.add x) y := by
  rw [List.take_add_one, h]
  simp

theorem stable_zero (h : SignOK fp) : Stable fp (.fin 0) := by
  show fp.rnd (0 + 0) = _
  rw [add_zero]; exact h.zero

theorem lt_nan (x : Fl) : FP.lt x .nan = false := by cases x <;> rfl

/-- A picked state has a weight that is neither zero nor NaN. -/
theorem pick_ne (h : SignOK fp) {w : List Fl} {r : Fl} {i : Nat} (hw : ∀ x ∈ w, NonNegNan x) (hr : NonNegNan r)
    (hp : pick fp (numFl fp) w r = .ok i) : ∃ x, w[i]? = some x ∧ x ≠ .fin 0 ∧ x ≠ .nan := by
  unfold pick at hp
  have hp' := hp
  rw [← Nat.zero_add i] at hp'
  obtain ⟨x, hx, h1, h2⟩ := pickLoop_spec (numFl fp) _ w (numFl fp).zero 0 i hp'
  have e0 : (numFl fp).zero = .fin 0 := rfl
  have eadd : (numFl fp).add = fp.add := rfl
  have etf : ∀ x, (numFl fp).toFl x = x := fun _ => rfl
  have etot : w.foldl (fun acc x => fp.add acc ((numFl fp).toFl x)) (.fin 0) = w.foldl fp.add (.fin 0) := rfl
  rw [e0, eadd, etf, etot] at h1
  refine ⟨x, hx, ?_, ?_⟩
  · rintro rfl
    cases i with
    | zero =>
      simp only [List.take_zero, List.foldl_nil] at h1
      rw [stable_zero h] at h1
      have hm : NonNegNan (fp.mul r (w.foldl fp.add (.fin 0))) :=
        mul_nonNeg h.nonneg hr (foldl_nn h w _ (Or.inr rfl) hw)
      rw [nonNegNan_cases] at hm
      rcases hm with hm | hm | ⟨q, hq, hm⟩ <;> rw [hm] at h1 <;> simp [FP.lt] at h1
      linarith
    | succ i =>
      obtain ⟨y, hy, h3⟩ := h2 i (by omega)
      rw [e0, eadd, etf, etot] at h3
      rw [foldl_take_succ w i _ y hy] at h1
      rw [stable_add h] at h1
      rw [h1] at h3; simp at h3
  · rintro rfl
    have : fp.add ((w.take i).foldl fp.add (.fin 0)) .nan = .nan := by
      cases (w.take i).foldl fp.add (.fin 0) <;> rfl
    rw [this, lt_nan] at h1
    simp at h1

theorem variate_nonNeg (h : SignOK fp) (u : U32) : NonNegNan (variate fp u) := by
  refine mul_nonNeg h.nonneg (h.nonneg _ (by positivity)) (div_nonNeg h.nonneg ?_ (h.nonneg _ (by positivity)))
  exact Or.inr (by simp [FP.le])

/-- The drawn cell is neither zero nor NaN. -/
theorem drawn_ne (h : SignOK fp) {seq : List U32} {t : List Nat} {a : List Int → Fl} {v : List Int}
    (hd : Drawn fp seq t a v) : (∀ w, InRange t w → NonNegNan (a w)) → a v ≠ .fin 0 ∧ a v ≠ .nan := by
  induction hd with
  | one n a i hi hp =>
    intro hn
    obtain ⟨x, hx, h1, h2⟩ := pick_ne h (by
      intro x hx
      obtain ⟨j, hj, rfl⟩ := List.mem_map.mp hx
      exact hn _ (.cons ⟨by positivity, by exact_mod_cast List.mem_range.mp hj⟩ .nil)) (variate_nonNeg h _) hp
    rw [List.getElem?_map, List.getElem?_range hi] at hx
    injection hx with hx
    subst hx
    exact ⟨h1, h2⟩
  | snoc t n a i v ht hi hp hd ih =>
    intro hn
    exact ih (fun w hw => hn _ (inRange_snoc hw (by positivity) (by exact_mod_cast hi)))

theorem signOK_exact : SignOK FP.exact := by
  refine ⟨rfl, exact_nonneg, ?_⟩
  intro q r h
  rfl

theorem signOK_ieee (sqrt : Fl → Fl) : SignOK (FP.ieee sqrt) :=
  ⟨ieee_zero sqrt, ieee_nonneg sqrt, (FP.ieee_good sqrt).idem⟩

/-! ### Exact arithmetic -/

theorem pick_exact_pos {w : List ℚ} (hn : ∀ x ∈ w, 0 ≤ x) (hs : 0 < w.sum) (u : U32) :
    ∃ i, pick FP.exact (numFl FP.exact) (w.map Fl.fin) (variate FP.exact u) = .ok i ∧ i < w.length ∧ 0 < w.getD i 0 := by
  unfold pick
  have ht : (w.map Fl.fin).foldl FP.exact.add (.fin 0) = .fin w.sum := by
    have := foldl_exact Fl.fin id w (fun _ _ => rfl) 0
    rw [zero_add, List.map_id] at this
    rw [List.foldl_map]; exact this
  have e : (w.map Fl.fin).foldl (fun acc x => FP.exact.add acc ((numFl FP.exact).toFl x)) (.fin 0) = .fin w.sum := ht
  rw [e, variate_eq FP.exact_good]
  have hu : ((u.toNat : ℚ)) < 2 ^ 32 := by
    have := u.isLt
    exact_mod_cast this
  have := pickLoop_fl FP.exact_good (q := (u.toNat : ℚ) / 2 ^ 32 * w.sum) w 0 0 hn rfl ht (by positivity) (by
    have : (u.toNat : ℚ) / 2 ^ 32 < 1 := by rw [div_lt_one (by positivity)]; exact hu
    nlinarith)
  simp only [Nat.zero_add] at this
  exact this

theorem exists_drawn {seq : List U32} : ∀ (k : Nat) (t : List Nat) (b : List Int → ℚ) (a : List Int → Fl),
    t.length = k + 1 → Agree t a b → (∀ v, InRange t v → 0 ≤ b v) → 0 < ∑ v ∈ cells t, b v →
    ∃ v, Drawn FP.exact seq t a v ∧ 0 < b v := by
  intro k
  induction k with
  | zero =>
    intro t b a hl hab hb hs
    match t, hl with
    | [n], _ =>
      have hs' : ((List.range n).map (fun j : Nat => b [(j : Int)])).sum = ∑ v ∈ cells [n], b v := by
        rw [← sum_allIdx, allIdx_one, List.map_map]; rfl
      obtain ⟨i, h1, h2, h3⟩ := pick_exact_pos (w := (List.range n).map (fun j : Nat => b [(j : Int)])) (by
        intro x hx
        obtain ⟨j, hj, rfl⟩ := List.mem_map.mp hx
        exact hb _ (.cons ⟨by positivity, by exact_mod_cast List.mem_range.mp hj⟩ .nil)) (by rw [hs']; exact hs) (seq.getD 0 0)
      have hi : i < n := by simpa using h2
      refine ⟨[(i : Int)], .one n a i hi ?_, ?_⟩
      · rw [← h1, List.map_map]
        congr 1
        apply List.map_congr_left
        intro j hj
        exact hab _ (.cons ⟨by positivity, by exact_mod_cast List.mem_range.mp hj⟩ .nil)
      · rw [List.getD_eq_getElem?_getD, List.getElem?_map, List.getElem?_range hi] at h3
        exact h3
  | succ k ih =>
    intro T b a hl hab hb hs
    obtain ⟨t, n, rfl⟩ : ∃ t n, T = t ++ [n] := by
      rcases List.eq_nil_or_concat T with rfl | ⟨t', n, h⟩
      · simp at hl
      · exact ⟨t', n, by simpa using h⟩
    have hl' : t.length = k + 1 := by simpa using hl
    have ht : t ≠ [] := by rintro rfl; simp at hl'
    let w : List ℚ := (List.range n).map (fun j : Nat => ∑ v ∈ cells t, b (v ++ [(j : Int)]))
    have hr : ∀ j < n, ∀ v, InRange t v → InRange (t ++ [n]) (v ++ [(j : Int)]) := fun j hj v hv =>
      inRange_snoc hv (by positivity) (by exact_mod_cast hj)
    have hsum : w.sum = ∑ v ∈ cells (t ++ [n]), b v := by
      rw [sum_snoc, ← List.toFinset_range, List.sum_toFinset _ List.nodup_range]
    obtain ⟨i, h1, h2, h3⟩ := pick_exact_pos (w := w) (by
      intro x hx
      obtain ⟨j, hj, rfl⟩ := List.mem_map.mp hx
      exact Finset.sum_nonneg (fun v hv => hb _ (hr j (List.mem_range.mp hj) v (mem_cells.mp hv)))) (by rw [hsum]; exact hs)
      (seq.getD t.length 0)
    have hi : i < n := by simpa [w] using h2
    have hw : lastSumsF FP.exact t n a = w.map Fl.fin := by
      simp only [lastSumsF, w, List.map_map]
      apply List.map_congr_left
      intro j hj
      have := foldl_exact (fun v => a (v ++ [(j : Int)])) (fun v => b (v ++ [(j : Int)])) (allIdx t)
        (fun v hv => hab _ (hr j (List.mem_range.mp hj) v (mem_allIdx.mp hv))) 0
      rw [zero_add, sum_allIdx] at this
      exact this
    obtain ⟨v, hv, hp⟩ := ih t (fun v => b (v ++ [(i : Int)])) (fun v => a (v ++ [(i : Int)])) hl'
      (fun v hv => hab _ (hr i hi v hv)) (fun v hv => hb _ (hr i hi v hv)) (by
        simp only [w, List.getD_eq_getElem?_getD, List.getElem?_map, List.getElem?_range hi] at h3
        exact h3)
    exact ⟨v ++ [(i : Int)], .snoc t n a i v ht hi (by rw [hw]; exact h1) hv, hp⟩

end HL

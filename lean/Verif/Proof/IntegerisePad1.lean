import Verif.Proof.LargestRound
import Verif.Proof.IntegerisePad

/-
Zeros among the entries of a vector and the computed shares.
-/

namespace HL
namespace Integerise
variable {em : Nat → Nat}

theorem padList_fin {xs xs' : List ℚ} (h : PadList em xs xs') : Places (fun _ => em) [xs.length] [xs'.length] := by
  refine ⟨rfl, ?_, ?_⟩
  · intro d hd i j hij hj
    obtain rfl : d = 0 := by simpa using hd
    exact h.mono i j hij (by simpa using hj)
  · intro d hd i hi
    obtain rfl : d = 0 := by simpa using hd
    simpa using h.bound i (by simpa using hi)

/-- the entries of the list `xs` by index -/
def cellAt (xs : List ℚ) (j : List Int) : Fl := .fin (xs.getD (j.getD 0 0).toNat 0)

theorem seqSum_list {fp : FP} (xs : List ℚ) : seqSum (numFl fp) [xs.length] (cellAt xs) = sumVec (numFl fp) (xs.map Fl.fin) := by
  unfold seqSum sumVec
  rw [allIdx_one, List.foldl_map, List.foldl_map]
  conv_rhs => rw [show xs = (List.range xs.length).map (fun i => xs.getD i 0) from List.ext_getElem (by simp) (by
    intro i h1 h2
    simp [List.getElem?_eq_getElem h1])]
  rw [List.foldl_map]
  rfl

theorem padOf_list {xs xs' : List ℚ} (h : PadList em xs xs') :
    PadOf (fun _ => em) [xs.length] [xs'.length] (List.range 1) (cellAt xs) (cellAt xs') := by
  constructor
  · intro j hj
    obtain ⟨i, hi, rfl⟩ := (inRange_one (n := xs.length)).mp hj
    show Fl.fin (xs'.getD (em i) 0) = .fin (xs.getD i 0)
    rw [h.at i hi]
  · intro j hj hno
    obtain ⟨i, hi, rfl⟩ := (inRange_one (n := xs'.length)).mp hj
    show Fl.fin (xs'.getD i 0) = .fin 0
    rw [h.zero i hi ?_]
    intro k hk hki
    refine hno [(k : Int)] ((inRange_one (n := xs.length)).mpr ⟨k, hk, rfl⟩) ?_
    subst hki
    rfl

theorem sumVec_pad {fp : FP} (hfp : fp.Good) {xs xs' : List ℚ} (h : PadList em xs xs') :
    sumVec (numFl fp) (xs'.map Fl.fin) = sumVec (numFl fp) (xs.map Fl.fin) := by
  rw [← seqSum_list, ← seqSum_list]
  exact seqSum_pad (padNum_fl hfp) (padList_fin h) (ds := List.range 1) (by simp) (padOf_list h)

theorem computed_pad {fp : FP} (hfp : fp.Good) {xs xs' ys ys' : List ℚ} {pop : Int} (h : PadList em xs xs')
    (hS' : ∃ S : ℚ, 0 < S ∧ sumVec (numFl fp) (xs.map Fl.fin) = .fin S) {P : ℚ} (hP : fp.ofInt pop = .fin P)
    (hy : Computed fp xs pop ys) (hy' : Computed fp xs' pop ys') : PadList em ys ys' := by
  have l := computed_length hy
  have l' := computed_length hy'
  have hsum := sumVec_pad hfp h
  refine ⟨by rw [l]; exact h.mono, by rw [l, l']; exact h.bound, ?_, ?_⟩
  · intro i hi
    rw [l] at hi
    have e1 := computed_at hy hi
    have e2 := computed_at hy' (h.bound i hi)
    rw [hsum, h.at i hi, e1] at e2
    injection e2 with e2
    exact e2.symm
  · intro j hj hno
    rw [l'] at hj
    rw [l] at hno
    have e2 := computed_at hy' hj
    obtain ⟨S, hS0, hS1⟩ := hS'
    rw [hsum, h.zero j hj hno, hS1, hP] at e2
    have : fp.div (.fin 0) (.fin S) = .fin 0 := by
      show (if S = 0 then FP.infOfSign 0 else fp.rnd (0 / S)) = _
      rw [if_neg hS0.ne', zero_div, rnd_zero hfp]
    rw [this] at e2
    have e3 : fp.mul (.fin 0) (.fin P) = .fin 0 := by
      show fp.rnd (0 * P) = _
      rw [zero_mul, rnd_zero hfp]
    rw [e3] at e2
    injection e2 with e2
    exact e2.symm

theorem padList_all {xs xs' : List ℚ} (h : PadList em xs xs') {Q : ℚ → Prop} (h0 : Q 0) (hx : ∀ x ∈ xs, Q x) : ∀ x ∈ xs', Q x := by
  intro x hxm
  obtain ⟨j, hj, rfl⟩ := List.mem_iff_getElem.mp hxm
  rw [← List.getD_eq_getElem _ 0 hj]
  by_cases hi : ∃ i, i < xs.length ∧ em i = j
  · obtain ⟨i, hi, rfl⟩ := hi
    rw [h.at i hi, List.getD_eq_getElem _ 0 hi]
    exact hx _ (List.getElem_mem hi)
  · push Not at hi
    rw [h.zero j hj hi]
    exact h0

theorem padList_nonneg {xs xs' : List ℚ} (h : PadList em xs xs') (hx : ∀ x ∈ xs, 0 ≤ x) : ∀ x ∈ xs', 0 ≤ x := padList_all h le_rfl hx

theorem padList_map {xs xs' : List ℚ} (h : PadList em xs xs') {g : ℚ → ℚ} (hg : g 0 = 0) : PadList em (xs.map g) (xs'.map g) := by
  have hm : ∀ (l : List ℚ) (i : Nat), (l.map g).getD i 0 = g (l.getD i 0) := by
    intro l i
    simp only [List.getD_eq_getElem?_getD, List.getElem?_map]
    cases l[i]? <;> simp [hg]
  refine ⟨by simpa using h.mono, by simpa using h.bound, ?_, ?_⟩
  · intro i hi
    rw [hm, hm, h.at i (by simpa using hi)]
  · intro j hj hno
    rw [hm, h.zero j (by simpa using hj) (by simpa using hno), hg]

theorem sharesOf_pad {xs xs' : List ℚ} {pop : Int} (h : PadList em xs xs') : PadList em (sharesOf xs pop) (sharesOf xs' pop) := by
  unfold sharesOf
  rw [sum_padList h]
  exact padList_map h (by simp)

theorem padList_le {xs xs' : List ℚ} (h : PadList em xs xs') : ∀ i, i < xs.length → i ≤ em i := by
  intro i
  induction i with
  | zero => intro _; exact Nat.zero_le _
  | succ i ih =>
    intro hi
    have := h.mono i (i + 1) (by omega) hi
    have := ih (by omega)
    omega

theorem padList_length {xs xs' : List ℚ} (h : PadList em xs xs') : xs.length ≤ xs'.length := by
  by_cases h0 : xs.length = 0
  · omega
  · have h1 := padList_le h (xs.length - 1) (by omega)
    have h2 := h.bound (xs.length - 1) (by omega)
    omega

theorem oneD_pad {fp : FP} (h : fp.Good) (hfine : Fine fp) {xs xs' : List ℚ} (hpad : PadList em xs xs') {pop : Int} (h0 : 0 ≤ pop) (h1 : pop < 2 ^ 31)
    (hn : (pop + 2) * (xs'.length + 3) ≤ 2 ^ 51) (hr : ∀ x ∈ xs, fp.rnd x = .fin x)
    (hx : ∀ x ∈ xs, x = 0 ∨ tinyQ ≤ x) (hs0 : 0 < xs.sum) (hs1 : xs.sum ≤ hugeQ) :
    ∃ f f' E E', oneD fp (xs.map Fl.fin) pop = .ok (f, E) ∧ oneD fp (xs'.map Fl.fin) pop = .ok (f', E') ∧ PadList em f f' := by
  have hle := padList_length hpad
  have hn2 : (pop + 2) * (xs.length + 3) ≤ 2 ^ 51 := by
    refine le_trans ?_ hn
    exact mul_le_mul_of_nonneg_left (by omega) (by omega)
  obtain ⟨ys, E, c, hs, a⟩ := oneD_largest h hfine h0 h1 hn2 hr hx hs0 hs1
  obtain ⟨ys', E', c', -, a'⟩ := oneD_largest h hfine h0 h1 hn (padList_all hpad (rnd_zero h) hr) (padList_all hpad (.inl rfl) hx)
    (by rw [sum_padList hpad]; exact hs0) (by rw [sum_padList hpad]; exact hs1)
  have hlen : (xs.length : ℚ) * eps ≤ 1 / 4 := by
    have hnq : ((pop : ℚ) + 2) * (xs.length + 3) ≤ 2 ^ 51 := by exact_mod_cast hn2
    have hpq : (0 : ℚ) ≤ pop := by exact_mod_cast h0
    have e0 : (0 : ℚ) ≤ xs.length := by positivity
    have e1 : (xs.length : ℚ) ≤ 2 ^ 51 := by nlinarith
    have : (xs.length : ℚ) * eps ≤ 2 ^ 51 * eps := mul_le_mul_of_nonneg_right (by linarith) eps_pos.le
    refine this.trans ?_
    unfold eps; norm_num
  obtain ⟨S, hS, hSpos, -⟩ := sum_close h hlen hr hx hs0 hs1
  have hP : fp.ofInt pop = .fin (pop : ℚ) := rnd_int h (by rw [abs_of_nonneg h0]; linarith)
  refine ⟨_, _, E, E', a, a', largest_pad ?_ (computed_pad h hpad ⟨S, hSpos, hS⟩ hP c c')⟩
  have := (abs_lt.mp hs).1
  linarith

end Integerise
end HL

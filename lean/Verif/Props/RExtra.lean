import Verif.Model.RExtra
import Verif.RSpec
import Verif.Proof.RLemmas
import Verif.Props.Sobol
import Verif.Props.Arrays

/-
C67, C68: the R functions `sobolSequence` and `flatten`.
-/

namespace HL

/-! ### C67 -/

/-- How many points are discarded for the argument `skip` (documented: the largest power of two smaller than `skip`; there is none
smaller than 1, and then one point is discarded). -/
def Skipped (skip k : Nat) : Prop :=
  (skip = 0 ∧ k = 0) ∨ (skip = 1 ∧ k = 1) ∨ (2 ≤ skip ∧ IsGreatest {k | (∃ e, k = 2 ^ e) ∧ k < skip} k)

theorem sobolScale_eq {fp : FP} (hfp : fp.Good) : R.sobolScale fp = .fin ((1 : ℚ) / 2 ^ 32) := by
  unfold R.sobolScale FP.ofInt
  have e1 := hfp.dyadic (2 ^ 31) 0 (by norm_num) (by omega)
  simp only [pow_zero, div_one] at e1
  rw [e1]
  unfold FP.div
  simp only
  rw [if_neg (by norm_num)]
  have e2 := hfp.dyadic 1 32 (by norm_num) (by omega)
  have : (1 / 2 : ℚ) / ((2 ^ 31 : ℤ) : ℚ) = ((1 : ℤ) : ℚ) / 2 ^ 32 := by norm_num
  rw [this, e2]
  norm_num

theorem sobolVal_eq {fp : FP} (hfp : fp.Good) (v : U32) :
    fp.mul (fp.ofInt v.toNat) (R.sobolScale fp) = .fin ((v.toNat : ℚ) / 2 ^ 32) := by
  have hv := v.isLt
  have e3 : fp.ofInt (v.toNat : ℤ) = .fin (v.toNat : ℚ) := by
    unfold FP.ofInt
    have := hfp.dyadic (v.toNat : ℤ) 0 (by rw [abs_of_nonneg (by omega)]; norm_cast; omega) (by omega)
    simpa using this
  rw [e3, sobolScale_eq hfp]
  unfold FP.mul
  simp only
  have := hfp.dyadic (v.toNat : ℤ) 32 (by rw [abs_of_nonneg (by omega)]; norm_cast; omega) (by omega)
  rw [mul_one_div]
  simpa using this

theorem sobolRow_mid {fp : FP} (hfp : fp.Good) {dim n : Nat} : ∀ (k : Nat) (x : Sobol), SobolAt dim n x → x.pos + k = dim →
    R.sobolRow fp k x = .ok ({ x with pos := dim }, (x.buf.drop x.pos).map (fun v => .fin ((v.toNat : ℚ) / 2 ^ 32)))
  | 0, x, h, hk => by
    unfold R.sobolRow
    have e : x.pos = dim := by omega
    rw [List.drop_eq_nil_of_le (by rw [h.buf]; omega), ← e]
    rfl
  | k + 1, x, h, hk => by
    obtain ⟨v, h1, h2, h3⟩ := call_mid h (by rw [h.dimEq]; omega)
    unfold R.sobolRow
    rw [h1]
    simp only [Out.ok_bind]
    rw [sobolRow_mid hfp k _ h3 (by simp; omega)]
    simp only [Out.ok_bind, Out.pure_eq, sobolVal_eq hfp]
    have hlt : x.pos < x.buf.length := by rw [h.buf]; omega
    rw [List.getElem?_eq_getElem hlt] at h2
    injection h2 with h2
    rw [List.drop_eq_getElem_cons hlt, List.map_cons, h2]

theorem sobolRow_ok {fp : FP} (hfp : fp.Good) {dim n : Nat} {x : Sobol} (h : SobolAt dim n x) (hp : x.pos = dim)
    (hn : n < 2 ^ 32 - 1) :
    ∃ x' p, R.sobolRow fp dim x = .ok (x', p.map (fun v : U32 => .fin ((v.toNat : ℚ) / 2 ^ 32))) ∧ SobolAt dim (n + 1) x' ∧
      x'.pos = dim ∧ PointAt dim (n + 1) p := by
  obtain ⟨x1, p, v, h1, h2, h3, h4, h5, h6⟩ := call_new h hn (by rw [h.dimEq]; exact hp)
  obtain ⟨d, rfl⟩ : ∃ d, dim = d + 1 := ⟨dim - 1, by have := h.dim1; omega⟩
  refine ⟨{ x1 with pos := d + 1 }, p, ?_, ⟨h2.data, h2.dimEq, h2.buf, le_rfl, h2.bound, h2.dim1⟩, rfl, h3⟩
  unfold R.sobolRow
  rw [h1]
  simp only [Out.ok_bind]
  rw [sobolRow_mid hfp d _ h2 (by omega)]
  simp only [Out.ok_bind, Out.pure_eq, sobolVal_eq hfp]
  rw [h4, h5]
  cases p with
  | nil => simp at h6
  | cons a t =>
    simp only [List.getElem?_cons_zero, Option.some.injEq] at h6
    rw [h6]
    rfl

theorem sobolRows_ok {fp : FP} (hfp : fp.Good) {dim : Nat} : ∀ (k n : Nat) (x : Sobol), SobolAt dim n x → x.pos = dim →
    n + k ≤ 2 ^ 32 - 1 →
    ∃ rows, R.sobolRows fp dim k x = .ok rows ∧ rows.length = k ∧
      ∀ j < k, ∃ p, PointAt dim (n + j + 1) p ∧ rows[j]? = some (p.map (fun v : U32 => .fin ((v.toNat : ℚ) / 2 ^ 32)))
  | 0, n, x, _, _, _ => ⟨[], rfl, rfl, fun j hj => absurd hj (by omega)⟩
  | k + 1, n, x, h, hp, hn => by
    obtain ⟨x', p, h1, h2, h3, h4⟩ := sobolRow_ok hfp h hp (by omega)
    obtain ⟨rows, h5, h6, h7⟩ := sobolRows_ok hfp k (n + 1) x' h2 h3 (by omega)
    unfold R.sobolRows
    rw [h1]
    simp only [Out.ok_bind]
    rw [h5]
    refine ⟨_, rfl, by simp [h6], ?_⟩
    intro j hj
    cases j with
    | zero => exact ⟨p, h4, rfl⟩
    | succ j =>
      obtain ⟨q, h8, h9⟩ := h7 j (by omega)
      refine ⟨q, ?_, ?_⟩
      · have : n + (j + 1) + 1 = n + 1 + j + 1 := by omega
        rw [this]; exact h8
      · rw [List.getElem?_cons_succ]; exact h9

theorem new_skipped {dim n k : Nat} (h1 : 1 ≤ dim) (h2 : dim ≤ 1111) (hn : n ≤ 2 ^ 31) (hk : Skipped n k) :
    ∃ x, Sobol.new dim n = .ok x ∧ SobolAt dim k x ∧ x.pos = dim := by
  obtain ⟨x, hx, ha, hp⟩ := new_ok h1 h2
  have key : ∀ c, 0 < n → skipCount n = .ok c → c ≤ 2 ^ 31 → ∃ x, Sobol.new dim n = .ok x ∧ SobolAt dim c x ∧ x.pos = dim := by
    intro c h0 hc hle
    obtain ⟨x', h3, h4, h5⟩ := skip_ok ha hc
    rw [new_skip h0, hx]
    refine ⟨x', h3, ?_, by rw [h5, hp]⟩
    rw [Nat.zero_add, min_eq_left (by omega)] at h4
    exact h4
  rcases hk with ⟨rfl, rfl⟩ | ⟨rfl, rfl⟩ | ⟨h3, h4⟩
  · exact ⟨x, hx, ha, hp⟩
  · exact key 1 (by omega) (skipCount_small (by omega)) (by omega)
  · obtain ⟨f, h5, h6, h7⟩ := skipCount_ok h3 hn
    have : IsGreatest {k | (∃ e, k = 2 ^ e) ∧ k < n} (2 ^ f) := by
      refine ⟨⟨⟨f, rfl⟩, h6⟩, ?_⟩
      rintro k ⟨⟨e, rfl⟩, hk⟩
      have : 2 ^ e < 2 ^ (f + 1) := by rw [Nat.pow_succ]; omega
      exact Nat.pow_le_pow_right (by omega) (by have := (Nat.pow_lt_pow_iff_right (a := 2) (by omega)).mp this; omega)
    rw [h4.unique this]
    exact key _ (by omega) h5 (by omega)

/-- **C67.**  For every supported dimension, number of rows and skip that is not negative (all `int`s), `sobolSequence` returns a
matrix with `n` rows: row `j` (counting from 0) is exactly point number `k + j + 1` of the Sobol sequence of that dimension, divided
by 2^32, where `k` is the number of points the argument `skip` discards.  It is never exhausted. -/
theorem C67_sobolSequence (fp : FP) (hfp : fp.Good) {dim n skip : Int} (h1 : 1 ≤ dim) (h2 : dim ≤ 1111) (hn0 : 0 ≤ n)
    (hn : n < 2 ^ 31) (hs0 : 0 ≤ skip) (hs : skip < 2 ^ 31) :
    ∃ k rows, Skipped skip.toNat k ∧ R.sobolSequence fp dim n skip = .ok rows ∧ (rows.length : Int) = n ∧
      ∀ j < rows.length, ∃ p, PointAt dim.toNat (k + j + 1) p ∧
        rows[j]? = some (p.map (fun v : U32 => .fin ((v.toNat : ℚ) / 2 ^ 32))) ∧
        ∀ v ∈ p, 0 < v.toNat ∧ v.toNat < 2 ^ 32 := by
  obtain ⟨k, hk, hkb⟩ : ∃ k, Skipped skip.toNat k ∧ k < 2 ^ 31 := by
    by_cases c0 : skip.toNat = 0
    · exact ⟨0, Or.inl ⟨c0, rfl⟩, by omega⟩
    · by_cases c1 : skip.toNat = 1
      · exact ⟨1, Or.inr (Or.inl ⟨c1, rfl⟩), by omega⟩
      · obtain ⟨k, h, -⟩ := C14_skip_partial (dim := 1) (n := skip.toNat) (by omega) (by omega)
        refine ⟨k, Or.inr (Or.inr ⟨by omega, h⟩), ?_⟩
        have := h.1.2
        omega
  obtain ⟨x, hx, ha, hp⟩ := new_skipped (dim := dim.toNat) (n := skip.toNat) (by omega) (by omega) (by omega) hk
  obtain ⟨rows, h3, h4, h5⟩ := sobolRows_ok hfp n.toNat k x ha hp (by omega)
  refine ⟨k, rows, hk, ?_, by omega, ?_⟩
  · unfold R.sobolSequence
    rw [if_neg (by omega), Int.emod_eq_of_lt hs0 (by omega), hx]
    exact h3
  · intro j hj
    obtain ⟨p, h6, h7⟩ := h5 j (by omega)
    refine ⟨p, h6, h7, ?_⟩
    intro v hv
    obtain ⟨i, hi, rfl⟩ := List.mem_iff_getElem.mp hv
    obtain ⟨q, hq⟩ := C09_point_exists (dim := dim.toNat) (n := k + j + 1) (by omega) (by omega) (by omega) (by omega)
    have : p = q := pointAt_unique (by omega) h6 (isPoint_at hq).1
    subst this
    have := C10_open_interval hq (i := i) (by have := h6.1; omega)
    simpa [List.getD_eq_getElem?_getD, hi] using this

/-- **C67.**  Any other dimension, and a negative number of rows, is refused. -/
theorem C67_refuses (fp : FP) {dim n skip : Int} (hd : dim < 2 ^ 31) (h : n < 0 ∨ dim < 1 ∨ 1111 < dim) :
    ∃ e, R.sobolSequence fp dim n skip = .thrown e := by
  unfold R.sobolSequence
  by_cases h1 : n < 0 ∨ dim < 0
  · rw [if_pos h1]; exact ⟨_, rfl⟩
  · rw [if_neg h1]
    unfold Sobol.new
    rw [if_neg (by omega), if_pos (by omega)]
    exact ⟨_, rfl⟩

/-- **C67 is false for negative skips**: every negative `skip` except -2^31 (R's integer NA) is a huge `uint32_t`, and the call
never returns. -/
theorem C67_negative_skip_never_returns (fp : FP) {dim n skip : Int} (h1 : 1 ≤ dim) (h2 : dim ≤ 1111) (hn0 : 0 ≤ n)
    (hs0 : skip < 0) (hs : -2 ^ 31 < skip) : R.sobolSequence fp dim n skip = .diverges := by
  unfold R.sobolSequence
  rw [if_neg (by omega), C15_skip_diverges (by omega) (by omega) (by omega)]
  rfl

/-- The hypotheses are met: the example of the documentation, 1000 points in two dimensions, discards 512 points; its first row is
point 513. -/
example : Skipped 1000 512 ∧ ∃ p, PointAt 2 513 p := by
  refine ⟨Or.inr (Or.inr ⟨by omega, ⟨⟨9, rfl⟩, by omega⟩, ?_⟩), ?_⟩
  · rintro k ⟨⟨e, rfl⟩, hk⟩
    have : 2 ^ e < 2 ^ 10 := by omega
    have := (Nat.pow_lt_pow_iff_right (a := 2) (by omega)).mp this
    exact (Nat.pow_le_pow_right (n := 2) (by omega) (show e ≤ 9 by omega)).trans (by norm_num)
  · obtain ⟨p, hp⟩ := C09_point_exists (dim := 2) (n := 513) (by omega) (by omega) (by omega) (by omega)
    exact ⟨p, (isPoint_at hp).1⟩

/-! ### C68 -/

theorem nameColumns_eq (names : List String) : ∀ (cols : List (List Int)) (i : Nat) (df : List (String × List Int)),
    i + cols.length ≤ names.length → names.Nodup → (df.map Prod.fst) = names.take i →
    R.nameColumns names i cols df = .ok (df ++ (names.drop i).zip cols)
  | [], i, df, _, _, _ => by simp [R.nameColumns]
  | c :: cs, i, df, hl, hnd, hdf => by
    have hlt : i < names.length := by simp at hl; omega
    unfold R.nameColumns
    rw [List.getElem?_eq_getElem hlt]
    simp only
    have hset : ∀ (l : List (String × List Int)) (k : String) (c : List Int), k ∉ l.map Prod.fst →
        R.setColumn l k c = l ++ [(k, c)] := by
      intro l k c
      induction l with
      | nil => intro _; rfl
      | cons a t ih =>
        obtain ⟨l, b⟩ := a
        intro h
        simp only [List.map_cons, List.mem_cons, not_or] at h
        unfold R.setColumn
        rw [if_neg (fun e => h.1 e.symm), ih h.2]
        rfl
    have hnot : names[i] ∉ df.map Prod.fst := by
      rw [hdf]
      intro hm
      obtain ⟨j, hj, he⟩ := List.mem_iff_getElem.mp hm
      have hj' : j < i := by simp at hj; omega
      rw [List.getElem_take] at he
      have := (List.Nodup.getElem_inj_iff hnd).mp he
      omega
    rw [hset _ _ _ hnot]
    rw [nameColumns_eq names cs (i + 1) _ (by simp at hl; omega) hnd (by
      rw [List.map_append, hdf, List.take_add_one, List.getElem?_eq_getElem hlt]; rfl)]
    rw [List.drop_eq_getElem_cons hlt, List.append_assoc]
    rfl

theorem nameColumns_few (names : List String) : ∀ (cols : List (List Int)) (i : Nat) (df : List (String × List Int)),
    names.length < i + cols.length → i ≤ names.length → R.nameColumns names i cols df = .ub .oob
  | [], i, df, h, h' => by simp at h; omega
  | c :: cs, i, df, h, h' => by
    unfold R.nameColumns
    by_cases hlt : i < names.length
    · rw [List.getElem?_eq_getElem hlt]
      exact nameColumns_few names cs (i + 1) _ (by simp at h; omega) (by omega)
    · rw [List.getElem?_eq_none (by omega)]

theorem flatten_r_eq {r : RArray Int} {s : List Nat} {g : List Int → Int} (names : List String) (hg : GoodShape s)
    (h : r.Holds s g) (h0 : 0 ≤ ∑ v ∈ cells s, g v) (hsum : ∑ v ∈ cells s, g v < 2 ^ 61) :
    R.flatten r names = (listify (∑ v ∈ cells s, g v).toNat (arr s g) 1 >>= fun cols => R.nameColumns names 0 cols []) := by
  unfold R.flatten
  rw [R.convert_holds hg h]
  simp only [Out.ok_bind]
  rw [sumArr_eq]
  simp only [Out.ok_bind]
  have : (allIdx s).foldl (fun acc v => (numInt FP.exact).add acc (g v)) (numInt FP.exact).zero = ∑ v ∈ cells s, g v := by
    have : ∀ (l : List (List Int)) (a : Int), l.foldl (fun acc v => acc + g v) a = a + (l.map g).sum := by
      intro l
      induction l with
      | nil => intro a; simp
      | cons b t ih => intro a; rw [List.foldl_cons, ih, List.map_cons, List.sum_cons]; ring
    refine (this (allIdx s) 0).trans ?_
    rw [zero_add, sum_allIdx]
  rw [this, Int.emod_eq_of_lt h0 (by omega)]

/-- **C68.**  For every R array of non-negative counts, with a name for each dimension and no name twice, `flatten` returns a data
frame with these columns in this order, that lists every individual exactly once (see `ListsPopulation`), its categories counted
from 1. -/
theorem C68_flatten {r : RArray Int} {s : List Nat} {g : List Int → Int} {names : List String} (hg : GoodShape s)
    (h : r.Holds s g) (hnn : ∀ v, InRange s v → 0 ≤ g v) (hsum : ∑ v ∈ cells s, g v < 2 ^ 61)
    (hnames : names.length = s.length) (hnd : names.Nodup) :
    ∃ df, R.flatten r names = .ok df ∧ df.map Prod.fst = names ∧ ListsPopulation s g 1 (df.map Prod.snd) := by
  have h0 : 0 ≤ ∑ v ∈ cells s, g v := Finset.sum_nonneg (fun v hv => hnn v (mem_cells.mp hv))
  obtain ⟨cols, h1, h2⟩ := listify_lists hg g hnn hsum 1
  have hl : cols.length = s.length := by
    obtain ⟨rows, e, -⟩ := h2
    rw [e]; simp
  rw [flatten_r_eq names hg h h0 hsum, h1]
  simp only [Out.ok_bind]
  rw [nameColumns_eq names cols 0 [] (by omega) hnd rfl]
  refine ⟨_, rfl, ?_, ?_⟩
  · simp [List.map_fst_zip, hl, hnames]
  · rw [List.nil_append, List.drop_zero, List.map_snd_zip (by omega)]
    exact h2

theorem setColumn_mem : ∀ (l : List (String × List Int)) (k : String) (c : List Int), (l.map Prod.fst).Nodup →
    ((R.setColumn l k c).map Prod.fst).Nodup ∧ (∀ k', k' ∈ (R.setColumn l k c).map Prod.fst ↔ k' = k ∨ k' ∈ l.map Prod.fst) ∧
    ∀ k' c', (k', c') ∈ R.setColumn l k c ↔ (k' = k ∧ c' = c) ∨ (k' ≠ k ∧ (k', c') ∈ l)
  | [], k, c, _ => by
    refine ⟨by simp [R.setColumn], by simp [R.setColumn], ?_⟩
    simp [R.setColumn]
  | (a, b) :: t, k, c, h => by
    simp only [List.map_cons, List.nodup_cons] at h
    unfold R.setColumn
    split
    · rename_i hak
      subst hak
      refine ⟨by simpa using h, by intro k'; simp, ?_⟩
      intro k' c'
      simp only [List.mem_cons, Prod.mk.injEq]
      constructor
      · rintro (⟨rfl, rfl⟩ | h1)
        · exact .inl ⟨rfl, rfl⟩
        · right
          have : k' ≠ a := by
            rintro rfl
            exact h.1 (List.mem_map.mpr ⟨_, h1, rfl⟩)
          exact ⟨this, .inr h1⟩
      · rintro (⟨rfl, rfl⟩ | ⟨h1, ⟨rfl, rfl⟩ | h2⟩)
        · exact .inl ⟨rfl, rfl⟩
        · exact absurd rfl h1
        · exact .inr h2
    · rename_i hak
      obtain ⟨i1, i2, i3⟩ := setColumn_mem t k c h.2
      refine ⟨?_, ?_, ?_⟩
      · rw [List.map_cons, List.nodup_cons]
        refine ⟨?_, i1⟩
        rw [i2]
        rintro (h1 | h1)
        · exact hak h1
        · exact h.1 h1
      · intro k'
        rw [List.map_cons, List.mem_cons, i2, List.map_cons, List.mem_cons]
        tauto
      · intro k' c'
        rw [List.mem_cons, i3, List.mem_cons]
        simp only [Prod.mk.injEq]
        constructor
        · rintro (⟨rfl, rfl⟩ | h1 | ⟨h1, h2⟩)
          · exact .inr ⟨hak, .inl ⟨rfl, rfl⟩⟩
          · exact .inl h1
          · exact .inr ⟨h1, .inr h2⟩
        · rintro (h1 | ⟨h1, h2 | h2⟩)
          · exact .inr (.inl h1)
          · exact .inl h2
          · exact .inr (.inr ⟨h1, h2⟩)

theorem nameColumns_mem (names : List String) : ∀ (cols : List (List Int)) (i : Nat) (df : List (String × List Int)),
    i + cols.length ≤ names.length → (df.map Prod.fst).Nodup →
    ∃ df', R.nameColumns names i cols df = .ok df' ∧ (df'.map Prod.fst).Nodup ∧
      ∀ k c, (k, c) ∈ df' ↔ (∃ j, names[i + j]? = some k ∧ cols[j]? = some c ∧
          ∀ j', j < j' → j' < cols.length → names[i + j']? ≠ some k) ∨
        ((k, c) ∈ df ∧ ∀ j' < cols.length, names[i + j']? ≠ some k)
  | [], i, df, _, hnd => ⟨df, rfl, hnd, by simp⟩
  | c0 :: cs, i, df, hl, hnd => by
    have hlt : i < names.length := by simp at hl; omega
    unfold R.nameColumns
    rw [List.getElem?_eq_getElem hlt]
    simp only
    obtain ⟨h1, -, h3⟩ := setColumn_mem df names[i] c0 hnd
    obtain ⟨df', g1, g2, g3⟩ := nameColumns_mem names cs (i + 1) _ (by simp at hl; omega) h1
    refine ⟨df', g1, g2, ?_⟩
    have e0 : names[i + 0]? = some names[i] := List.getElem?_eq_getElem hlt
    have es : ∀ j, names[i + (j + 1)]? = names[i + 1 + j]? := by intro j; congr 1; omega
    intro k c
    rw [g3, h3]
    constructor
    · rintro (⟨j, a1, a2, a3⟩ | ⟨⟨rfl, rfl⟩ | ⟨b1, b2⟩, a2⟩)
      · refine .inl ⟨j + 1, by rw [es]; exact a1, by simpa using a2, ?_⟩
        intro j' hj hj'
        obtain ⟨m, rfl⟩ : ∃ m, j' = m + 1 := ⟨j' - 1, by omega⟩
        rw [es]; exact a3 m (by omega) (by simpa using hj')
      · refine .inl ⟨0, e0, rfl, ?_⟩
        intro j' hj hj'
        obtain ⟨m, rfl⟩ : ∃ m, j' = m + 1 := ⟨j' - 1, by omega⟩
        rw [es]; exact a2 m (by simpa using hj')
      · refine .inr ⟨b2, ?_⟩
        intro j' hj'
        rcases j' with _ | m
        · rw [e0]; intro h; exact b1 (by injection h with h; exact h.symm)
        · rw [es]; exact a2 m (by simpa using hj')
    · rintro (⟨j, a1, a2, a3⟩ | ⟨a1, a2⟩)
      · rcases j with _ | m
        · right
          rw [e0] at a1
          injection a1 with a1
          refine ⟨.inl ⟨a1.symm, by simpa using a2.symm⟩, ?_⟩
          intro j' hj'
          rw [← es]; exact a3 (j' + 1) (by omega) (by simpa using hj')
        · left
          refine ⟨m, by rw [← es]; exact a1, by simpa using a2, ?_⟩
          intro j' hj hj'
          rw [← es]; exact a3 (j' + 1) (by omega) (by simpa using hj')
      · right
        refine ⟨.inr ⟨?_, a1⟩, ?_⟩
        · rintro rfl
          exact a2 0 (by simp) e0
        · intro j' hj'
          rw [← es]; exact a2 (j' + 1) (by simpa using hj')

/-- **C68**, any names: with at least as many names as dimensions, the data frame has one column for each different name in use,
the column of the last dimension so named; superfluous names are ignored. -/
theorem C68_names {r : RArray Int} {s : List Nat} {g : List Int → Int} {names : List String} (hg : GoodShape s)
    (h : r.Holds s g) (hnn : ∀ v, InRange s v → 0 ≤ g v) (hsum : ∑ v ∈ cells s, g v < 2 ^ 61)
    (hnames : s.length ≤ names.length) :
    ∃ cols df, ListsPopulation s g 1 cols ∧ cols.length = s.length ∧ R.flatten r names = .ok df ∧ (df.map Prod.fst).Nodup ∧
      ∀ k c, (k, c) ∈ df ↔ ∃ d, names[d]? = some k ∧ cols[d]? = some c ∧ ∀ e, d < e → e < s.length → names[e]? ≠ some k := by
  have h0 : 0 ≤ ∑ v ∈ cells s, g v := Finset.sum_nonneg (fun v hv => hnn v (mem_cells.mp hv))
  obtain ⟨cols, h1, h2⟩ := listify_lists hg g hnn hsum 1
  have hl : cols.length = s.length := by
    obtain ⟨rows, e, -⟩ := h2
    rw [e]; simp
  obtain ⟨df, g1, g2, g3⟩ := nameColumns_mem names cols 0 [] (by omega) (by simp)
  refine ⟨cols, df, h2, hl, ?_, g2, ?_⟩
  · rw [flatten_r_eq names hg h h0 hsum, h1]
    exact g1
  · intro k c
    rw [g3]
    simp [hl]

/-- **C68 is false when a name is used for two dimensions**: columns are lost. -/
theorem C68_repeated_name {r : RArray Int} {s : List Nat} {g : List Int → Int} {names : List String} (hg : GoodShape s)
    (h : r.Holds s g) (hnn : ∀ v, InRange s v → 0 ≤ g v) (hsum : ∑ v ∈ cells s, g v < 2 ^ 61)
    (hnames : names.length = s.length) (hd : ¬ names.Nodup) :
    ∃ df, R.flatten r names = .ok df ∧ df.length < s.length := by
  obtain ⟨cols, df, -, hl, h1, h2, h3⟩ := C68_names hg h hnn hsum hnames.ge
  refine ⟨df, h1, ?_⟩
  have hsub : df.map Prod.fst ⊆ names := by
    intro k hk
    obtain ⟨⟨k', c⟩, hm, rfl⟩ := List.mem_map.mp hk
    obtain ⟨d, hd, -⟩ := (h3 k' c).mp hm
    exact List.mem_of_getElem? hd
  have e1 : (df.map Prod.fst).toFinset.card = df.length := by rw [List.toFinset_card_of_nodup h2, List.length_map]
  have e2 : (df.map Prod.fst).toFinset ⊆ names.toFinset := fun x hx => by
    rw [List.mem_toFinset] at hx ⊢; exact hsub hx
  have e3 : names.toFinset.card < names.length := by
    rcases lt_or_eq_of_le (List.toFinset_card_le names) with h | h
    · exact h
    · exact absurd ((Multiset.toFinset_card_eq_card_iff_nodup (m := (names : Multiset String))).mp h) hd
  have := Finset.card_le_card e2
  omega

/-- **C68 is false with fewer names than dimensions**: a name beyond the end of `categoryNames` is read. -/
theorem C68_too_few_names {r : RArray Int} {s : List Nat} {g : List Int → Int} {names : List String} (hg : GoodShape s)
    (h : r.Holds s g) (hnn : ∀ v, InRange s v → 0 ≤ g v) (hsum : ∑ v ∈ cells s, g v < 2 ^ 61)
    (hnames : names.length < s.length) : R.flatten r names = .ub .oob := by
  have h0 : 0 ≤ ∑ v ∈ cells s, g v := Finset.sum_nonneg (fun v hv => hnn v (mem_cells.mp hv))
  obtain ⟨cols, h1, h2⟩ := listify_lists hg g hnn hsum 1
  have hl : cols.length = s.length := by
    obtain ⟨rows, e, -⟩ := h2
    rw [e]; simp
  rw [flatten_r_eq names hg h h0 hsum, h1]
  exact nameColumns_few names cols 0 [] (by omega) (by omega)

/-- **C68 is false with a negative count**: the table is written outside its bounds. -/
theorem C68_negative_unsafe {r : RArray Int} {s : List Nat} {g : List Int → Int} (names : List String) (hg : GoodShape s)
    (h : r.Holds s g) (hneg : ∃ v, InRange s v ∧ g v < 0) (h0 : 0 ≤ ∑ v ∈ cells s, g v)
    (hsum : ∑ v ∈ cells s, g v < 2 ^ 61) : R.flatten r names = .ub .oob := by
  rw [flatten_r_eq names hg h h0 hsum]
  rw [listify_oob hg g 1 (by omega)]
  · rfl
  · have h1 := length_rowsOf_allIdx s g
    have h2 : ∑ v ∈ cells s, g v < ∑ v ∈ cells s, max (g v) 0 := by
      obtain ⟨v, hv, hlt⟩ := hneg
      exact Finset.sum_lt_sum (fun v _ => le_max_left _ _)
        ⟨v, mem_cells.mpr hv, lt_of_lt_of_le hlt (le_max_right _ _)⟩
    omega

/-- The hypotheses are met by a 2x2 array: R's columns are (1, 0) and (2, 3). -/
example : GoodShape [2, 2] ∧ RArray.Holds ⟨[1, 0, 2, 3], some [2, 2]⟩ [2, 2]
    (fun v => ([1, 2, 0, 3] : List Int).getD (2 * v.getD 0 0 + v.getD 1 0).toNat 0) := by
  refine ⟨by decide, rfl, rfl, ?_⟩
  intro v hv
  have : v ∈ allIdx [2, 2] := mem_allIdx.mpr hv
  clear hv; revert v
  decide

/-- A 2x2 array with one person in each cell; its two dimensions under one name give one column. -/
example : ∃ df, R.flatten ⟨[1, 1, 1, 1], some [2, 2]⟩ ["X", "X"] = .ok df ∧ df.length < 2 := by
  have hh : RArray.Holds (⟨[1, 1, 1, 1], some [2, 2]⟩ : RArray Int) [2, 2] (fun _ => 1) := by
    refine ⟨rfl, rfl, ?_⟩
    intro v hv
    have : v ∈ allIdx [2, 2] := mem_allIdx.mpr hv
    clear hv; revert v
    decide
  refine C68_repeated_name (s := [2, 2]) (names := ["X", "X"]) (by decide) hh (fun _ _ => by norm_num) ?_ rfl (by simp)
  rw [← sum_allIdx]
  have : (List.map (fun _ : List Int => (1 : Int)) (allIdx [2, 2])).sum = 4 := by decide
  rw [this]
  norm_num

end HL

import Verif.Props.QISIDraws
import Verif.Proof.IPFRateRound
import Verif.Props.SobolJoint

/-
C100: a 2x2 problem with a solution, on whose seed ipf converges too slowly for qisi.
-/

namespace HL
open QISI Micro Integerise Rate
variable {fp : FP}

/-- 16384 people in each of two rows and two columns -/
def slowProb : Prob Int := [([0], fun _ => 16384), ([1], fun _ => 16384)]

/-- a seed with nobody in the first row of the first column -/
def slowSeed : List Int → ℚ := fun v => if v = [0, 0] then 0 else 1

/-- the only population with these marginals that is zero where the seed is -/
def slowSolution : List Int → ℕ := fun v => if v = [0, 1] ∨ v = [1, 0] then 16384 else 0

theorem slow_ok : ProbOK [2, 2] slowProb 32768 := by
  refine ⟨⟨by decide, by decide, by decide, by simp [slowProb], ?_⟩, ?_, ?_, ?_⟩
  · intro d hd
    simp only [List.length_cons, List.length_nil] at hd
    interval_cases d <;> simp [slowProb]
  · intro p hp j hj
    simp only [slowProb, List.mem_cons, List.not_mem_nil, or_false] at hp
    rcases hp with rfl | rfl <;> simp
  · intro p hp
    simp only [slowProb, List.mem_cons, List.not_mem_nil, or_false] at hp
    rcases hp with rfl | rfl <;> rw [← sum_allIdx] <;> simp [projSizes, allIdx, List.range_succ]
  · intro p hp q hq a b d ha hb x hx
    simp only [slowProb, List.mem_cons, List.not_mem_nil, or_false] at hp hq
    rcases hp with rfl | rfl <;> rcases hq with rfl | rfl
    all_goals
      have ha' : a < 1 := (List.getElem?_eq_some_iff.mp ha).1
      have hb' : b < 1 := (List.getElem?_eq_some_iff.mp hb).1
      obtain rfl : a = 0 := by omega
      obtain rfl : b = 0 := by omega
      simp at ha hb
      first
        | rfl
        | (exfalso; omega)

theorem slow_nodup : (slowProb.map Prod.fst).flatten.Nodup := by decide

theorem cells22 : cells [2, 2] = {[0, 0], [0, 1], [1, 0], [1, 1]} := by decide

/-- the sums over rows and columns of a 2x2 table -/
theorem sums22 {β : Type} [AddCommMonoid β] (f : List Int → β) :
    marginalSum [2, 2] [0] f [0] = f [0, 0] + f [0, 1] ∧ marginalSum [2, 2] [0] f [1] = f [1, 0] + f [1, 1] ∧
    marginalSum [2, 2] [1] f [0] = f [0, 0] + f [1, 0] ∧ marginalSum [2, 2] [1] f [1] = f [0, 1] + f [1, 1] := by
  have e1 : (cells [2, 2]).filter (fun v => proj [0] v = [0]) = {[0, 0], [0, 1]} := by decide
  have e2 : (cells [2, 2]).filter (fun v => proj [0] v = [1]) = {[1, 0], [1, 1]} := by decide
  have e3 : (cells [2, 2]).filter (fun v => proj [1] v = [0]) = {[0, 0], [1, 0]} := by decide
  have e4 : (cells [2, 2]).filter (fun v => proj [1] v = [1]) = {[0, 1], [1, 1]} := by decide
  unfold marginalSum
  rw [e1, e2, e3, e4]
  refine ⟨?_, ?_, ?_, ?_⟩ <;> rw [Finset.sum_pair (by decide)]

/-- scaling the rows of a 2x2 table with rows of 16384 -/
theorem slow_rows {b : List Int → ℚ} {x y z : ℚ} (h0 : b [0, 0] = 0) (h1 : b [0, 1] = x) (h2 : b [1, 0] = y) (h3 : b [1, 1] = z)
    (hx : 0 < x) (hy : 0 < y) (hz : 0 < z) :
    qscaled [2, 2] [0] (fun _ => (16384 : ℚ)) b [0, 0] = 0 ∧ qscaled [2, 2] [0] (fun _ => (16384 : ℚ)) b [0, 1] = 16384 ∧
    qscaled [2, 2] [0] (fun _ => (16384 : ℚ)) b [1, 0] = 16384 * (y / (y + z)) ∧
    qscaled [2, 2] [0] (fun _ => (16384 : ℚ)) b [1, 1] = 16384 * (z / (y + z)) := by
  obtain ⟨s1, s2, -, -⟩ := sums22 b
  have p : ∀ i j : Int, proj [0] [i, j] = [i] := fun i j => rfl
  unfold qscaled
  simp only [p]
  rw [s1, s2, h0, h1, h2, h3]
  refine ⟨by simp, ?_, ?_, ?_⟩ <;> rw [if_neg (by linarith)] <;> field_simp
  ring

/-- scaling the columns of a 2x2 table with columns of 16384 -/
theorem slow_cols {b : List Int → ℚ} {x y z : ℚ} (h0 : b [0, 0] = 0) (h1 : b [0, 1] = x) (h2 : b [1, 0] = y) (h3 : b [1, 1] = z)
    (hx : 0 < x) (hy : 0 < y) (hz : 0 < z) :
    qscaled [2, 2] [1] (fun _ => (16384 : ℚ)) b [0, 0] = 0 ∧ qscaled [2, 2] [1] (fun _ => (16384 : ℚ)) b [0, 1] = 16384 * (x / (x + z)) ∧
    qscaled [2, 2] [1] (fun _ => (16384 : ℚ)) b [1, 0] = 16384 ∧
    qscaled [2, 2] [1] (fun _ => (16384 : ℚ)) b [1, 1] = 16384 * (z / (x + z)) := by
  obtain ⟨-, -, s1, s2⟩ := sums22 b
  have p : ∀ i j : Int, proj [1] [i, j] = [j] := fun i j => rfl
  unfold qscaled
  simp only [p]
  rw [s1, s2, h0, h1, h2, h3]
  refine ⟨by simp, ?_, ?_, ?_⟩ <;> rw [if_neg (by linarith)] <;> field_simp
  ring

theorem fibre22 : ∀ d ∈ [0, 1], ∀ j, ((cells [2, 2]).filter (fun v => proj [d] v = j)).card ≤ 2 := by
  intro d hd j
  by_cases hj : j = [0] ∨ j = [1]
  · rcases hj with rfl | rfl <;> revert d <;> decide
  · have : (cells [2, 2]).filter (fun v => proj [d] v = j) = ∅ := by
      rw [Finset.filter_eq_empty_iff]
      intro v hv he
      have h1 : ∀ v ∈ cells [2, 2], ∀ d ∈ [0, 1], proj [d] v = [0] ∨ proj [d] v = [1] := by decide
      rw [← he] at hj
      exact hj (h1 v hv d hd)
    rw [this]; simp

theorem inRange22 {v : List Int} (hv : InRange [2, 2] v) : v = [0, 0] ∨ v = [0, 1] ∨ v = [1, 0] ∨ v = [1, 1] := by
  have hc := mem_cells.mpr hv
  rw [cells22] at hc
  simpa using hc

/-- one scaling in rounded arithmetic -/
theorem slow_scaled (hfp : fp.Good) {d : Nat} (hd : d ∈ [0, 1]) {a : List Int → Fl} {Y : List Int → ℚ}
    (ha : ∀ v, InRange [2, 2] v → a v = .fin (Y v)) (hY : ∀ v, InRange [2, 2] v → Y v = 0 ∨ 1 / 2 ^ 400 ≤ Y v)
    (hB : ∀ v, InRange [2, 2] v → Y v ≤ 2 ^ 100) :
    ∃ X : List Int → ℚ, ∀ v, InRange [2, 2] v → scaled fp (numInt fp) [2, 2] [d] (fun _ => 16384) a v = .fin (X v) ∧
      Rel 4 (X v) (qscaled [2, 2] [d] (fun _ => 16384) Y v) := by
  have hS : ∀ j, InRange (projSizes [d] [2, 2]) j → marginalSum [2, 2] [d] Y j ≤ 2 ^ 200 := by
    intro j _
    unfold marginalSum
    have h1 : ∑ v ∈ (cells [2, 2]).filter (fun v => proj [d] v = j), Y v ≤
        ∑ v ∈ (cells [2, 2]).filter (fun v => proj [d] v = j), (2 : ℚ) ^ 100 :=
      Finset.sum_le_sum (fun v hv => hB v (mem_cells.mp (Finset.mem_filter.mp hv).1))
    rw [Finset.sum_const, nsmul_eq_mul] at h1
    have h2 : (((cells [2, 2]).filter (fun v => proj [d] v = j)).card : ℚ) ≤ 2 := by exact_mod_cast fibre22 d hd j
    refine h1.trans ?_
    refine (mul_le_mul_of_nonneg_right h2 (by positivity)).trans ?_
    norm_num
  obtain ⟨X, φ, h⟩ := scaled_rel hfp (s := [2, 2]) (ds := [d]) (m := fun _ => 16384) (Y := Y) (a := a) (f := 2) range_ok
    (by intro e he; simp at he hd ⊢; omega) ha hY hS (fun _ _ => Or.inr ⟨by norm_num, by norm_num⟩) (fibre22 d hd) (by norm_num)
  refine ⟨X, fun v hv => ⟨?_, (h v hv).2.1⟩⟩
  rw [← (h v hv).1]
  have e : (numInt fp).toFl 16384 = .fin 16384 := by
    show fp.ofInt 16384 = _
    rw [ofInt_exact hfp (by norm_num)]; norm_num
  unfold scaled
  rw [e]
  rfl

/-- the tables met on the way -/
structure SlowTable (a : List Int → Fl) (x y z : ℚ) : Prop where
  c00 : a [0, 0] = .fin 0
  c01 : a [0, 1] = .fin x
  c10 : a [1, 0] = .fin y
  c11 : a [1, 1] = .fin z

/-- the table with these cells -/
def tab22 (x y z : ℚ) : List Int → ℚ :=
  fun v => if v = [0, 1] then x else if v = [1, 0] then y else if v = [1, 1] then z else 0

theorem tab22_eq (x y z : ℚ) : tab22 x y z [0, 0] = 0 ∧ tab22 x y z [0, 1] = x ∧ tab22 x y z [1, 0] = y ∧ tab22 x y z [1, 1] = z := by
  refine ⟨?_, ?_, ?_, ?_⟩ <;> simp [tab22]

theorem SlowTable.agree {a : List Int → Fl} {x y z : ℚ} (h : SlowTable a x y z) :
    ∀ v, InRange [2, 2] v → a v = .fin (tab22 x y z v) := by
  obtain ⟨t0, t1, t2, t3⟩ := tab22_eq x y z
  intro v hv
  rcases inRange22 hv with rfl | rfl | rfl | rfl
  · rw [t0, h.c00]
  · rw [t1, h.c01]
  · rw [t2, h.c10]
  · rw [t3, h.c11]

theorem tab22_bounds {x y z lo B : ℚ} (hlo : 0 ≤ B) (hx : lo ≤ x) (hy : lo ≤ y) (hz : lo ≤ z) (hx' : x ≤ B) (hy' : y ≤ B) (hz' : z ≤ B) :
    (∀ v, InRange [2, 2] v → tab22 x y z v = 0 ∨ lo ≤ tab22 x y z v) ∧ ∀ v, InRange [2, 2] v → tab22 x y z v ≤ B := by
  obtain ⟨t0, t1, t2, t3⟩ := tab22_eq x y z
  constructor
  · intro v hv
    rcases inRange22 hv with rfl | rfl | rfl | rfl
    · exact Or.inl t0
    · exact Or.inr (by rw [t1]; exact hx)
    · exact Or.inr (by rw [t2]; exact hy)
    · exact Or.inr (by rw [t3]; exact hz)
  · intro v hv
    rcases inRange22 hv with rfl | rfl | rfl | rfl
    · rw [t0]; exact hlo
    · rw [t1]; exact hx'
    · rw [t2]; exact hy'
    · rw [t3]; exact hz'

/-- one sweep in rounded arithmetic -/
theorem slow_sweep (hfp : fp.Good) {a : List Int → Fl} {x y z : ℚ} (h : SlowTable a x y z) (hx : 1 / 2 ^ 40 ≤ x) (hy : 1 / 2 ^ 40 ≤ y)
    (hz : 1 / 2 ^ 40 ≤ z) (hx' : x ≤ 2 ^ 20) (hy' : y ≤ 2 ^ 20) (hz' : z ≤ 2 ^ 20) :
    ∃ x1 y1 z1, SlowTable (sweep fp (numInt fp) [2, 2] slowProb a) x1 y1 z1 ∧ Rel 12 x1 (16384 * ((y + z) / (y + 2 * z))) ∧
      Rel 4 y1 16384 ∧ Rel 12 z1 (16384 * (z / (y + 2 * z))) := by
  have px : 0 < x := lt_of_lt_of_le (by norm_num) hx
  have py : 0 < y := lt_of_lt_of_le (by norm_num) hy
  have pz : 0 < z := lt_of_lt_of_le (by norm_num) hz
  obtain ⟨t0, t1, t2, t3⟩ := tab22_eq x y z
  obtain ⟨b1, b2⟩ := tab22_bounds (x := x) (y := y) (z := z) (lo := 1 / 2 ^ 40) (B := 2 ^ 20) (by norm_num) hx hy hz hx' hy' hz'
  have weak : (1 : ℚ) / 2 ^ 400 ≤ 1 / 2 ^ 60 :=
    one_div_le_one_div_of_le (by positivity) (pow_le_pow_right₀ (by norm_num) (by norm_num))
  have big : (2 : ℚ) ^ 20 ≤ 2 ^ 100 := pow_le_pow_right₀ (by norm_num) (by norm_num)
  have s40 : (1 : ℚ) / 2 ^ 60 ≤ 1 / 2 ^ 40 := by norm_num
  obtain ⟨X, hX⟩ := slow_scaled hfp (d := 0) (by simp) h.agree
    (fun v hv => (b1 v hv).imp id (fun h => (weak.trans s40).trans h)) (fun v hv => (b2 v hv).trans big)
  obtain ⟨r0, r1, r2, r3⟩ := slow_rows t0 t1 t2 t3 px py pz
  have X0 := hX [0, 0] (by decide)
  have X1 := hX [0, 1] (by decide)
  have X2 := hX [1, 0] (by decide)
  have X3 := hX [1, 1] (by decide)
  rw [r0] at X0
  rw [r1] at X1
  rw [r2] at X2
  rw [r3] at X3
  have e0 : X [0, 0] = 0 := (X0.2.zero_iff le_rfl).mpr rfl
  have hyz : 0 < y + z := by linarith
  have f1 : 1 / 2 ^ 62 ≤ y / (y + z) := by
    rw [div_le_div_iff₀ (by norm_num) hyz]
    nlinarith
  have f2 : 1 / 2 ^ 62 ≤ z / (y + z) := by
    rw [div_le_div_iff₀ (by norm_num) hyz]
    nlinarith
  have f1' : y / (y + z) ≤ 1 := by rw [div_le_one hyz]; linarith
  have f2' : z / (y + z) ≤ 1 := by rw [div_le_one hyz]; linarith
  have l1 := X1.2.lower (by norm_num) (by norm_num)
  have l2 := X2.2.lower (by norm_num) (by positivity)
  have l3 := X3.2.lower (by norm_num) (by positivity)
  have p1 : 0 < X [0, 1] := lt_of_lt_of_le (by norm_num) l1
  have p2 : 0 < X [1, 0] := lt_of_lt_of_le (by positivity) l2
  have p3 : 0 < X [1, 1] := lt_of_lt_of_le (by positivity) l3
  have u1 := X1.2.upper (by norm_num) p1.le
  have u2 := X2.2.upper (by norm_num) p2.le
  have u3 := X3.2.upper (by norm_num) p3.le
  have hS : SlowTable (scaled fp (numInt fp) [2, 2] [0] (fun _ => 16384) a) (X [0, 1]) (X [1, 0]) (X [1, 1]) :=
    ⟨by rw [X0.1, e0], X1.1, X2.1, X3.1⟩
  obtain ⟨t0', t1', t2', t3'⟩ := tab22_eq (X [0, 1]) (X [1, 0]) (X [1, 1])
  obtain ⟨b1', b2'⟩ := tab22_bounds (x := X [0, 1]) (y := X [1, 0]) (z := X [1, 1]) (lo := 1 / 2 ^ 60) (B := 2 ^ 20) (by norm_num)
    (by linarith) (by linarith) (by linarith) (by linarith) (by linarith) (by linarith)
  obtain ⟨Z, hZ⟩ := slow_scaled hfp (d := 1) (by simp) hS.agree
    (fun v hv => (b1' v hv).imp id (fun h => weak.trans h)) (fun v hv => (b2' v hv).trans big)
  obtain ⟨c0, c1, c2, c3⟩ := slow_cols t0' t1' t2' t3' p1 p2 p3
  have Z0 := hZ [0, 0] (by decide)
  have Z1 := hZ [0, 1] (by decide)
  have Z2 := hZ [1, 0] (by decide)
  have Z3 := hZ [1, 1] (by decide)
  rw [c0] at Z0
  rw [c1] at Z1
  rw [c2] at Z2
  rw [c3] at Z3
  have g0 : Z [0, 0] = 0 := (Z0.2.zero_iff le_rfl).mpr rfl
  have q2 : 0 < 16384 * (z / (y + z)) := by positivity
  have hsum : Rel 4 (X [0, 1] + X [1, 1]) (16384 + 16384 * (z / (y + z))) := X1.2.add X3.2
  have d1 : Rel 8 (X [0, 1] / (X [0, 1] + X [1, 1])) (16384 / (16384 + 16384 * (z / (y + z)))) :=
    X1.2.div hsum p1.le (by norm_num) (by linarith) (by linarith)
  have d3 : Rel 8 (X [1, 1] / (X [0, 1] + X [1, 1])) (16384 * (z / (y + z)) / (16384 + 16384 * (z / (y + z)))) :=
    X3.2.div hsum p3.le q2.le (by linarith) (by linarith)
  have m1 := (Rel.refl (16384 : ℚ)).mul d1 (by norm_num) (by norm_num) (by positivity) (by positivity)
  have m3 := (Rel.refl (16384 : ℚ)).mul d3 (by norm_num) (by norm_num) (by positivity) (by positivity)
  refine ⟨Z [0, 1], Z [1, 0], Z [1, 1], ⟨by rw [← g0]; exact Z0.1, Z1.1, Z2.1, Z3.1⟩, ?_, Z2.2, ?_⟩
  · have := Z1.2.trans m1
    rw [show (16384 : ℚ) * (16384 / (16384 + 16384 * (z / (y + z)))) = 16384 * ((y + z) / (y + 2 * z)) by field_simp; ring] at this
    exact this
  · have := Z3.2.trans m3
    rw [show (16384 : ℚ) * (16384 * (z / (y + z)) / (16384 + 16384 * (z / (y + z)))) = 16384 * (z / (y + 2 * z)) by field_simp; ring] at this
    exact this

theorem uu_ge {k : Nat} (hk : k ≤ 2 ^ 20) : 1 - 1 / 2 ^ 33 ≤ uu ^ k := by
  refine le_trans ?_ (uu_pow_ge k)
  have : (k : ℚ) ≤ 2 ^ 20 := by exact_mod_cast hk
  linarith

/-- after `n + 1` sweeps -/
theorem slow_iterate (hfp : fp.Good) (n : Nat) (hn : n < 1000) :
    ∃ x y z, SlowTable ((sweep fp (numInt fp) [2, 2] slowProb)^[n + 1] (fun v => .fin (slowSeed v))) x y z ∧
      10900 ≤ x ∧ Rel 12 y 16384 ∧ z ≤ 8200 ∧ uu ^ (24 * (n + 1)) * 16384 ≤ (2 * n + 3) * z ∧ Rel 12 (x + z) 16384 := by
  induction n with
  | zero =>
    have h : SlowTable (fun v => .fin (slowSeed v)) 1 1 1 := by
      constructor <;> simp [slowSeed]
    obtain ⟨x, y, z, h1, h2, h3, h4⟩ := slow_sweep hfp h (by norm_num) (by norm_num) (by norm_num) (by norm_num) (by norm_num) (by norm_num)
    rw [zero_add, Function.iterate_one]
    have hu := uu_ge (k := 12) (by norm_num)
    have hz0 := h4.nonneg (by norm_num)
    have hx0 := h2.nonneg (by norm_num)
    have hy0 := h3.nonneg (by norm_num)
    have a1 := h2.1
    have a2 := h4.1
    have a3 := h4.2
    refine ⟨x, y, z, h1, by linarith, h3.mono hy0 (by norm_num) (by norm_num), by nlinarith, ?_, ?_⟩
    · have hp : uu ^ 24 ≤ uu ^ 12 := pow_le_pow_of_le_one uu_pos.le uu_le (by norm_num)
      norm_num at a2 ⊢
      linarith
    · have := h2.add h4
      norm_num at this
      exact this
  | succ n ih =>
    obtain ⟨x, y, z, h1, h2, h3, h4, h5, h6⟩ := ih (by omega)
    have hu := uu_ge (k := 12) (by norm_num)
    have hu' := uu_ge (k := 24 * (n + 1)) (by omega)
    have hn' : (n : ℚ) ≤ 1000 := by
      have : n ≤ 1000 := by omega
      exact_mod_cast this
    have hn0 : (0 : ℚ) ≤ n := Nat.cast_nonneg n
    have hz1 : 1 ≤ z := by
      by_contra hc
      push Not at hc
      have : (2 * (n : ℚ) + 3) * z ≤ (2 * n + 3) * 1 := mul_le_mul_of_nonneg_left hc.le (by linarith)
      linarith
    have y1 := h3.1
    have y2 := h3.2
    have hy1 : 16000 ≤ y := by linarith
    have hy2 : y ≤ 16385 := by nlinarith
    have hx2 : x ≤ 16385 := by
      have := h6.2
      nlinarith
    obtain ⟨x1, y1', z1, g1, g2, g3, g4⟩ := slow_sweep hfp h1 (by linarith) (by linarith) (by linarith) (by linarith) (by linarith) (by linarith)
    rw [Function.iterate_succ_apply']
    have hyz : 0 < y + 2 * z := by linarith
    have hz0 := g4.nonneg (by positivity)
    have hx0 := g2.nonneg (by positivity)
    have hy0 := g3.nonneg (by norm_num)
    refine ⟨x1, y1', z1, g1, ?_, g3.mono hy0 (by norm_num) (by norm_num), ?_, ?_, ?_⟩
    · have a1 := g2.1
      have : (2 : ℚ) / 3 ≤ (y + z) / (y + 2 * z) := by
        rw [div_le_div_iff₀ (by norm_num) hyz]
        linarith
      nlinarith
    · have a1 := g4.2
      have : z / (y + 2 * z) ≤ 1 / 2 := by
        rw [div_le_div_iff₀ hyz (by norm_num)]
        linarith
      nlinarith
    · have a1 := g4.1
      have hpp := uu_pow_pos 12
      have b1 : uu ^ (24 * (n + 1)) * (uu ^ 12 * y) ≤ (2 * n + 3) * z :=
        le_trans (mul_le_mul_of_nonneg_left h3.2 (uu_pow_pos _).le) h5
      have b2 : uu ^ (24 * (n + 1)) * uu ^ 12 * (2 * z) ≤ 1 * (2 * z) := by
        refine mul_le_mul_of_nonneg_right ?_ (by linarith)
        exact mul_le_one₀ (uu_pow_le _) hpp.le (uu_pow_le _)
      have b3 : uu ^ (24 * (n + 1)) * uu ^ 12 * (y + 2 * z) ≤ (2 * n + 5) * z := by
        have : uu ^ (24 * (n + 1)) * uu ^ 12 * (y + 2 * z) = uu ^ (24 * (n + 1)) * (uu ^ 12 * y) + uu ^ (24 * (n + 1)) * uu ^ 12 * (2 * z) := by
          ring
        linarith
      have b4 : uu ^ (24 * (n + 1)) * uu ^ 12 ≤ (2 * n + 5) * (z / (y + 2 * z)) := by
        rw [← mul_div_assoc, le_div_iff₀ hyz]
        exact b3
      have e : uu ^ (24 * (n + 1 + 1)) = uu ^ 12 * (uu ^ (24 * (n + 1)) * uu ^ 12) := by
        rw [← pow_add, ← pow_add]; congr 1; ring
      rw [e]
      push_cast
      have b5 := mul_le_mul_of_nonneg_left b4 hpp.le
      have b6 := mul_le_mul_of_nonneg_left a1 (show (0 : ℚ) ≤ 2 * n + 5 by linarith)
      calc uu ^ 12 * (uu ^ (24 * (n + 1)) * uu ^ 12) * 16384 ≤ uu ^ 12 * ((2 * n + 5) * (z / (y + 2 * z))) * 16384 :=
            mul_le_mul_of_nonneg_right b5 (by norm_num)
        _ = (2 * n + 5) * (uu ^ 12 * (16384 * (z / (y + 2 * z)))) := by ring
        _ ≤ (2 * n + 5) * z1 := b6
        _ = (2 * (n + 1) + 3) * z1 := by ring
    · have := g2.add g4
      rw [show 16384 * ((y + z) / (y + 2 * z)) + 16384 * (z / (y + 2 * z)) = 16384 by field_simp; ring] at this
      exact this

/-- every fit of the problem -/
theorem slow_fit (hfp : fp.Good) {c : List Int → Fl} (hf : Fit fp [2, 2] slowProb (fun v => .fin (slowSeed v)) c) :
    ∃ x y z, SlowTable c x y z ∧ 10900 ≤ x ∧ x ≤ 16385 ∧ 16383 ≤ y ∧ y ≤ 16385 ∧ 8187 / 1000 ≤ z ∧ z ≤ 8200 ∧ 16383 ≤ x + z := by
  obtain ⟨r, hr, ha⟩ := hf
  obtain ⟨pop, n, -, h1, h2, -, -, rfl⟩ := ipf_run fp _ (minOK_int _) slow_ok.toProbShape
    (properProb_of_disjoint slow_ok.toProbShape slow_nodup) _ hr
  have ha' : arr [2, 2] ((sweep fp (numInt fp) [2, 2] slowProb)^[n] (fun v => .fin (slowSeed v))) = arr [2, 2] c := ha
  obtain ⟨m, rfl⟩ : ∃ m, n = m + 1 := ⟨n - 1, by omega⟩
  obtain ⟨x, y, z, g1, g2, g3, g4, g5, g6⟩ := slow_iterate hfp m (by omega)
  have hu := uu_ge (k := 12) (by norm_num)
  have hu' := uu_ge (k := 24 * (m + 1)) (by omega)
  have hm' : (m : ℚ) ≤ 999 := by
    have : m ≤ 999 := by omega
    exact_mod_cast this
  have hm0 : (0 : ℚ) ≤ m := Nat.cast_nonneg m
  have y1 := g3.1
  have y2 := g3.2
  have x1 := g6.1
  have x2 := g6.2
  have hy1 : 16383 ≤ y := by linarith
  have hz0 : 0 ≤ z := by
    by_contra hc
    push Not at hc
    have : (2 * (m : ℚ) + 3) * z ≤ 0 := mul_nonpos_of_nonneg_of_nonpos (by linarith) hc.le
    linarith
  refine ⟨x, y, z, ⟨?_, ?_, ?_, ?_⟩, g2, by nlinarith, hy1, by nlinarith, ?_, g4, by linarith⟩
  · rw [← arr_inj ha' _ (by decide)]; exact g1.c00
  · rw [← arr_inj ha' _ (by decide)]; exact g1.c01
  · rw [← arr_inj ha' _ (by decide)]; exact g1.c10
  · rw [← arr_inj ha' _ (by decide)]; exact g1.c11
  · have : (2 * (m : ℚ) + 3) * z ≤ 2001 * z := mul_le_mul_of_nonneg_right (by linarith) hz0
    linarith

end HL

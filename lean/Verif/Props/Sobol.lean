import Verif.Proof.SobolLemmas
import Mathlib.Order.Bounds.Defs
import Mathlib.Data.Fintype.EquivFin

/-
C09-C18: the Sobol generator.
-/

namespace HL

/-- `Hist dim x n`: the object `x` of dimension `dim` has been brought to its current state by any
sequence of constructor, `buf()`, `operator()`, `skip` and `reset` calls, and `n` is the number of points
it has generated since construction or the last `reset`. -/
inductive Hist (dim : Nat) : Sobol → Nat → Prop
  | new {x} : Sobol.new dim 0 = .ok x → Hist dim x 0
  | next {x n x' r} : Hist dim x n → n < 2 ^ 32 - 1 → x.next = .ok (x', r) → Hist dim x' (n + 1)
  | nextEnd {x x' r} : Hist dim x (2 ^ 32 - 1) → x.next = .ok (x', r) → Hist dim x' (2 ^ 32 - 1)
  /-- `operator()` when it needs a new point -/
  | call {x n x' r} : Hist dim x n → n < 2 ^ 32 - 1 → x.pos = x.dim → x.call = .ok (x', r) → Hist dim x' (n + 1)
  | callEnd {x x' r} : Hist dim x (2 ^ 32 - 1) → x.pos = x.dim → x.call = .ok (x', r) → Hist dim x' (2 ^ 32 - 1)
  /-- `operator()` when the current point is not used up -/
  | callMid {x n x' r} : Hist dim x n → x.pos ≠ x.dim → x.call = .ok (x', r) → Hist dim x' n
  | skip {x n k x' c} : Hist dim x n → skipCount k = .ok c → x.skip k = .ok x' →
      Hist dim x' (min (n + c) (2 ^ 32 - 1))
  | reset {x n x'} : Hist dim x n → x.reset 0 = .ok x' → Hist dim x' 0

/-- the invariant behind `Hist` -/
structure SobolAt (dim n : Nat) (x : Sobol) : Prop where
  data : DataAt dim n x.s
  dimEq : x.dim = dim
  buf : x.buf.length = dim
  pos : x.pos ≤ dim
  bound : n ≤ 2 ^ 32 - 1
  dim1 : 1 ≤ dim

theorem new_ok {dim : Nat} (h1 : 1 ≤ dim) (h2 : dim ≤ 1111) :
    ∃ x, Sobol.new dim 0 = .ok x ∧ SobolAt dim 0 x ∧ x.pos = dim := by
  obtain ⟨sd, hsd, hd⟩ := sobolCreate_ok h1 h2
  unfold Sobol.new
  rw [if_neg (by omega), if_neg (by omega), hsd]
  simp only [Out.ok_bind]
  exact ⟨_, rfl, ⟨hd, rfl, by simp, le_rfl, by omega, h1⟩, rfl⟩

theorem next_ok {dim n : Nat} {x : Sobol} (h : SobolAt dim n x) (hn : n < 2 ^ 32 - 1) :
    ∃ x' p, x.next = .ok (x', .ok p) ∧ SobolAt dim (n + 1) x' ∧ PointAt dim (n + 1) p ∧ x'.buf = p ∧
      x'.pos = x.pos := by
  obtain ⟨sd', p, h1, h2, h3⟩ := sobolGen_ok h.data hn x.buf
  unfold Sobol.next
  rw [h1]
  simp only [Out.ok_bind, if_true, Out.pure_eq]
  exact ⟨_, _, rfl, ⟨h2, h.dimEq, h3.1, h.pos, by omega, h.dim1⟩, h3, rfl, rfl⟩

theorem next_end {dim : Nat} {x : Sobol} (h : SobolAt dim (2 ^ 32 - 1) x) :
    x.next = .ok (x, .error .sobolExhausted) := by
  unfold Sobol.next
  rw [sobolGen_end h.data]
  simp

theorem take_ok {dim n : Nat} {x : Sobol} (h : SobolAt dim n x) (hp : x.pos < dim) :
    ∃ v, x.buf[x.pos]? = some v ∧ x.take = .ok ({ x with pos := x.pos + 1 }, .ok v) := by
  have hlt : x.pos < x.buf.length := by rw [h.buf]; exact hp
  refine ⟨_, List.getElem?_eq_getElem hlt, ?_⟩
  unfold Sobol.take
  rw [List.getElem?_eq_getElem hlt]

theorem call_new {dim n : Nat} {x : Sobol} (h : SobolAt dim n x) (hn : n < 2 ^ 32 - 1) (hp : x.pos = x.dim) :
    ∃ x' p v, x.call = .ok (x', .ok v) ∧ SobolAt dim (n + 1) x' ∧ PointAt dim (n + 1) p ∧ x'.buf = p ∧
      x'.pos = 1 ∧ p[0]? = some v := by
  obtain ⟨x1, p, h1, h2, h3, h4, h5⟩ := next_ok h hn
  have h2' : SobolAt dim (n + 1) { x1 with pos := 0 } := ⟨h2.data, h2.dimEq, h2.buf, by simp, h2.bound, h2.dim1⟩
  obtain ⟨v, hv, ht⟩ := take_ok h2' (by have := h.dim1; simp; omega)
  unfold Sobol.call
  rw [if_pos hp, h1]
  simp only [Out.ok_bind]
  rw [ht]
  exact ⟨_, p, v, rfl, ⟨h2.data, h2.dimEq, h2.buf, by have := h.dim1; simp; omega, h2.bound, h2.dim1⟩, h3, h4, rfl,
    by rw [← h4]; exact hv⟩

theorem call_end {dim : Nat} {x : Sobol} (h : SobolAt dim (2 ^ 32 - 1) x) (hp : x.pos = x.dim) :
    x.call = .ok (x, .error .sobolExhausted) := by
  unfold Sobol.call
  rw [if_pos hp, next_end h]
  rfl

theorem call_mid {dim n : Nat} {x : Sobol} (h : SobolAt dim n x) (hp : x.pos ≠ x.dim) :
    ∃ v, x.call = .ok ({ x with pos := x.pos + 1 }, .ok v) ∧ x.buf[x.pos]? = some v ∧
      SobolAt dim n { x with pos := x.pos + 1 } := by
  have hlt : x.pos < dim := by have := h.pos; have := h.dimEq; omega
  obtain ⟨v, hv, ht⟩ := take_ok h hlt
  unfold Sobol.call
  rw [if_neg hp, ht]
  exact ⟨v, rfl, hv, ⟨h.data, h.dimEq, h.buf, by simp; omega, h.bound, h.dim1⟩⟩

theorem skip_ok {dim n k c : Nat} {x : Sobol} (h : SobolAt dim n x) (hc : skipCount k = .ok c) :
    ∃ x', x.skip k = .ok x' ∧ SobolAt dim (min (n + c) (2 ^ 32 - 1)) x' ∧ x'.pos = x.pos := by
  obtain ⟨sd', buf', h1, h2, h3⟩ := genTimes_ok c n x.s x.buf h.data h.bound
  unfold Sobol.skip sobolSkip
  rw [hc]
  simp only [Out.ok_bind]
  rw [h1]
  exact ⟨_, rfl, ⟨h2, h.dimEq, h3 h.buf, h.pos, by omega, h.dim1⟩, rfl⟩

theorem reset_ok {dim n : Nat} {x : Sobol} (h : SobolAt dim n x) :
    ∃ x', x.reset 0 = .ok x' ∧ SobolAt dim 0 x' ∧ x'.pos = x.pos ∧ x'.buf = x.buf := by
  obtain ⟨sd, hsd, hd⟩ := sobolCreate_ok h.dim1 h.data.dim
  unfold Sobol.reset
  rw [h.dimEq, hsd]
  simp only [Out.ok_bind]
  exact ⟨_, rfl, ⟨hd, rfl, h.buf, h.pos, by omega, h.dim1⟩, rfl, rfl⟩

theorem new_range {dim : Nat} {x : Sobol} (h : Sobol.new dim 0 = .ok x) : 1 ≤ dim ∧ dim ≤ 1111 := by
  unfold Sobol.new at h
  by_cases h1 : 2 ^ 61 ≤ dim
  · rw [if_pos h1] at h; exact absurd h (by simp)
  · rw [if_neg h1] at h
    by_cases h2 : dim < 1 ∨ 1111 < dim
    · rw [if_pos h2] at h; exact absurd h (by simp)
    · omega

theorem hist_at {dim : Nat} {x : Sobol} {n : Nat} (h : Hist dim x n) : SobolAt dim n x := by
  induction h with
  | new h =>
    obtain ⟨h1, h2⟩ := new_range h
    obtain ⟨x', hx', ha, -⟩ := new_ok h1 h2
    rw [hx'] at h
    injection h with h
    rw [← h]; exact ha
  | next _ hn hx ih =>
    obtain ⟨x', p, h1, h2, -⟩ := next_ok ih hn
    rw [h1] at hx
    injection hx with hx; injection hx with hx _
    rw [← hx]; exact h2
  | nextEnd _ hx ih =>
    rw [next_end ih] at hx
    injection hx with hx; injection hx with hx _
    rw [← hx]; exact ih
  | call _ hn hp hx ih =>
    obtain ⟨x', p, v, h1, h2, -⟩ := call_new ih hn hp
    rw [h1] at hx
    injection hx with hx; injection hx with hx _
    rw [← hx]; exact h2
  | callEnd _ hp hx ih =>
    rw [call_end ih hp] at hx
    injection hx with hx; injection hx with hx _
    rw [← hx]; exact ih
  | callMid _ hp hx ih =>
    obtain ⟨v, h1, -, h2⟩ := call_mid ih hp
    rw [h1] at hx
    injection hx with hx; injection hx with hx _
    rw [← hx]; exact h2
  | skip _ hc hx ih =>
    obtain ⟨x', h1, h2, -⟩ := skip_ok ih hc
    rw [h1] at hx
    injection hx with hx
    rw [← hx]; exact h2
  | reset _ hx ih =>
    obtain ⟨x', h1, h2, -⟩ := reset_ok ih
    rw [h1] at hx
    injection hx with hx
    rw [← hx]; exact h2

/-- `IsPoint dim n p`: some generator of dimension `dim`, after some history in which it generated `n - 1`
points, returns the point `p` next. -/
def IsPoint (dim n : Nat) (p : List U32) : Prop :=
  0 < n ∧ ∃ x x', Hist dim x (n - 1) ∧ x.next = .ok (x', .ok p)

/-! ### C09 -/

/-- Direction numbers exist and are unique for every coordinate the generator supports. -/
theorem C09_direction_numbers {i : Nat} (hi : i < 1111) :
    (∃ m, IsDirection i m) ∧
    ∀ m m', IsDirection i m → IsDirection i m' → ∀ j < 32, m j = m' j := by
  obtain ⟨col, -, -, h⟩ := sobolColumn_eq hi
  exact ⟨⟨_, h⟩, fun m m' h h' => isDirection_unique h h' hi⟩

/-- **C09.**  Whatever the history of a generator that has produced `n` points, its next point is point
`n + 1`: each coordinate is the XOR of its direction numbers selected by the Gray code of `n + 1`. -/
theorem C09_closed_form {dim n : Nat} {x : Sobol} (h : Hist dim x n) (hn : n < 2 ^ 32 - 1) :
    ∃ x' p, x.next = .ok (x', .ok p) ∧ Hist dim x' (n + 1) ∧ p.length = dim ∧
      ∀ i < dim, ∀ m, IsDirection i m → p.getD i 0 = sobolValue m (n + 1) := by
  obtain ⟨x', p, h1, -, h3, -⟩ := next_ok (hist_at h) hn
  exact ⟨x', p, h1, Hist.next h hn h1, h3.1, h3.2⟩

/-- Every position is reached. -/
theorem C09_all_positions {dim : Nat} (h1 : 1 ≤ dim) (h2 : dim ≤ 1111) :
    ∀ n ≤ 2 ^ 32 - 1, ∃ x, Hist dim x n := by
  intro n
  induction n with
  | zero =>
    intro _
    obtain ⟨x, hx, -⟩ := new_ok h1 h2
    exact ⟨x, .new hx⟩
  | succ n ih =>
    intro hn
    obtain ⟨x, hx⟩ := ih (by omega)
    obtain ⟨x', p, -, h, -⟩ := C09_closed_form hx (by omega)
    exact ⟨x', h⟩

theorem isPoint_at {dim n : Nat} {p : List U32} (h : IsPoint dim n p) :
    PointAt dim n p ∧ n ≤ 2 ^ 32 - 1 ∧ dim ≤ 1111 := by
  obtain ⟨hn, x, x', hx, he⟩ := h
  have ha := hist_at hx
  by_cases hlt : n - 1 < 2 ^ 32 - 1
  · obtain ⟨x'', q, h1, -, h3, -⟩ := next_ok ha hlt
    rw [h1] at he
    injection he with he; injection he with _ he; injection he with he
    rw [← he]
    refine ⟨?_, by omega, ha.data.dim⟩
    rwa [show n - 1 + 1 = n by omega] at h3
  · have : n - 1 = 2 ^ 32 - 1 := by have := ha.bound; omega
    rw [this] at ha
    rw [next_end ha] at he
    injection he with he; injection he with _ he
    exact absurd he (by simp)

/-- Points are determined by their position. -/
theorem C09_point_unique {dim n : Nat} {p q : List U32} (hp : IsPoint dim n p) (hq : IsPoint dim n q) : p = q :=
  pointAt_unique (isPoint_at hp).2.2 (isPoint_at hp).1 (isPoint_at hq).1

theorem C09_point_exists {dim n : Nat} (h1 : 1 ≤ dim) (h2 : dim ≤ 1111) (hn : 0 < n) (hn' : n ≤ 2 ^ 32 - 1) :
    ∃ p, IsPoint dim n p := by
  obtain ⟨x, hx⟩ := C09_all_positions h1 h2 (n - 1) (by omega)
  obtain ⟨x', p, h, -⟩ := C09_closed_form hx (by omega)
  exact ⟨p, hn, x, x', hx, h⟩

/-- The hypotheses are met: a generator of dimension 3 exists, and so does its 5th point. -/
example : (∃ x, Hist 3 x 4) ∧ ∃ p, IsPoint 3 5 p :=
  ⟨C09_all_positions (by omega) (by omega) 4 (by omega), C09_point_exists (by omega) (by omega) (by omega) (by omega)⟩

/-- The first values of the first coordinate are 1/2, 3/4, 1/4 (in units of 2^-32). -/
example : sobolValue (fun _ => 1) 1 = 0x80000000#32 ∧ sobolValue (fun _ => 1) 2 = 0xC0000000#32 ∧
    sobolValue (fun _ => 1) 3 = 0x40000000#32 := by decide

/-! ### C10 -/

theorem point_coord {dim n i : Nat} {p : List U32} (h : IsPoint dim n p) (hi : i < dim) :
    ∃ m, IsDirection i m ∧ p.getD i 0 = sobolValue m n ∧
      ∀ j < 32, (m j).getLsbD 0 = true ∧ ∀ b, j < b → (m j).getLsbD b = false := by
  obtain ⟨hp, -, hd⟩ := isPoint_at h
  obtain ⟨⟨m, hm⟩, -⟩ := C09_direction_numbers (i := i) (by omega)
  exact ⟨m, hm, hp.2 i hi m hm, isDirection_shape (by omega) hm⟩

/-- **C10.**  Every coordinate of every point is strictly between 0 and 1 (in units of 2^-32). -/
theorem C10_open_interval {dim n i : Nat} {p : List U32} (h : IsPoint dim n p) (hi : i < dim) :
    0 < (p.getD i 0).toNat ∧ (p.getD i 0).toNat < 2 ^ 32 := by
  obtain ⟨m, -, hv, hm⟩ := point_coord h hi
  refine ⟨?_, (p.getD i 0).isLt⟩
  rcases Nat.eq_zero_or_pos (p.getD i 0).toNat with h0 | h0
  · exfalso
    have hn := (isPoint_at h).2.1
    have := sobolValue_block_inj hm (k := 32) (n := n) (n' := 0) le_rfl (by omega) (by omega)
      (by rw [Nat.div_eq_of_lt (by omega), Nat.div_eq_of_lt (by omega)])
      (by rw [← hv, h0, sobolValue_zero]; rfl)
    have := h.1
    omega
  · exact h0

/-- **C10**, what Python sees: each coordinate is the double `v / 2^32`, exactly, with `0 < v < 2^32`. -/
theorem C10_python_value (fp : FP) (hfp : fp.Good) {dim n : Nat} {g : SobolGenerator}
    (hg : Hist dim g.sobol n) (hn : n < 2 ^ 32 - 1) :
    ∃ g' r, g.next fp = .ok (g', .ok r) ∧ r.length = dim ∧
      ∀ i < dim, ∃ v : Nat, r.getD i .nan = .fin ((v : ℚ) / 2 ^ 32) ∧ 0 < v ∧ v < 2 ^ 32 := by
  obtain ⟨x', p, h1, h2, h3, h4⟩ := C09_closed_form hg hn
  have hpoint : IsPoint dim (n + 1) p := ⟨by omega, _, _, hg, h1⟩
  unfold SobolGenerator.next
  rw [h1]
  simp only [Out.ok_bind, Out.pure_eq]
  refine ⟨_, _, rfl, by simpa using h3, ?_⟩
  intro i hi
  obtain ⟨h5, h6⟩ := C10_open_interval hpoint hi
  refine ⟨(p.getD i 0).toNat, ?_, h5, h6⟩
  have hlt : i < p.length := by omega
  have hscale : SobolGenerator.scale fp = .fin ((1 : ℚ) / 2 ^ 32) := by
    unfold SobolGenerator.scale FP.ofInt
    have e1 := hfp.dyadic (2 ^ 32) 0 (by norm_num) (by omega)
    simp only [pow_zero, div_one] at e1
    rw [e1]
    unfold FP.div
    simp only
    rw [if_neg (by norm_num)]
    have e2 := hfp.dyadic 1 32 (by norm_num) (by omega)
    push_cast at e2 ⊢
    exact e2
  rw [List.getD_eq_getElem?_getD, List.getElem?_map, List.getElem?_eq_getElem hlt]
  have hpi : p.getD i 0 = p[i] := by simp [List.getD_eq_getElem?_getD, hlt]
  rw [hpi] at h6 ⊢
  simp only [Option.map_some, Option.getD_some]
  have e3 : fp.ofInt (p[i].toNat : ℤ) = .fin (p[i].toNat : ℚ) := by
    unfold FP.ofInt
    have := hfp.dyadic (p[i].toNat : ℤ) 0 (by rw [abs_of_nonneg (by omega)]; norm_cast; omega) (by omega)
    simpa using this
  rw [e3, hscale]
  unfold FP.mul
  simp only
  have := hfp.dyadic (p[i].toNat : ℤ) 32 (by rw [abs_of_nonneg (by omega)]; norm_cast; omega) (by omega)
  rw [mul_one_div]
  simpa using this

example : ∃ x : SobolGenerator, Hist 2 x.sobol 7 := by
  obtain ⟨x, hx⟩ := C09_all_positions (dim := 2) (by omega) (by omega) 7 (by omega)
  exact ⟨⟨x⟩, hx⟩

/-! ### C11 -/

/-- **C11.**  The values of one coordinate at different positions are different. -/
theorem C11_no_repeats {dim n n' i : Nat} {p q : List U32} (hp : IsPoint dim n p) (hq : IsPoint dim n' q)
    (hi : i < dim) (hne : n ≠ n') : p.getD i 0 ≠ q.getD i 0 := by
  obtain ⟨m, hm, hv, hshape⟩ := point_coord hp hi
  have hw := (isPoint_at hq).1.2 i hi m hm
  have hn := (isPoint_at hp).2.1
  have hn' := (isPoint_at hq).2.1
  intro heq
  apply hne
  apply sobolValue_block_inj hshape (k := 32) le_rfl (by omega) (by omega)
  · rw [Nat.div_eq_of_lt (by omega), Nat.div_eq_of_lt (by omega)]
  · rw [← hv, ← hw, heq]

example : ∃ p q, IsPoint 4 3 p ∧ IsPoint 4 9 q := by
  obtain ⟨p, hp⟩ := C09_point_exists (dim := 4) (n := 3) (by omega) (by omega) (by omega) (by omega)
  obtain ⟨q, hq⟩ := C09_point_exists (dim := 4) (n := 9) (by omega) (by omega) (by omega) (by omega)
  exact ⟨p, q, hp, hq⟩

/-! ### C12 -/

/-- The value of coordinate `i` at position `n`: 0 at position 0 (the origin, which the generator does not
return), the coordinate of point `n` otherwise. -/
def CoordValue (dim i n : Nat) (v : Nat) : Prop :=
  (n = 0 ∧ v = 0) ∨ ∃ p, IsPoint dim n p ∧ v = (p.getD i 0).toNat

/-- **C12.**  In every aligned block of 2^k positions, each interval [t/2^k, (t+1)/2^k) contains the value
of exactly one position. -/
theorem C12_stratified {dim i k j t : Nat} (h1 : 1 ≤ dim) (h2 : dim ≤ 1111) (hi : i < dim) (hk : k ≤ 32)
    (hj : (j + 1) * 2 ^ k ≤ 2 ^ 32) (ht : t < 2 ^ k) :
    ∃! n, j * 2 ^ k ≤ n ∧ n < (j + 1) * 2 ^ k ∧
      ∃ v, CoordValue dim i n v ∧ t * 2 ^ (32 - k) ≤ v ∧ v < (t + 1) * 2 ^ (32 - k) := by
  obtain ⟨⟨m, hm⟩, -⟩ := C09_direction_numbers (i := i) (by omega)
  have hshape := isDirection_shape (by omega) hm
  -- the value at position n is sobolValue m n
  have hval : ∀ n v, n ≤ 2 ^ 32 - 1 → (CoordValue dim i n v ↔ v = (sobolValue m n).toNat) := by
    intro n v hn
    constructor
    · rintro (⟨rfl, rfl⟩ | ⟨p, hp, rfl⟩)
      · rw [sobolValue_zero]; rfl
      · rw [(isPoint_at hp).1.2 i hi m hm]
    · intro hv
      rcases Nat.eq_zero_or_pos n with h0 | h0
      · subst h0
        rw [sobolValue_zero] at hv
        exact Or.inl ⟨rfl, hv⟩
      · obtain ⟨p, hp⟩ := C09_point_exists h1 h2 h0 hn
        refine Or.inr ⟨p, hp, ?_⟩
        rw [(isPoint_at hp).1.2 i hi m hm, hv]
  have hpow : 2 ^ 32 = 2 ^ k * 2 ^ (32 - k) := by rw [← Nat.pow_add]; congr 1; omega
  have hpos : 0 < 2 ^ (32 - k) := Nat.two_pow_pos _
  have hposk : 0 < 2 ^ k := Nat.two_pow_pos _
  have hjk : ∀ r, r < 2 ^ k → j * 2 ^ k + r < 2 ^ 32 := by
    intro r hr
    have : (j + 1) * 2 ^ k = j * 2 ^ k + 2 ^ k := by ring
    omega
  have hdiv : ∀ r, r < 2 ^ k → (j * 2 ^ k + r) / 2 ^ k = j := by
    intro r hr
    rw [Nat.mul_comm, Nat.mul_add_div hposk, Nat.div_eq_of_lt hr, Nat.add_zero]
  have hcell : ∀ n, (sobolValue m n).toNat / 2 ^ (32 - k) < 2 ^ k := by
    intro n
    rw [Nat.div_lt_iff_lt_mul hpos, ← hpow]
    exact (sobolValue m n).isLt
  have hbij : Function.Bijective (fun r : Fin (2 ^ k) =>
      (⟨(sobolValue m (j * 2 ^ k + r)).toNat / 2 ^ (32 - k), hcell _⟩ : Fin (2 ^ k))) := by
    rw [← Finite.injective_iff_bijective]
    intro r r' hrr
    have heq := congrArg Fin.val hrr
    simp only at heq
    have := sobolValue_block_inj hshape hk (hjk r r.isLt) (hjk r' r'.isLt)
      (by rw [hdiv r r.isLt, hdiv r' r'.isLt]) heq
    exact Fin.ext (by omega)
  obtain ⟨r, hr⟩ := hbij.2 ⟨t, ht⟩
  have hr' := congrArg Fin.val hr
  simp only at hr'
  have hsplit : (j + 1) * 2 ^ k = j * 2 ^ k + 2 ^ k := by ring
  have hin : ∀ v, (t * 2 ^ (32 - k) ≤ v ∧ v < (t + 1) * 2 ^ (32 - k)) ↔ v / 2 ^ (32 - k) = t := by
    intro v
    rw [Nat.div_eq_iff hpos]
    have : (t + 1) * 2 ^ (32 - k) = t * 2 ^ (32 - k) + 2 ^ (32 - k) := by ring
    omega
  refine ⟨j * 2 ^ k + r, ⟨by omega, by have := r.isLt; omega, (sobolValue m (j * 2 ^ k + r)).toNat, ?_, ?_⟩, ?_⟩
  · have := hjk r r.isLt
    exact (hval _ _ (by omega)).mpr rfl
  · exact (hin _).mpr hr'
  · rintro n ⟨hn1, hn2, v, hv, hv2⟩
    have hn3 : n - j * 2 ^ k < 2 ^ k := by omega
    have hn4 : n = j * 2 ^ k + (n - j * 2 ^ k) := by omega
    have hlt := hjk _ hn3
    rw [(hval n v (by omega))] at hv
    have hv3 := (hin v).mp hv2
    rw [hv] at hv3
    have := @hbij.1 ⟨n - j * 2 ^ k, hn3⟩ r (Fin.ext (by
      simp only
      rw [← hn4, hv3, hr']))
    have := congrArg Fin.val this
    simp only at this
    omega

example : (1 : Nat) ≤ 5 ∧ 5 ≤ 1111 ∧ 4 < 5 ∧ 10 ≤ 32 ∧ (7 + 1) * 2 ^ 10 ≤ 2 ^ 32 ∧ 1000 < 2 ^ 10 := by decide

/-! ### C13 -/

/-- `k` requests for a point, one after the other; failures do not stop the requests.  The points
returned, in order. -/
def requests : Nat → Sobol → Out (Sobol × List (List U32))
  | 0, x => .ok (x, [])
  | k + 1, x => do
    let r ← x.next
    let rest ← requests k r.1
    pure (rest.1, (match r.2 with | .ok p => [p] | .error _ => []) ++ rest.2)

theorem requests_ok {dim : Nat} : ∀ (k n : Nat) (x : Sobol), Hist dim x n →
    ∃ x' ps, requests k x = .ok (x', ps) ∧ Hist dim x' (min (n + k) (2 ^ 32 - 1)) ∧
      ps.length = min k (2 ^ 32 - 1 - n)
  | 0, n, x, h => ⟨x, [], rfl, by
      rw [Nat.add_zero, min_eq_left (hist_at h).bound]; exact h, by simp⟩
  | k + 1, n, x, h => by
    unfold requests
    by_cases hn : n < 2 ^ 32 - 1
    · obtain ⟨x', p, h1, h2, -⟩ := C09_closed_form h hn
      obtain ⟨x'', ps, h3, h4, h5⟩ := requests_ok k (n + 1) x' h2
      rw [h1]
      simp only [Out.ok_bind, h3, Out.pure_eq]
      refine ⟨_, _, rfl, ?_, ?_⟩
      · rw [show n + (k + 1) = n + 1 + k by omega]; exact h4
      · simp only [List.length_append, List.length_singleton, h5]
        omega
    · have hb := (hist_at h).bound
      have : n = 2 ^ 32 - 1 := by omega
      subst this
      rw [next_end (hist_at h)]
      obtain ⟨x'', ps, h3, h4, h5⟩ := requests_ok k (2 ^ 32 - 1) x h
      simp only [Out.ok_bind, h3, Out.pure_eq]
      refine ⟨_, _, rfl, ?_, ?_⟩
      · rw [min_eq_right (by omega)] at h4 ⊢; exact h4
      · simp only [List.length_append, List.length_nil, h5]
        omega

/-- **C13**, the C++ generator: of any number of requests to a fresh generator exactly the first 2^32 - 1
return a point (the points are C09's); every later one throws and leaves the object unchanged. -/
theorem C13_exhaustion {dim : Nat} {x : Sobol} (h : Sobol.new dim 0 = .ok x) (k : Nat) :
    (∃ x' ps, requests k x = .ok (x', ps) ∧ ps.length = min k (2 ^ 32 - 1)) ∧
    ∀ x', Hist dim x' (2 ^ 32 - 1) → x'.next = .ok (x', .error .sobolExhausted) := by
  refine ⟨?_, fun x' hx' => next_end (hist_at hx')⟩
  obtain ⟨x', ps, h1, -, h3⟩ := requests_ok k 0 x (.new h)
  exact ⟨x', ps, h1, by simpa using h3⟩

/-- **C13**, Python, the part that holds: an exhausted generator raises and stays exhausted.  Missing: the
exception is not `StopIteration`, see `C13_python_not_stop_iteration`. -/
theorem C13_python_exhaustion_partial (fp : FP) {dim : Nat} {g : SobolGenerator}
    (h : Hist dim g.sobol (2 ^ 32 - 1)) : ∃ e, g.next fp = .ok (g, .error e) := by
  unfold SobolGenerator.next
  rw [next_end (hist_at h)]
  exact ⟨_, rfl⟩

/-- **C13 is false of the code** in Python: exhaustion raises the exception made from `std::out_of_range`
(`IndexError`), not `StopIteration`, for every exhausted generator. -/
theorem C13_python_not_stop_iteration (fp : FP) {dim : Nat} {g : SobolGenerator}
    (h : Hist dim g.sobol (2 ^ 32 - 1)) :
    g.next fp = .ok (g, .error .sobolExhausted) ∧ g.next fp ≠ .ok (g, .error .stopIteration) := by
  have : g.next fp = .ok (g, .error .sobolExhausted) := by
    unfold SobolGenerator.next
    rw [next_end (hist_at h)]
    rfl
  exact ⟨this, by rw [this]; simp⟩

example : ∃ g : SobolGenerator, Hist 2 g.sobol (2 ^ 32 - 1) := by
  obtain ⟨x, hx⟩ := C09_all_positions (dim := 2) (by omega) (by omega) (2 ^ 32 - 1) (by omega)
  exact ⟨⟨x⟩, hx⟩

/-! ### C14, C15 -/

theorem skipCount_small {n : Nat} (h : n ≤ 2) : skipCount n = .ok 1 := by
  unfold skipCount
  apply loop_exit
  simp; omega

theorem skipCount_loop (n : Nat) (hn : n ≤ 2 ^ 31) : ∀ (d e : Nat), d + e = 31 → 2 ^ e < n →
    ∃ f, loop (fun k => decide (k * 2 % 2 ^ 32 < n)) (fun k => .ok (k * 2 % 2 ^ 32)) (2 ^ e) = .ok (2 ^ f) ∧
      2 ^ f < n ∧ n ≤ 2 * 2 ^ f
  | 0, e, h, hlt => by
    have : e = 31 := by omega
    subst this
    omega
  | d + 1, e, h, hlt => by
    have hp : 2 ^ (e + 1) ≤ 2 ^ 31 := Nat.pow_le_pow_right (by omega) (by omega)
    have he : 2 ^ e * 2 % 2 ^ 32 = 2 ^ (e + 1) := by
      rw [← Nat.pow_succ]
      exact Nat.mod_eq_of_lt (by omega)
    by_cases hc : 2 ^ (e + 1) < n
    · obtain ⟨f, h1, h2, h3⟩ := skipCount_loop n hn d (e + 1) (by omega) hc
      refine ⟨f, ?_, h2, h3⟩
      rw [← h1]
      apply loop_step
      · simp only [he, hc, decide_true]
      · simp only [he]
    · refine ⟨e, ?_, hlt, by rw [Nat.pow_succ] at hc; omega⟩
      apply loop_exit
      simp only [he, hc, decide_false]

/-- the number of points `nlopt_sobol_skip` discards -/
theorem skipCount_ok {n : Nat} (h2 : 2 ≤ n) (hn : n ≤ 2 ^ 31) :
    ∃ f, skipCount n = .ok (2 ^ f) ∧ 2 ^ f < n ∧ n ≤ 2 * 2 ^ f :=
  skipCount_loop n hn 31 0 (by omega) (by simp; omega)

theorem skipCount_diverges {n : Nat} (hn : 2 ^ 31 < n) : skipCount n = .diverges := by
  unfold skipCount
  apply loop_diverges (fun k => k = 0 ∨ ∃ e ≤ 31, k = 2 ^ e)
  · rintro k (rfl | ⟨e, he, rfl⟩)
    · exact ⟨by simp; omega, 0, rfl, Or.inl rfl⟩
    · by_cases h31 : e = 31
      · subst h31
        exact ⟨by simp; omega, 0, by norm_num, Or.inl rfl⟩
      · have hp : 2 ^ (e + 1) ≤ 2 ^ 31 := Nat.pow_le_pow_right (by omega) (by omega)
        have hm : 2 ^ e * 2 % 2 ^ 32 = 2 ^ (e + 1) := by
          rw [← Nat.pow_succ]
          exact Nat.mod_eq_of_lt (by omega)
        refine ⟨by simp only [hm, decide_eq_true_eq]; omega, 2 ^ (e + 1), by simp only [hm], ?_⟩
        exact Or.inr ⟨e + 1, by omega, rfl⟩
  · exact Or.inr ⟨0, by omega, rfl⟩

/-- Discarding `k` points through the public interface. -/
def discard : Nat → Sobol → Out Sobol
  | 0, x => .ok x
  | k + 1, x => do
    let r ← x.next
    discard k r.1

theorem genTimes_discard : ∀ (k : Nat) (x : Sobol),
    (genTimes k x.s x.buf >>= fun r => .ok { x with s := r.1, buf := r.2 }) = discard k x
  | 0, x => rfl
  | k + 1, x => by
    unfold genTimes discard Sobol.next
    cases h : sobolGen x.s x.buf with
    | ok r =>
      simp only [Out.ok_bind]
      have := genTimes_discard k { x with s := r.1, buf := r.2.1 }
      simp only at this
      rw [this]
      cases r.2.2 <;> simp
    | thrown e => rfl
    | ub u => rfl
    | diverges => rfl

theorem new_skip {dim n : Nat} (hn : 0 < n) :
    Sobol.new dim n = (Sobol.new dim 0 >>= fun x => x.skip n) := by
  unfold Sobol.new
  by_cases h1 : 2 ^ 61 ≤ dim
  · rw [if_pos h1, if_pos h1]; rfl
  · rw [if_neg h1, if_neg h1]
    by_cases h2 : dim < 1 ∨ 1111 < dim
    · rw [if_pos h2, if_pos h2]; rfl
    · rw [if_neg h2, if_neg h2]
      cases h : sobolCreate dim with
      | ok r =>
        cases r with
        | none => rfl
        | some s => simp [hn]
      | thrown e => rfl
      | ub u => rfl
      | diverges => rfl

theorem reset_skip {x : Sobol} {n : Nat} (hn : 0 < n) : x.reset n = (x.reset 0 >>= fun y => y.skip n) := by
  unfold Sobol.reset
  cases h : sobolCreate x.dim with
  | ok r =>
    cases r with
    | none => rfl
    | some s => simp [hn]
  | thrown e => rfl
  | ub u => rfl
  | diverges => rfl

/-- **C14**, the part that holds: for `2 <= n <= 2^31`, constructing with `skips = n` is the same as
constructing without skips and discarding as many points as the largest power of two smaller than `n`.
Missing: `n = 1` (see `C14_skip_one`) and `n > 2^31` (see `C15_skip_diverges`). -/
theorem C14_skip_partial {dim n : Nat} (h2 : 2 ≤ n) (hn : n ≤ 2 ^ 31) :
    ∃ k, IsGreatest {k | (∃ e, k = 2 ^ e) ∧ k < n} k ∧
      Sobol.new dim n = (Sobol.new dim 0 >>= discard k) := by
  obtain ⟨f, h3, h4, h5⟩ := skipCount_ok h2 hn
  refine ⟨2 ^ f, ⟨⟨⟨f, rfl⟩, h4⟩, ?_⟩, ?_⟩
  · rintro k ⟨⟨e, rfl⟩, hk⟩
    have : 2 ^ e < 2 ^ (f + 1) := by rw [Nat.pow_succ]; omega
    have : e < f + 1 := (Nat.pow_lt_pow_iff_right (by omega)).mp this
    exact Nat.pow_le_pow_right (by omega) (by omega)
  · rw [new_skip (by omega)]
    congr 1
    funext x
    rw [← genTimes_discard]
    unfold Sobol.skip sobolSkip
    rw [h3]
    rfl

/-- **C14**, `n = 0` skips nothing. -/
theorem C14_skip_zero {dim : Nat} : Sobol.new dim 0 = (Sobol.new dim 0 >>= discard 0) := by
  show _ = (Sobol.new dim 0 >>= fun x => .ok x)
  cases Sobol.new dim 0 <;> rfl

/-- **C14 is false for `n = 1`**: no power of two is smaller than 1, yet one point is discarded, as for
`n = 2`. -/
theorem C14_skip_one {dim : Nat} :
    (¬ ∃ e : Nat, 2 ^ e < 1) ∧ Sobol.new dim 1 = (Sobol.new dim 0 >>= discard 1) := by
  refine ⟨?_, ?_⟩
  · rintro ⟨e, he⟩
    have := Nat.two_pow_pos e
    omega
  · rw [new_skip (by omega)]
    congr 1
    funext x
    rw [← genTimes_discard]
    unfold Sobol.skip sobolSkip
    rw [skipCount_small (by omega)]
    rfl

example : skipCount 1000 = .ok 512 := by
  obtain ⟨f, h1, h2, h3⟩ := skipCount_ok (n := 1000) (by omega) (by omega)
  have : f = 9 := by
    have h4 : 2 ^ f < 2 ^ 10 := by omega
    have h5 : 2 ^ 8 < 2 ^ f := by omega
    have h6 := (Nat.pow_lt_pow_iff_right (a := 2) (by omega)).mp h4
    have h7 := (Nat.pow_lt_pow_iff_right (a := 2) (by omega)).mp h5
    omega
  rw [h1, this]; rfl

/-- **C15**, the part that holds: skips up to 2^31 return.  Missing: larger skips, for which the property is
false, see `C15_skip_diverges`. -/
theorem C15_skip_terminates_partial {dim n : Nat} (h1 : 1 ≤ dim) (h2 : dim ≤ 1111) (hn : n ≤ 2 ^ 31) :
    ∃ x, Sobol.new dim n = .ok x := by
  obtain ⟨x, hx, ha, -⟩ := new_ok h1 h2
  rcases Nat.eq_zero_or_pos n with h0 | h0
  · subst h0; exact ⟨x, hx⟩
  · have : ∃ c, skipCount n = .ok c := by
      by_cases h : n ≤ 2
      · exact ⟨1, skipCount_small h⟩
      · obtain ⟨f, h, -⟩ := skipCount_ok (n := n) (by omega) hn
        exact ⟨_, h⟩
    obtain ⟨c, hc⟩ := this
    obtain ⟨x', h3, -⟩ := skip_ok ha hc
    rw [new_skip h0, hx]
    exact ⟨x', h3⟩

/-- **C15 is false of the code**: for every supported dimension and every skips above 2^31 the constructor
never returns. -/
theorem C15_skip_diverges {dim n : Nat} (h1 : 1 ≤ dim) (h2 : dim ≤ 1111) (hn : 2 ^ 31 < n) :
    Sobol.new dim n = .diverges := by
  obtain ⟨x, hx, ha, -⟩ := new_ok h1 h2
  rw [new_skip (by omega), hx]
  simp only [Out.ok_bind]
  unfold Sobol.skip sobolSkip
  rw [skipCount_diverges hn]
  rfl

example : (2 : Nat) ^ 31 < 2 ^ 32 - 1 := by decide

/-! ### C16 -/

/-- **C16.**  The first `d'` coordinates of a point of the `d`-dimensional sequence are the point of the
`d'`-dimensional sequence at that position. -/
theorem C16_projection {d d' n : Nat} {p q : List U32} (hd : d' ≤ d) (hp : IsPoint d n p)
    (hq : IsPoint d' n q) : q = p.take d' := by
  obtain ⟨h1, -, h3⟩ := isPoint_at hp
  obtain ⟨h4, -, h6⟩ := isPoint_at hq
  apply pointAt_unique h6 h4
  refine ⟨by simp [h1.1]; omega, ?_⟩
  intro i hi m hm
  have : (p.take d').getD i 0 = p.getD i 0 := by
    simp [List.getD_eq_getElem?_getD, hi]
  rw [this]
  exact h1.2 i (by omega) m hm

example : ∃ p q, IsPoint 1111 100 p ∧ IsPoint 12 100 q := by
  obtain ⟨p, hp⟩ := C09_point_exists (dim := 1111) (n := 100) (by omega) (by omega) (by omega) (by omega)
  obtain ⟨q, hq⟩ := C09_point_exists (dim := 12) (n := 100) (by omega) (by omega) (by omega) (by omega)
  exact ⟨p, q, hp, hq⟩

/-! ### C17 -/

/-- **C17**, the C++ class: construction succeeds exactly for dimensions 1 to 1111 and throws otherwise. -/
theorem C17_dimension_check (dim : Nat) :
    (1 ≤ dim ∧ dim ≤ 1111 → ∃ x, Sobol.new dim 0 = .ok x) ∧
    (¬ (1 ≤ dim ∧ dim ≤ 1111) → ∃ e, Sobol.new dim 0 = .thrown e) := by
  constructor
  · rintro ⟨h1, h2⟩
    obtain ⟨x, hx, -⟩ := new_ok h1 h2
    exact ⟨x, hx⟩
  · intro h
    unfold Sobol.new
    by_cases h1 : 2 ^ 61 ≤ dim
    · rw [if_pos h1]; exact ⟨_, rfl⟩
    · rw [if_neg h1, if_pos (by omega)]; exact ⟨_, rfl⟩

/-- **C17**, Python, the part that holds: dimensions below 2^32.  Missing: larger ones, for which the
property is false, see `C17_python_truncates`. -/
theorem C17_python_dimension_check_partial {dim : Nat} (hd : dim < 2 ^ 32) :
    (1 ≤ dim ∧ dim ≤ 1111 → ∃ x, SobolGenerator.new dim 0 = .ok x) ∧
    (¬ (1 ≤ dim ∧ dim ≤ 1111) → ∃ e, SobolGenerator.new dim 0 = .thrown e) := by
  obtain ⟨h1, h2⟩ := C17_dimension_check dim
  unfold SobolGenerator.new
  rw [Nat.mod_eq_of_lt hd]
  constructor
  · intro h
    obtain ⟨x, hx⟩ := h1 h
    rw [hx]; exact ⟨_, rfl⟩
  · intro h
    obtain ⟨e, he⟩ := h2 h
    rw [he]; exact ⟨_, rfl⟩

/-- **C17 is false of the code** in Python: 2^32 + 3 is accepted and gives a 3-dimensional sequence. -/
theorem C17_python_truncates : ∃ g, SobolGenerator.new (2 ^ 32 + 3) 0 = .ok g ∧ g.sobol.dim = 3 := by
  obtain ⟨x, hx, ha, -⟩ := new_ok (dim := 3) (by omega) (by omega)
  refine ⟨⟨x⟩, ?_, ha.dimEq⟩
  unfold SobolGenerator.new
  rw [show (2 ^ 32 + 3) % 2 ^ 32 = 3 by omega, hx]
  rfl

/-! ### C18 -/

/-- `k` calls of `operator()`, the values returned in order. -/
def calls : Nat → Sobol → Out (Sobol × List U32)
  | 0, x => .ok (x, [])
  | k + 1, x => do
    let r ← x.call
    match r.2 with
    | .error e => .thrown e
    | .ok v => do
      let rest ← calls k r.1
      pure (rest.1, v :: rest.2)

/-- the state after `q` values have been taken: `(q + dim - 1) / dim` points have been generated, the
current one is in the buffer -/
def StreamAt (dim q : Nat) (x : Sobol) : Prop :=
  ∃ n pos, q + dim = n * dim + pos ∧ 1 ≤ pos ∧ pos ≤ dim ∧ SobolAt dim n x ∧ x.pos = pos ∧
    (0 < n → PointAt dim n x.buf)

/-- the value number `q` of the stream (from 0): coordinate `q % dim` of point `q / dim + 1` -/
def StreamValue (dim q : Nat) (v : U32) : Prop :=
  ∃ p, PointAt dim (q / dim + 1) p ∧ p[q % dim]? = some v

theorem stream_step {dim q : Nat} {x : Sobol} (h : StreamAt dim q x) (hq : q < dim * (2 ^ 32 - 1)) :
    ∃ x' v, x.call = .ok (x', .ok v) ∧ StreamAt dim (q + 1) x' ∧ StreamValue dim q v := by
  obtain ⟨n, pos, hqn, hp1, hp2, hat, hpos, hpt⟩ := h
  have hd1 := hat.dim1
  by_cases hfull : x.pos = x.dim
  · -- new point
    have hpd : pos = dim := by rw [← hpos, hfull, hat.dimEq]
    have hqn' : q = n * dim := by omega
    have hn : n < 2 ^ 32 - 1 := by
      by_contra hcon
      have : dim * (2 ^ 32 - 1) ≤ n * dim := by
        rw [Nat.mul_comm n]; exact Nat.mul_le_mul_left _ (by omega)
      omega
    obtain ⟨x', p, v, h1, h2, h3, h4, h5, h6⟩ := call_new hat hn hfull
    refine ⟨x', v, h1, ⟨n + 1, 1, by rw [hqn', Nat.add_mul]; omega, by omega, hd1, h2, h5, fun _ => by rw [h4]; exact h3⟩, ?_⟩
    have e1 : q / dim = n := by rw [hqn']; exact Nat.mul_div_cancel _ (by omega)
    have e2 : q % dim = 0 := by rw [hqn']; exact Nat.mul_mod_left _ _
    exact ⟨p, by rw [e1]; exact h3, by rw [e2]; exact h6⟩
  · obtain ⟨v, h1, h2, h3⟩ := call_mid hat hfull
    have hlt : pos < dim := by have := hat.dimEq; omega
    have hn0 : 0 < n := by
      rcases Nat.eq_zero_or_pos n with h | h
      · subst h; omega
      · exact h
    obtain ⟨n', rfl⟩ : ∃ n', n = n' + 1 := ⟨n - 1, by omega⟩
    have hqe : q = dim * n' + pos := by
      rw [Nat.add_mul, Nat.mul_comm n'] at hqn; omega
    refine ⟨_, v, h1, ⟨n' + 1, pos + 1, by omega, by omega, by omega, h3, by simp [hpos], hpt⟩, ?_⟩
    have e1 : q / dim = n' := by
      rw [hqe, Nat.mul_add_div (by omega), Nat.div_eq_of_lt hlt, Nat.add_zero]
    have e2 : q % dim = pos := by
      rw [hqe, Nat.mul_add_mod, Nat.mod_eq_of_lt hlt]
    exact ⟨x.buf, by rw [e1]; exact hpt (by omega), by rw [e2, ← hpos]; exact h2⟩

theorem stream_calls {dim : Nat} : ∀ (k q : Nat) (x : Sobol), StreamAt dim q x → q + k ≤ dim * (2 ^ 32 - 1) →
    ∃ x' vs, calls k x = .ok (x', vs) ∧ vs.length = k ∧
      ∀ j v, vs[j]? = some v → StreamValue dim (q + j) v
  | 0, q, x, _, _ => ⟨x, [], rfl, rfl, by simp⟩
  | k + 1, q, x, h, hq => by
    obtain ⟨x', v, h1, h2, h3⟩ := stream_step h (by omega)
    obtain ⟨x'', vs, h4, h5, h6⟩ := stream_calls k (q + 1) x' h2 (by omega)
    refine ⟨x'', v :: vs, ?_, by simp [h5], ?_⟩
    · unfold calls
      rw [h1]
      simp only [Out.ok_bind]
      rw [h4]
      rfl
    · intro j w hj
      cases j with
      | zero =>
        simp at hj; subst hj; exact h3
      | succ j =>
        have := h6 j w (by simpa using hj)
        rwa [show q + 1 + j = q + (j + 1) by omega] at this

/-- **C18**, the part that holds: successive calls of `operator()` on a fresh object return the coordinates
of point 1, then of point 2, and so on.  Missing: restarting after `reset()`, which is false in general,
see `C18_reset_stale`. -/
theorem C18_stream_partial {dim : Nat} {x : Sobol} (h : Sobol.new dim 0 = .ok x) {k : Nat}
    (hk : k ≤ dim * (2 ^ 32 - 1)) :
    ∃ x' vs, calls k x = .ok (x', vs) ∧ vs.length = k ∧
      ∀ j v, vs[j]? = some v → ∃ p, IsPoint dim (j / dim + 1) p ∧ p[j % dim]? = some v := by
  obtain ⟨h1, h2⟩ := new_range h
  obtain ⟨x0, hx0, hat, hpos⟩ := new_ok h1 h2
  rw [hx0] at h
  injection h with h
  subst h
  obtain ⟨x', vs, h3, h4, h5⟩ := stream_calls k 0 x0
    ⟨0, dim, by omega, h1, le_rfl, hat, hpos, fun h => absurd h (by omega)⟩ (by omega)
  refine ⟨x', vs, h3, h4, ?_⟩
  intro j v hj
  obtain ⟨p, hp, hv⟩ := h5 j v hj
  rw [Nat.zero_add] at hp hv
  have hlt : j < k := by
    rw [← h4]; exact (List.getElem?_eq_some_iff.mp hj).1
  have hb : j / dim + 1 ≤ 2 ^ 32 - 1 := by
    have : j / dim < 2 ^ 32 - 1 := by
      rw [Nat.div_lt_iff_lt_mul (by omega), Nat.mul_comm]; omega
    omega
  obtain ⟨q, hq⟩ := C09_point_exists (n := j / dim + 1) h1 h2 (Nat.succ_pos _) hb
  refine ⟨q, hq, ?_⟩
  rw [pointAt_unique h2 (isPoint_at hq).1 hp]
  exact hv

/-- **C18**, restarting: `reset()` restarts the stream when the current point has been used up. -/
theorem C18_reset_between_points {dim n : Nat} {x : Sobol} (h : Hist dim x n) (hp : x.pos = dim) {k : Nat}
    (hk : k ≤ dim * (2 ^ 32 - 1)) :
    ∃ x' x'' vs, x.reset 0 = .ok x' ∧ calls k x' = .ok (x'', vs) ∧ vs.length = k ∧
      ∀ j v, vs[j]? = some v → StreamValue dim j v := by
  have hat := hist_at h
  obtain ⟨x', h1, h2, h3, -⟩ := reset_ok hat
  obtain ⟨x'', vs, h4, h5, h6⟩ := stream_calls k 0 x'
    ⟨0, dim, by omega, hat.dim1, le_rfl, h2, by rw [h3, hp], fun h => absurd h (by omega)⟩ (by omega)
  exact ⟨x', x'', vs, h1, h4, h5, by intro j v hj; have := h6 j v hj; rwa [Nat.zero_add] at this⟩

/-- **C18 is false of the code**: `reset()` in the middle of a point leaves the rest of the old point in the
stream: whenever the current point is not used up, the call after `reset()` returns the next coordinate of
the old point. -/
theorem C18_reset_stale {dim n : Nat} {x : Sobol} (h : Hist dim x n) (hp : x.pos ≠ dim) :
    ∃ x' x'' v, x.reset 0 = .ok x' ∧ x'.call = .ok (x'', .ok v) ∧ x.buf[x.pos]? = some v := by
  have hat := hist_at h
  obtain ⟨x', h1, h2, h3, h4⟩ := reset_ok hat
  obtain ⟨v, h5, h6, -⟩ := call_mid h2 (by rw [h3, h2.dimEq]; exact hp)
  exact ⟨x', _, v, h1, h5, by rw [← h3, ← h4]; exact h6⟩

/-- A concrete case: dimension 2, after four calls and one more, `reset()`, and the next value is 3/4 (the
second coordinate of point 3), while the stream starts with 1/2. -/
theorem C18_reset_stale_witness :
    ∃ x x5 x' x'' vs v, Sobol.new 2 0 = .ok x ∧ calls 5 x = .ok (x5, vs) ∧ x5.reset 0 = .ok x' ∧
      x'.call = .ok (x'', .ok v) ∧ v = 0xC0000000#32 ∧ vs[0]? = some 0x80000000#32 := by
  refine ⟨{ s := { coords := [⟨List.replicate 32 1, 0, 0⟩, ⟨(List.range 32).map (fun j => xorSum (fun k => if Nat.choose j k % 2 = 1 then (1#32 <<< k) else 0) 32), 0, 0⟩], n := 0 }, dim := 2, buf := [0, 0], pos := 2 }, _, _, _, _, _, ?_, rfl, rfl, rfl, ?_, ?_⟩
  · decide +kernel
  · decide +kernel
  · decide +kernel

end HL

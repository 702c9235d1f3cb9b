import Verif.Proof.IntegeriseLemmas

namespace HL
namespace Integerise
variable {fp : FP}

/-- half a unit in the last place of 1 -/
def eps : ℚ := 1 / 2 ^ 53

theorem eps_pos : 0 < eps := by unfold eps; norm_num

theorem rnd_int (h : fp.Good) {z : Int} (hz : |z| ≤ 2 ^ 53) : fp.rnd z = .fin z := by
  have := h.dyadic z 0 hz (by norm_num)
  simpa using this

theorem rnd_zero' (h : fp.Good) : fp.rnd 0 = .fin 0 := by
  have := rnd_int h (z := 0) (by norm_num)
  simpa using this

/-- the smallest normal number -/
@[irreducible] def tinyQ : ℚ := (2 : ℚ) ^ (-1022 : ℤ)

/-- half of the largest power of two -/
@[irreducible] def hugeQ : ℚ := 2 ^ 1022

theorem tinyQ_eq : tinyQ = (2 : ℚ) ^ (-1022 : ℤ) := by unfold tinyQ; rfl

theorem hugeQ_eq : hugeQ = (2 : ℚ) ^ 1022 := by unfold hugeQ; rfl

theorem tinyQ_pos : 0 < tinyQ := by rw [tinyQ_eq]; positivity

theorem tinyQ_le : tinyQ ≤ 1 / 2 ^ 64 := by
  rw [tinyQ_eq]
  have : (2 : ℚ) ^ (-1022 : ℤ) ≤ 2 ^ (-64 : ℤ) := zpow_le_zpow_right₀ (by norm_num) (by norm_num)
  refine this.trans (le_of_eq ?_)
  norm_num

theorem hugeQ_ge : 2 ^ 64 ≤ hugeQ := by
  rw [hugeQ_eq]
  exact pow_le_pow_right₀ (by norm_num) (by norm_num)

theorem hugeQ_two : 2 * hugeQ = 2 ^ 1023 := by rw [hugeQ_eq, ← pow_succ']

theorem near' (h : fp.Good) (q : ℚ) (h1 : tinyQ ≤ |q|) (h2 : |q| ≤ 2 * hugeQ) :
    ∃ a, fp.rnd q = .fin a ∧ |a - q| ≤ |q| / 2 ^ 53 :=
  h.near q (tinyQ_eq ▸ h1) (hugeQ_two ▸ h2)

theorem finite' (h : fp.Good) (q : ℚ) (h2 : |q| ≤ 2 * hugeQ) : ∃ a, fp.rnd q = .fin a :=
  h.finite q (hugeQ_two ▸ h2)

/-- rounding a non-negative number below 2^1023 -/
theorem rnd_nonneg (h : fp.Good) {q : ℚ} (h0 : 0 ≤ q) (h1 : q ≤ 2 * hugeQ) : ∃ a, fp.rnd q = .fin a ∧ 0 ≤ a := by
  obtain ⟨a, ha⟩ := finite' h q (by rwa [abs_of_nonneg h0])
  exact ⟨a, ha, h.mono 0 q 0 a h0 (rnd_zero' h) ha⟩

/-- a tiny number rounds to at most 2^-64 -/
theorem rnd_tiny (h : fp.Good) {q a : ℚ} (h1 : q < tinyQ) (ha : fp.rnd q = .fin a) : a ≤ 1 / 2 ^ 64 := by
  have h2 := h.dyadic 1 64 (by norm_num) (by norm_num)
  refine h.mono q (1 / 2 ^ 64) a _ ?_ ha (by simpa using h2)
  exact h1.le.trans tinyQ_le

/-- an upper bound for the rounded value that holds without a lower bound on the argument -/
theorem rnd_upper (h : fp.Good) {q : ℚ} (h0 : 0 ≤ q) (h1 : q ≤ 2 * hugeQ) :
    ∃ a, fp.rnd q = .fin a ∧ 0 ≤ a ∧ (a ≤ 1 / 2 ^ 64 ∨ a ≤ q * (1 + eps)) := by
  obtain ⟨a, ha, ha0⟩ := rnd_nonneg h h0 h1
  refine ⟨a, ha, ha0, ?_⟩
  by_cases hq : q < tinyQ
  · exact Or.inl (rnd_tiny h hq ha)
  · right
    rw [not_lt] at hq
    obtain ⟨b, hb, hbn⟩ := near' h q (by rwa [abs_of_nonneg h0]) (by rwa [abs_of_nonneg h0])
    rw [ha] at hb
    injection hb with hb
    subst hb
    rw [abs_of_nonneg h0] at hbn
    have := (abs_le.mp hbn).2
    unfold eps
    linarith

/-- the product with the population and its truncation -/
theorem mul_pop (h : fp.Good) {p : ℚ} (hp0 : 0 ≤ p) (hp2 : p ≤ 2) {pop : Int} (h0 : 0 ≤ pop) (h1 : pop < 2 ^ 31)
    (hlt : p * pop * (1 + eps) < pop + 1) :
    ∃ y, fp.mul (.fin p) (fp.ofInt pop) = .fin y ∧ 0 ≤ y ∧ FP.toInt32 (.fin y) = .ok ⌊y⌋ ∧
      (⌊y⌋ : ℚ) ≤ p * pop * (1 + eps) := by
  have hpq : (0 : ℚ) ≤ pop := by exact_mod_cast h0
  have hpq1 : (pop : ℚ) + 1 ≤ 2 ^ 31 := by exact_mod_cast h1
  have e1 : fp.ofInt pop = .fin pop := rnd_int h (by rw [abs_of_nonneg h0]; omega)
  have hpp : p * pop ≤ 2 * 2 ^ 31 := by
    calc p * pop ≤ 2 * pop := by gcongr
      _ ≤ 2 * 2 ^ 31 := by linarith
  have hq0 : 0 ≤ p * pop := mul_nonneg hp0 hpq
  obtain ⟨y, hy, hy0, hyu⟩ := rnd_upper h hq0
    (by
      have h3 : (2 : ℚ) ^ 31 ≤ 2 ^ 64 := by norm_num
      linarith [hugeQ_ge])
  have he := eps_pos
  have hyle : (⌊y⌋ : ℚ) ≤ p * pop * (1 + eps) := by
    rcases hyu with hyu | hyu
    · have : ⌊y⌋ = 0 := by
        rw [Int.floor_eq_iff]
        constructor
        · simpa using hy0
        · have : (1 : ℚ) / 2 ^ 64 < 1 := by norm_num
          push_cast; linarith
      rw [this]
      push_cast
      positivity
    · exact (Int.floor_le y).trans hyu
  refine ⟨y, ?_, hy0, ?_, hyle⟩
  · rw [e1]; exact hy
  · apply toInt32_nonneg hy0
    rcases hyu with hyu | hyu
    · have : (1 : ℚ) / 2 ^ 64 < 2 ^ 31 := by norm_num
      linarith
    · linarith

/-- The sum of positive numbers of normal size, with its rounding error. -/
theorem sum_bounds (h : fp.Good) : ∀ (xs : List ℚ) (a T : ℚ) (k : Nat), (a = 0 ∨ tinyQ ≤ a) →
    (∀ x ∈ xs, x = 0 ∨ tinyQ ≤ x) → (∀ x ∈ xs, fp.rnd x = .fin x) → fp.rnd a = .fin a →
    T * (1 - k * eps) ≤ a → a ≤ T * (1 + 2 * k * eps) → 0 ≤ T → T + xs.sum ≤ hugeQ → k + xs.length ≤ 2 ^ 52 →
    ∃ S, (xs.map Fl.fin).foldl fp.add (.fin a) = .fin S ∧ (T + xs.sum) * (1 - (k + xs.length : Nat) * eps) ≤ S ∧
      S ≤ (T + xs.sum) * (1 + 2 * (k + xs.length : Nat) * eps) ∧ a ≤ S ∧ (∀ x ∈ xs, x ≤ S)
  | [], a, T, k, _, _, _, _, h1, h2, _, _, _ => ⟨a, rfl, by simpa using h1, by simpa using h2, le_rfl, by simp⟩
  | x :: xs, a, T, k, ha, hx, hr, hra, h1, h2, hT, hs, hk => by
    have he := eps_pos
    have tiny := tinyQ_pos
    have hx0 : 0 ≤ x := by
      rcases hx x (by simp) with h | h
      · exact h.ge
      · linarith
    have ha0 : 0 ≤ a := by
      rcases ha with h | h
      · exact h.ge
      · linarith
    have hxs0 : 0 ≤ xs.sum := List.sum_nonneg (fun y hy => by
      rcases hx y (by simp [hy]) with h | h
      · exact h.ge
      · linarith)
    rw [List.sum_cons] at hs
    rw [List.length_cons] at hk
    have hke : ((k : ℚ) + 1) * eps ≤ 1 / 2 := by
      have : ((k : ℚ) + 1) ≤ 2 ^ 52 := by
        have : k + 1 ≤ 2 ^ 52 := by omega
        exact_mod_cast this
      calc ((k : ℚ) + 1) * eps ≤ 2 ^ 52 * eps := by gcongr
        _ = 1 / 2 := by unfold eps; norm_num
    have hk0 : (0 : ℚ) ≤ k := by positivity
    -- the next partial sum
    have hax : a + x ≤ 2 * hugeQ := by
      have h3 : a ≤ 2 * T := by
        refine h2.trans ?_
        have : 1 + 2 * (k : ℚ) * eps ≤ 2 := by nlinarith
        nlinarith
      have hxT : T + x ≤ hugeQ := by linarith
      linarith
    have hstep : ∃ b, fp.add (.fin a) (.fin x) = .fin b ∧ |b - (a + x)| ≤ (a + x) * eps ∧
        (b = 0 ∨ tinyQ ≤ b) ∧ fp.rnd b = .fin b ∧ a ≤ b ∧ x ≤ b := by
      by_cases hz : a + x = 0
      · have ea : a = 0 := by linarith
        have ex : x = 0 := by linarith
        subst ea; subst ex
        refine ⟨0, ?_, by simp, Or.inl rfl, rnd_zero' h, le_rfl, le_rfl⟩
        show fp.rnd (0 + 0) = _
        rw [add_zero]; exact rnd_zero' h
      · have hge : tinyQ ≤ a + x := by
          rcases ha with h | h
          · rcases hx x (by simp) with h' | h'
            · exact absurd (by rw [h, h']; ring) hz
            · linarith
          · linarith
        have hpos : 0 ≤ a + x := by linarith
        obtain ⟨b, hb, hbn⟩ := near' h (a + x) (by rwa [abs_of_nonneg hpos]) (by rwa [abs_of_nonneg hpos])
        have hab : a ≤ b := h.mono a (a + x) a b (by linarith) hra hb
        have hxb : x ≤ b := h.mono x (a + x) x b (by linarith) (hr x (by simp)) hb
        refine ⟨b, hb, ?_, ?_, h.idem _ _ hb, hab, hxb⟩
        · rw [abs_of_nonneg hpos] at hbn
          refine hbn.trans (le_of_eq ?_)
          unfold eps; ring
        · right
          rcases ha with h | h
          · rcases hx x (by simp) with h' | h'
            · exact absurd (by rw [h, h']; ring) hz
            · linarith
          · linarith
    obtain ⟨b, hb, hbn, hb1, hb2, hb3, hb4⟩ := hstep
    obtain ⟨hbl, hbu⟩ := abs_le.mp hbn
    obtain ⟨S, hS, g1, g2, g3, g4⟩ := sum_bounds h xs b (T + x) (k + 1) hb1 (fun y hy => hx y (by simp [hy]))
      (fun y hy => hr y (by simp [hy])) hb2
      (by
        push_cast
        have : (T + x) * (1 - k * eps) ≤ a + x := by nlinarith [mul_nonneg hx0 (mul_nonneg hk0 he.le)]
        have h5 : a + x ≤ (T + x) * 2 := by
          have : 1 + 2 * (k : ℚ) * eps ≤ 2 := by nlinarith
          nlinarith
        -- b ≥ (a + x)(1 - eps) ≥ (T + x)(1 - k eps)(1 - eps) ≥ (T + x)(1 - (k+1) eps)
        have h6 : (a + x) * (1 - eps) ≤ b := by linarith
        have he1 : eps < 1 := by unfold eps; norm_num
        have h7 : (T + x) * (1 - k * eps) * (1 - eps) ≤ (a + x) * (1 - eps) := by
          apply mul_le_mul_of_nonneg_right this; linarith
        have h8 : 0 ≤ (T + x) * (k * eps * eps) := by positivity
        nlinarith)
      (by
        push_cast
        have h6 : b ≤ (a + x) * (1 + eps) := by linarith
        have h7 : a + x ≤ (T + x) * (1 + 2 * k * eps) := by nlinarith [mul_nonneg hx0 (mul_nonneg hk0 he.le)]
        have h8 : (a + x) * (1 + eps) ≤ (T + x) * (1 + 2 * k * eps) * (1 + eps) := by
          apply mul_le_mul_of_nonneg_right h7; linarith
        have h9 : (1 + 2 * (k : ℚ) * eps) * (1 + eps) ≤ 1 + 2 * (k + 1) * eps := by nlinarith
        have h10 : (T + x) * ((1 + 2 * (k : ℚ) * eps) * (1 + eps)) ≤ (T + x) * (1 + 2 * (k + 1) * eps) :=
          mul_le_mul_of_nonneg_left h9 (by linarith)
        nlinarith)
      (by linarith) (by linarith) (by omega)
    refine ⟨S, ?_, ?_, ?_, hb3.trans g3, ?_⟩
    · rw [List.map_cons, List.foldl_cons, hb]; exact hS
    · rw [List.sum_cons, List.length_cons]
      have e : k + 1 + xs.length = k + (xs.length + 1) := by omega
      rw [e] at g1
      rw [← add_assoc]; exact g1
    · rw [List.sum_cons, List.length_cons]
      have e : k + 1 + xs.length = k + (xs.length + 1) := by omega
      rw [e] at g2
      rw [← add_assoc]; exact g2
    · intro y hy
      rcases List.mem_cons.mp hy with rfl | hy
      · exact hb4.trans g3
      · exact g4 y hy

/-- From probabilities whose sum, with a rounding error, stays below `1 + 1 / pop`. -/
theorem marginal_rounded (h : fp.Good) {p : List ℚ} {pop : Int} (h0 : 0 ≤ pop) (h1 : pop < 2 ^ 31) (hne : p ≠ [])
    (hp : ∀ x ∈ p, 0 ≤ x ∧ x ≤ 2) {c : ℚ → ℚ} (hc : ∀ x ∈ p, x ≤ 1 / 2 ^ 64 ∨ x ≤ c x) (hc0 : ∀ x ∈ p, 0 ≤ c x)
    (hlt : (p.map c).sum * pop * (1 + eps) < pop + 1) :
    ∃ f e, marginal fp (p.map Fl.fin) pop = .ok (f, e) ∧ f.length = p.length ∧ (∀ k ∈ f, 0 ≤ k) ∧ f.sum = pop := by
  have he := eps_pos
  have hpq : (0 : ℚ) ≤ pop := by exact_mod_cast h0
  have hpq1 : (pop : ℚ) + 1 ≤ 2 ^ 31 := by exact_mod_cast h1
  -- every truncated product
  have key : ∀ x ∈ p, ∃ y, fp.mul (.fin x) (fp.ofInt pop) = .fin y ∧ 0 ≤ y ∧ FP.toInt32 (.fin y) = .ok ⌊y⌋ ∧
      (⌊y⌋ : ℚ) ≤ c x * pop * (1 + eps) := by
    intro x hx
    have hcx : c x * pop * (1 + eps) < pop + 1 := by
      have h2 : c x ≤ (p.map c).sum := List.single_le_sum (by
        intro y hy
        obtain ⟨z, hz, rfl⟩ := List.mem_map.mp hy
        exact hc0 z hz) _ (List.mem_map_of_mem hx)
      have h3 : c x * pop * (1 + eps) ≤ (p.map c).sum * pop * (1 + eps) := by gcongr
      linarith
    have hcx0 : 0 ≤ c x * pop * (1 + eps) := mul_nonneg (mul_nonneg (hc0 x hx) hpq) (by linarith)
    rcases hc x hx with hs | hs
    · have hs' : x * pop * (1 + eps) < 1 := by
        have e1 : x * pop ≤ 1 / 2 ^ 64 * 2 ^ 31 := mul_le_mul hs (by linarith) hpq (by norm_num)
        have e2 : (1 + eps) ≤ 2 := by unfold eps; norm_num
        have e3 : 0 ≤ x * pop := mul_nonneg (hp x hx).1 hpq
        calc x * pop * (1 + eps) ≤ 1 / 2 ^ 64 * 2 ^ 31 * 2 := mul_le_mul e1 e2 (by linarith) (by norm_num)
          _ < 1 := by norm_num
      obtain ⟨y, hy, hy0, hyt, hyl⟩ := mul_pop h (hp x hx).1 (hp x hx).2 h0 h1 (by linarith)
      refine ⟨y, hy, hy0, hyt, ?_⟩
      have : ⌊y⌋ < 1 := by
        have : (⌊y⌋ : ℚ) < 1 := lt_of_le_of_lt hyl hs'
        exact_mod_cast this
      have h3 : (⌊y⌋ : ℚ) ≤ 0 := by
        have : ⌊y⌋ ≤ 0 := by omega
        exact_mod_cast this
      linarith
    · have e1 : x * pop * (1 + eps) ≤ c x * pop * (1 + eps) := by gcongr
      obtain ⟨y, hy, hy0, hyt, hyl⟩ := mul_pop h (hp x hx).1 (hp x hx).2 h0 h1 (by linarith)
      exact ⟨y, hy, hy0, hyt, hyl.trans e1⟩
  let g : Fl → Int := fun x => match fp.mul x (fp.ofInt pop) with
    | .fin y => ⌊y⌋
    | _ => 0
  have hg : ∀ x ∈ p, FP.toInt32 (fp.mul (.fin x) (fp.ofInt pop)) = .ok (g (.fin x)) ∧ 0 ≤ g (.fin x) ∧
      (g (.fin x) : ℚ) ≤ c x * pop * (1 + eps) := by
    intro x hx
    obtain ⟨y, hy, hy0, hyt, hyl⟩ := key x hx
    have : g (.fin x) = ⌊y⌋ := by show (match fp.mul (.fin x) (fp.ofInt pop) with | .fin y => ⌊y⌋ | _ => 0) = _; rw [hy]
    rw [this, hy]
    exact ⟨hyt, Int.floor_nonneg.mpr hy0, hyl⟩
  have hsum : ∀ l : List ℚ, (∀ x ∈ l, x ∈ p) →
      ((((l.map Fl.fin).map g).sum : Int) : ℚ) ≤ (l.map c).sum * pop * (1 + eps) := by
    intro l
    induction l with
    | nil => intro _; simp
    | cons x l ih =>
      intro hl
      simp only [List.map_cons, List.sum_cons]
      push_cast
      have h3 := ih (fun y hy => hl y (by simp [hy]))
      have h4 := (hg x (hl x (by simp))).2.2
      have e : (c x + (l.map c).sum) * pop * (1 + eps) = c x * pop * (1 + eps) + (l.map c).sum * pop * (1 + eps) := by ring
      rw [e]
      push_cast at h3
      linarith
  obtain ⟨f, r, m1, m2, -, m4, m5, -⟩ := marginal_inv fp (p := p.map Fl.fin) (g := g) h1
    (by
      intro x hx
      obtain ⟨q, hq, rfl⟩ := List.mem_map.mp hx
      exact (hg q hq).1)
    (by
      intro x hx
      obtain ⟨q, hq, rfl⟩ := List.mem_map.mp hx
      exact (hg q hq).2.1)
    (by
      have h2 := hsum p (fun _ h => h)
      have h3 : ((((p.map Fl.fin).map g).sum : Int) : ℚ) < ((pop + 1 : Int) : ℚ) := by push_cast; push_cast at h2; linarith
      have h4 : ((p.map Fl.fin).map g).sum < pop + 1 := by exact_mod_cast h3
      omega)
    (Or.inl (by simpa using hne)) (fun _ _ => True) trivial (fun _ _ _ _ _ _ _ => trivial)
  exact ⟨f, _, m1, by simpa using m2, m4, m5⟩

/-- `integerise(frac, pop)` in rounded arithmetic. -/
theorem oneD_rounded (h : fp.Good) {xs : List ℚ} {pop : Int} (h0 : 0 ≤ pop) (h1 : pop < 2 ^ 31)
    (hn : (pop + 2) * (xs.length + 3) ≤ 2 ^ 53) (hr : ∀ x ∈ xs, fp.rnd x = .fin x)
    (hx : ∀ x ∈ xs, x = 0 ∨ tinyQ ≤ x) (hs0 : 0 < xs.sum) (hs1 : xs.sum ≤ hugeQ) :
    ∃ f e, oneD fp (xs.map Fl.fin) pop = .ok (f, e) ∧ f.length = xs.length ∧ (∀ k ∈ f, 0 ≤ k) ∧ f.sum = pop := by
  have he := eps_pos
  have tiny := tinyQ_pos
  have hpq : (0 : ℚ) ≤ pop := by exact_mod_cast h0
  have hnq : ((pop : ℚ) + 2) * (xs.length + 3) ≤ 2 ^ 53 := by exact_mod_cast hn
  have hn0 : (0 : ℚ) ≤ xs.length := by positivity
  have hlen : xs.length ≤ 2 ^ 52 := by
    have : 2 * ((xs.length : Int) + 3) ≤ 2 ^ 53 := le_trans (by gcongr; omega) hn
    omega
  have hne : xs ≠ [] := by rintro rfl; simp at hs0
  have hx0 : ∀ x ∈ xs, 0 ≤ x := by
    intro x hxm
    rcases hx x hxm with h | h
    · exact h.ge
    · linarith
  obtain ⟨S, hS, g1, g2, -, g4⟩ := sum_bounds h xs 0 0 0 (Or.inl rfl) hx hr (rnd_zero' h) (by simp) (by simp) le_rfl
    (by simpa using hs1) (by simpa using hlen)
  simp only [zero_add] at g1 g2
  -- the bound on `n * eps`
  have hne1 : (xs.length : ℚ) * eps < 1 := by
    have : (xs.length : ℚ) + 3 ≤ 2 ^ 53 / 2 := by nlinarith
    calc (xs.length : ℚ) * eps < (2 ^ 53 / 2) * eps := by
          apply mul_lt_mul_of_pos_right _ he; linarith
      _ ≤ 1 := by unfold eps; norm_num
  have hSpos : 0 < S := lt_of_lt_of_le (mul_pos hs0 (by linarith)) g1
  -- the probabilities
  have hdiv : ∀ x ∈ xs, ∃ p, fp.rnd (x / S) = .fin p ∧ 0 ≤ p ∧ p ≤ 1 ∧ (p ≤ 1 / 2 ^ 64 ∨ p ≤ x / S * (1 + eps)) := by
    intro x hxm
    have hq0 : 0 ≤ x / S := div_nonneg (hx0 x hxm) hSpos.le
    have hq1 : x / S ≤ 1 := by rw [div_le_one hSpos]; exact g4 x hxm
    obtain ⟨p, hp, hp0, hpu⟩ := rnd_upper h hq0 (by
        have h3 : (1 : ℚ) ≤ 2 ^ 64 := by norm_num
        linarith [hugeQ_ge])
    refine ⟨p, hp, hp0, ?_, hpu⟩
    have := rnd_int h (z := 1) (by norm_num)
    exact h.mono (x / S) 1 p 1 hq1 hp (by simpa using this)
  let val : ℚ → ℚ := fun x => match fp.rnd (x / S) with
    | .fin p => p
    | _ => 0
  have hval : ∀ x ∈ xs, fp.rnd (x / S) = .fin (val x) ∧ 0 ≤ val x ∧ val x ≤ 1 ∧
      (val x ≤ 1 / 2 ^ 64 ∨ val x ≤ x / S * (1 + eps)) := by
    intro x hxm
    obtain ⟨p, hp, hp0, hp1, hpu⟩ := hdiv x hxm
    have : val x = p := by show (match fp.rnd (x / S) with | .fin p => p | _ => 0) = p; rw [hp]
    rw [this]
    exact ⟨hp, hp0, hp1, hpu⟩
  have hmap : (xs.map Fl.fin).map (fun x => fp.div x (sumVec (numFl fp) (xs.map Fl.fin))) = (xs.map val).map Fl.fin := by
    have e : sumVec (numFl fp) (xs.map Fl.fin) = .fin S := hS
    rw [e, List.map_map, List.map_map]
    apply List.map_congr_left
    intro x hxm
    show (if S = 0 then FP.infOfSign x else fp.rnd (x / S)) = _
    rw [if_neg hSpos.ne']
    exact (hval x hxm).1
  -- work on the list of pairs to keep the bound next to the value
  have hdecomp : ∃ f e, marginal fp ((xs.map val).map Fl.fin) pop = .ok (f, e) ∧ f.length = (xs.map val).length ∧
      (∀ k ∈ f, 0 ≤ k) ∧ f.sum = pop := by
    -- the bound as a function of the value: the largest original with this value
    have hp1 : ∀ x ∈ xs.map val, 0 ≤ x ∧ x ≤ 2 := by
      intro x hxm
      obtain ⟨y, hy, rfl⟩ := List.mem_map.mp hxm
      have := hval y hy
      exact ⟨this.2.1, by linarith [this.2.2.1]⟩
    let c : ℚ → ℚ := fun v => if v ≤ 1 / 2 ^ 64 then 0 else v
    refine marginal_rounded h h0 h1 (by simpa using hne) hp1 (c := c) ?_ ?_ ?_
    · intro v _
      by_cases hv : v ≤ 1 / 2 ^ 64
      · exact Or.inl hv
      · right; show v ≤ if v ≤ 1 / 2 ^ 64 then 0 else v
        rw [if_neg hv]
    · intro v hv
      show 0 ≤ if v ≤ 1 / 2 ^ 64 then 0 else v
      split
      · exact le_rfl
      · exact (hp1 v hv).1
    · have hcs : ∀ l : List ℚ, (∀ x ∈ l, x ∈ xs) → ((l.map val).map c).sum ≤ l.sum / S * (1 + eps) := by
        intro l
        induction l with
        | nil => intro _; simp
        | cons x l ih =>
          intro hl
          simp only [List.map_cons, List.sum_cons]
          have h3 := ih (fun y hy => hl y (by simp [hy]))
          have h4 : c (val x) ≤ x / S * (1 + eps) := by
            have hxm := hl x (by simp)
            show (if val x ≤ 1 / 2 ^ 64 then 0 else val x) ≤ _
            split
            · have := hx0 x hxm
              have := eps_pos
              positivity
            · rename_i hv
              rcases (hval x hxm).2.2.2 with h' | h'
              · exact absurd h' hv
              · exact h'
          have e : (x + l.sum) / S * (1 + eps) = x / S * (1 + eps) + l.sum / S * (1 + eps) := by ring
          rw [e]
          linarith
      have h3 := hcs xs (fun _ h => h)
      have h4 : ((xs.map val).map c).sum * pop * (1 + eps) ≤ xs.sum / S * (1 + eps) * pop * (1 + eps) := by gcongr
      refine lt_of_le_of_lt h4 ?_
      have h5 : xs.sum / S ≤ 1 / (1 - xs.length * eps) := by
        rw [div_le_div_iff₀ hSpos (by linarith)]
        linarith
      have h6 : xs.sum / S * (1 + eps) * pop * (1 + eps) ≤ 1 / (1 - xs.length * eps) * (1 + eps) * pop * (1 + eps) := by
        gcongr
      refine lt_of_le_of_lt h6 ?_
      have h7 : 1 / (1 - (xs.length : ℚ) * eps) * (1 + eps) * pop * (1 + eps) =
          (pop * ((1 + eps) * (1 + eps))) / (1 - xs.length * eps) := by ring
      rw [h7, div_lt_iff₀ (by linarith)]
      have h8 : ((pop : ℚ) + 2) * (xs.length + 3) * eps ≤ 1 := by
        calc ((pop : ℚ) + 2) * (xs.length + 3) * eps ≤ 2 ^ 53 * eps := by gcongr
          _ = 1 := by unfold eps; norm_num
      have he2 : eps * eps ≤ eps := by
        have : eps ≤ 1 := by unfold eps; norm_num
        nlinarith
      have h9 : (pop : ℚ) * (eps * eps) ≤ pop * eps := mul_le_mul_of_nonneg_left he2 hpq
      have h10 : 0 ≤ (xs.length : ℚ) * eps := by positivity
      nlinarith
  obtain ⟨f, e, k1, k2, k3, k4⟩ := hdecomp
  refine ⟨f, e, ?_, by simpa using k2, k3, k4⟩
  unfold oneD
  rw [if_neg (by omega), hmap]
  exact k1

/-- adding non-negative numbers to -1, as `prob2IntFreq` does to check their sum -/
theorem unity_bounds (h : fp.Good) : ∀ (xs : List ℚ) (a T : ℚ) (k : Nat), (∀ x ∈ xs, 0 ≤ x) → -1 ≤ T →
    |a - T| ≤ 2 * k * eps → T + xs.sum ≤ 1 → k + xs.length ≤ 2 ^ 50 →
    ∃ S, (xs.map Fl.fin).foldl fp.add (.fin a) = .fin S ∧ |S - (T + xs.sum)| ≤ 2 * (k + xs.length : Nat) * eps
  | [], a, T, k, _, _, h1, _, _ => ⟨a, rfl, by simpa using h1⟩
  | x :: xs, a, T, k, hx, hT, h1, hs, hk => by
    have he := eps_pos
    have hx0 : 0 ≤ x := hx x (by simp)
    have hxs0 : 0 ≤ xs.sum := List.sum_nonneg (fun y hy => hx y (by simp [hy]))
    rw [List.sum_cons] at hs
    rw [List.length_cons] at hk
    have hk0 : (0 : ℚ) ≤ k := by positivity
    have hke : 2 * (k : ℚ) * eps ≤ 1 / 2 := by
      have : (k : ℚ) ≤ 2 ^ 50 := by
        have : k ≤ 2 ^ 50 := by omega
        exact_mod_cast this
      calc 2 * (k : ℚ) * eps ≤ 2 * 2 ^ 50 * eps := by gcongr
        _ ≤ 1 / 2 := by unfold eps; norm_num
    obtain ⟨hl, hu⟩ := abs_le.mp h1
    have hq : |a + x| ≤ 2 := by rw [abs_le]; constructor <;> linarith
    have hq' : |a + x| ≤ 2 * hugeQ := by
      have h3 : (1 : ℚ) ≤ 2 ^ 64 := by norm_num
      linarith [hugeQ_ge]
    have hstep : ∃ b, fp.add (.fin a) (.fin x) = .fin b ∧ |b - (a + x)| ≤ 2 * eps := by
      by_cases hge : tinyQ ≤ |a + x|
      · obtain ⟨b, hb, hbn⟩ := near' h (a + x) hge hq'
        refine ⟨b, hb, hbn.trans ?_⟩
        unfold eps
        linarith
      · obtain ⟨b, hb⟩ := finite' h (a + x) hq'
        refine ⟨b, hb, ?_⟩
        rw [not_le] at hge
        have hsm := lt_of_lt_of_le hge tinyQ_le
        obtain ⟨g1, g2⟩ := abs_lt.mp hsm
        have d1 := h.dyadic 1 64 (by norm_num) (by norm_num)
        have d2 := h.dyadic (-1) 64 (by norm_num) (by norm_num)
        have c1 := h.mono (a + x) _ b _ (by push_cast; linarith) hb d1
        have c2 := h.mono _ (a + x) _ b (by push_cast; linarith) d2 hb
        push_cast at c1 c2
        have e64 : (1 : ℚ) / 2 ^ 64 ≤ eps / 2 := by unfold eps; norm_num
        rw [abs_le]
        constructor <;> linarith
    obtain ⟨b, hb, hbn⟩ := hstep
    obtain ⟨bl, bu⟩ := abs_le.mp hbn
    obtain ⟨S, hS, g⟩ := unity_bounds h xs b (T + x) (k + 1) (fun y hy => hx y (by simp [hy])) (by linarith)
      (by push_cast; rw [abs_le]; constructor <;> linarith) (by linarith) (by omega)
    refine ⟨S, ?_, ?_⟩
    · rw [List.map_cons, List.foldl_cons, hb]; exact hS
    · rw [List.sum_cons, List.length_cons]
      have e : k + 1 + xs.length = k + (xs.length + 1) := by omega
      rw [e] at g
      rw [← add_assoc]; exact g

theorem unity_arith {P M e T : ℚ} (hP : 0 ≤ P) (hM : 0 ≤ M) (he : 0 < e) (hbig : (P + 4) * (M + 3) * e ≤ 1)
    (hT : T ≤ 1 + M * e) (he1 : e ≤ 1) : M * e ≤ 1 / 4 ∧ T * P * (1 + e) < P + 1 := by
  have h1 : 0 ≤ P * M * e := by positivity
  have h2 : 0 ≤ P * e := by positivity
  have h3 : 0 ≤ M * e := by positivity
  have hsmall : M * e ≤ 1 / 4 := by nlinarith
  refine ⟨hsmall, ?_⟩
  have h4 : T * P * (1 + e) ≤ (1 + M * e) * P * (1 + e) := by gcongr
  have h5 : M * e * e ≤ 1 * e := by
    apply mul_le_mul_of_nonneg_right _ he.le; linarith
  have h6 : P * (M * e * e) ≤ P * (1 * e) := mul_le_mul_of_nonneg_left h5 hP
  nlinarith

/-- `prob2IntFreq` in rounded arithmetic: either the probabilities are rejected or the result is right. -/
theorem prob2IntFreq_rounded (h : fp.Good) {p : List ℚ} {pop : Int} (h0 : 0 ≤ pop) (h1 : pop < 2 ^ 31)
    (hn : (pop + 4) * (2 * p.length + 2003) ≤ 2 ^ 53) (hp : ∀ x ∈ p, 0 ≤ x) (hs : p.sum ≤ 2) :
    (prob2IntFreq fp (p.map Fl.fin) pop = .thrown .notUnity ∧ 1000 / 2 ^ 52 < |p.sum - 1| + 2 * p.length * eps) ∨
    (|p.sum - 1| ≤ 1000 / 2 ^ 52 + 2 * p.length * eps ∧
      ∃ f e, prob2IntFreq fp (p.map Fl.fin) pop = .ok (f, e) ∧ f.length = p.length ∧ (∀ k ∈ f, 0 ≤ k) ∧ f.sum = pop) := by
  have he := eps_pos
  have hpq : (0 : ℚ) ≤ pop := by exact_mod_cast h0
  have hn0 : (0 : ℚ) ≤ p.length := by positivity
  have hnq : ((pop : ℚ) + 4) * (2 * p.length + 2003) ≤ 2 ^ 53 := by exact_mod_cast hn
  have hlen : (4 : Int) * (2 * p.length + 2003) ≤ 2 ^ 53 := le_trans (by gcongr; omega) hn
  obtain ⟨S, hS, hb⟩ : ∃ S, (p.map Fl.fin).foldl fp.add (.fin (-1)) = .fin S ∧ |S - (p.sum - 1)| ≤ 2 * p.length * eps := by
    obtain ⟨S, hS, hb⟩ := unity_bounds h p (-1) (-1) 0 hp le_rfl (by simp) (by linarith) (by omega)
    refine ⟨S, hS, ?_⟩
    rw [zero_add] at hb
    convert hb using 2
    ring
  have t1 : |S| ≤ |p.sum - 1| + |S - (p.sum - 1)| := by
    have := abs_add_le (p.sum - 1) (S - (p.sum - 1))
    rwa [show p.sum - 1 + (S - (p.sum - 1)) = S by ring] at this
  have t2 : |p.sum - 1| ≤ |S| + |S - (p.sum - 1)| := by
    have := abs_sub S (S - (p.sum - 1))
    rwa [show S - (S - (p.sum - 1)) = p.sum - 1 by ring] at this
  unfold prob2IntFreq
  rw [if_neg (by omega), hS]
  by_cases hacc : (1000 / 2 ^ 52 : ℚ) < |S|
  · left
    rw [if_pos (by simpa [unityTol, FP.lt, FP.abs] using hacc)]
    exact ⟨rfl, by linarith⟩
  · right
    rw [if_neg (by simpa [unityTol, FP.lt, FP.abs] using hacc)]
    rw [not_lt] at hacc
    have hT : |p.sum - 1| ≤ 1000 / 2 ^ 52 + 2 * p.length * eps := by linarith
    refine ⟨hT, ?_⟩
    have e1000 : (1000 : ℚ) / 2 ^ 52 = 2000 * eps := by unfold eps; norm_num
    have hbig : ((pop : ℚ) + 4) * (2 * p.length + 2003) * eps ≤ 1 := by
      calc ((pop : ℚ) + 4) * (2 * p.length + 2003) * eps ≤ 2 ^ 53 * eps := by gcongr
        _ = 1 := by unfold eps; norm_num
    obtain ⟨-, hT2⟩ := abs_le.mp hT
    rw [e1000] at hT2
    have hM0 : (0 : ℚ) ≤ 2 * p.length + 2000 := by linarith
    have hTM : p.sum ≤ 1 + (2 * p.length + 2000) * eps := by linarith
    have hbig' : ((pop : ℚ) + 4) * ((2 * p.length + 2000) + 3) * eps ≤ 1 := by
      rw [show (2 * (p.length : ℚ) + 2000) + 3 = 2 * p.length + 2003 by ring]; exact hbig
    have hE : eps ≤ 1 := by unfold eps; norm_num
    obtain ⟨a1, a2⟩ := unity_arith hpq hM0 he hbig' hTM hE
    have hne : p ≠ [] := by
      rintro rfl
      simp only [List.sum_nil, List.length_nil] at hT
      unfold eps at hT
      norm_num at hT
    refine marginal_rounded h h0 h1 hne (c := id) ?_ ?_ ?_ ?_
    · intro x hx
      exact ⟨hp x hx, (List.single_le_sum hp _ hx).trans hs⟩
    · intro x _; exact Or.inr le_rfl
    · intro x hx; exact hp x hx
    · rw [List.map_id]
      exact a2

end Integerise
end HL

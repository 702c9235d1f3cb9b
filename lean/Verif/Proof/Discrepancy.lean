import Mathlib.Algebra.BigOperators.Field
import Mathlib.Algebra.Order.BigOperators.Ring.Finset
import Mathlib.Data.Rat.Floor
import Mathlib.Tactic.Ring
import Mathlib.Tactic.Linarith
import Mathlib.Tactic.FieldSimp
import Mathlib.Tactic.Positivity
import Mathlib.Order.Interval.Finset.Nat

/-
From equal numbers of points in dyadic boxes to small discrepancy in all boxes with a corner at the origin.
-/

namespace HL.Discrepancy

/-- how many of the positions `B` have all coordinates `i ∈ I` in `[lo i, hi i)` -/
def cnt (B I : Finset Nat) (f : Nat → Nat → Nat) (lo hi : Nat → Nat) : Nat :=
  (B.filter (fun n => ∀ i ∈ I, lo i ≤ f n i ∧ f n i < hi i)).card

/-- the share of the box in the unit cube, coordinates being in units of `2 ^ -32` -/
def vol (I : Finset Nat) (lo hi : Nat → Nat) : ℚ := ∏ i ∈ I, ((hi i : ℚ) - lo i) / 2 ^ 32

/-- `[lo, hi)` is one of the `2 ^ e` equal parts of the unit interval -/
def Dy (e lo hi : Nat) : Prop := e ≤ 32 ∧ ∃ t, t < 2 ^ e ∧ lo = t * 2 ^ (32 - e) ∧ hi = (t + 1) * 2 ^ (32 - e)

/-- every dyadic box of volume at least `2 ^ (T - k)` contains its share of the `2 ^ k` positions `B` -/
def Net (B I : Finset Nat) (f : Nat → Nat → Nat) (T k : Nat) : Prop :=
  ∀ e lo hi : Nat → Nat, (∀ i ∈ I, Dy (e i) (lo i) (hi i)) → ∑ i ∈ I, e i + T ≤ k → cnt B I f lo hi = 2 ^ (k - ∑ i ∈ I, e i)

variable {B I : Finset Nat} {f : Nat → Nat → Nat} {T k : Nat}

theorem Dy.width {e lo hi : Nat} (h : Dy e lo hi) : ((hi : ℚ) - lo) / 2 ^ 32 = (1 / 2) ^ e := by
  obtain ⟨he, t, -, rfl, rfl⟩ := h
  have : (2 : ℚ) ^ 32 = 2 ^ e * 2 ^ (32 - e) := by rw [← pow_add]; congr 1; omega
  rw [this, one_div, inv_pow]
  push_cast
  field_simp
  ring

theorem Dy.hi_le {e lo hi : Nat} (h : Dy e lo hi) : hi ≤ 2 ^ 32 := by
  obtain ⟨he, t, ht, rfl, rfl⟩ := h
  calc (t + 1) * 2 ^ (32 - e) ≤ 2 ^ e * 2 ^ (32 - e) := Nat.mul_le_mul_right _ ht
    _ = 2 ^ 32 := by rw [← pow_add]; congr 1; omega

theorem Dy.lt {e lo hi : Nat} (h : Dy e lo hi) : lo < hi := by
  obtain ⟨he, t, ht, rfl, rfl⟩ := h
  exact Nat.mul_lt_mul_of_pos_right (by omega) (by positivity)

theorem dy_full : Dy 0 0 (2 ^ 32) := ⟨by omega, 0, by simp, by simp, by simp⟩

/-- the running total of the dyadic pieces of `[0, X)` -/
theorem anchored {D : Nat → Nat → ℚ} (hadd : ∀ u v w, u ≤ v → v ≤ w → D u w = D u v + D v w) {K : Nat} (hK : K ≤ 32)
    {β τ : ℚ} (hβ : 0 ≤ β) (hdy : ∀ c u v, 1 ≤ c → c ≤ K → Dy c u v → |D u v| ≤ β)
    (hlast : ∀ u v x, Dy K u v → u ≤ x → x < v → |D u x| ≤ τ) {X : Nat} (hX : X < 2 ^ 32) : |D 0 X| ≤ K * β + τ := by
  have h0 : D 0 0 = 0 := by have := hadd 0 0 0 le_rfl le_rfl; linarith
  have hlt : ∀ c ≤ 32, X / 2 ^ (32 - c) < 2 ^ c := by
    intro c hc
    rw [Nat.div_lt_iff_lt_mul (by positivity), ← pow_add]
    rwa [show c + (32 - c) = 32 by omega]
  have key : ∀ c ≤ K, |D 0 (X / 2 ^ (32 - c) * 2 ^ (32 - c))| ≤ c * β := by
    intro c
    induction c with
    | zero =>
      intro _
      rw [show X / 2 ^ (32 - 0) = 0 from Nat.div_eq_of_lt hX, Nat.zero_mul, h0]
      simp
    | succ c ih =>
      intro hc
      have ih := ih (by omega)
      set w := 2 ^ (32 - (c + 1)) with hw
      have hw2 : 2 ^ (32 - c) = w * 2 := by rw [hw, ← pow_succ]; congr 1; omega
      have hwpos : 0 < w := by positivity
      rw [hw2] at ih
      have hq : X / (w * 2) = X / w / 2 := by rw [Nat.div_div_eq_div_mul]
      rw [hq] at ih
      have hm := Nat.div_add_mod (X / w) 2
      have hm2 := Nat.mod_lt (X / w) (by omega : 2 > 0)
      have hle : X / w / 2 * (w * 2) ≤ X / w * w := by
        calc X / w / 2 * (w * 2) = (2 * (X / w / 2)) * w := by ring
          _ ≤ X / w * w := Nat.mul_le_mul_right _ (by omega)
      rw [hadd 0 _ _ (Nat.zero_le _) hle]
      have hstep : |D (X / w / 2 * (w * 2)) (X / w * w)| ≤ β := by
        by_cases hb : X / w % 2 = 0
        · have : X / w / 2 * (w * 2) = X / w * w := by
            calc X / w / 2 * (w * 2) = (2 * (X / w / 2)) * w := by ring
              _ = X / w * w := by congr 1; omega
          rw [this]
          have := hadd (X / w * w) (X / w * w) (X / w * w) le_rfl le_rfl
          rw [show D (X / w * w) (X / w * w) = 0 by linarith]
          simpa using hβ
        · refine hdy (c + 1) _ _ (by omega) hc ⟨by omega, 2 * (X / w / 2), ?_, by rw [← hw]; ring, ?_⟩
          · have := hlt (c + 1) (by omega)
            rw [← hw] at this
            omega
          · rw [← hw]; congr 1; omega
      calc _ ≤ |D 0 (X / w / 2 * (w * 2))| + |D (X / w / 2 * (w * 2)) (X / w * w)| := abs_add_le _ _
        _ ≤ c * β + β := add_le_add ih hstep
        _ = ((c + 1 : ℕ) : ℚ) * β := by push_cast; ring
  have hk := key K le_rfl
  have hle : X / 2 ^ (32 - K) * 2 ^ (32 - K) ≤ X := Nat.div_mul_le_self _ _
  rw [hadd 0 _ _ (Nat.zero_le _) hle]
  refine (abs_add_le _ _).trans (add_le_add hk ?_)
  refine hlast _ ((X / 2 ^ (32 - K) + 1) * 2 ^ (32 - K)) _ ⟨hK, _, hlt K hK, rfl, rfl⟩ hle ?_
  exact Nat.lt_mul_of_div_lt (by omega) (by positivity)

theorem cnt_congr {lo hi lo' hi' : Nat → Nat} (h : ∀ i ∈ I, lo i = lo' i ∧ hi i = hi' i) : cnt B I f lo hi = cnt B I f lo' hi' := by
  unfold cnt
  congr 1
  apply Finset.filter_congr
  intro n _
  refine forall₂_congr fun i hi => ?_
  rw [(h i hi).1, (h i hi).2]

theorem cnt_mono {lo hi lo' hi' : Nat → Nat} (h : ∀ i ∈ I, lo' i ≤ lo i ∧ hi i ≤ hi' i) : cnt B I f lo hi ≤ cnt B I f lo' hi' := by
  unfold cnt
  apply Finset.card_le_card
  intro n hn
  simp only [Finset.mem_filter] at hn ⊢
  refine ⟨hn.1, fun i hi => ?_⟩
  have := hn.2 i hi
  have := h i hi
  omega

theorem vol_congr {lo hi lo' hi' : Nat → Nat} (h : ∀ i ∈ I, lo i = lo' i ∧ hi i = hi' i) : vol I lo hi = vol I lo' hi' :=
  Finset.prod_congr rfl fun i hi => by rw [(h i hi).1, (h i hi).2]

theorem vol_nonneg {lo hi : Nat → Nat} (h : ∀ i ∈ I, lo i ≤ hi i) : 0 ≤ vol I lo hi := by
  refine Finset.prod_nonneg fun i hi' => div_nonneg ?_ (by positivity)
  have : (lo i : ℚ) ≤ hi i := by exact_mod_cast h i hi'
  linarith

theorem vol_mono {lo hi lo' hi' : Nat → Nat} (h : ∀ i ∈ I, lo i ≤ hi i ∧ lo' i ≤ lo i ∧ hi i ≤ hi' i) : vol I lo hi ≤ vol I lo' hi' := by
  refine Finset.prod_le_prod (fun i hm => div_nonneg ?_ (by positivity)) (fun i hm => ?_)
  · have : (lo i : ℚ) ≤ hi i := by exact_mod_cast (h i hm).1
    linarith
  · have h1 : (lo' i : ℚ) ≤ lo i := by exact_mod_cast (h i hm).2.1
    have h2 : (hi i : ℚ) ≤ hi' i := by exact_mod_cast (h i hm).2.2
    apply div_le_div_of_nonneg_right _ (by positivity)
    linarith

theorem cnt_add {a : Nat} (ha : a ∈ I) (lo hi : Nat → Nat) {u v w : Nat} (h1 : u ≤ v) (h2 : v ≤ w) :
    cnt B I f (Function.update lo a u) (Function.update hi a w) =
      cnt B I f (Function.update lo a u) (Function.update hi a v) + cnt B I f (Function.update lo a v) (Function.update hi a w) := by
  unfold cnt
  rw [← Finset.card_union_of_disjoint]
  · congr 1
    ext n
    simp only [Finset.mem_filter, Finset.mem_union]
    constructor
    · rintro ⟨hB, h⟩
      have hna := h a ha
      simp only [Function.update_self] at hna
      rcases Nat.lt_or_ge (f n a) v with hv | hv
      · left
        refine ⟨hB, fun i hi' => ?_⟩
        by_cases hia : i = a
        · subst hia; simp only [Function.update_self]; omega
        · have := h i hi'; simpa [Function.update_of_ne hia] using this
      · right
        refine ⟨hB, fun i hi' => ?_⟩
        by_cases hia : i = a
        · subst hia; simp only [Function.update_self]; omega
        · have := h i hi'; simpa [Function.update_of_ne hia] using this
    · rintro (⟨hB, h⟩ | ⟨hB, h⟩) <;> refine ⟨hB, fun i hi' => ?_⟩ <;> have hi'' := h i hi' <;> by_cases hia : i = a
      · subst hia; simp only [Function.update_self] at hi'' ⊢; omega
      · simpa [Function.update_of_ne hia] using hi''
      · subst hia; simp only [Function.update_self] at hi'' ⊢; omega
      · simpa [Function.update_of_ne hia] using hi''
  · rw [Finset.disjoint_left]
    intro n hn hn'
    have := (Finset.mem_filter.mp hn).2 a ha
    have := (Finset.mem_filter.mp hn').2 a ha
    simp only [Function.update_self] at *
    omega

theorem vol_update {a : Nat} (ha : a ∈ I) (lo hi : Nat → Nat) (u v : Nat) :
    vol I (Function.update lo a u) (Function.update hi a v) = ((v : ℚ) - u) / 2 ^ 32 * vol (I.erase a) lo hi := by
  unfold vol
  rw [← Finset.mul_prod_erase I _ ha]
  simp only [Function.update_self]
  congr 1
  refine Finset.prod_congr rfl fun i hi' => ?_
  have := Finset.ne_of_mem_erase hi'
  rw [Function.update_of_ne this, Function.update_of_ne this]

theorem vol_add {a : Nat} (ha : a ∈ I) (lo hi : Nat → Nat) (u v w : Nat) :
    vol I (Function.update lo a u) (Function.update hi a w) =
      vol I (Function.update lo a u) (Function.update hi a v) + vol I (Function.update lo a v) (Function.update hi a w) := by
  rw [vol_update ha, vol_update ha, vol_update ha]
  ring

theorem vol_dyadic {e lo hi : Nat → Nat} (h : ∀ i ∈ I, Dy (e i) (lo i) (hi i)) : vol I lo hi = (1 / 2) ^ ∑ i ∈ I, e i := by
  unfold vol
  rw [Finset.prod_congr rfl (fun i hi' => (h i hi').width), Finset.prod_pow_eq_pow_sum]

theorem two_pow_sub {a b : Nat} (h : b ≤ a) : (2 : ℚ) ^ (a - b) = 2 ^ a * (1 / 2) ^ b := by
  rw [one_div, inv_pow, pow_sub₀ _ (by norm_num) h]

/-- the bound for boxes with `r` coordinates that are not dyadic -/
def bound (T r K : Nat) : ℚ := if r = 0 then 0 else 2 ^ T * ((K : ℚ) + 1) ^ (r - 1)

theorem block_bound (hnet : Net B I f T k) (hk : k ≤ 32) : ∀ A ⊆ I, ∀ e lo hi : Nat → Nat,
    (∀ i ∈ I \ A, Dy (e i) (lo i) (hi i)) → (∀ i ∈ A, lo i = 0 ∧ hi i ≤ 2 ^ 32) → ∑ i ∈ I \ A, e i + T ≤ k →
    |(cnt B I f lo hi : ℚ) - 2 ^ k * vol I lo hi| ≤ bound T A.card (k - T - ∑ i ∈ I \ A, e i) := by
  intro A
  induction A using Finset.induction_on with
  | empty =>
    intro _ e lo hi hd _ hs
    rw [Finset.sdiff_empty] at hd hs
    rw [hnet e lo hi hd hs, vol_dyadic hd]
    push_cast
    rw [two_pow_sub (by omega), sub_self]
    simp [bound]
  | insert a A haA ih =>
    intro hsub e lo hi hd hA hs
    have haI : a ∈ I := hsub (Finset.mem_insert_self _ _)
    have hAI : A ⊆ I := fun i hi' => hsub (Finset.mem_insert_of_mem hi')
    have haS : a ∉ I \ insert a A := by simp
    have hS : I \ A = insert a (I \ insert a A) := by
      ext i
      simp only [Finset.mem_sdiff, Finset.mem_insert]
      constructor
      · rintro ⟨h1, h2⟩
        by_cases hia : i = a
        · exact Or.inl hia
        · exact Or.inr ⟨h1, fun h => h.elim hia h2⟩
      · rintro (rfl | ⟨h1, h2⟩)
        · exact ⟨haI, haA⟩
        · exact ⟨h1, fun h => h2 (Or.inr h)⟩
    set S := I \ insert a A with hSdef
    set K := k - T - ∑ i ∈ S, e i with hK
    have hmemS : ∀ i ∈ S, i ≠ a := fun i hi' h => haS (h ▸ hi')
    -- one dyadic piece
    have hpiece : ∀ c u v, c ≤ K → Dy c u v →
        |(cnt B I f (Function.update lo a u) (Function.update hi a v) : ℚ) - 2 ^ k * vol I (Function.update lo a u) (Function.update hi a v)| ≤
          bound T A.card (K - c) := by
      intro c u v hc hcv
      have hsum : ∑ i ∈ I \ A, Function.update e a c i = c + ∑ i ∈ S, e i := by
        rw [hS, Finset.sum_insert haS, Function.update_self]
        congr 1
        exact Finset.sum_congr rfl fun i hi' => by rw [Function.update_of_ne (hmemS i hi')]
      have := ih hAI (Function.update e a c) (Function.update lo a u) (Function.update hi a v) ?_ ?_ (by rw [hsum]; omega)
      · rw [hsum] at this
        rwa [show k - T - (c + ∑ i ∈ S, e i) = K - c by omega] at this
      · intro i hi'
        rw [hS, Finset.mem_insert] at hi'
        rcases hi' with rfl | hi'
        · simpa using hcv
        · have := hmemS i hi'
          simpa [Function.update_of_ne this] using hd i hi'
      · intro i hi'
        have : i ≠ a := fun h => haA (h ▸ hi')
        simpa [Function.update_of_ne this] using hA i (Finset.mem_insert_of_mem hi')
    have hcard : (insert a A).card = A.card + 1 := Finset.card_insert_of_notMem haA
    have hbnd : bound T (A.card + 1) K = 2 ^ T * ((K : ℚ) + 1) ^ A.card := by simp [bound]
    have hK0 : (0 : ℚ) ≤ K := by positivity
    have hT0 : (0 : ℚ) < 2 ^ T := by positivity
    rw [hcard, hbnd]
    obtain ⟨hlo, hhi⟩ := hA a (Finset.mem_insert_self _ _)
    have elo : lo = Function.update lo a 0 := by rw [← hlo, Function.update_eq_self]
    have ehi : hi = Function.update hi a (hi a) := by rw [Function.update_eq_self]
    rcases Nat.lt_or_ge (hi a) (2 ^ 32) with hX | hX
    swap
    · have hfull : hi a = 2 ^ 32 := le_antisymm hhi hX
      have h1 := hpiece 0 0 (2 ^ 32) (Nat.zero_le _) dy_full
      rw [← hfull, ← elo, ← ehi] at h1
      refine h1.trans ?_
      unfold bound
      split
      · positivity
      · refine mul_le_mul_of_nonneg_left ?_ hT0.le
        exact pow_le_pow_right₀ (by linarith) (by omega)
    · have h2 := anchored (D := fun u v => (cnt B I f (Function.update lo a u) (Function.update hi a v) : ℚ) -
          2 ^ k * vol I (Function.update lo a u) (Function.update hi a v)) (K := K)
        (β := if A.card = 0 then 0 else 2 ^ T * (K : ℚ) ^ (A.card - 1)) (τ := 2 ^ T) ?_ (by omega) ?_ ?_ ?_ hX
      · simp only [← elo, ← ehi] at h2
        refine h2.trans ?_
        by_cases hr : A.card = 0
        · simp [hr]
        · rw [if_neg hr]
          obtain ⟨r, hr'⟩ : ∃ r, A.card = r + 1 := ⟨A.card - 1, by omega⟩
          rw [hr', Nat.add_sub_cancel]
          have h3 : (K : ℚ) ^ (r + 1) + 1 ≤ ((K : ℚ) + 1) ^ (r + 1) := by
            have h4 : ((K : ℚ)) ^ r ≤ ((K : ℚ) + 1) ^ r := pow_le_pow_left₀ hK0 (by linarith) r
            have h5 : (1 : ℚ) ≤ ((K : ℚ) + 1) ^ r := one_le_pow₀ (by linarith)
            rw [pow_succ, pow_succ]
            nlinarith
          calc (K : ℚ) * (2 ^ T * (K : ℚ) ^ r) + 2 ^ T = 2 ^ T * ((K : ℚ) ^ (r + 1) + 1) := by ring
            _ ≤ _ := mul_le_mul_of_nonneg_left h3 hT0.le
      · intro u v w h1 h2
        rw [cnt_add haI lo hi h1 h2, vol_add haI lo hi u v w]
        push_cast
        ring
      · split <;> positivity
      · intro c u v hc1 hc2 hcv
        refine (hpiece c u v hc2 hcv).trans ?_
        unfold bound
        split
        · exact le_rfl
        · refine mul_le_mul_of_nonneg_left ?_ hT0.le
          have : ((K - c : ℕ) : ℚ) + 1 ≤ K := by exact_mod_cast (by omega : K - c + 1 ≤ K)
          exact pow_le_pow_left₀ (by positivity) this _
      · intro u v x huv hux hxv
        -- everything is inside a dyadic box with exactly `2 ^ T` points
        have hdy : ∀ i ∈ I, Dy (if i = a then K else if i ∈ A then 0 else e i)
            (if i = a then u else if i ∈ A then 0 else lo i) (if i = a then v else if i ∈ A then 2 ^ 32 else hi i) := by
          intro i hi'
          by_cases hia : i = a
          · simp only [hia, if_true]; exact huv
          · by_cases hiA : i ∈ A
            · simp only [if_neg hia, if_pos hiA]; exact dy_full
            · simp only [if_neg hia, if_neg hiA]
              refine hd i ?_
              rw [hSdef]; simp [hi', hia, hiA]
        have hsum : ∑ i ∈ I, (if i = a then K else if i ∈ A then 0 else e i) = K + ∑ i ∈ S, e i := by
          rw [← Finset.sum_sdiff hAI, hS, Finset.sum_insert haS, if_pos rfl]
          have e1 : ∑ i ∈ S, (if i = a then K else if i ∈ A then 0 else e i) = ∑ i ∈ S, e i := by
            refine Finset.sum_congr rfl fun i hi' => ?_
            have hiA : i ∉ A := fun h => by
              rw [hSdef] at hi'; simp at hi'; exact hi'.2.2 h
            rw [if_neg (hmemS i hi'), if_neg hiA]
          have e2 : ∑ i ∈ A, (if i = a then K else if i ∈ A then 0 else e i) = 0 := by
            refine Finset.sum_eq_zero fun i hi' => ?_
            have : i ≠ a := fun h => haA (h ▸ hi')
            rw [if_neg this, if_pos hi']
          rw [e1, e2]
          omega
        have hc := hnet _ _ _ hdy (by rw [hsum]; omega)
        have hv := vol_dyadic hdy
        rw [hsum] at hc hv
        rw [show k - (K + ∑ i ∈ S, e i) = T by omega] at hc
        have hv' : 2 ^ k * vol I (fun i => if i = a then u else if i ∈ A then 0 else lo i) (fun i => if i = a then v else if i ∈ A then 2 ^ 32 else hi i) = 2 ^ T := by
          rw [hv, ← two_pow_sub (by omega)]
          congr 1
          omega
        have hrange : ∀ i ∈ I, i ≠ a → lo i ≤ hi i := by
          intro i hi' hia
          by_cases hiA : i ∈ A
          · rw [(hA i (Finset.mem_insert_of_mem hiA)).1]; omega
          · exact (hd i (by rw [hSdef]; simp [hi', hia, hiA])).lt.le
        have hle : ∀ i ∈ I, Function.update lo a u i ≤ Function.update hi a x i ∧
            (if i = a then u else if i ∈ A then 0 else lo i) ≤ Function.update lo a u i ∧
            Function.update hi a x i ≤ (if i = a then v else if i ∈ A then 2 ^ 32 else hi i) := by
          intro i hi'
          by_cases hia : i = a
          · subst hia; simp; omega
          · rw [Function.update_of_ne hia, Function.update_of_ne hia, if_neg hia, if_neg hia]
            refine ⟨hrange i hi' hia, ?_⟩
            by_cases hiA : i ∈ A
            · rw [if_pos hiA, if_pos hiA]
              exact ⟨Nat.zero_le _, (hA i (Finset.mem_insert_of_mem hiA)).2⟩
            · rw [if_neg hiA, if_neg hiA]; exact ⟨le_rfl, le_rfl⟩
        have hc1 := cnt_mono (B := B) (f := f) (fun i hi' => (hle i hi').2)
        have hc2 : (cnt B I f (Function.update lo a u) (Function.update hi a x) : ℚ) ≤ 2 ^ T := by
          rw [hc] at hc1
          exact_mod_cast hc1
        have hv1 : 2 ^ k * vol I (Function.update lo a u) (Function.update hi a x) ≤ 2 ^ T := by
          rw [← hv']
          exact mul_le_mul_of_nonneg_left (vol_mono hle) (by positivity)
        have hv0 : 0 ≤ 2 ^ k * vol I (Function.update lo a u) (Function.update hi a x) :=
          mul_nonneg (by positivity) (vol_nonneg fun i hi' => (hle i hi').1)
        have hc0 : (0 : ℚ) ≤ cnt B I f (Function.update lo a u) (Function.update hi a x) := by positivity
        rw [abs_le]
        constructor <;> linarith

/-- the number of positions in the box with corners at the origin and `X` -/
theorem anchored_bound (hnet : Net B I f T k) (hk : k ≤ 32) (hT : T ≤ k) {X : Nat → Nat} (hX : ∀ i ∈ I, X i ≤ 2 ^ 32) :
    |(cnt B I f (fun _ => 0) X : ℚ) - 2 ^ k * vol I (fun _ => 0) X| ≤ bound T I.card (k - T) := by
  have := block_bound hnet hk I (Finset.Subset.refl _) (fun _ => 0) (fun _ => 0) X (by simp) (fun i hi' => ⟨rfl, hX i hi'⟩) (by simpa using hT)
  simpa using this

theorem vol_anchored_le_one {X : Nat → Nat} (hX : ∀ i ∈ I, X i ≤ 2 ^ 32) : vol I (fun _ => 0) X ≤ 1 := by
  refine Finset.prod_le_one (fun i _ => by simp; positivity) fun i hm => ?_
  rw [Nat.cast_zero, sub_zero, div_le_one (by positivity)]
  exact_mod_cast hX i hm

/-- a block of `2 ^ k` positions, whatever `k` -/
theorem block_any (hI : I.Nonempty) (hB : B.card = 2 ^ k) (hnet : Net B I f T k) (hk : k ≤ 32) {X : Nat → Nat}
    (hX : ∀ i ∈ I, X i ≤ 2 ^ 32) :
    |(cnt B I f (fun _ => 0) X : ℚ) - 2 ^ k * vol I (fun _ => 0) X| ≤ 2 ^ T * ((k : ℚ) + 1) ^ (I.card - 1) := by
  have hc : I.card ≠ 0 := Finset.card_ne_zero.mpr hI
  rcases Nat.lt_or_ge k T with hT | hT
  · have h1 : (cnt B I f (fun _ => 0) X : ℚ) ≤ 2 ^ k := by
      have : cnt B I f (fun _ => 0) X ≤ 2 ^ k := hB ▸ Finset.card_filter_le _ _
      exact_mod_cast this
    have h0 : (0 : ℚ) ≤ cnt B I f (fun _ => 0) X := by positivity
    have h2 : 0 ≤ 2 ^ k * vol I (fun _ => 0) X := mul_nonneg (by positivity) (vol_nonneg fun _ _ => Nat.zero_le _)
    have h3 : 2 ^ k * vol I (fun _ => 0) X ≤ 2 ^ k := mul_le_of_le_one_right (by positivity) (vol_anchored_le_one hX)
    have h4 : (2 : ℚ) ^ k ≤ 2 ^ T := pow_le_pow_right₀ (by norm_num) hT.le
    have h5 : (1 : ℚ) ≤ ((k : ℚ) + 1) ^ (I.card - 1) := one_le_pow₀ (by linarith [(Nat.cast_nonneg k : (0 : ℚ) ≤ k)])
    have h6 : (2 : ℚ) ^ T ≤ 2 ^ T * ((k : ℚ) + 1) ^ (I.card - 1) := le_mul_of_one_le_right (by positivity) h5
    rw [abs_le]
    constructor <;> linarith
  · refine (anchored_bound hnet hk hT hX).trans ?_
    unfold bound
    rw [if_neg hc]
    refine mul_le_mul_of_nonneg_left (pow_le_pow_left₀ (by positivity) ?_ _) (by positivity)
    have : ((k - T : ℕ) : ℚ) ≤ k := by exact_mod_cast Nat.sub_le _ _
    linarith

theorem cnt_Ico {a b c : Nat} (h1 : a ≤ b) (h2 : b ≤ c) (lo hi : Nat → Nat) :
    cnt (Finset.Ico a c) I f lo hi = cnt (Finset.Ico a b) I f lo hi + cnt (Finset.Ico b c) I f lo hi := by
  unfold cnt
  rw [← Finset.Ico_union_Ico_eq_Ico h1 h2, Finset.filter_union, Finset.card_union_of_disjoint]
  exact Finset.disjoint_filter_filter (Finset.Ico_disjoint_Ico_consecutive a b c)

/-- the first `N` positions of an aligned block of `2 ^ m` -/
theorem segment (hI : I.Nonempty) (hnet : ∀ k j, k ≤ 32 → (j + 1) * 2 ^ k ≤ 2 ^ 32 → Net (Finset.Ico (j * 2 ^ k) ((j + 1) * 2 ^ k)) I f T k)
    {X : Nat → Nat} (hX : ∀ i ∈ I, X i ≤ 2 ^ 32) : ∀ m, m ≤ 32 → ∀ j N, (j + 1) * 2 ^ m ≤ 2 ^ 32 → N < 2 ^ m →
    |(cnt (Finset.Ico (j * 2 ^ m) (j * 2 ^ m + N)) I f (fun _ => 0) X : ℚ) - N * vol I (fun _ => 0) X| ≤
      ∑ k ∈ Finset.range m, 2 ^ T * ((k : ℚ) + 1) ^ (I.card - 1)
  | 0, _, j, N, _, hN => by
    have : N = 0 := by simpa using hN
    subst this
    simp [cnt]
  | m + 1, hm, j, N, hj, hN => by
    have hp : 2 ^ (m + 1) = 2 * 2 ^ m := by rw [pow_succ]; ring
    rw [hp] at hj hN
    have e1 : j * 2 ^ (m + 1) = 2 * j * 2 ^ m := by rw [hp]; ring
    rw [e1, Finset.sum_range_succ]
    have hpos : (0 : ℚ) ≤ 2 ^ T * ((m : ℚ) + 1) ^ (I.card - 1) := by positivity
    rcases Nat.lt_or_ge N (2 ^ m) with hlt | hge
    · have := segment hI hnet hX m (by omega) (2 * j) N (by nlinarith) hlt
      linarith
    · obtain ⟨M, rfl⟩ := Nat.exists_eq_add_of_le hge
      have hfull := block_any hI (f := f) (T := T) (k := m) (B := Finset.Ico (2 * j * 2 ^ m) ((2 * j + 1) * 2 ^ m))
        (by rw [Nat.card_Ico, ← Nat.sub_mul]; simp) (hnet m (2 * j) (by omega) (by nlinarith)) (by omega) hX
      have hrest := segment hI hnet hX m (by omega) (2 * j + 1) M (by nlinarith) (by omega)
      have e2 : 2 * j * 2 ^ m + (2 ^ m + M) = (2 * j + 1) * 2 ^ m + M := by ring
      rw [e2, cnt_Ico (b := (2 * j + 1) * 2 ^ m) (by nlinarith) (by omega)]
      push_cast
      have e3 : ∀ a b v : ℚ, a + b - (2 ^ m + M) * v = (b - M * v) + (a - 2 ^ m * v) := by intros; ring
      rw [e3]
      exact (abs_add_le _ _).trans (add_le_add hrest hfull)

/-- the first `N` positions -/
theorem prefix_bound (hI : I.Nonempty) (hnet : ∀ k j, k ≤ 32 → (j + 1) * 2 ^ k ≤ 2 ^ 32 → Net (Finset.Ico (j * 2 ^ k) ((j + 1) * 2 ^ k)) I f T k)
    {X : Nat → Nat} (hX : ∀ i ∈ I, X i ≤ 2 ^ 32) {N m : Nat} (hm : m ≤ 32) (hN : N < 2 ^ m) :
    |(cnt (Finset.range N) I f (fun _ => 0) X : ℚ) - N * vol I (fun _ => 0) X| ≤ 2 ^ T * (m : ℚ) ^ I.card := by
  have h := segment hI hnet hX m hm 0 N (by simpa using Nat.pow_le_pow_right (by omega) hm) hN
  simp only [Nat.zero_mul, Nat.zero_add] at h
  rw [← Finset.range_eq_Ico] at h
  refine h.trans ?_
  have hc : I.card ≠ 0 := Finset.card_ne_zero.mpr hI
  calc ∑ k ∈ Finset.range m, 2 ^ T * ((k : ℚ) + 1) ^ (I.card - 1) ≤ ∑ _k ∈ Finset.range m, 2 ^ T * (m : ℚ) ^ (I.card - 1) := by
        refine Finset.sum_le_sum fun k hk => mul_le_mul_of_nonneg_left (pow_le_pow_left₀ (by positivity) ?_ _) (by positivity)
        exact_mod_cast Finset.mem_range.mp hk
    _ = 2 ^ T * ((m : ℚ) ^ (I.card - 1) * m) := by rw [Finset.sum_const, Finset.card_range, nsmul_eq_mul]; ring
    _ = 2 ^ T * (m : ℚ) ^ I.card := by rw [← pow_succ]; congr 2; omega

end HL.Discrepancy

import Verif.SobolSpec
import Verif.Model.Sobol
import Verif.Proof.ArrayLemmas
import Mathlib.Data.Nat.Bitwise
import Mathlib.Data.Finset.Max

/-
Lemmas about the Sobol generator.
-/

namespace HL

/-! ### bits -/

theorem ctz_spec : ∀ (fuel k : Nat), 0 < k → k < 2 ^ fuel →
    ctz fuel k < fuel ∧ (∀ i < ctz fuel k, k.testBit i = false) ∧ k.testBit (ctz fuel k) = true
  | 0, k, h0, h => by simp at h; omega
  | fuel + 1, k, h0, h => by
    unfold ctz
    by_cases hk : k % 2 = 1
    · rw [if_pos hk]
      refine ⟨by omega, by simp, ?_⟩
      simp [Nat.testBit_zero, hk]
    · rw [if_neg hk]
      obtain ⟨h1, h2, h3⟩ := ctz_spec fuel (k / 2) (by omega) (by rw [Nat.pow_succ] at h; omega)
      refine ⟨by omega, ?_, ?_⟩
      · intro i hi
        cases i with
        | zero => simp [Nat.testBit_zero]; omega
        | succ i => rw [Nat.testBit_succ]; exact h2 i (by omega)
      · rw [Nat.testBit_succ]; exact h3

theorem rightzero32_spec {n : Nat} (h : n < 2 ^ 32 - 1) :
    ∃ c, rightzero32 n = .ok c ∧ c < 32 ∧ (∀ i < c, n.testBit i = true) ∧ n.testBit c = false := by
  obtain ⟨h1, h2, h3⟩ := ctz_spec 32 (2 ^ 32 - 1 - n) (by omega) (by omega)
  have hb : ∀ i < 32, (2 ^ 32 - 1 - n).testBit i = !n.testBit i := by
    intro i hi
    have := Nat.testBit_two_pow_sub_succ (n := 32) (x := n) (by omega) i
    rw [show 2 ^ 32 - 1 - n = 2 ^ 32 - (n + 1) by omega, this]
    simp [hi]
  refine ⟨_, if_neg (by omega), h1, ?_, ?_⟩
  · intro i hi
    have := h2 i hi
    rw [hb i (by omega)] at this
    simpa using this
  · rw [hb _ h1] at h3
    simpa using h3

theorem testBit_succ_of : ∀ (c n : Nat), (∀ i < c, n.testBit i = true) → n.testBit c = false →
    ∀ i, (n + 1).testBit i = if i < c then false else if i = c then true else n.testBit i
  | 0, n, _, h0, i => by
    have he : n % 2 = 0 := by
      rw [Nat.testBit_zero] at h0
      simp at h0; omega
    cases i with
    | zero => simp [Nat.testBit_zero]; omega
    | succ i =>
      simp only [Nat.not_lt_zero, if_false, Nat.succ_ne_zero, Nat.testBit_succ]
      congr 1; omega
  | c + 1, n, h1, h0, i => by
    have ho : n % 2 = 1 := by
      have := h1 0 (by omega)
      simpa [Nat.testBit_zero] using this
    cases i with
    | zero => simp [Nat.testBit_zero]; omega
    | succ i =>
      have := testBit_succ_of c (n / 2) (fun i hi => by rw [← Nat.testBit_succ]; exact h1 _ (by omega))
        (by rw [← Nat.testBit_succ]; exact h0) i
      simp only [Nat.testBit_succ]
      rw [show (n + 1) / 2 = n / 2 + 1 by omega, this]
      simp

theorem testBit_gray (n i : Nat) : (gray n).testBit i = (n.testBit i ^^ n.testBit (i + 1)) := by
  unfold gray
  rw [Nat.testBit_xor, Nat.testBit_shiftRight, Nat.add_comm 1 i]

theorem gray_succ {c n : Nat} (h1 : ∀ i < c, n.testBit i = true) (h0 : n.testBit c = false) (i : Nat) :
    (gray (n + 1)).testBit i = ((gray n).testBit i ^^ decide (i = c)) := by
  rw [testBit_gray, testBit_gray, testBit_succ_of c n h1 h0, testBit_succ_of c n h1 h0]
  rcases Nat.lt_trichotomy i c with h | h | h
  · have hn : n.testBit i = true := h1 i h
    rw [if_pos h]
    by_cases h' : i + 1 < c
    · have := h1 (i + 1) h'
      rw [if_pos h', hn, this]; simp; omega
    · have h'' : i + 1 = c := by omega
      rw [if_neg h', if_pos h'', hn, h'', h0]; simp; omega
  · subst h
    rw [if_neg (by omega), if_pos rfl, if_neg (by omega), if_neg (by omega), h0]
    simp
  · rw [if_neg (by omega), if_neg (by omega), if_neg (by omega), if_neg (by omega)]
    have : ¬ i = c := by omega
    simp [this]

/-! ### xorSum -/

theorem xorSum_congr {f g : Nat → BitVec 32} {k : Nat} (h : ∀ i < k, f i = g i) : xorSum f k = xorSum g k := by
  induction k with
  | zero => rfl
  | succ k ih => simp only [xorSum]; rw [ih (fun i hi => h i (by omega)), h k (by omega)]

theorem xorSum_zero {f : Nat → BitVec 32} {k : Nat} (h : ∀ i < k, f i = 0) : xorSum f k = 0 := by
  induction k with
  | zero => rfl
  | succ k ih => simp only [xorSum]; rw [ih (fun i hi => h i (by omega)), h k (by omega)]; simp

theorem xorSum_flip {f g : Nat → BitVec 32} {k c : Nat} {v : BitVec 32} (hc : c < k) (h : g c = f c ^^^ v)
    (hne : ∀ i < k, i ≠ c → g i = f i) : xorSum g k = xorSum f k ^^^ v := by
  induction k with
  | zero => omega
  | succ k ih =>
    simp only [xorSum]
    by_cases hk : c = k
    · subst hk
      rw [xorSum_congr (g := f) (fun i hi => hne i (by omega) (by omega)), h, BitVec.xor_assoc]
    · rw [ih (by omega) (fun i hi hi' => hne i (by omega) hi'), hne k (by omega) (by omega)]
      rw [BitVec.xor_assoc, BitVec.xor_assoc, BitVec.xor_comm v]

theorem xorSum_xor (f g : Nat → BitVec 32) (k : Nat) :
    xorSum f k ^^^ xorSum g k = xorSum (fun i => f i ^^^ g i) k := by
  induction k with
  | zero => simp [xorSum]
  | succ k ih =>
    simp only [xorSum]
    rw [← ih]
    ac_rfl

theorem getLsbD_xorSum_false {f : Nat → BitVec 32} {k b : Nat} (h : ∀ i < k, (f i).getLsbD b = false) :
    (xorSum f k).getLsbD b = false := by
  induction k with
  | zero => simp [xorSum]
  | succ k ih =>
    simp only [xorSum, BitVec.getLsbD_xor, ih (fun i hi => h i (by omega)), h k (by omega)]
    rfl

theorem xorSum_eq_of_zero {f : Nat → BitVec 32} {k c : Nat} (hc : c ≤ k) (h : ∀ i < k, c ≤ i → f i = 0) :
    xorSum f k = xorSum f c := by
  induction k with
  | zero => have : c = 0 := by omega
            subst this; rfl
  | succ k ih =>
    by_cases hk : c = k + 1
    · rw [hk]
    · simp only [xorSum]
      rw [ih (by omega) (fun i hi hi' => h i (by omega) hi'), h k (by omega) (by omega)]
      simp

theorem sobolValue_congr {m m' : Nat → BitVec 32} (h : ∀ j < 32, m j = m' j) (n : Nat) :
    sobolValue m n = sobolValue m' n := by
  unfold sobolValue
  exact xorSum_congr (fun i hi => by rw [h i hi])

theorem sobolValue_zero (m : Nat → BitVec 32) : sobolValue m 0 = 0 := by
  unfold sobolValue
  apply xorSum_zero
  intro i _
  simp [gray]

theorem sobolValue_succ (m : Nat → BitVec 32) {c n : Nat} (hc : c < 32) (h1 : ∀ i < c, n.testBit i = true)
    (h0 : n.testBit c = false) : sobolValue m (n + 1) = sobolValue m n ^^^ (m c <<< (31 - c)) := by
  unfold sobolValue
  apply xorSum_flip hc
  · simp only [gray_succ h1 h0, decide_true, Bool.xor_true]
    cases (gray n).testBit c <;> simp
  · intro i _ hne
    simp only [gray_succ h1 h0, hne, decide_false, Bool.xor_false]

/-! ### direction numbers -/

theorem bitLen_eq : ∀ (fuel a : Nat), 0 < a → a < 2 ^ fuel → bitLen fuel a = Nat.log2 a + 1
  | 0, a, h0, h => by simp at h; omega
  | fuel + 1, a, h0, h => by
    unfold bitLen
    rw [if_neg (by omega)]
    by_cases h1 : a < 2
    · have : a = 1 := by omega
      subst this
      have : bitLen fuel (1 / 2) = 0 := by cases fuel <;> simp [bitLen]
      rw [this]; rfl
    · rw [bitLen_eq fuel (a / 2) (by omega) (by rw [Nat.pow_succ] at h; omega)]
      conv_rhs => rw [Nat.log2_def]
      rw [if_pos (by omega)]

theorem bit_mul (a : Nat) (v : BitVec 32) :
    BitVec.ofNat 32 (a % 2) * v = if a % 2 = 1 then v else 0 := by
  rcases Nat.mod_two_eq_zero_or_one a with h | h <;> simp [h]

theorem sobolInner_eq (col : List (BitVec 32)) (base d : Nat) (hd : d < 32) : ∀ (r k a : Nat) (acc : BitVec 32),
    k + r ≤ d → base + k + r ≤ col.length →
    sobolInner col base d r k a acc =
      .ok (acc ^^^ xorSum (fun q => if a.testBit q then col.getD (base + (k + q)) 0 <<< (d - (k + q)) else 0) r)
  | 0, k, a, acc, _, _ => by simp [sobolInner, xorSum]
  | r + 1, k, a, acc, h1, h2 => by
    unfold sobolInner
    have hlt : base + k < col.length := by omega
    rw [List.getElem?_eq_getElem hlt]
    simp only
    unfold shlSub
    rw [if_pos (by omega)]
    simp only [Out.ok_bind]
    rw [sobolInner_eq col base d hd r (k + 1) (a / 2) _ (by omega) (by omega)]
    congr 1
    have hx : ∀ (f : Nat → BitVec 32) (r : Nat), xorSum f (r + 1) = f 0 ^^^ xorSum (fun q => f (q + 1)) r := by
      intro f r
      induction r with
      | zero => simp [xorSum]
      | succ r ih =>
        rw [xorSum, ih]
        simp only [xorSum]
        rw [BitVec.xor_assoc]
    rw [hx, bit_mul, BitVec.xor_assoc]
    congr 1
    congr 1
    · have : col.getD (base + k) 0 = col[base + k] := by simp [List.getD_eq_getElem?_getD, hlt]
      simp only [Nat.add_zero, this, Nat.testBit_zero]
      by_cases h : a % 2 = 1 <;> simp [h]
    · apply xorSum_congr
      intro q _
      rw [Nat.testBit_succ, show k + 1 + q = k + (q + 1) by omega]

/-- the recurrence at position `j` -/
def RecAt (a d : Nat) (m : Nat → BitVec 32) (j : Nat) : Prop :=
  m j = m (j - d) ^^^ xorSum (fun k => if a.testBit k then m (j - d + k) <<< (d - k) else 0) d

theorem sobolFill_eq (a d : Nat) (hd0 : 0 < d) (hd : d < 32) : ∀ (r : Nat) (col : List (BitVec 32)),
    d ≤ col.length → (∀ j, d ≤ j → j < col.length → RecAt a d (fun j => col.getD j 0) j) →
    ∃ col', sobolFill a d r col = .ok col' ∧ col'.length = col.length + r ∧
      (∀ j < col.length, col'.getD j 0 = col.getD j 0) ∧
      ∀ j, d ≤ j → j < col'.length → RecAt a d (fun j => col'.getD j 0) j
  | 0, col, _, h => ⟨col, rfl, rfl, fun _ _ => rfl, h⟩
  | r + 1, col, hl, h => by
    unfold sobolFill
    rw [if_neg (by omega)]
    have hlt : col.length - d < col.length := by omega
    rw [List.getElem?_eq_getElem hlt]
    simp only
    rw [sobolInner_eq col _ d hd d 0 a _ (by omega) (by omega)]
    simp only [Out.ok_bind]
    set v := col[col.length - d] ^^^ xorSum (fun q => if a.testBit q then
      col.getD (col.length - d + (0 + q)) 0 <<< (d - (0 + q)) else 0) d with hv
    have hget : ∀ j < col.length, (col ++ [v]).getD j 0 = col.getD j 0 := by
      intro j hj
      simp [List.getD_eq_getElem?_getD, List.getElem?_append_left hj]
    have hlast : (col ++ [v]).getD col.length 0 = v := by
      simp [List.getD_eq_getElem?_getD]
    have hrec : ∀ j, d ≤ j → j < col.length + 1 → RecAt a d (fun j => (col ++ [v]).getD j 0) j := by
      intro j hj1 hj2
      have hx : xorSum (fun k => if a.testBit k then (col ++ [v]).getD (j - d + k) 0 <<< (d - k) else 0) d =
          xorSum (fun k => if a.testBit k then col.getD (j - d + k) 0 <<< (d - k) else 0) d := by
        apply xorSum_congr
        intro k hk
        rw [hget (j - d + k) (by omega)]
      unfold RecAt
      simp only
      rw [hx, hget (j - d) (by omega)]
      by_cases hj : j < col.length
      · rw [hget j hj]; exact h j hj1 hj
      · have : j = col.length := by omega
        subst this
        rw [hlast, hv]
        simp [List.getD_eq_getElem?_getD, hlt]
    obtain ⟨col', h1, h2, h3, h4⟩ := sobolFill_eq a d hd0 hd r (col ++ [v]) (by simp; omega)
      (by simpa using hrec)
    refine ⟨col', h1, by rw [h2]; simp; omega, ?_, h4⟩
    intro j hj
    rw [h3 j (by simp; omega), hget j hj]

/-- every entry of the polynomial table is a polynomial of degree 1 to 13 -/
theorem sobolA_ok : ∀ a ∈ sobolA, 2 ≤ a ∧ a < 2 ^ 14 := by
  have : sobolA.all (fun a => decide (2 ≤ a ∧ a < 2 ^ 14)) = true := by decide +kernel
  intro a ha
  simpa using List.all_eq_true.mp this a ha

theorem sobolA_length : sobolA.length = 1110 := by decide +kernel

theorem sobolMinit_length : ∀ r ∈ sobolMinit, r.length = 1110 := by
  have : sobolMinit.all (fun r => decide (r.length = 1110)) = true := by decide +kernel
  intro r hr
  simpa using List.all_eq_true.mp this r hr

/-- check of one row of starting values: odd and below 2^(j+1) wherever it is used -/
def rowOK (j : Nat) : List Nat → List Nat → Bool
  | a :: as, m :: ms => (decide (2 ^ (j + 1) ≤ a) → (m % 2 = 1 ∧ m < 2 ^ (j + 1))) && rowOK j as ms
  | [], [] => true
  | _, _ => false

theorem rowOK_spec {j : Nat} : ∀ {as ms : List Nat}, rowOK j as ms = true → ∀ (i a : Nat), as[i]? = some a →
    2 ^ (j + 1) ≤ a → ∃ m, ms[i]? = some m ∧ m % 2 = 1 ∧ m < 2 ^ (j + 1)
  | [], _, _, i, a, h, _ => by simp at h
  | b :: as, [], h, _, _, _, _ => by simp [rowOK] at h
  | b :: as, m :: ms, h, i, a, hi, ha => by
    simp only [rowOK, Bool.and_eq_true, decide_eq_true_eq] at h
    cases i with
    | zero =>
      simp at hi; subst hi
      exact ⟨m, rfl, h.1 ha⟩
    | succ i => exact rowOK_spec h.2 i a (by simpa using hi) ha

def rowsOK (as : List Nat) : Nat → List (List Nat) → Bool
  | _, [] => true
  | j, r :: rs => rowOK j as r && rowsOK as (j + 1) rs

theorem rowsOK_spec {as : List Nat} : ∀ {rs : List (List Nat)} {j : Nat}, rowsOK as j rs = true →
    ∀ q, q < rs.length → rowOK (j + q) as (rs.getD q []) = true
  | [], _, _, q, h => by simp at h
  | r :: rs, j, h, q, hq => by
    simp only [rowsOK, Bool.and_eq_true] at h
    cases q with
    | zero => exact h.1
    | succ q =>
      have := rowsOK_spec h.2 q (by simpa using hq)
      rw [show j + (q + 1) = j + 1 + q by omega]
      exact this

theorem table_ok : rowsOK sobolA 0 sobolMinit = true := by decide +kernel

theorem minit_ok {i a : Nat} (ha : sobolA[i]? = some a) {j : Nat} (hj : j < Nat.log2 a) :
    ∃ m, (sobolMinit.getD j [])[i]? = some m ∧ m % 2 = 1 ∧ m < 2 ^ (j + 1) := by
  have ha' := sobolA_ok a (List.mem_of_getElem? ha)
  have hlog : Nat.log2 a < 14 := (Nat.log2_lt (by omega)).mpr ha'.2
  have hlen : sobolMinit.length = 13 := rfl
  have h := rowsOK_spec table_ok j (by rw [hlen]; omega)
  rw [Nat.zero_add] at h
  apply rowOK_spec h i a ha
  calc 2 ^ (j + 1) ≤ 2 ^ Nat.log2 a := Nat.pow_le_pow_right (by omega) (by omega)
    _ ≤ a := Nat.log2_self_le (by omega)

theorem sobolColumn_eq {i : Nat} (hi : i < 1111) :
    ∃ col, sobolColumn i = .ok col ∧ col.length = 32 ∧ IsDirection i (fun j => col.getD j 0) := by
  cases i with
  | zero =>
    refine ⟨List.replicate 32 1, rfl, by simp, ?_⟩
    intro j hj
    show (List.replicate 32 (1 : BitVec 32)).getD j 0 = 1
    rw [List.getD_eq_getElem?_getD, List.getElem?_replicate, if_pos hj]
    rfl
  | succ i =>
    have hlt : i < sobolA.length := by rw [sobolA_length]; omega
    obtain ⟨a, ha⟩ : ∃ a, sobolA[i]? = some a := ⟨_, List.getElem?_eq_getElem hlt⟩
    have hb := sobolA_ok a (List.mem_of_getElem? ha)
    have hlog : Nat.log2 a < 14 := (Nat.log2_lt (by omega)).mpr hb.2
    have hlog1 : 0 < Nat.log2 a := by
      rcases Nat.eq_zero_or_pos (Nat.log2 a) with h | h
      · have := (Nat.log2_lt (n := a) (k := 1) (by omega)).mp (by omega)
        omega
      · exact h
    simp only [sobolColumn]
    rw [ha]
    simp only
    rw [if_neg (by omega), bitLen_eq 32 a (by omega) (by omega), Nat.add_sub_cancel]
    have hinit : (List.range (Nat.log2 a)).mapM (minitAt i) =
        .ok ((List.range (Nat.log2 a)).map (fun j => BitVec.ofNat 32 ((sobolMinit.getD j []).getD i 0))) := by
      apply mapM_ok
      intro j hj
      obtain ⟨m, hm, -⟩ := minit_ok ha (List.mem_range.mp hj)
      unfold minitAt
      rw [hm]
      simp only
      rw [List.getD_eq_getElem?_getD, hm]
      rfl
    refine Exists.imp ?_ (sobolFill_eq a (Nat.log2 a) hlog1 (by omega) (32 - Nat.log2 a)
      ((List.range (Nat.log2 a)).map (fun j => BitVec.ofNat 32 ((sobolMinit.getD j []).getD i 0)))
      (by simp) (by intro j h1 h2; simp at h2; omega))
    rintro col ⟨h1, h2, h3, h4⟩
    simp only [List.length_map, List.length_range] at h2 h3
    refine ⟨?_, by omega, ?_⟩
    · exact (congrArg (· >>= _) hinit).trans h1
    · have hA : sobolA.getD i 0 = a := by rw [List.getD_eq_getElem?_getD, ha]; rfl
      unfold IsDirection
      simp only [hA]
      refine ⟨?_, ?_⟩
      · intro j hj
        rw [h3 j hj, List.getD_eq_getElem?_getD, List.getElem?_map, List.getElem?_range hj]
        rfl
      · intro j hj hdj
        exact h4 j hdj (by omega)

theorem isDirection_unique {i : Nat} {m m' : Nat → BitVec 32} (h : IsDirection i m) (h' : IsDirection i m') :
    i < 1111 → ∀ j < 32, m j = m' j := by
  intro hi
  cases i with
  | zero => intro j hj; rw [h j hj, h' j hj]
  | succ i =>
    have hlt : i < sobolA.length := by rw [sobolA_length]; omega
    obtain ⟨a, ha⟩ : ∃ a, sobolA[i]? = some a := ⟨_, List.getElem?_eq_getElem hlt⟩
    have hb := sobolA_ok a (List.mem_of_getElem? ha)
    have hlog1 : 0 < Nat.log2 a := by
      rcases Nat.eq_zero_or_pos (Nat.log2 a) with h | h
      · have := (Nat.log2_lt (n := a) (k := 1) (by omega)).mp (by omega)
        omega
      · exact h
    have hA : sobolA.getD i 0 = a := by rw [List.getD_eq_getElem?_getD, ha]; rfl
    unfold IsDirection at h h'
    simp only [hA] at h h'
    intro j
    induction j using Nat.strong_induction_on with
    | _ j ih =>
      intro hj
      by_cases hd : j < Nat.log2 a
      · rw [h.1 j hd, h'.1 j hd]
      · rw [h.2 j hj (by omega), h'.2 j hj (by omega), ih (j - Nat.log2 a) (by omega) (by omega)]
        congr 1
        apply xorSum_congr
        intro k hk
        rw [ih (j - Nat.log2 a + k) (by omega) (by omega)]

/-- direction numbers are odd and `m_j < 2^(j+1)` -/
theorem isDirection_shape {i : Nat} (hi : i < 1111) {m : Nat → BitVec 32} (h : IsDirection i m) :
    ∀ j < 32, (m j).getLsbD 0 = true ∧ ∀ b, j < b → (m j).getLsbD b = false := by
  cases i with
  | zero =>
    intro j hj
    rw [h j hj]
    refine ⟨by decide, ?_⟩
    intro b hb
    have : (1 : BitVec 32).getLsbD b = (decide (b < 32) && (1 : Nat).testBit b) :=
      BitVec.getLsbD_ofNat 32 1 b
    rw [this]
    cases b with
    | zero => omega
    | succ b => simp [Nat.testBit_succ]
  | succ i =>
    have hlt : i < sobolA.length := by rw [sobolA_length]; omega
    obtain ⟨a, ha⟩ : ∃ a, sobolA[i]? = some a := ⟨_, List.getElem?_eq_getElem hlt⟩
    have hb := sobolA_ok a (List.mem_of_getElem? ha)
    have hlog : Nat.log2 a < 14 := (Nat.log2_lt (by omega)).mpr hb.2
    have hlog1 : 0 < Nat.log2 a := by
      rcases Nat.eq_zero_or_pos (Nat.log2 a) with h | h
      · have := (Nat.log2_lt (n := a) (k := 1) (by omega)).mp (by omega)
        omega
      · exact h
    have hA : sobolA.getD i 0 = a := by rw [List.getD_eq_getElem?_getD, ha]; rfl
    unfold IsDirection at h
    simp only [hA] at h
    intro j
    induction j using Nat.strong_induction_on with
    | _ j ih =>
      intro hj
      by_cases hd : j < Nat.log2 a
      · rw [h.1 j hd]
        obtain ⟨v, hv, hodd, hlt⟩ := minit_ok ha hd
        have : (sobolMinit.getD j []).getD i 0 = v := by rw [List.getD_eq_getElem?_getD, hv]; rfl
        rw [this]
        refine ⟨?_, ?_⟩
        · rw [BitVec.getLsbD_ofNat]
          simp [Nat.testBit_zero, hodd]
        · intro b hb
          rw [BitVec.getLsbD_ofNat]
          have : v.testBit b = false := by
            apply Nat.testBit_lt_two_pow
            exact lt_of_lt_of_le hlt (Nat.pow_le_pow_right (by omega) (by omega))
          simp [this]
      · rw [h.2 j hj (by omega)]
        obtain ⟨ih1, ih2⟩ := ih (j - Nat.log2 a) (by omega) (by omega)
        refine ⟨?_, ?_⟩
        · rw [BitVec.getLsbD_xor, ih1, getLsbD_xorSum_false]
          · rfl
          · intro k hk
            by_cases hbit : a.testBit k
            · rw [if_pos hbit, BitVec.getLsbD_shiftLeft]
              simp; omega
            · rw [if_neg hbit]; simp
        · intro b hb
          rw [BitVec.getLsbD_xor, ih2 b (by omega), getLsbD_xorSum_false]
          · rfl
          · intro k hk
            by_cases hbit : a.testBit k
            · rw [if_pos hbit, BitVec.getLsbD_shiftLeft]
              rw [(ih (j - Nat.log2 a + k) (by omega) (by omega)).2 (b - (Nat.log2 a - k)) (by omega)]
              simp
            · rw [if_neg hbit]; simp

/-! ### injectivity within aligned blocks -/

/-- `m` shifted into place: the lowest bit set is `31 - c` -/
theorem shifted_bits {m : Nat → BitVec 32}
    (hm : ∀ j < 32, (m j).getLsbD 0 = true ∧ ∀ b, j < b → (m j).getLsbD b = false) {c : Nat} (hc : c < 32) :
    (m c <<< (31 - c)).getLsbD (31 - c) = true ∧ ∀ b < 31 - c, (m c <<< (31 - c)).getLsbD b = false := by
  refine ⟨?_, ?_⟩
  · rw [BitVec.getLsbD_shiftLeft]
    simp [(hm c hc).1]
    omega
  · intro b hb
    rw [BitVec.getLsbD_shiftLeft]
    simp [hb]

theorem top_bit {m : Nat → BitVec 32}
    (hm : ∀ j < 32, (m j).getLsbD 0 = true ∧ ∀ b, j < b → (m j).getLsbD b = false) (h : Nat → Bool) {c : Nat}
    (hc : c < 32) (hset : h c = true) (hmax : ∀ i < 32, c < i → h i = false) :
    (xorSum (fun c => if h c then m c <<< (31 - c) else 0) 32).getLsbD (31 - c) = true := by
  rw [xorSum_eq_of_zero (c := c + 1) (by omega) (by
    intro i hi hi'
    simp [hmax i hi (by omega)])]
  simp only [xorSum, hset, if_true, BitVec.getLsbD_xor]
  rw [(shifted_bits hm hc).1, getLsbD_xorSum_false]
  · rfl
  · intro i hi
    by_cases hh : h i
    · rw [if_pos hh]
      exact (shifted_bits hm (by omega)).2 _ (by omega)
    · rw [if_neg hh]; simp

theorem gray_inj {n n' : Nat} (hn : n < 2 ^ 32) (hn' : n' < 2 ^ 32)
    (h : ∀ i < 32, (gray n).testBit i = (gray n').testBit i) : n = n' := by
  have key : ∀ k ≤ 32, ∀ i, 32 - k ≤ i → n.testBit i = n'.testBit i := by
    intro k
    induction k with
    | zero =>
      intro _ i hi
      have hp : 2 ^ 32 ≤ 2 ^ i := Nat.pow_le_pow_right (by omega) (by omega)
      rw [Nat.testBit_lt_two_pow (lt_of_lt_of_le hn hp), Nat.testBit_lt_two_pow (lt_of_lt_of_le hn' hp)]
    | succ k ih =>
      intro hk i hi
      by_cases h1 : 32 - k ≤ i
      · exact ih (by omega) i h1
      · have h2 := h i (by omega)
        rw [testBit_gray, testBit_gray, ih (by omega) (i + 1) (by omega)] at h2
        revert h2
        cases n.testBit i <;> cases n'.testBit i <;> simp
  exact Nat.eq_of_testBit_eq (fun i => key 32 (by omega) i (by omega))

/-- Two positions in the same aligned block of 2^k whose values agree in their first k bits are equal. -/
theorem sobolValue_block_inj {m : Nat → BitVec 32}
    (hm : ∀ j < 32, (m j).getLsbD 0 = true ∧ ∀ b, j < b → (m j).getLsbD b = false)
    {k n n' : Nat} (hk : k ≤ 32) (hn : n < 2 ^ 32) (hn' : n' < 2 ^ 32) (hblock : n / 2 ^ k = n' / 2 ^ k)
    (heq : (sobolValue m n).toNat / 2 ^ (32 - k) = (sobolValue m n').toNat / 2 ^ (32 - k)) : n = n' := by
  have hhigh : ∀ i, k ≤ i → n.testBit i = n'.testBit i := by
    intro i hi
    have h1 := Nat.testBit_div_two_pow (n := k) n (i - k)
    have h2 := Nat.testBit_div_two_pow (n := k) n' (i - k)
    rw [show i - k + k = i by omega] at h1 h2
    rw [← h1, ← h2, hblock]
  have hval : ∀ b, 32 - k ≤ b → (sobolValue m n).getLsbD b = (sobolValue m n').getLsbD b := by
    intro b hb
    have h1 := Nat.testBit_div_two_pow (n := 32 - k) (sobolValue m n).toNat (b - (32 - k))
    have h2 := Nat.testBit_div_two_pow (n := 32 - k) (sobolValue m n').toNat (b - (32 - k))
    rw [show b - (32 - k) + (32 - k) = b by omega] at h1 h2
    unfold BitVec.getLsbD
    rw [← h1, ← h2, heq]
  set h : Nat → Bool := fun c => (gray n).testBit c ^^ (gray n').testBit c with hh
  have hx : sobolValue m n ^^^ sobolValue m n' = xorSum (fun c => if h c then m c <<< (31 - c) else 0) 32 := by
    unfold sobolValue
    rw [xorSum_xor]
    apply xorSum_congr
    intro c _
    simp only [hh]
    cases (gray n).testBit c <;> cases (gray n').testBit c <;> simp
  by_cases hall : ∀ c < 32, h c = false
  · apply gray_inj hn hn'
    intro i hi
    have := hall i hi
    simp only [hh] at this
    revert this
    cases (gray n).testBit i <;> cases (gray n').testBit i <;> simp
  · exfalso
    push Not at hall
    -- the largest differing position
    obtain ⟨c, ⟨hc, hset⟩, hmax⟩ : ∃ c, (c < 32 ∧ h c = true) ∧ ∀ i < 32, c < i → h i = false := by
      classical
      obtain ⟨c0, hc0, hset0⟩ := hall
      have hne : ((Finset.range 32).filter (fun c => h c = true)).Nonempty :=
        ⟨c0, by simp only [Finset.mem_filter, Finset.mem_range]; exact ⟨hc0, by simpa using hset0⟩⟩
      refine ⟨((Finset.range 32).filter (fun c => h c = true)).max' hne, ?_, ?_⟩
      · have := Finset.max'_mem _ hne
        simpa using this
      · intro i hi hlt
        by_contra hcon
        have : i ∈ (Finset.range 32).filter (fun c => h c = true) := by
          simp only [Finset.mem_filter, Finset.mem_range]
          exact ⟨hi, by simpa using hcon⟩
        have := Finset.le_max' _ i this
        omega
    have hck : c < k := by
      by_contra hcon
      have h1 := hhigh c (by omega)
      have h2 := hhigh (c + 1) (by omega)
      simp only [hh, testBit_gray, h1, h2, Bool.xor_self] at hset
      exact absurd hset (by simp)
    have htop := top_bit hm h hc hset hmax
    rw [← hx, BitVec.getLsbD_xor, hval (31 - c) (by omega), Bool.xor_self] at htop
    exact absurd htop (by simp)

/-! ### the generator -/

/-- the state of one coordinate after `n` points -/
structure CoordAt (i n : Nat) (s : SCoord) : Prop where
  len : s.m.length = 32
  dir : IsDirection i (fun j => s.m.getD j 0)
  b : s.b ≤ 31
  val : s.x <<< (31 - s.b) = sobolValue (fun j => s.m.getD j 0) n

theorem genCoord_eq {i n c : Nat} {s : SCoord} (h : CoordAt i n s) (hc : c < 32)
    (h1 : ∀ i < c, n.testBit i = true) (h0 : n.testBit c = false) :
    ∃ s', genCoord c s = .ok (s', sobolValue (fun j => s.m.getD j 0) (n + 1)) ∧ CoordAt i (n + 1) s' ∧
      s'.m = s.m := by
  have hlt : c < s.m.length := by rw [h.len]; exact hc
  have hb := h.b
  have hmc : s.m.getD c 0 = s.m[c] := by simp [List.getD_eq_getElem?_getD, hlt]
  have hv := sobolValue_succ (fun j => s.m.getD j 0) hc h1 h0
  simp only [hmc] at hv
  unfold genCoord
  rw [List.getElem?_eq_getElem hlt]
  simp only
  by_cases hcb : c ≤ s.b
  · rw [if_pos hcb]
    have e1 : shlSub s.m[c] s.b c = .ok (s.m[c] <<< (s.b - c)) := by
      unfold shlSub; rw [if_pos (by omega)]
    have e2 : shlSub (s.x ^^^ s.m[c] <<< (s.b - c)) 31 s.b =
        .ok (sobolValue (fun j => s.m.getD j 0) (n + 1)) := by
      unfold shlSub
      rw [if_pos (by omega), hv, ← h.val, BitVec.shiftLeft_xor_distrib, ← BitVec.shiftLeft_add,
        show s.b - c + (31 - s.b) = 31 - c by omega]
    have e3 : (s.x ^^^ s.m[c] <<< (s.b - c)) <<< (31 - s.b) = sobolValue (fun j => s.m.getD j 0) (n + 1) := by
      unfold shlSub at e2
      rw [if_pos (by omega)] at e2
      injection e2
    rw [e1]
    simp only [Out.ok_bind]
    rw [e2]
    exact ⟨_, rfl, ⟨h.len, h.dir, h.b, e3⟩, rfl⟩
  · rw [if_neg hcb]
    have e1 : shlSub s.x c s.b = .ok (s.x <<< (c - s.b)) := by
      unfold shlSub; rw [if_pos (by omega)]
    have e3 : (s.x <<< (c - s.b) ^^^ s.m[c]) <<< (31 - c) = sobolValue (fun j => s.m.getD j 0) (n + 1) := by
      rw [hv, ← h.val, BitVec.shiftLeft_xor_distrib, ← BitVec.shiftLeft_add,
        show c - s.b + (31 - c) = 31 - s.b by omega]
    have e2 : shlSub (s.x <<< (c - s.b) ^^^ s.m[c]) 31 c =
        .ok (sobolValue (fun j => s.m.getD j 0) (n + 1)) := by
      unfold shlSub
      rw [if_pos (by omega), e3]
    rw [e1]
    simp only [Out.ok_bind]
    rw [e2]
    exact ⟨_, rfl, ⟨h.len, h.dir, by simp; omega, e3⟩, rfl⟩

/-- the whole generator after `n` points -/
structure DataAt (dim n : Nat) (sd : SobolData) : Prop where
  len : sd.coords.length = dim
  coord : ∀ i (h : i < sd.coords.length), CoordAt i n sd.coords[i]
  n : sd.n = n
  dim : dim ≤ 1111

theorem mapM_exists {β γ : Type} (f : β → Out γ) (P : Nat → γ → Prop) : ∀ (l : List β) (off : Nat),
    (∀ i (h : i < l.length), ∃ y, f l[i] = .ok y ∧ P (off + i) y) →
    ∃ r, l.mapM f = .ok r ∧ r.length = l.length ∧ ∀ i (h : i < r.length), P (off + i) r[i]
  | [], _, _ => ⟨[], rfl, rfl, by simp⟩
  | a :: l, off, h => by
    obtain ⟨y, hy, hp⟩ := h 0 (by simp)
    obtain ⟨r, hr, hl, hall⟩ := mapM_exists f P l (off + 1) (fun i hi => by
      have := h (i + 1) (by simpa using hi)
      simp only [List.getElem_cons_succ] at this
      rw [show off + 1 + i = off + (i + 1) by omega]
      exact this)
    refine ⟨y :: r, ?_, by simp [hl], ?_⟩
    · simp only [List.getElem_cons_zero] at hy
      rw [List.mapM_cons, hy, hr]
      rfl
    · intro i hi
      cases i with
      | zero => simpa using hp
      | succ i =>
        have := hall i (by simpa using hi)
        simp only [List.getElem_cons_succ]
        rw [show off + (i + 1) = off + 1 + i by omega]
        exact this

theorem pointAt_unique {dim n : Nat} {p q : List (BitVec 32)} (hd : dim ≤ 1111) (hp : PointAt dim n p)
    (hq : PointAt dim n q) : p = q := by
  apply List.ext_getElem (by rw [hp.1, hq.1])
  intro i h1 h2
  have hi : i < dim := by rw [← hp.1]; exact h1
  obtain ⟨col, -, -, hdir⟩ := sobolColumn_eq (i := i) (by omega)
  have e1 := hp.2 i hi _ hdir
  have e2 := hq.2 i hi _ hdir
  simp only [List.getD_eq_getElem?_getD, h1, h2, List.getElem?_eq_getElem, Option.getD_some] at e1 e2
  rw [e1, e2]

theorem sobolGen_ok {dim n : Nat} {sd : SobolData} (h : DataAt dim n sd) (hn : n < 2 ^ 32 - 1)
    (buf : List (BitVec 32)) :
    ∃ sd' p, sobolGen sd buf = .ok (sd', p, true) ∧ DataAt dim (n + 1) sd' ∧ PointAt dim (n + 1) p := by
  obtain ⟨c, hc, hc32, hc1, hc0⟩ := rightzero32_spec hn
  unfold sobolGen
  rw [h.n, if_neg (by omega), hc]
  simp only [Out.ok_bind]
  obtain ⟨r, hr, hl, hall⟩ := mapM_exists (genCoord c)
    (fun i y => CoordAt i (n + 1) y.1 ∧ ∀ m, IsDirection i m → y.2 = sobolValue m (n + 1)) sd.coords 0 (by
      intro i hi
      have hco := h.coord i hi
      obtain ⟨s', hs', hco', -⟩ := genCoord_eq hco hc32 hc1 hc0
      refine ⟨_, hs', by rw [Nat.zero_add]; exact hco', ?_⟩
      intro m hm
      rw [Nat.zero_add] at hm
      have hi' : i < 1111 := by have := h.len; have := h.dim; omega
      exact sobolValue_congr (isDirection_unique hco.dir hm hi') _)
  rw [hr]
  simp only [Out.ok_bind, Out.pure_eq]
  refine ⟨_, _, rfl, ⟨by simp [hl, h.len], ?_, ?_, h.dim⟩, ?_, ?_⟩
  · intro i hi
    simp only [List.getElem_map]
    have := (hall i (by simpa using hi)).1
    rwa [Nat.zero_add] at this
  · simp only
    exact Nat.mod_eq_of_lt (by omega)
  · simp [hl, h.len]
  · intro i hi m hm
    have hi' : i < r.length := by rw [hl, h.len]; exact hi
    rw [List.getD_eq_getElem?_getD, List.getElem?_map, List.getElem?_eq_getElem hi']
    exact (hall i hi').2 m (by rw [Nat.zero_add]; exact hm)

theorem sobolGen_end {dim : Nat} {sd : SobolData} (h : DataAt dim (2 ^ 32 - 1) sd) (buf : List (BitVec 32)) :
    sobolGen sd buf = .ok (sd, buf, false) := by
  unfold sobolGen
  rw [h.n, if_pos rfl]

theorem sobolCreate_ok {dim : Nat} (h1 : 1 ≤ dim) (h2 : dim ≤ 1111) :
    ∃ sd, sobolCreate dim = .ok (some sd) ∧ DataAt dim 0 sd := by
  unfold sobolCreate
  rw [if_neg (by omega)]
  obtain ⟨r, hr, hl, hall⟩ := mapM_exists sobolColumn
    (fun i col => col.length = 32 ∧ IsDirection i (fun j => col.getD j 0)) (List.range dim) 0 (by
      intro i hi
      obtain ⟨col, h1, h2, h3⟩ := sobolColumn_eq (i := i) (by simp at hi; omega)
      refine ⟨col, by simpa using h1, h2, by rw [Nat.zero_add]; exact h3⟩)
  rw [hr]
  simp only [Out.ok_bind, Out.pure_eq]
  refine ⟨_, rfl, ⟨by simp [hl], ?_, rfl, h2⟩⟩
  intro i hi
  have hi' : i < r.length := by simpa using hi
  have := hall i hi'
  rw [Nat.zero_add] at this
  simp only [List.getElem_map]
  refine ⟨this.1, this.2, by simp, ?_⟩
  simp [sobolValue_zero]

/-- generating `k` points from position `n`, the last ones failing when the sequence is exhausted -/
theorem genTimes_ok {dim : Nat} : ∀ (k n : Nat) (sd : SobolData) (buf : List (BitVec 32)), DataAt dim n sd →
    n ≤ 2 ^ 32 - 1 → ∃ sd' buf', genTimes k sd buf = .ok (sd', buf') ∧
      DataAt dim (min (n + k) (2 ^ 32 - 1)) sd' ∧ (buf.length = dim → buf'.length = dim)
  | 0, n, sd, buf, h, hn => ⟨sd, buf, rfl, by rw [Nat.add_zero, min_eq_left hn]; exact h, id⟩
  | k + 1, n, sd, buf, h, hn => by
    unfold genTimes
    by_cases hlt : n < 2 ^ 32 - 1
    · obtain ⟨sd', p, h1, h2, h3⟩ := sobolGen_ok h hlt buf
      rw [h1]
      simp only [Out.ok_bind]
      obtain ⟨sd'', buf', h4, h5, h6⟩ := genTimes_ok k (n + 1) sd' p h2 (by omega)
      exact ⟨sd'', buf', h4, by rw [show n + (k + 1) = n + 1 + k by omega]; exact h5, fun _ => h6 h3.1⟩
    · have : n = 2 ^ 32 - 1 := by omega
      subst this
      rw [sobolGen_end h]
      simp only [Out.ok_bind]
      obtain ⟨sd'', buf', h4, h5, h6⟩ := genTimes_ok k (2 ^ 32 - 1) sd buf h le_rfl
      refine ⟨sd'', buf', h4, ?_, h6⟩
      rw [min_eq_right (by omega)]
      rw [min_eq_right (by omega)] at h5
      exact h5

end HL

import Verif.Model.Messages
import Verif.MessageSpec
import Verif.Props.Refusal
import Verif.Proof.IntegeriseArray

/-
The messages of the checks outside the constructor of problems, and the numbers in messages.
-/

namespace HL
open Log

/-! ### Numerals -/

theorem digitVal_digitChar : ∀ d < 10, digitVal (Nat.digitChar d) = d := by decide

theorem readNat_foldl (l : List Nat) (h : ∀ d ∈ l, d < 10) : ∀ n, (l.map Nat.digitChar).foldl (fun n c => 10 * n + digitVal c) n =
    l.foldl (fun n d => 10 * n + d) n := by
  induction l with
  | nil => intro n; rfl
  | cons d l ih =>
    intro n
    rw [List.map_cons, List.foldl_cons, List.foldl_cons, digitVal_digitChar d (h d (by simp))]
    exact ih (fun d hd => h d (by simp [hd])) _

theorem foldl_reverse_digits (l : List Nat) : l.reverse.foldl (fun n d => 10 * n + d) 0 = Nat.ofDigits 10 l := by
  rw [List.foldl_reverse]
  induction l with
  | nil => rfl
  | cons d l ih =>
    rw [List.foldr_cons, ih, Nat.ofDigits_cons]
    ring

theorem readNat_natText (n : Nat) : readNat (natText n) = n := by
  unfold natText readNat
  split
  · rename_i h; subst h; decide
  · rw [← List.map_reverse, readNat_foldl _ (fun d hd => Nat.digits_lt_base (by norm_num) (List.mem_reverse.mp hd)),
      foldl_reverse_digits, Nat.ofDigits_digits]

theorem natText_ne_nil (n : Nat) : natText n ≠ [] := by
  unfold natText
  split
  · simp
  · rename_i h
    simp [Nat.digits_ne_nil_iff_ne_zero.mpr h]

theorem digit_not {c : Char} {n : Nat} (h : c ∈ natText n) : c ≠ '-' ∧ c ≠ '.' ∧ c ≠ ',' ∧ c ≠ ']' ∧ c ≠ ' ' := by
  obtain ⟨d, hd, rfl⟩ := natText_digits h
  clear h
  revert d
  decide

theorem head_natText (n : Nat) (r : List Char) : (natText n ++ r).head? ≠ some '-' := by
  obtain ⟨c, t, h⟩ := List.exists_cons_of_ne_nil (natText_ne_nil n)
  rw [h, List.cons_append, List.head?_cons]
  intro hc
  injection hc with hc
  exact (digit_not (n := n) (c := c) (by rw [h]; simp)).1 hc

theorem readInt_intText (z : Int) : readInt (intText z) = z := by
  unfold intText readInt
  split
  · rename_i h
    rw [List.head?_cons, if_pos rfl, List.tail_cons, readNat_natText]
    omega
  · have := head_natText z.natAbs []
    rw [List.append_nil] at this
    rw [if_neg this, readNat_natText]
    omega

/-- **C129**, whole numbers in messages: reading the text gives the number back. -/
theorem C129_numbers (n : Nat) (z : Int) : readNat (natText n) = n ∧ readInt (intText z) = z :=
  ⟨readNat_natText n, readInt_intText z⟩

theorem readNat_sixDigits (n : Nat) (h : n < 10 ^ 6) : readNat (sixDigits n) = n := by
  unfold sixDigits readNat
  rw [readNat_foldl _ (by
    intro d hd
    simp only [List.mem_cons, List.not_mem_nil, or_false] at hd
    omega)]
  simp only [List.foldl_cons, List.foldl_nil]
  omega

theorem takeWhile_digits (n : Nat) (r : List Char) : (natText n ++ '.' :: r).takeWhile (· ≠ '.') = natText n := by
  rw [List.takeWhile_append_of_pos (by
    intro c hc
    simpa using (digit_not hc).2.1)]
  simp

theorem dropWhile_digits (n : Nat) (r : List Char) : (natText n ++ '.' :: r).dropWhile (· ≠ '.') = '.' :: r := by
  rw [List.dropWhile_append_of_pos (by
    intro c hc
    simpa using (digit_not hc).2.1)]
  simp

theorem readFraction_text (m : Nat) : readFraction (natText (m / 10 ^ 6) ++ '.' :: sixDigits (m % 10 ^ 6)) = (m : ℚ) / 10 ^ 6 := by
  unfold readFraction
  rw [takeWhile_digits, dropWhile_digits, List.tail_cons, readNat_natText, readNat_sixDigits _ (Nat.mod_lt _ (by norm_num))]
  have hl : (sixDigits (m % 10 ^ 6)).length = 6 := rfl
  rw [hl]
  have := Nat.div_add_mod m (10 ^ 6)
  have h2 : (m : ℚ) = 10 ^ 6 * ((m / 10 ^ 6 : Nat) : ℚ) + ((m % 10 ^ 6 : Nat) : ℚ) := by exact_mod_cast this.symm
  rw [h2]
  ring

/-- **C129**, doubles in messages: the text of a finite double is a decimal fraction with six decimals, has a minus sign exactly if
the double is negative, and its value is within half a unit of the sixth decimal of the double. -/
theorem C129_doubles (q : ℚ) : |readFixed (flText (.fin q)) - q| ≤ 1 / (2 * 10 ^ 6) ∧
    ((flText (.fin q)).head? = some '-' ↔ q < 0) ∧ ((flText (.fin q)).dropWhile (· ≠ '.')).length = 7 := by
  show |readFixed (fixedText q) - q| ≤ _ ∧ ((fixedText q).head? = some '-' ↔ _) ∧ ((fixedText q).dropWhile _).length = 7
  have h0 : 0 ≤ FP.rne (|q| * 10 ^ 6) := by
    have := FP.rne_mono (p := ((0 : Int) : ℚ)) (q := |q| * 10 ^ 6) (by rw [Int.cast_zero]; positivity)
    rwa [FP.rne_int] at this
  have hr := FP.rne_abs_sub (|q| * 10 ^ 6)
  set m := (FP.rne (|q| * 10 ^ 6)).toNat with hm
  have hmq : ((FP.rne (|q| * 10 ^ 6) : Int) : ℚ) = (m : ℚ) := by
    rw [← Int.cast_natCast, hm, Int.toNat_of_nonneg h0]
  rw [hmq] at hr
  have hb : abs ((m : ℚ) / 10 ^ 6 - |q|) ≤ 1 / (2 * 10 ^ 6) := by
    rw [abs_le] at hr ⊢
    constructor
    · rw [le_sub_iff_add_le, le_div_iff₀ (by norm_num)]; linarith [hr.1]
    · rw [sub_le_iff_le_add, div_le_iff₀ (by norm_num)]; linarith [hr.2]
  unfold fixedText
  rw [← hm]
  by_cases hq : q < 0
  · rw [if_pos hq]
    refine ⟨?_, by simp [hq], ?_⟩
    · show |readFixed ('-' :: (natText (m / 10 ^ 6) ++ '.' :: sixDigits (m % 10 ^ 6))) - q| ≤ _
      unfold readFixed
      rw [List.head?_cons, if_pos rfl, List.tail_cons, readFraction_text]
      rw [abs_of_neg hq] at hb
      rw [abs_sub_comm]
      convert hb using 2
      ring
    · show (('-' :: (natText (m / 10 ^ 6) ++ '.' :: sixDigits (m % 10 ^ 6))).dropWhile _).length = 7
      rw [List.dropWhile_cons_of_pos (by decide), dropWhile_digits]
      rfl
  · rw [if_neg hq, List.nil_append]
    refine ⟨?_, by simp only [head_natText, hq], ?_⟩
    · unfold readFixed
      rw [if_neg (head_natText _ _), readFraction_text]
      rwa [abs_of_nonneg (not_lt.mp hq)] at hb
    · rw [dropWhile_digits]
      rfl

/-- **C129**, doubles that are not finite: they are printed as `inf`, `-inf` and `nan`, so the sign of an infinity is kept, and none of them
can be taken for a finite number or for another. -/
theorem C129_special : flText .pinf = "inf".toList ∧ flText .ninf = "-inf".toList ∧ flText .nan = "nan".toList ∧
    ∀ x y : Fl, (∀ q, x ≠ .fin q) → flText x = flText y → x = y := by
  refine ⟨rfl, rfl, rfl, fun x y hx h => ?_⟩
  have dot : ∀ q, '.' ∈ flText (.fin q) := fun q => by simp [flText, fixedText]
  have h1 : ∀ q, y = .fin q → False := by
    rintro q rfl
    have := dot q
    rw [← h] at this
    revert this
    cases x with
    | fin q => exact absurd rfl (hx q)
    | pinf => decide
    | ninf => decide
    | nan => decide
  cases x with
  | fin q => exact absurd rfl (hx q)
  | pinf => cases y with
    | fin q => exact (h1 q rfl).elim
    | pinf => rfl
    | ninf => revert h; decide
    | nan => revert h; decide
  | ninf => cases y with
    | fin q => exact (h1 q rfl).elim
    | pinf => revert h; decide
    | ninf => rfl
    | nan => revert h; decide
  | nan => cases y with
    | fin q => exact (h1 q rfl).elim
    | pinf => revert h; decide
    | ninf => revert h; decide
    | nan => rfl

example : flText (.fin (-5 / 2)) = "-2.500000".toList ∧ flText (.fin (1 / 10 ^ 4)) = "0.000100".toList ∧
    readFixed "-2.500000".toList = -5 / 2 := by decide +kernel

/-! ### Lists -/

theorem split_at {p : Char → Bool} {x y r r' : List Char} (hx : ∀ c ∈ x, p c = true) (hy : ∀ c ∈ y, p c = true)
    (hr : ∀ c, r.head? = some c → p c = false) (hr' : ∀ c, r'.head? = some c → p c = false) (h : x ++ r = y ++ r') :
    x = y ∧ r = r' := by
  have key : ∀ {x r : List Char}, (∀ c ∈ x, p c = true) → (∀ c, r.head? = some c → p c = false) → (x ++ r).takeWhile p = x := by
    intro x r hx hr
    rw [List.takeWhile_append_of_pos hx]
    cases r with
    | nil => simp
    | cons c r => rw [List.takeWhile_cons_of_neg (by rw [hr c rfl]; simp), List.append_nil]
  have h1 := key hx hr
  rw [h, key hy hr'] at h1
  subst h1
  exact ⟨rfl, List.append_cancel_left h⟩

theorem vecRest_inj {α : Type} {f : α → List Char} (hf : ∀ a b, f a = f b → a = b) (hc : ∀ a, ∀ c ∈ f a, c ≠ ',' ∧ c ≠ ']') :
    ∀ v w : List α, (v.map f).flatMap (fun y => [',', ' '] ++ y) ++ [']'] = (w.map f).flatMap (fun y => [',', ' '] ++ y) ++ [']'] → v = w
  | [], [], _ => rfl
  | [], b :: w, h => by simp at h
  | a :: v, [], h => by simp at h
  | a :: v, b :: w, h => by
    simp only [List.map_cons, List.flatMap_cons, List.append_assoc, List.cons_append, List.nil_append, List.cons.injEq, true_and] at h
    have hd : ∀ (u : List α) (c : Char), ((u.map f).flatMap (fun y => ',' :: ' ' :: y) ++ [']']).head? = some c →
        (fun c : Char => decide (c ≠ ',' ∧ c ≠ ']')) c = false := by
      intro u c h
      cases u with
      | nil => simp at h; subst h; decide
      | cons _ _ => simp at h; subst h; decide
    obtain ⟨h1, h2⟩ := split_at (p := fun c : Char => decide (c ≠ ',' ∧ c ≠ ']')) (fun c h => by simpa using hc a c h)
      (fun c h => by simpa using hc b c h) (hd v) (hd w) h
    rw [hf a b h1, vecRest_inj hf hc v w h2]

theorem vecText_inj {α : Type} {f : α → List Char} (hf : ∀ a b, f a = f b → a = b) (hc : ∀ a, ∀ c ∈ f a, c ≠ ',' ∧ c ≠ ']')
    (hne : ∀ a, f a ≠ []) (v w : List α) (h : vecText (v.map f) = vecText (w.map f)) : v = w := by
  cases v with
  | nil =>
    cases w with
    | nil => rfl
    | cons b w =>
      exfalso
      obtain ⟨c, t, hb⟩ := List.exists_cons_of_ne_nil (hne b)
      simp only [List.map_nil, List.map_cons, vecText, hb, List.cons_append, List.cons.injEq, true_and] at h
      exact (hc b c (by rw [hb]; simp)).2 h.1.symm
  | cons a v =>
    cases w with
    | nil =>
      exfalso
      obtain ⟨c, t, hb⟩ := List.exists_cons_of_ne_nil (hne a)
      simp only [List.map_nil, List.map_cons, vecText, hb, List.cons_append, List.cons.injEq, true_and] at h
      exact (hc a c (by rw [hb]; simp)).2 h.1
    | cons b w =>
      refine vecRest_inj hf hc (a :: v) (b :: w) ?_
      simp only [List.map_cons, vecText, List.cons_append, List.cons.injEq, true_and, List.append_assoc] at h
      simp only [List.map_cons, List.flatMap_cons, List.append_assoc, List.cons_append, List.nil_append, List.cons.injEq, true_and]
      exact h

/-- **C129**, lists in messages: different lists of whole numbers have different texts. -/
theorem C129_lists (a b : List Nat) (v w : List Int) : (vecText (a.map natText) = vecText (b.map natText) → a = b) ∧
    (vecText (v.map intText) = vecText (w.map intText) → v = w) := by
  refine ⟨vecText_inj (fun x y h => by rw [← readNat_natText x, h, readNat_natText])
      (fun x c hc => ⟨(digit_not hc).2.2.1, (digit_not hc).2.2.2.1⟩) natText_ne_nil a b,
    vecText_inj (fun x y h => by rw [← readInt_intText x, h, readInt_intText]) ?_ ?_ v w⟩
  · intro z c hc
    unfold intText at hc
    split at hc
    · rcases List.mem_cons.mp hc with rfl | hc
      · decide
      · exact ⟨(digit_not hc).2.2.1, (digit_not hc).2.2.2.1⟩
    · exact ⟨(digit_not hc).2.2.1, (digit_not hc).2.2.2.1⟩
  · intro z
    unfold intText
    split
    · simp
    · exact natText_ne_nil _

/-! ### The checks -/

/-- **C129**, the messages belong to the checks: forgetting them gives the outcome of the check in the other models. -/
theorem C129_agrees {α : Type} (fp : FP) (N : Num α) (seed sizes : List Nat) (x : Fl) (dim nSkip orient : Nat) (a : NDArray α) :
    Complaint.outcome (Complaint.checkSeed seed sizes) = IPF.checkSeed seed sizes ∧
    Complaint.outcome (Complaint.checkedRound fp x) = Integerise.checkedRound fp x ∧
    Complaint.outcome (Complaint.newSobol dim nSkip) = Sobol.new dim nSkip ∧
    Complaint.outcome (Complaint.reduce1 N a orient) = reduce1 N a orient ∧
    Complaint.outcome (Complaint.checkDimsR 0 seed sizes) = R.checkDims seed sizes := by
  refine ⟨?_, ?_, ?_, ?_, ?_⟩
  · unfold Complaint.checkSeed IPF.checkSeed
    split
    · rfl
    · rename_i hl
      have hl := not_not.mp hl
      have key : ∀ a b : List Nat, a.length = b.length →
          Complaint.outcome (.ok (Complaint.seedLoop seed sizes a b)) = if a ≠ b then .thrown .seedSizes else .ok () := by
        intro a
        induction a with
        | nil => intro b h; cases b with
          | nil => rfl
          | cons _ _ => simp at h
        | cons n a ih => intro b h; cases b with
          | nil => simp at h
          | cons m b =>
            unfold Complaint.seedLoop
            by_cases hn : n = m
            · rw [if_neg (by simpa using hn), ih b (by simpa using h)]
              simp [hn]
            · rw [if_pos hn, if_pos (by simp [hn])]
              rfl
      exact key seed sizes hl
  · unfold Complaint.checkedRound Integerise.checkedRound
    split
    · rfl
    · cases FP.toInt64 (FP.round x) <;> rfl
  · unfold Complaint.newSobol Sobol.new
    split
    · rfl
    split
    · rfl
    show Complaint.outcome (Out.bind (sobolCreate dim) _) = Out.bind (sobolCreate dim) _
    cases sobolCreate dim with
    | ok c =>
      cases c with
      | none => rfl
      | some s =>
        simp only [Out.bind]
        split
        · cases Sobol.skip _ nSkip <;> rfl
        · rfl
    | thrown _ => rfl
    | ub _ => rfl
    | diverges => rfl
  · unfold Complaint.reduce1 reduce1
    split
    · rfl
    · cases forIndex a.sizes _ _ <;> rfl
  · have key : ∀ (a b : List Nat) (i : Nat), Complaint.outcome (Complaint.checkDimsR i a b) = R.checkDims a b := by
      intro a
      induction a with
      | nil => intro b i; rfl
      | cons n a ih =>
        intro b i
        cases b with
        | nil => rfl
        | cons m b =>
          unfold Complaint.checkDimsR R.checkDims
          split
          · rfl
          · exact ih b (i + 1)
    exact key seed sizes 0

/-- **C129**, the message about the shape of the seed: it appears exactly if the shape is not that of the problem, and gives the
numbers of dimensions if these differ and all sizes otherwise, those of the seed first. -/
theorem C129_seed (seed sizes : List Nat) (c : Complaint) : Complaint.checkSeed seed sizes = .ok (.error c) ↔
    seed ≠ sizes ∧ c = if seed.length ≠ sizes.length then .seedDims seed.length sizes.length else .seedSizes seed sizes := by
  unfold Complaint.checkSeed
  by_cases hl : seed.length ≠ sizes.length
  · rw [if_pos hl, if_pos hl]
    constructor
    · intro h
      injection h with h; injection h with h
      exact ⟨fun h => hl (by rw [h]), h.symm⟩
    · rintro ⟨-, rfl⟩; rfl
  · rw [if_neg hl, if_neg hl]
    have hl := not_not.mp hl
    have key : ∀ a b : List Nat, a.length = b.length → (Complaint.seedLoop seed sizes a b = .error c ↔ a ≠ b ∧ c = .seedSizes seed sizes) := by
      intro a
      induction a with
      | nil => intro b h; cases b with
        | nil => simp [Complaint.seedLoop]
        | cons _ _ => simp at h
      | cons n a ih => intro b h; cases b with
        | nil => simp at h
        | cons m b =>
          unfold Complaint.seedLoop
          by_cases hn : n = m
          · rw [if_neg (by simpa using hn), ih b (by simpa using h)]
            simp [hn]
          · rw [if_pos hn]
            simp [hn, eq_comm]
    rw [← key seed sizes hl]
    constructor
    · intro h; injection h
    · intro h; rw [h]

example : Complaint.checkSeed [2, 3] [2, 4] = .ok (.error (.seedSizes [2, 3] [2, 4])) ∧
    (Complaint.seedSizes [2, 3] [2, 4]).text =
      "seed dimensions [2, 3] are inconsistent with that implied by marginals ([2, 4])".toList := ⟨rfl, by decide +kernel⟩

/-- **C129**, the message about the shape of the seed in the R interface: the number in it, counted from 1, is that of the first
dimension whose size is not the one given by the marginals. -/
theorem C129_seedR {seed sizes : List Nat} {c : Complaint} (h : Complaint.checkDimsR 0 seed sizes = .ok (.error c)) :
    ∃ i n m, c = .seedMismatchR i ∧ seed[i]? = some n ∧ sizes[i]? = some m ∧ n ≠ m ∧ ∀ k < i, seed[k]? = sizes[k]? := by
  have key : ∀ (a b : List Nat) (j : Nat), Complaint.checkDimsR j a b = .ok (.error c) →
      ∃ i n m, c = .seedMismatchR (j + i) ∧ a[i]? = some n ∧ b[i]? = some m ∧ n ≠ m ∧ ∀ k < i, a[k]? = b[k]? := by
    intro a
    induction a with
    | nil => intro b j h; cases h
    | cons n a ih =>
      intro b j h
      cases b with
      | nil => cases h
      | cons m b =>
        unfold Complaint.checkDimsR at h
        split at h
        · rename_i hn
          injection h with h; injection h with h
          exact ⟨0, n, m, h.symm, rfl, rfl, hn, by omega⟩
        · rename_i hn
          obtain ⟨i, n', m', h1, h2, h3, h4, h5⟩ := ih b (j + 1) h
          refine ⟨i + 1, n', m', by rw [h1]; congr 1; omega, h2, h3, h4, ?_⟩
          intro k hk
          cases k with
          | zero => simpa using hn
          | succ k => simpa using h5 k (by omega)
  obtain ⟨i, n, m, h1, h2⟩ := key seed sizes 0 h
  exact ⟨i, n, m, by rw [h1, Nat.zero_add], h2⟩

example : Complaint.checkDimsR 0 [2, 3, 4] [2, 5, 4] = .ok (.error (.seedMismatchR 1)) ∧
    (Complaint.seedMismatchR 1).text = "mismatch between seed dimension 2 and marginal".toList := ⟨rfl, by decide +kernel⟩

/-- **C129**, the message of `integerise`: it appears for finite values only, and for no value within 0.00009999 of a whole number;
the number printed is within half a unit of the sixth decimal of the value and is not a whole number, whatever the size of the
value. -/
theorem C129_integer {fp : FP} (hfp : fp.Good) {x : Fl} {c : Complaint} (h : Complaint.checkedRound fp x = .ok (.error c)) :
    ∃ q : ℚ, x = .fin q ∧ c = .notInteger (.fin q) (fp.rnd (1 / 10 ^ 4)) ∧ (∀ n : Int, 9999 / 10 ^ 8 < |q - n|) ∧
      |readFixed (flText x) - q| ≤ 1 / (2 * 10 ^ 6) ∧ ∀ n : Int, readFixed (flText x) ≠ n := by
  unfold Complaint.checkedRound at h
  split at h
  swap
  · cases hz : FP.toInt64 (FP.round x) <;> rw [hz] at h <;> simp [Out.bind] at h
  rename_i hlt
  injection h with h; injection h with h
  obtain ⟨t, ht, ht1⟩ := hfp.near (1 / 10 ^ 4) (by
    rw [abs_of_pos (by norm_num)]
    refine le_trans (zpow_le_zpow_right₀ (by norm_num) (by norm_num : (-1022 : Int) ≤ -20)) ?_
    norm_num) (by
    rw [abs_of_pos (by norm_num)]
    exact le_trans (by norm_num) (one_le_pow₀ (by norm_num)))
  have htol : Integerise.tol4 fp = .fin t := ht
  rw [htol] at hlt
  cases x with
  | fin q =>
    refine ⟨q, rfl, by rw [← h]; rfl, ?_⟩
    have hnear := Integerise.roundHalfAway_near q
    set n0 := FP.roundHalfAway q with hn0
    have e : fp.sub (.fin q) (FP.round (.fin q)) = fp.rnd (q + -n0) := rfl
    rw [e] at hlt
    set d : ℚ := q + -n0 with hd
    have hd2 : |d| ≤ 1 / 2 := by
      rw [hd, ← sub_eq_add_neg, abs_sub_comm]; exact hnear
    have hdb : 9999 / 10 ^ 8 < |d| := by
      by_contra hc
      push Not at hc
      rw [abs_of_pos (by norm_num : (0 : ℚ) < 1 / 10 ^ 4)] at ht1
      obtain ⟨ht1, -⟩ := abs_le.mp ht1
      -- the rounded difference lies between the rounded bounds
      have hb : ∀ b : ℚ, |b| = 9999 / 10 ^ 8 → ∃ r, fp.rnd b = .fin r ∧ |r - b| ≤ 9999 / 10 ^ 8 / 2 ^ 53 := by
        intro b hb
        obtain ⟨r, hr, hr1⟩ := hfp.near b (by
          rw [hb]
          refine le_trans (zpow_le_zpow_right₀ (by norm_num) (by norm_num : (-1022 : Int) ≤ -20)) ?_
          norm_num) (by
          rw [hb]
          exact le_trans (by norm_num) (one_le_pow₀ (by norm_num)))
        exact ⟨r, hr, by rwa [hb] at hr1⟩
      obtain ⟨u, hu, hu1⟩ := hb (9999 / 10 ^ 8) (abs_of_pos (by norm_num))
      obtain ⟨l, hl, hl1⟩ := hb (-(9999 / 10 ^ 8)) (by rw [abs_neg, abs_of_pos (by norm_num)])
      obtain ⟨r, hr⟩ := hfp.finite d (hd2.trans (le_trans (by norm_num) (one_le_pow₀ (by norm_num))))
      obtain ⟨hc1, hc2⟩ := abs_le.mp hc
      have h1 := hfp.mono _ _ _ _ hc1 hl hr
      have h2 := hfp.mono _ _ _ _ hc2 hr hu
      rw [hr] at hlt
      have hlt : t < |r| := by simpa [FP.abs, FP.lt] using hlt
      obtain ⟨-, hu1⟩ := abs_le.mp hu1
      obtain ⟨hl1, -⟩ := abs_le.mp hl1
      have : |r| ≤ 9999 / 10 ^ 8 + 9999 / 10 ^ 8 / 2 ^ 53 := by
        rw [abs_le]; constructor <;> linarith
      norm_num at this ht1
      linarith
    have hall : ∀ n : Int, 9999 / 10 ^ 8 < |q - n| := by
      intro n
      by_cases hn : n = n0
      · rw [hn, sub_eq_add_neg]; exact hdb
      · have h1 : (1 : ℚ) ≤ |(n0 : ℚ) - n| := by
          have : (1 : Int) ≤ |n0 - n| := Int.one_le_abs (by omega)
          exact_mod_cast this
        have h2 : |(n0 : ℚ) - n| ≤ |(n0 : ℚ) - q| + |q - n| := abs_sub_le _ _ _
        have h3 : |(n0 : ℚ) - q| ≤ 1 / 2 := hnear
        have : (9999 / 10 ^ 8 : ℚ) < 1 / 2 := by norm_num
        linarith
    refine ⟨hall, (C129_doubles q).1, ?_⟩
    intro n hn
    have h1 := (C129_doubles q).1
    rw [hn, abs_sub_comm] at h1
    have h2 := hall n
    norm_num at h1 h2
    linarith
  | pinf => simp [FP.round, FP.sub, FP.abs, FP.lt, FP.add, FP.neg] at hlt
  | ninf => simp [FP.round, FP.sub, FP.abs, FP.lt, FP.add, FP.neg] at hlt
  | nan => simp [FP.sub, FP.abs, FP.lt, FP.add] at hlt

/-- **C129**, the message about the dimension of a Sobol sequence: it appears exactly for the dimensions outside the range it gives
and names the dimension asked for. -/
theorem C129_sobol (dim nSkip : Nat) (h : dim < 2 ^ 61) (c : Complaint) : Complaint.newSobol dim nSkip = .ok (.error c) ↔
    ¬ (1 ≤ dim ∧ dim ≤ 1111) ∧ c = .sobolDim dim := by
  unfold Complaint.newSobol
  rw [if_neg (by omega)]
  by_cases hd : dim < 1 ∨ 1111 < dim
  · rw [if_pos hd]
    constructor
    · intro h
      injection h with h; injection h with h
      exact ⟨by omega, h.symm⟩
    · rintro ⟨-, rfl⟩; rfl
  · rw [if_neg hd]
    constructor
    · intro h
      exfalso
      cases hs : sobolCreate dim with
      | ok s =>
        rw [hs] at h
        cases s with
        | none => cases h
        | some s =>
          simp only [Out.bind] at h
          split at h
          · split at h <;> simp at h
          · cases h
      | thrown _ => rw [hs] at h; cases h
      | ub _ => rw [hs] at h; cases h
      | diverges => rw [hs] at h; cases h
    · rintro ⟨h, -⟩; omega

/-- **C129**, the texts of these messages (the R package counts dimensions from 1, so place `a`, counted from 0, is shown as
`a + 1`). -/
theorem C129_texts (a b : Nat) (s t : List Nat) (x y : ℚ) :
    (Complaint.seedDims a b).text = "seed dimensions ".toList ++ natText a ++
      " is inconsistent with that implied by marginals (".toList ++ natText b ++ ")".toList ∧
    (Complaint.seedSizes s t).text = "seed dimensions ".toList ++ vecText (s.map natText) ++
      " are inconsistent with that implied by marginals (".toList ++ vecText (t.map natText) ++ ")".toList ∧
    (Complaint.notInteger (.fin x) (.fin y)).text = "Marginal or total value ".toList ++ flText (.fin x) ++
      " is not an integer (within tolerance ".toList ++ flText (.fin y) ++ ")".toList ∧
    (Complaint.sobolDim a).text = "Dim ".toList ++ natText a ++ " is not in valid range [1,1111]".toList ∧
    (Complaint.seedMismatchR a).text = "mismatch between seed dimension ".toList ++ natText (a + 1) ++ " and marginal".toList := by
  have hn := natText_pure
  have hv : ∀ s : List Nat, '%' ∉ vecText (s.map natText) := by
    intro s
    cases s with
    | nil => decide
    | cons n s =>
      simp only [List.map_cons, vecText, List.mem_append, List.mem_cons, List.mem_flatMap, List.not_mem_nil, List.mem_map, not_or]
      refine ⟨⟨⟨by decide, hn n⟩, ?_⟩, by decide⟩
      rintro ⟨_, ⟨k, -, rfl⟩, h⟩
      rcases h with (h | h | h) | h
      · revert h; decide
      · revert h; decide
      · exact h
      · exact hn k h
  have hf : ∀ q : ℚ, '%' ∉ flText (.fin q) := by
    intro q
    show '%' ∉ fixedText q
    unfold fixedText
    have h6 : ∀ n, '%' ∉ sixDigits n := by
      intro n h
      unfold sixDigits at h
      obtain ⟨d, hd, hc⟩ := List.mem_map.mp h
      have hd10 : d < 10 := by
        simp only [List.mem_cons, List.not_mem_nil, or_false] at hd
        omega
      clear hd h
      have key : ∀ d < 10, Nat.digitChar d ≠ '%' := by decide
      exact key d hd10 hc
    simp only [List.mem_append, List.mem_cons, not_or]
    refine ⟨⟨?_, hn _⟩, by decide, h6 _⟩
    split <;> decide
  have one : ∀ (t u a : List Char), '%' ∉ t → '%' ∉ u → '%' ∉ a → format (t ++ hole ++ u) [a] = t ++ a ++ u := by
    intro t u a h1 h2 h3
    have := C61_format (t := t) (ps := [(a, u)]) h1 (by simp [h2, h3]) []
    simpa using this
  have two : ∀ (t u w a b : List Char), '%' ∉ t → '%' ∉ u → '%' ∉ w → '%' ∉ a → '%' ∉ b →
      format (t ++ hole ++ u ++ hole ++ w) [a, b] = t ++ a ++ u ++ b ++ w := by
    intro t u w a b h1 h2 h5 h3 h4
    have := C61_format (t := t) (ps := [(a, u), (b, w)]) h1 (by simp [h2, h3, h4, h5]) []
    simpa using this
  refine ⟨?_, ?_, ?_, ?_, rfl⟩
  · rw [← two _ _ _ _ _ (by decide) (by decide) (by decide) (hn a) (hn b)]
    exact congrArg (fun t => format t [natText a, natText b]) (by decide +kernel)
  · rw [← two _ _ _ _ _ (by decide) (by decide) (by decide) (hv s) (hv t)]
    exact congrArg (fun u => format u [vecText (s.map natText), vecText (t.map natText)]) (by decide +kernel)
  · rw [← two _ _ _ _ _ (by decide) (by decide) (by decide) (hf x) (hf y)]
    exact congrArg (fun t => format t [flText (.fin x), flText (.fin y)]) (by decide +kernel)
  · rw [← one _ _ _ (by decide) (by decide) (hn a)]
    exact congrArg (fun t => format t [natText a]) (by decide +kernel)

/-- A value that `integerise` refuses, and the message. -/
example : Complaint.checkedRound FP.exact (.fin (2001 / 1000)) = .ok (.error (.notInteger (.fin (2001 / 1000)) (.fin (1 / 10 ^ 4)))) ∧
    (Complaint.notInteger (.fin (2001 / 1000)) (.fin (1 / 10 ^ 4))).text =
      "Marginal or total value 2.001000 is not an integer (within tolerance 0.000100)".toList := by
  refine ⟨?_, by decide +kernel⟩
  unfold Complaint.checkedRound
  rw [if_pos (by decide +kernel)]
  rfl

example : Complaint.newSobol 1112 0 = .ok (.error (.sobolDim 1112)) ∧
    (Complaint.sobolDim 1112).text = "Dim 1112 is not in valid range [1,1111]".toList :=
  ⟨(C129_sobol 1112 0 (by norm_num) _).mpr ⟨by norm_num, rfl⟩, by decide +kernel⟩

/-- **C129 is false** of the message about the dimension of a reduction: asked for dimension 2 of an array with two dimensions
(numbered 0 and 1), it says that 2 is greater than 2. -/
theorem C129_negation_reduce {α : Type} (N : Num α) (a : NDArray α) (h : a.dim = 2) :
    Complaint.reduce1 N a 2 = .ok (.error (.reduceDim 2 2)) ∧
      (Complaint.reduceDim 2 2).text = "reduce dimension 2 greater than array dimension 2".toList := by
  refine ⟨?_, by decide +kernel⟩
  unfold Complaint.reduce1
  rw [h]
  rfl

/-! ### Numbers of marginals and dimensions seen from R -/

/-- **C129**, messages about marginals in the R interface, which hands the marginals over in reverse order: the message about a
negative value has the number of the marginal counted from the end of the caller's list, starting with 0, and the message about
totals compares with the caller's last marginal. -/
theorem C129_reversed {β : Type} {fp : FP} (hfp : fp.Good) (dim : Nat) (is : List (List Int)) (ms : List (List Nat × (List Int → Int)))
    (hg : ∀ m ∈ ms, GoodShape m.1) (hs : ∀ m ∈ ms, |totalOf m| < 2 ^ 52) {r : Refusal}
    (h : Micro.newR (β := β) fp (R.coreIndices dim is) ((ms.map (fun m => arr m.1 m.2)).reverse) = .ok (.error r)) :
    (∀ k x, r = .negative k x → ∃ m, k < ms.length ∧ ms[ms.length - 1 - k]? = some m ∧ (∃ v, InRange m.1 v ∧ m.2 v = x) ∧ x < 0) ∧
    (∀ k t pop, r = .marginalSum k t pop → k < ms.length ∧ ms[ms.length - 1 - k]?.map totalOf = some t ∧
      ms[ms.length - 1]?.map totalOf = some pop ∧ t ≠ pop) := by
  rw [← List.map_reverse] at h
  have ht := C123_truthful hfp (R.coreIndices dim is) ms.reverse (fun m hm => hg m (List.mem_reverse.mp hm))
    (fun m hm => hs m (List.mem_reverse.mp hm)) h
  constructor
  · rintro k x rfl
    obtain ⟨h0, m, h1, h2, -⟩ := ht
    have hk : k < ms.length := by
      have := (List.getElem?_eq_some_iff.mp h1).1
      simpa using this
    rw [List.getElem?_reverse hk] at h1
    exact ⟨m, hk, h1, h2, h0⟩
  · rintro k t pop rfl
    obtain ⟨h0, h1, h2, -⟩ := ht
    have hk : k < ms.length := by
      obtain ⟨m, hm, -⟩ := Option.map_eq_some_iff.mp h1
      have := (List.getElem?_eq_some_iff.mp hm).1
      simpa using this
    rw [List.getElem?_reverse hk] at h1
    rw [List.getElem?_reverse (by omega)] at h2
    exact ⟨hk, h1, h2, h0⟩

/-- Disagreement: of three marginals given in R the first has a negative entry, and the message says "marginal 2". -/
theorem C129_negation_R :
    let ms : List (List Nat × (List Int → Int)) := [([2], fun _ => -1), ([2], fun _ => 1), ([2], fun _ => 1)]
    Micro.newR (β := Fl) FP.exact (R.coreIndices 3 [[1], [2], [3]]) ((ms.map (fun m => arr m.1 m.2)).reverse) =
      .ok (.error (.negative 2 (-1))) ∧ (Refusal.negative 2 (-1)).text = "negative value in marginal 2: -1".toList := by
  intro ms
  refine ⟨?_, by decide +kernel⟩
  have e1 : Micro.enterAllR 0 [] (R.coreIndices 3 [[1], [2], [3]]) ((ms.map (fun m => arr m.1 m.2)).reverse) =
      .ok (.ok [(0, 2), (1, 2), (2, 2)]) := rfl
  have e2 : Micro.checkNonnegR FP.exact 0 ((ms.map (fun m => arr m.1 m.2)).reverse) = .ok (.error (.negative 2 (-1))) := by
    simp (disch := decide) only [ms, List.map_cons, List.map_nil, List.reverse_cons, List.reverse_nil, List.nil_append, List.cons_append,
      Micro.checkNonnegR, minArr_int, Ref.lift_pass, Ref.pass]
    rfl
  unfold Micro.newR
  rw [if_neg (by decide), e1, Ref.pass, if_neg (by decide), e2]
  rfl

end HL

import Verif.Proof.QISPadRun
import Verif.Proof.IPFExact
import Verif.Proof.MicroRat
import Verif.Proof.IPFWitness

/-
Empty categories do not change the sweeps of `ipf`.
-/

namespace HL
variable {fp : FP} {e : Nat → Nat → Nat} {s s' : List Nat} {α β : Type}

/-- the second list is the first with `z` put in -/
inductive Ins (z : β) : List β → List β → Prop
  | nil : Ins z [] []
  | keep {x : β} {l l' : List β} : Ins z l l' → Ins z (x :: l) (x :: l')
  | extra {l l' : List β} : Ins z l l' → Ins z l (z :: l')

theorem Ins.append {z : β} {a a' b b' : List β} (h : Ins z a a') (h' : Ins z b b') : Ins z (a ++ b) (a' ++ b') := by
  induction h with
  | nil => exact h'
  | keep _ ih => exact .keep ih
  | extra _ ih => exact .extra ih

theorem Ins.filter_map {γ : Type} {z : β} (q : γ → Bool) (g : γ → β) : ∀ (l : List γ), (∀ v ∈ l, q v = false → g v = z) →
    Ins z ((l.filter q).map g) (l.map g)
  | [], _ => .nil
  | v :: l, h => by
    have ih := Ins.filter_map q g l (fun w hw => h w (by simp [hw]))
    by_cases hq : q v = true
    · rw [List.filter_cons_of_pos hq]
      exact .keep ih
    · rw [List.filter_cons_of_neg hq, List.map_cons, h v (by simp) (by simpa using hq)]
      exact .extra ih

theorem Ins.foldl {γ : Type} {z : β} {F : γ → β → γ} (Acc : γ → Prop) (ha : ∀ b x, Acc b → Acc (F b x)) (hz : ∀ b, Acc b → F b z = b)
    {l l' : List β} (h : Ins z l l') : ∀ b, Acc b → l'.foldl F b = l.foldl F b := by
  induction h with
  | nil => intros; rfl
  | keep _ ih => intro b hb; exact ih _ (ha b _ hb)
  | extra _ ih => intro b hb; rw [List.foldl_cons, hz b hb]; exact ih b hb

theorem place_lex (he : Places e s s') : ∀ {ds : List Nat}, (∀ d ∈ ds, d < s.length) → ∀ {j k : List Int}, InRange (projSizes ds s) j →
    InRange (projSizes ds s) k → List.Lex (· < ·) j k → List.Lex (· < ·) (place e ds j) (place e ds k)
  | [], _, j, k, hj, hk, h => by
    cases hj
    cases hk
    cases h
  | d :: ds, hd, j, k, hj, hk, h => by
    obtain ⟨i, j, hi, hj', rfl⟩ := List.forall₂_cons_left_iff.mp hj
    obtain ⟨i', k, hi', hk', rfl⟩ := List.forall₂_cons_left_iff.mp hk
    simp only [] at hi hi'
    show List.Lex _ (((e d i.toNat : Nat) : Int) :: place e ds j) (((e d i'.toNat : Nat) : Int) :: place e ds k)
    cases h with
    | cons h => exact .cons (place_lex he (fun d hd' => hd d (by simp [hd'])) hj' hk' h)
    | rel h =>
      refine .rel ?_
      have := he.mono d (hd d (by simp)) i.toNat i'.toNat (by omega) (by omega)
      exact_mod_cast this

theorem lex_asymm : ∀ {a b : List Int}, List.Lex (· < ·) a b → ¬ List.Lex (· < ·) b a
  | _, _, .nil, h => by cases h
  | _, _, .cons h, h' => by
    cases h' with
    | cons h' => exact lex_asymm h h'
    | rel h' => exact absurd h' (lt_irrefl _)
  | _, _, .rel h, h' => by
    cases h' with
    | cons h' => exact absurd h (lt_irrefl _)
    | rel h' => exact absurd (lt_trans h h') (lt_irrefl _)

open Classical in
theorem allIdx_pad (he : Places e s s') {ds : List Nat} (hd : ∀ d ∈ ds, d < s.length) :
    (allIdx (projSizes ds s')).filter (fun v => decide (∃ j, InRange (projSizes ds s) j ∧ place e ds j = v)) =
      (allIdx (projSizes ds s)).map (place e ds) := by
  have h1 : ((allIdx (projSizes ds s')).filter (fun v => decide (∃ j, InRange (projSizes ds s) j ∧ place e ds j = v))).Pairwise
      (List.Lex (· < ·)) := (allIdx_sorted _).filter _
  have h2 : ((allIdx (projSizes ds s)).map (place e ds)).Pairwise (List.Lex (· < ·)) := by
    rw [List.pairwise_map]
    exact (allIdx_sorted _).imp_of_mem (fun hj hk h => place_lex he hd (mem_allIdx.mp hj) (mem_allIdx.mp hk) h)
  refine List.Perm.eq_of_pairwise ?_ h1 h2 ?_
  · intro a b _ _ hab hba
    exact absurd hba (lex_asymm hab)
  · have h3 : ((allIdx (projSizes ds s)).map (place e ds)).Nodup := by
      refine h2.imp ?_
      rintro a b h rfl
      exact lex_irrefl a h
    rw [List.perm_ext_iff_of_nodup ((nodup_allIdx _).filter _) h3]
    intro v
    simp only [List.mem_filter, mem_allIdx, decide_eq_true_eq, List.mem_map]
    constructor
    · rintro ⟨-, j, hj, rfl⟩; exact ⟨j, hj, rfl⟩
    · rintro ⟨j, hj, rfl⟩; exact ⟨place_inRange he hd hj, j, hj, rfl⟩

open Classical in
theorem ins_pad [Zero β] (he : Places e s s') {ds : List Nat} (hd : ∀ d ∈ ds, d < s.length) {g g' : List Int → β}
    (h : PadOf e s s' ds g g') (p : List Int → Bool) :
    Ins 0 (((allIdx (projSizes ds s)).filter (fun j => p (place e ds j))).map g) (((allIdx (projSizes ds s')).filter p).map g') := by
  have h1 : ((allIdx (projSizes ds s)).filter (fun j => p (place e ds j))).map g =
      ((((allIdx (projSizes ds s')).filter p).filter (fun v => decide (∃ j, InRange (projSizes ds s) j ∧ place e ds j = v)))).map g' := by
    rw [List.filter_comm, allIdx_pad he hd, List.filter_map, List.map_map]
    apply List.map_congr_left
    intro j hj
    exact (h.1 j (mem_allIdx.mp (List.mem_filter.mp hj).1)).symm
  rw [h1]
  apply Ins.filter_map
  intro v hv hq
  refine h.2 v (mem_allIdx.mp (List.mem_filter.mp hv).1) ?_
  intro j hj hjv
  rw [decide_eq_false_iff_not] at hq
  exact hq ⟨j, hj, hjv⟩

/-- what is asked of the arithmetic of the marginals -/
structure PadNum [Zero α] (N : Num α) : Prop where
  zero : N.zero = 0
  acc : ∃ Acc : α → Prop, Acc 0 ∧ (∀ x y, Acc (N.add x y)) ∧ ∀ x, Acc x → N.add x 0 = x
  toFl : N.toFl 0 = 0
  lt : N.lt 0 0 = false
  close : ∃ C : α → α → Prop, (∀ a b, N.allclose a b = true ↔ a.length = b.length ∧ ∀ k < a.length, C (a.getD k 0) (b.getD k 0)) ∧ C 0 0

theorem padNum_int (hfp : fp.Good) : PadNum (numInt fp) := by
  refine ⟨rfl, ⟨fun _ => True, trivial, fun _ _ => trivial, fun x _ => Int.add_zero x⟩, ?_, rfl, ⟨Eq, ?_, rfl⟩⟩
  · show fp.rnd ((0 : Int) : ℚ) = .fin 0
    simpa using rnd_zero hfp
  · intro a b
    simp only [numInt, decide_eq_true_eq]
    constructor
    · rintro rfl; exact ⟨rfl, fun _ _ => rfl⟩
    · rintro ⟨h1, h2⟩
      exact ext_getD h1 h2

/-- the values an accumulator can have -/
def AccFl (fp : FP) (x : Fl) : Prop := fp.add x (.fin 0) = x

theorem accFl_fin {q : ℚ} (h : fp.rnd q = .fin q) : AccFl fp (.fin q) := by
  unfold AccFl FP.add
  simpa using h

theorem accFl_rnd (hfp : fp.Good) (q : ℚ) : AccFl fp (fp.rnd q) := by
  cases h : fp.rnd q with
  | fin a => exact accFl_fin (hfp.idem q a h)
  | pinf => rfl
  | ninf => rfl
  | nan => rfl

theorem accFl_add (hfp : fp.Good) (x y : Fl) : AccFl fp (fp.add x y) := by
  cases x <;> cases y <;> first | rfl | exact accFl_rnd hfp _

theorem allcloseLoop_iff (fp : FP) : ∀ {a b : List Fl}, a.length = b.length → (allcloseLoop fp a b = true ↔
    ∀ k < a.length, FP.lt (tol8 fp) (FP.abs (fp.sub (a.getD k 0) (b.getD k 0))) = false)
  | [], [], _ => by simp [allcloseLoop]
  | a :: as, b :: bs, h => by
    have ih := allcloseLoop_iff fp (a := as) (b := bs) (by simpa using h)
    rw [allcloseLoop]
    constructor
    · intro h1 k hk
      split at h1
      · cases h1
      · rename_i h2
        cases k with
        | zero => simpa using h2
        | succ k =>
          have := ih.mp h1 k (by simpa using hk)
          simpa using this
    · intro h1
      have h2 := h1 0 (by simp)
      simp only [List.getD_cons_zero] at h2
      rw [if_neg (by rw [h2]; simp)]
      refine ih.mpr (fun k hk => ?_)
      have := h1 (k + 1) (by simpa using hk)
      simpa using this

theorem padNum_fl (hfp : fp.Good) : PadNum (numFl fp) := by
  refine ⟨rfl, ⟨AccFl fp, accFl_fin (rnd_zero hfp), accFl_add hfp, fun x hx => hx⟩, rfl, rfl,
    ⟨fun x y => FP.lt (tol8 fp) (FP.abs (fp.sub x y)) = false, ?_, ?_⟩⟩
  · intro a b
    simp only [numFl]
    by_cases h : a.length = b.length
    · rw [if_neg (by simpa using h), allcloseLoop_iff fp h]
      simp [h]
    · simp [h]
  · obtain ⟨t, ht, ht0⟩ := tol8_good hfp
    have : fp.sub 0 0 = .fin 0 := by
      show fp.rnd (0 + -0) = _
      simpa using rnd_zero hfp
    rw [this, ht]
    simp [FP.lt, FP.abs]
    exact ht0.le

/-- a table over all dimensions with zeros put in -/
abbrev PadF (e : Nat → Nat → Nat) (s s' : List Nat) (a a' : List Int → Fl) : Prop := PadOf e s s' (List.range s.length) a a'

theorem proj_placeF (he : Places e s s') {ds : List Nat} (hd : ∀ d ∈ ds, d < s.length) {v : List Int} (hv : InRange s v) :
    proj ds (place e (List.range s.length) v) = place e ds (proj ds v) := by
  rw [← emb_eq_place hv]
  exact proj_emb hv hd

theorem projSizes_all' (he : Places e s s') : projSizes (List.range s.length) s' = s' := by
  rw [← he.length]; exact projSizes_all s'

theorem fold_pad (hfp : fp.Good) {l l' : List Fl} (h : Ins 0 l l') :
    l'.foldl (fun acc x => fp.add acc x) (.fin 0) = l.foldl (fun acc x => fp.add acc x) (.fin 0) :=
  Ins.foldl (F := fun acc x => fp.add acc x) (AccFl fp) (fun b x _ => accFl_add hfp b x) (fun b hb => hb) h _
    (accFl_fin (rnd_zero hfp))

theorem fsum_pad (hfp : fp.Good) (he : Places e s s') {ds : List Nat} (hd : ∀ d ∈ ds, d < s.length) {a a' : List Int → Fl}
    (h : PadF e s s' a a') {j : List Int} (hj : InRange (projSizes ds s) j) :
    fsum fp s' ds a' (place e ds j) = fsum fp s ds a j := by
  have h1 := ins_pad he (ds := List.range s.length) (by simp) h (fun v => decide (proj ds v = place e ds j))
  rw [projSizes_all, projSizes_all' he] at h1
  have h2 := fold_pad hfp h1
  rw [List.foldl_map, List.foldl_map] at h2
  unfold fsum
  rw [h2]
  congr 1
  apply List.filter_congr
  intro v hv
  have hv := mem_allIdx.mp hv
  rw [proj_placeF he hd hv]
  simp only [decide_eq_decide]
  exact ⟨fun h3 => place_inj he hd (inRange_proj hd hv) hj h3, fun h3 => by rw [h3]⟩

theorem fsum_pad_zero (hfp : fp.Good) (he : Places e s s') {ds : List Nat} (hd : ∀ d ∈ ds, d < s.length) {a a' : List Int → Fl}
    (h : PadF e s s' a a') {j' : List Int} (hno : ∀ j, InRange (projSizes ds s) j → place e ds j ≠ j') :
    fsum fp s' ds a' j' = .fin 0 := by
  have h1 := ins_pad he (ds := List.range s.length) (by simp) h (fun v => decide (proj ds v = j'))
  rw [projSizes_all, projSizes_all' he] at h1
  have h2 := fold_pad hfp h1
  rw [List.foldl_map, List.foldl_map] at h2
  unfold fsum
  rw [h2, List.filter_eq_nil_iff.mpr]
  · rfl
  · intro v hv
    have hv := mem_allIdx.mp hv
    rw [proj_placeF he hd hv]
    simp only [decide_eq_true_eq]
    exact hno _ (inRange_proj hd hv)

/-- every cell is a number -/
def AllFin (s : List Nat) (a : List Int → Fl) : Prop := ∀ v, InRange s v → ∃ q, a v = .fin q

theorem mul_fin_right {x y : Fl} {q : ℚ} (h : fp.mul x y = .fin q) : ∃ r, y = .fin r := by
  cases y with
  | fin r => exact ⟨r, rfl⟩
  | nan => cases x <;> cases h
  | pinf => cases x <;> simp only [FP.mul, FP.infOfSign] at h <;> (try split at h) <;> (try split at h) <;> cases h
  | ninf => cases x <;> simp only [FP.mul, FP.infOfSign] at h <;> (try split at h) <;> (try split at h) <;> cases h

theorem mul_fin_left {x y : Fl} {q : ℚ} (h : fp.mul x y = .fin q) : ∃ r, x = .fin r := by
  cases x with
  | fin r => exact ⟨r, rfl⟩
  | nan => cases y <;> cases h
  | pinf => cases y <;> simp only [FP.mul, FP.infOfSign] at h <;> (try split at h) <;> (try split at h) <;> cases h
  | ninf => cases y <;> simp only [FP.mul, FP.infOfSign] at h <;> (try split at h) <;> (try split at h) <;> cases h

theorem add_not_fin {x y : Fl} (h : (∀ q, x ≠ .fin q) ∨ ∀ q, y ≠ .fin q) : ∀ q, fp.add x y ≠ .fin q := by
  intro q hq
  cases x <;> cases y <;> simp [FP.add] at h hq

theorem foldl_add_not_fin (l : List Fl) : ∀ x, ((∀ q, x ≠ .fin q) ∨ ∃ y ∈ l, ∀ q, y ≠ .fin q) → ∀ q, l.foldl (fun acc x => fp.add acc x) x ≠ .fin q := by
  induction l with
  | nil => intro x h; rcases h with h | ⟨y, hy, -⟩; exact h; simp at hy
  | cons y l ih =>
    intro x h
    rw [List.foldl_cons]
    apply ih
    rcases h with h | ⟨z, hz, h⟩
    · exact .inl (add_not_fin (.inl h))
    · rcases List.mem_cons.mp hz with rfl | hz
      · exact .inl (add_not_fin (.inr h))
      · exact .inr ⟨z, hz, h⟩

theorem feq_not_fin {x : Fl} (h : ∀ q, x ≠ .fin q) : FP.feq x (.fin 0) = false := by
  cases x <;> simp [FP.feq] at h ⊢

theorem scaled_fin {N : Num α} {ds : List Nat} {m : List Int → α} {a : List Int → Fl} (h : AllFin s (scaled fp N s ds m a)) :
    AllFin s a ∧ ∀ v, InRange s v → FP.feq (fsum fp s ds a (proj ds v)) (.fin 0) = false →
      ∃ q, fp.div (N.toFl (m (proj ds v))) (fsum fp s ds a (proj ds v)) = .fin q := by
  refine ⟨fun v hv => ?_, fun v hv h0 => ?_⟩
  · by_contra hc
    push Not at hc
    obtain ⟨q, hq⟩ := h v hv
    have h1 : FP.feq (fsum fp s ds a (proj ds v)) (.fin 0) = false := by
      apply feq_not_fin
      have := foldl_add_not_fin (fp := fp) (((allIdx s).filter (fun w => decide (proj ds w = proj ds v))).map a) (.fin 0)
        (.inr ⟨a v, List.mem_map.mpr ⟨v, List.mem_filter.mpr ⟨mem_allIdx.mpr hv, by simp⟩, rfl⟩, hc⟩)
      rw [List.foldl_map] at this
      exact this
    unfold scaled at hq
    rw [if_neg (by rw [h1]; simp)] at hq
    obtain ⟨r, hr⟩ := mul_fin_left hq
    exact hc r hr
  · obtain ⟨q, hq⟩ := h v hv
    unfold scaled at hq
    rw [if_neg (by rw [h0]; simp)] at hq
    exact mul_fin_right hq

theorem scaled_pad (hfp : fp.Good) [Zero α] {N : Num α} (he : Places e s s') {ds : List Nat} (hd : ∀ d ∈ ds, d < s.length)
    (hg : GoodShape s) {m m' : List Int → α} (hm : PadOf e s s' ds m m') {a a' : List Int → Fl} (h : PadF e s s' a a')
    (hf : AllFin s (scaled fp N s ds m a)) : PadF e s s' (scaled fp N s ds m a) (scaled fp N s' ds m' a') := by
  have hfr : ∀ j, InRange (projSizes ds s) j → FP.feq (fsum fp s ds a j) (.fin 0) = false →
      ∃ q, fp.div (N.toFl (m j)) (fsum fp s ds a j) = .fin q := by
    intro j hj h0
    by_cases hex : ∃ v, InRange s v ∧ proj ds v = j
    · obtain ⟨v, hv, rfl⟩ := hex
      exact (scaled_fin hf).2 v hv h0
    · exfalso
      push Not at hex
      have : fsum fp s ds a j = .fin 0 := by
        unfold fsum
        rw [List.filter_eq_nil_iff.mpr]
        · rfl
        · intro v hv
          simp only [decide_eq_true_eq]
          exact hex v (mem_allIdx.mp hv)
      rw [this] at h0
      simp [FP.feq] at h0
  constructor
  · intro v hv
    rw [projSizes_all] at hv
    unfold scaled
    have hj := inRange_proj hd hv
    rw [proj_placeF he hd hv, fsum_pad hfp he hd h hj, hm.1 _ hj, h.1 v (by rw [projSizes_all]; exact hv)]
  · intro v' hv' hno
    have h0 : a' v' = .fin 0 := h.2 v' hv' hno
    rw [projSizes_all' he] at hv'
    show scaled fp N s' ds m' a' v' = .fin 0
    unfold scaled
    split
    · rfl
    · rename_i h1
      rw [h0]
      by_cases hex : ∃ j, InRange (projSizes ds s) j ∧ place e ds j = proj ds v'
      · obtain ⟨j, hj, hj'⟩ := hex
        rw [← hj', fsum_pad hfp he hd h hj, hm.1 j hj]
        rw [← hj', fsum_pad hfp he hd h hj] at h1
        obtain ⟨q, hq⟩ := hfr j hj (by simpa using h1)
        rw [hq]
        show fp.rnd (0 * q) = .fin 0
        rw [zero_mul]
        exact rnd_zero hfp
      · push Not at hex
        rw [fsum_pad_zero hfp he hd h hex] at h1
        simp [FP.feq] at h1

theorem sweep_pad (hfp : fp.Good) [Zero α] {N : Num α} (he : Places e s s') (hg : GoodShape s) {P P' : Prob α}
    (hP : Padded e s s' P P') : (∀ p ∈ P, ∀ d ∈ p.1, d < s.length) → ∀ {a a' : List Int → Fl}, PadF e s s' a a' →
    AllFin s (sweep fp N s P a) → PadF e s s' (sweep fp N s P a) (sweep fp N s' P' a') ∧ AllFin s a := by
  induction hP with
  | nil => intro _ a a' h hf; exact ⟨h, hf⟩
  | @cons p p' P P' h1 h2 ih =>
    intro hd a a' h hf
    unfold sweep at hf ⊢
    rw [List.foldl_cons] at hf
    rw [List.foldl_cons, List.foldl_cons]
    have hd' : ∀ q ∈ P, ∀ d ∈ q.1, d < s.length := fun q hq => hd q (by simp [hq])
    have hback : ∀ (Q : Prob α) (b : List Int → Fl), AllFin s (Q.foldl (fun a p => scaled fp N s p.1 p.2 a) b) → AllFin s b := by
      intro Q
      induction Q with
      | nil => intro b hb; exact hb
      | cons q Q ih => intro b hb; exact (scaled_fin (ih _ hb)).1
    have hf1 := hback P _ hf
    have h3 := scaled_pad hfp he (hd p (by simp)) hg h1.2 h hf1
    rw [h1.1]
    exact ⟨(ih hd' h3 hf).1, (scaled_fin hf1).1⟩

theorem iterate_pad (hfp : fp.Good) [Zero α] {N : Num α} (he : Places e s s') (hg : GoodShape s) {P P' : Prob α}
    (hP : Padded e s s' P P') (hd : ∀ p ∈ P, ∀ d ∈ p.1, d < s.length) {a a' : List Int → Fl} (h : PadF e s s' a a') :
    ∀ n, AllFin s ((sweep fp N s P)^[n] a) → PadF e s s' ((sweep fp N s P)^[n] a) ((sweep fp N s' P')^[n] a') := by
  intro n
  induction n with
  | zero => intro _; exact h
  | succ n ih =>
    intro hf
    rw [Function.iterate_succ_apply'] at hf
    rw [Function.iterate_succ_apply', Function.iterate_succ_apply']
    have hb : AllFin s ((sweep fp N s P)^[n] a) := by
      have : ∀ (Q : Prob α) (b : List Int → Fl), AllFin s (Q.foldl (fun a p => scaled fp N s p.1 p.2 a) b) → AllFin s b := by
        intro Q
        induction Q with
        | nil => intro b hb; exact hb
        | cons q Q ih => intro b hb; exact (scaled_fin (ih _ hb)).1
      exact this P _ hf
    exact (sweep_pad hfp he hg hP hd (ih hb) hf).1

theorem abs_cases (x : Fl) : FP.abs x = .nan ∨ FP.abs x = .pinf ∨ ∃ q, 0 ≤ q ∧ FP.abs x = .fin q := by
  cases x with
  | fin q => exact .inr (.inr ⟨|q|, abs_nonneg q, rfl⟩)
  | pinf => exact .inr (.inl rfl)
  | ninf => exact .inr (.inl rfl)
  | nan => exact .inl rfl

/-- two running maxima, of which the second has seen more zeros -/
def RelMax (mx mx' : Fl) : Prop :=
  (mx' = mx ∧ (mx = .pinf ∨ ∃ q, 0 ≤ q ∧ mx = .fin q)) ∨ (mx = .fin (-dblMax) ∧ (mx' = mx ∨ mx' = .fin 0))

theorem dblMax_pos' : (0 : ℚ) < dblMax := by unfold dblMax; positivity

theorem relMax_fold {L L' : List Fl} (h : Ins 0 L L') : (∀ x ∈ L, x = .nan ∨ x = .pinf ∨ ∃ q, 0 ≤ q ∧ x = .fin q) →
    ∀ mx mx', RelMax mx mx' → RelMax (L.foldl IPF.stdMax mx) (L'.foldl IPF.stdMax mx') := by
  have hd := dblMax_pos'
  induction h with
  | nil => intro _ mx mx' h; exact h
  | @keep x l l' _ ih =>
    intro hx mx mx' h
    refine ih (fun y hy => hx y (by simp [hy])) _ _ ?_
    rcases h with ⟨rfl, h⟩ | ⟨rfl, h⟩
    · refine .inl ⟨rfl, ?_⟩
      unfold IPF.stdMax
      split
      · rename_i hlt
        rcases hx x (by simp) with rfl | rfl | ⟨q, hq, rfl⟩
        · cases mx' <;> simp [FP.lt] at hlt
        · exact .inl rfl
        · exact .inr ⟨q, hq, rfl⟩
      · exact h
    · rcases hx x (by simp) with rfl | rfl | ⟨q, hq, rfl⟩
      · rcases h with rfl | rfl <;> simp only [stdMax_nan]
        · exact .inr ⟨rfl, .inl rfl⟩
        · exact .inr ⟨rfl, .inr rfl⟩
      · refine .inl ⟨?_, .inl rfl⟩
        rcases h with rfl | rfl <;> rfl
      · have e1 : IPF.stdMax (.fin (-dblMax)) (.fin q) = .fin q := by
          rw [stdMax_fin, max_eq_right (by linarith)]
        refine .inl ⟨?_, .inr ⟨q, hq, e1⟩⟩
        rw [e1]
        rcases h with rfl | rfl
        · exact e1
        · rw [stdMax_fin, max_eq_right hq]
  | extra _ ih =>
    intro hx mx mx' h
    refine ih hx _ _ ?_
    rcases h with ⟨rfl, h⟩ | ⟨rfl, h⟩
    · have : IPF.stdMax mx' 0 = mx' := by
        rcases h with rfl | ⟨q, hq, rfl⟩
        · rfl
        · show IPF.stdMax (.fin q) (.fin 0) = _
          rw [stdMax_fin, max_eq_left hq]
      exact .inl ⟨this, h⟩
    · refine .inr ⟨rfl, .inr ?_⟩
      rcases h with rfl | rfl
      · show IPF.stdMax (.fin (-dblMax)) (.fin 0) = _
        rw [stdMax_fin, max_eq_right (by linarith)]
      · show IPF.stdMax (.fin 0) (.fin 0) = _
        rw [stdMax_fin, max_self]

theorem stdMax_ne_low {mx x : Fl} (h : mx ≠ .fin (-dblMax)) (hx : x = .nan ∨ x = .pinf ∨ ∃ q, 0 ≤ q ∧ x = .fin q) :
    IPF.stdMax mx x ≠ .fin (-dblMax) := by
  have hd := dblMax_pos'
  unfold IPF.stdMax
  split
  · rcases hx with rfl | rfl | ⟨q, hq, rfl⟩
    · simp
    · simp
    · intro h; injection h with h; linarith
  · exact h

theorem fold_ne_low {L : List Fl} : (∀ x ∈ L, x = .nan ∨ x = .pinf ∨ ∃ q, 0 ≤ q ∧ x = .fin q) → ∀ mx : Fl, mx ≠ .fin (-dblMax) →
    L.foldl IPF.stdMax mx ≠ .fin (-dblMax) := by
  induction L with
  | nil => intro _ mx h; exact h
  | cons x L ih =>
    intro hx mx h
    exact ih (fun y hy => hx y (by simp [hy])) _ (stdMax_ne_low h (hx x (by simp)))

theorem fold_ne_low' {L : List Fl} : (∀ x ∈ L, x = .nan ∨ x = .pinf ∨ ∃ q, 0 ≤ q ∧ x = .fin q) → (∃ x ∈ L, x ≠ .nan) →
    ∀ mx : Fl, (mx = .fin (-dblMax) ∨ mx ≠ .fin (-dblMax)) → L.foldl IPF.stdMax mx ≠ .fin (-dblMax) := by
  have hd := dblMax_pos'
  induction L with
  | nil => rintro _ ⟨x, hx, -⟩; simp at hx
  | cons x L ih =>
    rintro hx ⟨y, hy, hyn⟩ mx h
    rw [List.foldl_cons]
    rcases h with rfl | h
    · rcases List.mem_cons.mp hy with rfl | hy
      · refine fold_ne_low (fun y hy => hx y (by simp [hy])) _ ?_
        rcases hx y (by simp) with rfl | rfl | ⟨q, hq, rfl⟩
        · exact absurd rfl hyn
        · simp [IPF.stdMax, FP.lt]
        · rw [stdMax_fin, max_eq_right (by linarith)]
          intro h; injection h with h; linarith
      · exact ih (fun y hy => hx y (by simp [hy])) ⟨y, hy, hyn⟩ _ (em _)
    · exact fold_ne_low (fun y hy => hx y (by simp [hy])) _ (stdMax_ne_low h (hx x (by simp)))

/-- all the absolute differences, in the order in which they are looked at -/
def devs (fp : FP) (N : Num α) (s : List Nat) (P : Prob α) (a : List Int → Fl) : List Fl :=
  P.flatMap (fun p => (allIdx (projSizes p.1 s)).map (fun j => FP.abs (dev fp N s a p j)))

theorem maxDev_devs (fp : FP) (N : Num α) (s : List Nat) (P : Prob α) (a : List Int → Fl) (mx : Fl) :
    maxDev fp N s P a mx = (devs fp N s P a).foldl IPF.stdMax mx := by
  unfold maxDev devs
  rw [List.foldl_flatMap]
  congr 1
  funext mx p
  rw [List.foldl_map]

theorem devs_pos {N : Num α} {P : Prob α} {a : List Int → Fl} : ∀ x ∈ devs fp N s P a, x = .nan ∨ x = .pinf ∨ ∃ q, 0 ≤ q ∧ x = .fin q := by
  intro x hx
  unfold devs at hx
  obtain ⟨p, -, hx⟩ := List.mem_flatMap.mp hx
  obtain ⟨j, -, rfl⟩ := List.mem_map.mp hx
  exact abs_cases _

theorem devs_pad (hfp : fp.Good) [Zero α] {N : Num α} (hz : PadNum N) (he : Places e s s') {P P' : Prob α} (hP : Padded e s s' P P') :
    (∀ p ∈ P, ∀ d ∈ p.1, d < s.length) → ∀ {a a' : List Int → Fl}, PadF e s s' a a' →
    Ins 0 (devs fp N s P a) (devs fp N s' P' a') := by
  induction hP with
  | nil => intro _ a a' _; exact .nil
  | @cons p p' P P' h1 h2 ih =>
    intro hd a a' h
    have hdp := hd p (by simp)
    have ih := ih (fun q hq => hd q (by simp [hq])) h
    unfold devs at ih ⊢
    rw [List.flatMap_cons, List.flatMap_cons]
    refine Ins.append ?_ ih
    have hpd : PadOf e s s' p.1 (fun j => FP.abs (dev fp N s a p j)) (fun j => FP.abs (dev fp N s' a' p' j)) := by
      constructor
      · intro j hj
        simp only [dev]
        rw [h1.1, fsum_pad hfp he hdp h hj, h1.2.1 j hj]
      · intro j' hj' hno
        simp only [dev]
        rw [h1.1, fsum_pad_zero hfp he hdp h hno, h1.2.2 j' hj' hno, hz.toFl]
        show FP.abs (fp.rnd (0 + -0)) = .fin 0
        rw [neg_zero, add_zero, rnd_zero hfp]
        simp [FP.abs]
    have := ins_pad he hdp hpd (fun _ => true)
    rw [h1.1]
    simpa only [List.filter_true] using this

theorem maxDev_pad (hfp : fp.Good) [Zero α] {N : Num α} (hz : PadNum N) (he : Places e s s') {P P' : Prob α} (hP : Padded e s s' P P')
    (hd : ∀ p ∈ P, ∀ d ∈ p.1, d < s.length) {a a' : List Int → Fl} (h : PadF e s s' a a') :
    (convAt fp N s' P' a' ↔ convAt fp N s P a) ∧ ((∃ x ∈ devs fp N s P a, x ≠ .nan) →
      maxDev fp N s' P' a' (.fin (-dblMax)) = maxDev fp N s P a (.fin (-dblMax))) := by
  have h1 := relMax_fold (devs_pad hfp hz he hP hd h) devs_pos (.fin (-dblMax)) (.fin (-dblMax)) (.inr ⟨rfl, .inl rfl⟩)
  have hdp := dblMax_pos'
  rw [← maxDev_devs, ← maxDev_devs] at h1
  constructor
  · unfold convAt
    rcases h1 with ⟨h1, -⟩ | ⟨h1, h2 | h2⟩
    · rw [h1]
    · rw [h2]
    · obtain ⟨t, ht, ht0⟩ := tol8_good hfp
      rw [h1, h2, ht]
      simp only [FP.lt, decide_eq_true_eq]
      exact ⟨fun _ => by linarith, fun _ => ht0⟩
  · intro hx
    rcases h1 with ⟨h1, -⟩ | ⟨h1, h2⟩
    · exact h1
    · rw [maxDev_devs] at h1
      exact absurd h1 (fold_ne_low' devs_pos hx _ (em _))

/-! ### Acceptance -/

theorem pad_of_get {R : α → β → Prop} {P : List α} {P' : List β} (h : List.Forall₂ R P P') {k : Nat} {m : α} (hm : P[k]? = some m) :
    ∃ m', P'[k]? = some m' ∧ R m m' := by
  induction h generalizing k with
  | nil => simp at hm
  | @cons p p' P P' h1 _ ih =>
    cases k with
    | zero => simp only [List.getElem?_cons_zero, Option.some.injEq] at hm; subst hm; exact ⟨p', by simp, h1⟩
    | succ k => exact ih (by simpa using hm)

theorem foldN_pad [Zero α] {N : Num α} (hz : PadNum N) {l l' : List α} (h : Ins 0 l l') : l'.foldl N.add N.zero = l.foldl N.add N.zero := by
  obtain ⟨Acc, h1, h2, h3⟩ := hz.acc
  rw [hz.zero]
  exact Ins.foldl (F := N.add) Acc (fun b x _ => h2 b x) (fun b hb => h3 b hb) h _ h1

theorem seqSum_pad [Zero α] {N : Num α} (hz : PadNum N) (he : Places e s s') {ds : List Nat} (hd : ∀ d ∈ ds, d < s.length)
    {m m' : List Int → α} (hm : PadOf e s s' ds m m') : seqSum N (projSizes ds s') m' = seqSum N (projSizes ds s) m := by
  have h1 := ins_pad he hd hm (fun _ => true)
  simp only [List.filter_true] at h1
  have h2 := foldN_pad hz h1
  rw [List.foldl_map, List.foldl_map] at h2
  exact h2

theorem seqSums1_length (N : Num α) (t : List Nat) (g : List Int → α) (b : Nat) : (seqSums1 N t g b).length = t.getD b 0 := by
  simp [seqSums1]

theorem seqSums1_getD [Zero α] (N : Num α) {t : List Nat} (g : List Int → α) {b x : Nat} (hx : x < t.getD b 0) :
    (seqSums1 N t g b).getD x 0 = (((allIdx t).filter (fun v => v.getD b 0 = (x : Int))).map g).foldl N.add N.zero := by
  unfold seqSums1
  rw [List.getD_eq_getElem?_getD, List.getElem?_map, List.getElem?_range hx, List.foldl_map]
  rfl

theorem seqSums1_pad [Zero α] {N : Num α} (hz : PadNum N) (he : Places e s s') {ds : List Nat} (hd : ∀ d ∈ ds, d < s.length)
    {m m' : List Int → α} (hm : PadOf e s s' ds m m') {b d : Nat} (hb : ds[b]? = some d) :
    (∀ x < s.getD d 0, (seqSums1 N (projSizes ds s') m' b).getD (e d x) 0 = (seqSums1 N (projSizes ds s) m b).getD x 0) ∧
    ∀ x' < s'.getD d 0, (∀ x < s.getD d 0, e d x ≠ x') → (seqSums1 N (projSizes ds s') m' b).getD x' 0 = 0 := by
  have hbl : b < ds.length := (List.getElem?_eq_some_iff.mp hb).1
  have hdd : ds.getD b 0 = d := by simp [List.getD_eq_getElem?_getD, hb]
  have hds : d < s.length := hd d (List.mem_of_getElem? hb)
  have hat : ∀ j, InRange (projSizes ds s) j → (place e ds j).getD b 0 = (e d (j.getD b 0).toNat : Nat) ∧
      0 ≤ j.getD b 0 ∧ j.getD b 0 < (s.getD d 0 : Nat) := by
    intro j hj
    have h1 := inRange_getD hj (d := b) (by rw [projSizes_length]; exact hbl)
    rw [projSizes_at hbl, hdd] at h1
    refine ⟨?_, h1⟩
    rw [place_getD hbl (by rw [inRange_length hj, projSizes_length]), hdd]
  constructor
  · intro x hx
    have hx' := he.bound d hds x hx
    rw [seqSums1_getD N m' (by rw [projSizes_at hbl, hdd]; exact hx'), seqSums1_getD N m (by rw [projSizes_at hbl, hdd]; exact hx)]
    have h1 := foldN_pad hz (ins_pad he hd hm (fun v => decide (v.getD b 0 = ((e d x : Nat) : Int))))
    rw [h1]
    congr 2
    apply List.filter_congr
    intro j hj
    obtain ⟨h2, h3, h4⟩ := hat j (mem_allIdx.mp hj)
    rw [h2]
    simp only [decide_eq_decide]
    constructor
    · intro h5
      have := inj_of he hds (i := (j.getD b 0).toNat) (j := x) (by omega) hx (by exact_mod_cast h5)
      omega
    · intro h5; rw [h5]; simp
  · intro x' hx' hno
    rw [seqSums1_getD N m' (by rw [projSizes_at hbl, hdd]; exact hx')]
    have h1 := foldN_pad hz (ins_pad he hd hm (fun v => decide (v.getD b 0 = (x' : Int))))
    rw [h1, List.filter_eq_nil_iff.mpr]
    · exact hz.zero
    · intro j hj
      obtain ⟨h2, h3, h4⟩ := hat j (mem_allIdx.mp hj)
      rw [h2]
      simp only [decide_eq_true_eq]
      intro h5
      exact hno (j.getD b 0).toNat (by omega) (by exact_mod_cast h5)

/-- the problem with empty categories is accepted if and only if the other is -/
theorem padded_okG [Zero α] {N : Num α} (hz : PadNum N) (he : Places e s s') {P P' : Prob α} {pop : Int} (h : ProbShape s P)
    (hP : Padded e s s' P P') : ProbShape s' P' ∧ (ProbOKG fp N s' P' pop ↔ ProbOKG fp N s P pop) := by
  have hg := good_of he h.good
  have hdP : ∀ p ∈ P, ∀ d ∈ p.1, d < s.length := fun p hp => (h.dims p hp).2
  have hfst : P'.map Prod.fst = P.map Prod.fst := by
    clear h hdP
    induction hP with
    | nil => rfl
    | cons h1 _ ih => simp [h1.1, ih]
  have hmem : ∀ p' ∈ P', ∃ p ∈ P, p'.1 = p.1 ∧ PadOf e s s' p.1 p.2 p'.2 := by
    clear h hfst hdP
    induction hP with
    | nil => simp
    | cons h1 _ ih =>
      intro p' hp'
      rcases List.mem_cons.mp hp' with rfl | hp'
      · exact ⟨_, by simp, h1⟩
      · obtain ⟨p, hp, h2⟩ := ih p' hp'
        exact ⟨p, by simp [hp], h2⟩
  have hmem2 : ∀ p ∈ P, ∃ p' ∈ P', p'.1 = p.1 ∧ PadOf e s s' p.1 p.2 p'.2 := by
    intro p hp
    obtain ⟨k, hk, rfl⟩ := List.getElem_of_mem hp
    obtain ⟨m', h1, h2⟩ := pad_of_get hP (List.getElem?_eq_getElem hk)
    exact ⟨m', List.mem_of_getElem? h1, h2⟩
  have hsh : ProbShape s' P' := by
    refine { lists := ?_, two := ?_, pos := hg.2, dims := ?_, cover := ?_ }
    · rw [← List.Forall₂.length_eq hP]; exact h.lists
    · rw [he.length]; exact h.two
    · intro p' hp'
      obtain ⟨p, hp, h1, -⟩ := hmem p' hp'
      rw [h1, he.length]; exact h.dims p hp
    · rw [he.length]
      intro d hd
      obtain ⟨p, hp, hdp⟩ := h.cover d hd
      obtain ⟨p', hp', h1, -⟩ := hmem2 p hp
      exact ⟨p', hp', by rw [h1]; exact hdp⟩
  have hclose : ∀ d p q, p ∈ places d 0 (P.map Prod.fst) → q ∈ places d 0 (P.map Prod.fst) →
      (N.allclose (sumsAt N s' P' q) (sumsAt N s' P' p) = true ↔ N.allclose (sumsAt N s P q) (sumsAt N s P p) = true) := by
    intro d p q hp hq
    obtain ⟨C, hC, hC0⟩ := hz.close
    rw [mem_places_prob] at hp hq
    obtain ⟨mp, hmp, hbp⟩ := hp
    obtain ⟨mq, hmq, hbq⟩ := hq
    obtain ⟨mp', hmp', h1, h2⟩ := pad_of_get hP hmp
    obtain ⟨mq', hmq', h3, h4⟩ := pad_of_get hP hmq
    have hds : d < s.length := hdP mp (List.mem_of_getElem? hmp) d (List.mem_of_getElem? hbp)
    obtain ⟨p1, p2⟩ := seqSums1_pad hz he (hdP mp (List.mem_of_getElem? hmp)) h2 hbp
    obtain ⟨q1, q2⟩ := seqSums1_pad hz he (hdP mq (List.mem_of_getElem? hmq)) h4 hbq
    have e1 : sumsAt N s P p = seqSums1 N (projSizes mp.1 s) mp.2 p.2 := by unfold sumsAt; rw [hmp]
    have e2 : sumsAt N s P q = seqSums1 N (projSizes mq.1 s) mq.2 q.2 := by unfold sumsAt; rw [hmq]
    have e3 : sumsAt N s' P' p = seqSums1 N (projSizes mp.1 s') mp'.2 p.2 := by unfold sumsAt; rw [hmp', ← h1]
    have e4 : sumsAt N s' P' q = seqSums1 N (projSizes mq.1 s') mq'.2 q.2 := by unfold sumsAt; rw [hmq', ← h3]
    rw [e1, e2, e3, e4, hC, hC]
    simp only [seqSums1_length, projSizes_getD hbp, projSizes_getD hbq, true_and]
    constructor
    · intro h5 x hx
      have := h5 (e d x) (he.bound d hds x hx)
      rwa [p1 x hx, q1 x hx] at this
    · intro h5 x' hx'
      by_cases hex : ∃ x < s.getD d 0, e d x = x'
      · obtain ⟨x, hx, rfl⟩ := hex
        rw [p1 x hx, q1 x hx]
        exact h5 x hx
      · push Not at hex
        rw [p2 x' hx' hex, q2 x' hx' hex]
        exact hC0
  refine ⟨hsh, fun h' => ⟨h, ?_, ?_, ?_⟩, fun h' => ⟨hsh, ?_, ?_, ?_⟩⟩
  · intro p hp j hj
    obtain ⟨p', hp', h1, h2⟩ := hmem2 p hp
    have := h'.nonneg p' hp' (place e p.1 j) (by rw [h1]; exact place_inRange he (hdP p hp) hj)
    rwa [h2.1 j hj] at this
  · intro p hp
    obtain ⟨p', hp', h1, h2⟩ := hmem2 p hp
    have := h'.total p' hp'
    rwa [h1, seqSum_pad hz he (hdP p hp) h2] at this
  · intro d hd p q hp hq
    have := h'.partials d (by rw [he.length]; exact hd) p q (by rw [hfst]; exact hp) (by rw [hfst]; exact hq)
    exact (hclose d p q (List.mem_of_mem_head? hp) (List.mem_of_mem_tail hq)).mp this
  · intro p' hp' j' hj'
    obtain ⟨p, hp, h1, h2⟩ := hmem p' hp'
    rw [h1] at hj'
    by_cases hex : ∃ j, InRange (projSizes p.1 s) j ∧ place e p.1 j = j'
    · obtain ⟨j, hj, rfl⟩ := hex
      rw [h2.1 j hj]
      exact h'.nonneg p hp j hj
    · push Not at hex
      rw [h2.2 j' hj' hex, hz.zero]
      exact hz.lt
  · intro p' hp'
    obtain ⟨p, hp, h1, h2⟩ := hmem p' hp'
    rw [h1, seqSum_pad hz he (hdP p hp) h2]
    exact h'.total p hp
  · intro d hd p q hp hq
    rw [he.length] at hd
    rw [hfst] at hp hq
    exact (hclose d p q (List.mem_of_mem_head? hp) (List.mem_of_mem_tail hq)).mpr (h'.partials d hd p q hp hq)

/-! ### The run -/

theorem add_ne_nan (hnn : ∀ q, fp.rnd q ≠ .nan) {x : Fl} (hx : x ≠ .nan) (q : ℚ) : fp.add x (.fin q) ≠ .nan := by
  cases x with
  | fin r => exact hnn _
  | pinf => simp [FP.add]
  | ninf => simp [FP.add]
  | nan => exact absurd rfl hx

theorem fsum_ne_nan (hnn : ∀ q, fp.rnd q ≠ .nan) {a : List Int → Fl} (ha : AllFin s a) (ds : List Nat) (j : List Int) :
    fsum fp s ds a j ≠ .nan := by
  unfold fsum
  have key : ∀ (l : List (List Int)) (x : Fl), (∀ v ∈ l, InRange s v) → x ≠ .nan → l.foldl (fun acc v => fp.add acc (a v)) x ≠ .nan := by
    intro l
    induction l with
    | nil => intro x _ hx; exact hx
    | cons v l ih =>
      intro x hl hx
      obtain ⟨q, hq⟩ := ha v (hl v (by simp))
      rw [List.foldl_cons, hq]
      exact ih _ (fun w hw => hl w (by simp [hw])) (add_ne_nan hnn hx q)
  exact key _ _ (fun v hv => mem_allIdx.mp (List.mem_filter.mp hv).1) (by simp)

theorem marginal_fin {P : Prob Fl} {pop : Int} (h : ProbOKG fp (numFl fp) s P pop) {p : List Nat × (List Int → Fl)} (hp : p ∈ P) :
    ∀ j, InRange (projSizes p.1 s) j → ∃ q, p.2 j = .fin q := by
  intro j hj
  by_contra hc
  push Not at hc
  have h1 := foldl_add_not_fin (fp := fp) ((allIdx (projSizes p.1 s)).map p.2) (.fin 0) (.inr ⟨p.2 j, List.mem_map.mpr ⟨j, mem_allIdx.mpr hj, rfl⟩, hc⟩)
  rw [List.foldl_map] at h1
  have h2 := h.total p hp
  have h3 : ∀ q, fp.add ((numFl fp).toFl (seqSum (numFl fp) (projSizes p.1 s) p.2)) (.fin (1 / 2)) ≠ .fin q := add_not_fin (.inl h1)
  generalize fp.add ((numFl fp).toFl (seqSum (numFl fp) (projSizes p.1 s) p.2)) (.fin (1 / 2)) = x at h2 h3
  cases x with
  | fin q => exact h3 q rfl
  | pinf => cases h2
  | ninf => cases h2
  | nan => cases h2

theorem goodShape_mem {t : List Nat} (hg : GoodShape t) : ∃ j, InRange t j := by
  refine ⟨List.replicate t.length 0, ?_⟩
  have := hg.2
  clear hg
  induction t with
  | nil => exact .nil
  | cons n t ih => exact .cons ⟨le_rfl, by have := this n (by simp); omega⟩ (ih (fun m hm => this m (by simp [hm])))

theorem devs_ne_nan (hnn : ∀ q, fp.rnd q ≠ .nan) {P : Prob Fl} {pop : Int} (h : ProbOKG fp (numFl fp) s P pop)
    {a : List Int → Fl} (ha : AllFin s a) : ∃ x ∈ devs fp (numFl fp) s P a, x ≠ .nan := by
  obtain ⟨p, hp⟩ : ∃ p, p ∈ P := List.exists_mem_of_ne_nil P (by rintro rfl; have := h.lists; simp at this)
  obtain ⟨j, hj⟩ := goodShape_mem (h.goodP hp)
  refine ⟨FP.abs (dev fp (numFl fp) s a p j), List.mem_flatMap.mpr ⟨p, hp, List.mem_map.mpr ⟨j, mem_allIdx.mpr hj, rfl⟩⟩, ?_⟩
  obtain ⟨q, hq⟩ := marginal_fin h hp j hj
  have h1 : dev fp (numFl fp) s a p j ≠ .nan := by
    unfold dev
    show fp.add _ (FP.neg (p.2 j)) ≠ .nan
    rw [hq]
    exact add_ne_nan hnn (fsum_ne_nan hnn ha _ _) _
  cases h2 : dev fp (numFl fp) s a p j with
  | nan => exact absurd h2 h1
  | fin q => simp [FP.abs]
  | pinf => simp [FP.abs]
  | ninf => simp [FP.abs]

theorem padded_fst [Zero α] {P P' : Prob α} (hP : Padded e s s' P P') : P'.map Prod.fst = P.map Prod.fst := by
  induction hP with
  | nil => rfl
  | cons h1 _ ih => simp [h1.1, ih]

theorem padded_proper [Zero α] (he : Places e s s') {P P' : Prob α} (hnd : ∀ p ∈ P, p.1.Nodup ∧ p.1.length < s.length) (hP : Padded e s s' P P') :
    ProperProb s P ∧ ProperProb s' P' := by
  refine ⟨fun p hp => properDims_of_nodup (hnd p hp).1 (hnd p hp).2, fun p' hp' => ?_⟩
  have : p'.1 ∈ P.map Prod.fst := by rw [← padded_fst hP]; exact List.mem_map.mpr ⟨p', hp', rfl⟩
  obtain ⟨p, hp, h1⟩ := List.mem_map.mp this
  rw [← h1]
  exact properDims_of_nodup (hnd p hp).1 (by rw [he.length]; exact (hnd p hp).2)

theorem ipf_returns_pad (hfp : fp.Good) [Zero α] {N : Num α} (hN : MinOK N) (hz : PadNum N) (he : Places e s s') {P P' : Prob α}
    (h : ProbShape s P) (hnd : ∀ p ∈ P, p.1.Nodup ∧ p.1.length < s.length) (hP : Padded e s s' P P') (a a' : List Int → Fl) :
    (∃ r, IPF.run false fp N (indicesOf P') (marginalsOf s' P') (arr s' a') = .ok r) ↔
      ∃ r, IPF.run false fp N (indicesOf P) (marginalsOf s P) (arr s a) = .ok r := by
  obtain ⟨hp, hp'⟩ := padded_proper he hnd hP
  constructor
  · rintro ⟨r, hr⟩
    obtain ⟨pop, -, h1, -⟩ := ipf_run fp N hN (padded_okG (fp := fp) (pop := 0) hz he h hP).1 hp' a' hr
    exact ipf_run_ok fp N hN ((padded_okG hz he h hP).2.mp h1) hp a
  · rintro ⟨r, hr⟩
    obtain ⟨pop, -, h1, -⟩ := ipf_run fp N hN h hp a hr
    exact ipf_run_ok fp N hN ((padded_okG hz he h hP).2.mpr h1) hp' a'

theorem ipf_run_pad (hfp : fp.Good) [Zero α] {N : Num α} (hN : MinOK N) (hz : PadNum N) (he : Places e s s') {P P' : Prob α}
    (h : ProbShape s P) (hnd : ∀ p ∈ P, p.1.Nodup ∧ p.1.length < s.length) (hP : Padded e s s' P P') {a a' : List Int → Fl}
    (ha : PadF e s s' a a') {r : IPF α} (hr : IPF.run false fp N (indicesOf P) (marginalsOf s P) (arr s a) = .ok r)
    (hf : ∀ f, r.micro.array = arr s f → AllFin s f) :
    ∃ r' f f', IPF.run false fp N (indicesOf P') (marginalsOf s' P') (arr s' a') = .ok r' ∧ r.micro.array = arr s f ∧
      r'.micro.array = arr s' f' ∧ PadF e s s' f f' ∧ r'.conv = r.conv ∧ r'.iters = r.iters ∧
      r'.micro.population = r.micro.population ∧
      ((∃ pop, ProbOKG fp N s P pop ∧ ∃ x ∈ devs fp N s P f, x ≠ .nan) → r'.maxError = r.maxError) := by
  obtain ⟨hp, hp'⟩ := padded_proper he hnd hP
  obtain ⟨hsh', -⟩ := padded_okG (fp := fp) (pop := 0) hz he h hP
  obtain ⟨r', hr'⟩ := (ipf_returns_pad hfp hN hz he h hnd hP a a').mpr ⟨r, hr⟩
  obtain ⟨pop, n, h1, n1, n2, n3, n4, rfl⟩ := ipf_run fp N hN h hp a hr
  obtain ⟨pop', n', h1', m1, m2, m3, m4, rfl⟩ := ipf_run fp N hN hsh' hp' a' hr'
  have hd : ∀ p ∈ P, ∀ d ∈ p.1, d < s.length := fun p hp => (h.dims p hp).2
  have hpop : pop' = pop := by
    have h2 := (padded_okG hz he h hP).2.mp h1'
    obtain ⟨p, hp⟩ : ∃ p, p ∈ P := List.exists_mem_of_ne_nil P (by rintro rfl; have := h.lists; simp at this)
    have h3 := h2.total p hp
    rw [h1.total p hp] at h3
    injection h3 with h3
    exact h3.symm
  subst hpop
  have hfn : AllFin s ((sweep fp N s P)^[n] a) := hf _ rfl
  have hback : ∀ (Q : Prob α) (b : List Int → Fl), AllFin s (Q.foldl (fun a p => scaled fp N s p.1 p.2 a) b) → AllFin s b := by
    intro Q
    induction Q with
    | nil => intro b hb; exact hb
    | cons q Q ih => intro b hb; exact (scaled_fin (ih _ hb)).1
  have hfm : ∀ k m, m + k = n → AllFin s ((sweep fp N s P)^[m] a) := by
    intro k
    induction k with
    | zero => intro m hm; rw [show m = n by omega]; exact hfn
    | succ k ih =>
      intro m hm
      have := ih (m + 1) (by omega)
      rw [Function.iterate_succ_apply'] at this
      exact hback P _ this
  have hpm : ∀ m ≤ n, PadF e s s' ((sweep fp N s P)^[m] a) ((sweep fp N s' P')^[m] a') := fun m hm =>
    iterate_pad hfp he h.good hP hd ha m (hfm (n - m) m (by omega))
  have hconv : ∀ m ≤ n, (convAt fp N s' P' ((sweep fp N s' P')^[m] a') ↔ convAt fp N s P ((sweep fp N s P)^[m] a)) := fun m hm =>
    (maxDev_pad hfp hz he hP hd (hpm m hm)).1
  have hn : n' = n := by
    rcases lt_trichotomy n' n with hlt | heq | hgt
    · rcases m3 with m3 | m3
      · exact absurd ((hconv n' (by omega)).mp m3) (n4 n' m1 hlt)
      · omega
    · exact heq
    · rcases n3 with n3 | n3
      · exact absurd ((hconv n le_rfl).mpr n3) (m4 n n1 hgt)
      · omega
  subst hn
  refine ⟨_, (sweep fp N s P)^[n'] a, (sweep fp N s' P')^[n'] a', hr', rfl, rfl, hpm n' le_rfl, ?_, rfl, rfl, ?_⟩
  · rw [Bool.eq_iff_iff]
    exact hconv n' le_rfl
  · rintro ⟨-, -, hx⟩
    exact (maxDev_pad hfp hz he hP hd (hpm n' le_rfl)).2 hx

end HL

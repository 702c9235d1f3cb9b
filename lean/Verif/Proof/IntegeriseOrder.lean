import Verif.Proof.IntegeriseRound
import Verif.Proof.IntegeriseVector

/-
The order of the frequencies of 1-d integerisation in rounded arithmetic.
-/

namespace HL
namespace Integerise

variable {fp : FP}

theorem mapM_ok_all {α β : Type} {g : α → Out β} : ∀ {l : List α} {ys : List β}, l.mapM g = .ok ys →
    ∀ x ∈ l, ∃ y, g x = .ok y
  | [], _, _, x, hx => by simp at hx
  | a :: l, ys, h, x, hx => by
    rw [List.mapM_cons, Out.bind_eq_ok] at h
    obtain ⟨b, hb, h⟩ := h
    rw [Out.bind_eq_ok] at h
    obtain ⟨bs, hbs, h⟩ := h
    rcases List.mem_cons.mp hx with rfl | hx
    · exact ⟨b, hb⟩
    · exact mapM_ok_all hbs x hx

theorem total_val {f : List Int} {s : Int} (h : total f = .ok s) : s = f.sum := by
  have key : ∀ (f : List Int) (a : Int), f.foldlM (fun a x => int32 (a + x)) a = .ok s → s = a + f.sum := by
    intro f
    induction f with
    | nil => intro a h; injection h with h; simp [h]
    | cons k f ih =>
      intro a h
      rw [List.foldlM_cons, Out.bind_eq_ok] at h
      obtain ⟨b, hb, h⟩ := h
      unfold int32 at hb
      split_ifs at hb
      injection hb with hb
      rw [ih b h, ← hb, List.sum_cons]
      ring
  have := key f 0 h
  simpa using this

/-- Taking one away from a remainder, in rounded arithmetic. -/
theorem sub_one (h : fp.Good) {x : ℚ} (hx : fp.rnd x = .fin x) (h1 : -2 ^ 31 ≤ x) (h2 : x ≤ 1) :
    ∃ s, fp.rnd (x - 1) = .fin s ∧ s < x := by
  have big := hugeQ_ge
  obtain ⟨s, hs⟩ := finite' h (x - 1) (by
    rw [abs_le]; constructor <;> linarith)
  refine ⟨s, hs, ?_⟩
  rcases le_or_gt x (1 / 2) with hh | hh
  · have ha : |x - 1| = 1 - x := by rw [abs_of_nonpos (by linarith)]; ring
    have tiny := tinyQ_le
    obtain ⟨a, ha1, ha2⟩ := near' h (x - 1) (by rw [ha]; linarith) (by rw [ha]; linarith)
    rw [hs] at ha1
    injection ha1 with ha1
    subst ha1
    rw [ha] at ha2
    have := (abs_le.mp ha2).2
    have : (1 - x) / 2 ^ 53 < 1 := by
      rw [div_lt_one (by norm_num)]; linarith
    linarith
  · have := h.mono (x - 1) 0 s 0 (by linarith) hs (rnd_zero' h)
    linarith

/-- The invariant of the loop. -/
def OrdInv (fp : FP) (p : List ℚ) (f : List Int) (r : List Fl) : Prop :=
  ∃ R : List ℚ, r = R.map Fl.fin ∧ R.length = p.length ∧
    (∀ k < p.length, fp.rnd (R.getD k 0) = .fin (R.getD k 0) ∧ -(f.sum : ℚ) ≤ R.getD k 0 ∧ R.getD k 0 ≤ 1) ∧
    (∀ k < p.length, ∀ l < p.length, ∀ s, fp.rnd (R.getD k 0 - 1) = .fin s → s ≤ R.getD l 0) ∧
    (∀ i < p.length, ∀ j < p.length, p.getD i 0 ≤ p.getD j 0 →
      f.getD i 0 < f.getD j 0 ∨ (f.getD i 0 = f.getD j 0 ∧ R.getD i 0 ≤ R.getD j 0) ∨
      (i < j ∧ f.getD i 0 = f.getD j 0 + 1 ∧ fp.rnd (R.getD j 0 - 1) = .fin (R.getD i 0) ∧ R.getD i 0 < R.getD j 0))

theorem ordInv_step (h : fp.Good) {p : List ℚ} {pop : Int} (h1 : pop < 2 ^ 31) {f : List Int} {r : List Fl}
    (hI : OrdInv fp p f r) (hf : f.length = p.length) (hn : ∀ k ∈ f, 0 ≤ k) (hs : f.sum < pop) (hne : p ≠ []) :
    OrdInv fp p (f.set (maxElement r) (f.getD (maxElement r) 0 + 1))
      (r.set (maxElement r) (fp.sub (r.getD (maxElement r) (.fin 0)) (.fin 1))) := by
  obtain ⟨R, rfl, hR, hb, hS, ho⟩ := hI
  have hRne : R ≠ [] := by
    rintro rfl
    exact hne (List.length_eq_zero_iff.mp hR.symm)
  obtain ⟨hm1, hm2⟩ := maxElement_max R hRne
  have hml : maxElement (R.map Fl.fin) < R.length := by
    have := maxElement_lt (r := R.map Fl.fin) (by simpa using hRne)
    simpa using this
  set m := maxElement (R.map Fl.fin) with hm
  have hmp : m < p.length := by omega
  have hmf : m < f.length := by omega
  obtain ⟨b1, b2, b3⟩ := hb m hmp
  have hsum0 : 0 ≤ f.sum := List.sum_nonneg hn
  have hq : (f.sum : ℚ) + 1 ≤ 2 ^ 31 := by exact_mod_cast (by omega : f.sum + 1 ≤ 2 ^ 31)
  obtain ⟨s, hs1, hs2⟩ := sub_one h b1 (by linarith) b3
  have hsum : (f.set m (f.getD m 0 + 1)).sum = f.sum + 1 := by
    rw [List.getD_eq_getElem _ _ hmf, List.sum_set', dif_pos hmf]
    ring
  have hset : (R.map Fl.fin).set m (fp.sub ((R.map Fl.fin).getD m (.fin 0)) (.fin 1)) = (R.set m s).map Fl.fin := by
    rw [List.map_set, List.getD_map]
    have e : fp.sub (.fin (R.getD m 0)) (.fin 1) = .fin s := by
      show fp.rnd (R.getD m 0 + -1) = _
      rw [← sub_eq_add_neg, hs1]
    rw [e]
  rw [hset]
  have gR : ∀ k, (R.set m s).getD k 0 = if k = m then s else R.getD k 0 := by
    intro k
    split_ifs with hk
    · rw [hk, getD_set_self hml]
    · rw [getD_set_ne (fun e => hk e.symm)]
  have gF : ∀ k, (f.set m (f.getD m 0 + 1)).getD k 0 = if k = m then f.getD m 0 + 1 else f.getD k 0 := by
    intro k
    split_ifs with hk
    · rw [hk, getD_set_self hmf]
    · rw [getD_set_ne (fun e => hk e.symm)]
  refine ⟨R.set m s, rfl, by simpa using hR, ?_, ?_, ?_⟩
  · intro k hk
    rw [gR, hsum]
    obtain ⟨c1, c2, c3⟩ := hb k hk
    rw [Int.cast_add, Int.cast_one]
    split_ifs with hkm
    · refine ⟨h.idem _ _ hs1, ?_, by linarith⟩
      have e := rnd_int h (z := -(f.sum + 1)) (by rw [abs_neg, abs_of_nonneg (by omega)]; omega)
      have := h.mono (((-(f.sum + 1) : Int)) : ℚ) (R.getD m 0 - 1) _ _ (by
        rw [Int.cast_neg, Int.cast_add, Int.cast_one]; linarith) e hs1
      rwa [Int.cast_neg, Int.cast_add, Int.cast_one] at this
    · exact ⟨c1, by linarith, c3⟩
  · intro k hk l hl s' hs'
    have hk' := hm1 k (by omega)
    rw [gR] at hs' ⊢
    have base : s' ≤ s := by
      by_cases e1 : k = m
      · rw [if_pos e1] at hs'
        exact h.mono (s - 1) (R.getD m 0 - 1) _ _ (by linarith) hs' hs1
      · rw [if_neg e1] at hs'
        exact h.mono (R.getD k 0 - 1) (R.getD m 0 - 1) _ _ (by linarith) hs' hs1
    by_cases e2 : l = m
    · rw [if_pos e2]; exact base
    · rw [if_neg e2]; exact base.trans (hS m hmp l hl s hs1)
  · intro i hi j hj hij
    rw [gR, gR, gF, gF]
    by_cases eij : i = j
    · subst eij
      exact Or.inr (Or.inl ⟨rfl, le_rfl⟩)
    have o := ho i hi j hj hij
    by_cases ei : i = m
    · have ej : j ≠ m := fun e => eij (ei.trans e.symm)
      rw [if_pos ei, if_neg ej, if_pos ei, if_neg ej]
      rw [ei] at o
      rcases o with o | ⟨o1, o2⟩ | ⟨-, -, -, o⟩
      · rcases lt_or_eq_of_le (Int.add_one_le_iff.mpr o) with o' | o'
        · exact Or.inl o'
        · exact Or.inr (Or.inl ⟨o', hS m hmp j hj s hs1⟩)
      · have e := le_antisymm o2 (hm1 j (by omega))
        right; right
        refine ⟨?_, by omega, by rw [← e]; exact hs1, by rw [← e]; exact hs2⟩
        rcases lt_trichotomy i j with c | c | c
        · exact c
        · exact absurd c eij
        · have := hm2 j (by omega)
          rw [e] at this
          exact absurd this (lt_irrefl _)
      · have := hm1 j (by omega)
        linarith
    · by_cases ej : j = m
      · rw [if_neg ei, if_pos ej, if_neg ei, if_pos ej]
        rw [ej] at o
        rcases o with o | ⟨o1, o2⟩ | ⟨-, o1, o2, -⟩
        · left; omega
        · left; omega
        · right; left
          rw [hs1] at o2
          injection o2 with o2
          exact ⟨o1, o2.ge⟩
      · rw [if_neg ei, if_neg ej, if_neg ei, if_neg ej]
        exact o

theorem ordInv_order {p : List ℚ} {f : List Int} {r : List Fl} (hI : OrdInv fp p f r) {i j : Nat} (hi : i < p.length)
    (hj : j < p.length) (hij : p.getD i 0 ≤ p.getD j 0) :
    f.getD i 0 ≤ f.getD j 0 + 1 ∧ (j < i → f.getD i 0 ≤ f.getD j 0) := by
  obtain ⟨R, -, -, -, -, ho⟩ := hI
  rcases ho i hi j hj hij with o | ⟨o, -⟩ | ⟨o1, o2, -⟩
  · exact ⟨by omega, fun _ => by omega⟩
  · exact ⟨by omega, fun _ => by omega⟩
  · exact ⟨by omega, fun _ => by omega⟩

/-- Where the loop starts. -/
theorem ordInv_start (h : fp.Good) {p : List ℚ} {pop : Int} (h0 : 0 ≤ pop) {Y : ℚ → ℚ}
    (hY : ∀ x ∈ p, fp.rnd (x * pop) = .fin (Y x) ∧ 0 ≤ Y x ∧ Y x < 2 ^ 31) (hof : fp.ofInt pop = .fin pop) :
    OrdInv fp p (p.map (fun x => ⌊Y x⌋))
      ((p.map Fl.fin).map (fun x => fp.sub (fp.mul x (fp.ofInt pop))
        (fp.ofInt (match fp.mul x (fp.ofInt pop) with | .fin y => ⌊y⌋ | _ => 0)))) := by
  have hpq : (0 : ℚ) ≤ pop := by exact_mod_cast h0
  have key : ∀ x ∈ p, ∃ t, fp.sub (.fin (Y x)) (fp.ofInt ⌊Y x⌋) = .fin t ∧ fp.rnd (Y x - ⌊Y x⌋) = .fin t ∧ 0 ≤ t ∧ t ≤ 1 := by
    intro x hx
    obtain ⟨-, y0, y1⟩ := hY x hx
    have fl : |⌊Y x⌋| ≤ 2 ^ 53 := by
      have a1 : 0 ≤ ⌊Y x⌋ := Int.floor_nonneg.mpr y0
      have a2 : ⌊Y x⌋ < 2 ^ 31 := by rw [Int.floor_lt]; exact_mod_cast y1
      rw [abs_of_nonneg a1]; omega
    have e1 : fp.ofInt ⌊Y x⌋ = .fin ⌊Y x⌋ := rnd_int h fl
    have f1 := Int.floor_le (Y x)
    have f2 := Int.lt_floor_add_one (Y x)
    have one := rnd_int h (z := 1) (by norm_num)
    obtain ⟨t, ht, ht0⟩ := rnd_nonneg h (q := Y x - ⌊Y x⌋) (by linarith) (by
      have := hugeQ_ge; linarith)
    refine ⟨t, ?_, ht, ht0, ?_⟩
    · rw [e1]
      show fp.rnd (Y x + -(⌊Y x⌋ : ℚ)) = _
      rw [← sub_eq_add_neg, ht]
    · have := h.mono _ _ _ _ (by push_cast; linarith) ht one
      simpa using this
  let T : ℚ → ℚ := fun x => match fp.sub (.fin (Y x)) (fp.ofInt ⌊Y x⌋) with | .fin t => t | _ => 0
  have hT : ∀ x ∈ p, fp.sub (.fin (Y x)) (fp.ofInt ⌊Y x⌋) = .fin (T x) ∧ fp.rnd (Y x - ⌊Y x⌋) = .fin (T x) ∧ 0 ≤ T x ∧ T x ≤ 1 := by
    intro x hx
    obtain ⟨t, ht, ht'⟩ := key x hx
    have : T x = t := by show (match fp.sub (.fin (Y x)) (fp.ofInt ⌊Y x⌋) with | .fin t => t | _ => 0) = _; rw [ht]
    rw [this]
    exact ⟨ht, ht'⟩
  have gd : ∀ {β : Type} (d : β) (F : ℚ → β) k, k < p.length → (p.map F).getD k d = F (p.getD k 0) := by
    intro β d F k hk
    rw [List.getD_eq_getElem _ _ (by simpa using hk), List.getElem_map, List.getD_eq_getElem _ _ hk]
  have mem : ∀ k, k < p.length → p.getD k 0 ∈ p := by
    intro k hk
    rw [List.getD_eq_getElem _ _ hk]
    exact List.getElem_mem _
  have hS1 : ∀ t : ℚ, t ≤ 1 → ∀ s, fp.rnd (t - 1) = .fin s → s ≤ 0 := by
    intro t ht s hs
    exact h.mono _ _ _ _ (by linarith) hs (rnd_zero' h)
  refine ⟨p.map T, ?_, by simp, ?_, ?_, ?_⟩
  · rw [List.map_map, List.map_map]
    apply List.map_congr_left
    intro x hx
    obtain ⟨y1, -, -⟩ := hY x hx
    show fp.sub (fp.mul (.fin x) (fp.ofInt pop)) (fp.ofInt (match fp.mul (.fin x) (fp.ofInt pop) with | .fin y => ⌊y⌋ | _ => 0)) =
      .fin (T x)
    have e : fp.mul (.fin x) (fp.ofInt pop) = .fin (Y x) := by rw [hof]; exact y1
    rw [e]
    exact (hT x hx).1
  · intro k hk
    rw [gd _ T k hk]
    obtain ⟨-, t2, t3, t4⟩ := hT _ (mem k hk)
    refine ⟨h.idem _ _ t2, ?_, t4⟩
    have : 0 ≤ (p.map (fun x => ⌊Y x⌋)).sum := List.sum_nonneg (by
      intro z hz
      obtain ⟨x, hx, rfl⟩ := List.mem_map.mp hz
      exact Int.floor_nonneg.mpr (hY x hx).2.1)
    have : (0 : ℚ) ≤ ((p.map (fun x => ⌊Y x⌋)).sum : Int) := by exact_mod_cast this
    linarith
  · intro k hk l hl s hs
    rw [gd _ T k hk] at hs
    rw [gd _ T l hl]
    exact le_trans (hS1 _ (hT _ (mem k hk)).2.2.2 s hs) (hT _ (mem l hl)).2.2.1
  · intro i hi j hj hij
    rw [gd _ T i hi, gd _ T j hj, gd _ (fun x => ⌊Y x⌋) i hi, gd _ (fun x => ⌊Y x⌋) j hj]
    have hle : Y (p.getD i 0) ≤ Y (p.getD j 0) :=
      h.mono _ _ _ _ (mul_le_mul_of_nonneg_right hij hpq) (hY _ (mem i hi)).1 (hY _ (mem j hj)).1
    rcases lt_or_eq_of_le (Int.floor_le_floor hle) with c | c
    · exact Or.inl c
    · refine Or.inr (Or.inl ⟨c, h.mono _ _ _ _ ?_ (hT _ (mem i hi)).2.1 (hT _ (mem j hj)).2.1⟩)
      have : ((⌊Y (p.getD i 0)⌋ : Int) : ℚ) = (⌊Y (p.getD j 0)⌋ : Int) := by exact_mod_cast c
      linarith

/-- Whenever `integeriseMarginalDistribution` returns, a number that is at least as large gets at most one less, and
nothing less if it comes first. -/
theorem marginal_order (h : fp.Good) {p : List ℚ} {pop : Int} (h0 : 0 ≤ pop) (h1 : pop < 2 ^ 31) (hp : ∀ x ∈ p, 0 ≤ x)
    {f : List Int} {e : Fl} (hok : marginal fp (p.map Fl.fin) pop = .ok (f, e)) {i j : Nat} (hi : i < p.length)
    (hj : j < p.length) (hij : p.getD i 0 ≤ p.getD j 0) :
    f.getD i 0 ≤ f.getD j 0 + 1 ∧ (j < i → f.getD i 0 ≤ f.getD j 0) := by
  have hpq : (0 : ℚ) ≤ pop := by exact_mod_cast h0
  have hne : p ≠ [] := by rintro rfl; simp at hi
  have hof : fp.ofInt pop = .fin pop := rnd_int h (by rw [abs_of_nonneg h0]; omega)
  have hok' := hok
  unfold marginal at hok'
  rw [Out.bind_eq_ok] at hok'
  obtain ⟨st, hst, hok'⟩ := hok'
  have key : ∀ x ∈ p, ∃ y, fp.rnd (x * pop) = .fin y ∧ 0 ≤ y ∧ y < 2 ^ 31 := by
    intro x hx
    obtain ⟨c, hc⟩ := mapM_ok_all hst (.fin x) (List.mem_map_of_mem hx)
    unfold start at hc
    rw [Out.bind_eq_ok] at hc
    obtain ⟨k, hk, -⟩ := hc
    rw [hof] at hk
    change FP.toInt32 (fp.rnd (x * pop)) = _ at hk
    have h00 : 0 ≤ x * pop := mul_nonneg (hp x hx) hpq
    cases hy : fp.rnd (x * pop) with
    | fin y =>
      have hy0 : 0 ≤ y := h.mono _ _ _ _ h00 (rnd_zero' h) hy
      refine ⟨y, rfl, hy0, ?_⟩
      rw [hy] at hk
      unfold FP.toInt32 at hk
      simp only [trunc_nonneg hy0] at hk
      split_ifs at hk with hh
      have := Int.lt_floor_add_one y
      have h2 : (⌊y⌋ : ℚ) + 1 ≤ 2 ^ 31 := by exact_mod_cast (by omega : ⌊y⌋ + 1 ≤ 2 ^ 31)
      linarith
    | pinf => rw [hy] at hk; simp [FP.toInt32] at hk
    | ninf => rw [hy] at hk; simp [FP.toInt32] at hk
    | nan => rw [hy] at hk; simp [FP.toInt32] at hk
  let Y : ℚ → ℚ := fun x => match fp.rnd (x * pop) with | .fin y => y | _ => 0
  have hY : ∀ x ∈ p, fp.rnd (x * pop) = .fin (Y x) ∧ 0 ≤ Y x ∧ Y x < 2 ^ 31 := by
    intro x hx
    obtain ⟨y, hy, hy'⟩ := key x hx
    have : Y x = y := by show (match fp.rnd (x * pop) with | .fin y => y | _ => 0) = _; rw [hy]
    rw [this]
    exact ⟨hy, hy'⟩
  let g : Fl → Int := fun x => match fp.mul x (fp.ofInt pop) with | .fin y => ⌊y⌋ | _ => 0
  have hg : ∀ x ∈ p, fp.mul (.fin x) (fp.ofInt pop) = .fin (Y x) ∧ g (.fin x) = ⌊Y x⌋ := by
    intro x hx
    have e : fp.mul (.fin x) (fp.ofInt pop) = .fin (Y x) := by rw [hof]; exact (hY x hx).1
    refine ⟨e, ?_⟩
    show (match fp.mul (.fin x) (fp.ofInt pop) with | .fin y => ⌊y⌋ | _ => 0) = _
    rw [e]
  have hmap : (p.map Fl.fin).map g = p.map (fun x => ⌊Y x⌋) := by
    rw [List.map_map]
    exact List.map_congr_left (fun x hx => (hg x hx).2)
  have hto : ∀ x ∈ p.map Fl.fin, FP.toInt32 (fp.mul x (fp.ofInt pop)) = .ok (g x) := by
    intro x hx
    obtain ⟨q, hq, rfl⟩ := List.mem_map.mp hx
    rw [(hg q hq).1, (hg q hq).2]
    exact toInt32_nonneg (hY q hq).2.1 (hY q hq).2.2
  have hnn : ∀ x ∈ p.map Fl.fin, 0 ≤ g x := by
    intro x hx
    obtain ⟨q, hq, rfl⟩ := List.mem_map.mp hx
    rw [(hg q hq).2]
    exact Int.floor_nonneg.mpr (hY q hq).2.1
  have hstart := ordInv_start h h0 hY hof
  rcases le_or_gt ((p.map Fl.fin).map g).sum pop with hle | hgt
  · obtain ⟨f', r', m1, m2, m3, m4, m5, m6⟩ := marginal_inv fp (p := p.map Fl.fin) (g := g) h1 hto hnn hle
      (Or.inl (by simpa using hne)) (OrdInv fp p) (by rw [hmap]; exact hstart) (by
        intro f r hI hf hr hn hs
        exact ordInv_step h h1 hI (by simpa using hf) hn hs hne)
    rw [m1] at hok
    injection hok with hok
    injection hok with hok _
    subst hok
    exact ordInv_order m6 hi hj hij
  · have e1 : (p.map Fl.fin).mapM (start fp pop) =
        .ok ((p.map Fl.fin).map (fun x => (g x, fp.sub (fp.mul x (fp.ofInt pop)) (fp.ofInt (g x))))) := by
      apply mapM_ok
      intro x hx
      unfold start
      rw [hto x hx]
      rfl
    rw [hst] at e1
    injection e1 with e1
    have e2 : st.map Prod.fst = p.map (fun x => ⌊Y x⌋) := by
      rw [e1, ← hmap, List.map_map]; rfl
    rw [e2] at hok'
    simp only [Out.bind_eq_ok] at hok'
    obtain ⟨s, hs, t, ht, hok'⟩ := hok'
    have hsv : s = (p.map (fun x => ⌊Y x⌋)).sum := by
      have := total_val hs
      exact this
    rw [loop_exit (by rw [hsv, ← hmap]; simpa using hgt.le)] at ht
    injection ht with ht
    injection hok' with hok'
    injection hok' with hok' _
    subst ht
    subst hok'
    exact ordInv_order hstart hi hj hij

/-- A sum of non-negative numbers is not negative. -/
theorem foldl_add_nonneg (h : fp.Good) : ∀ (xs : List ℚ) (x : Fl), (∀ q ∈ xs, 0 ≤ q) → (∀ a, x = .fin a → 0 ≤ a) →
    ∀ a, (xs.map Fl.fin).foldl fp.add x = .fin a → 0 ≤ a
  | [], x, _, hx, a, ha => hx a ha
  | q :: xs, x, hq, hx, a, ha => by
    rw [List.map_cons, List.foldl_cons] at ha
    refine foldl_add_nonneg h xs _ (fun y hy => hq y (by simp [hy])) ?_ a ha
    intro b hb
    cases x with
    | fin c =>
      have : 0 ≤ c + q := add_nonneg (hx c rfl) (hq q (by simp))
      exact h.mono _ _ _ _ this (rnd_zero' h) hb
    | pinf => cases hb
    | ninf => cases hb
    | nan => cases hb

/-- `integerise(frac, pop)` passes on the shares in the order of the numbers. -/
theorem oneD_shares (h : fp.Good) {xs : List ℚ} {pop : Int} (hx : ∀ x ∈ xs, 0 ≤ x) {f : List Int} {e : Fl}
    (hok : oneD fp (xs.map Fl.fin) pop = .ok (f, e)) :
    ∃ P : ℚ → ℚ, marginal fp ((xs.map P).map Fl.fin) pop = .ok (f, e) ∧ (∀ x ∈ xs, 0 ≤ P x) ∧
      (∀ x ∈ xs, ∀ y ∈ xs, x ≤ y → P x ≤ P y) := by
  unfold oneD at hok
  split_ifs at hok with hpop
  set S := sumVec (numFl fp) (xs.map Fl.fin) with hS
  have hfin : ∀ x ∈ xs, ∃ q, fp.div (.fin x) S = .fin q := by
    intro x hxm
    have hok' := hok
    unfold marginal at hok'
    rw [Out.bind_eq_ok] at hok'
    obtain ⟨st, hst, -⟩ := hok'
    obtain ⟨c, hc⟩ := mapM_ok_all hst (fp.div (.fin x) S) (List.mem_map_of_mem (List.mem_map_of_mem hxm))
    unfold start at hc
    rw [Out.bind_eq_ok] at hc
    obtain ⟨k, hk, -⟩ := hc
    cases hd : fp.div (.fin x) S with
    | fin q => exact ⟨q, rfl⟩
    | nan =>
      exfalso
      rw [hd] at hk
      simp [FP.mul, FP.toInt32] at hk
    | pinf =>
      exfalso
      rw [hd] at hk
      cases hy : fp.ofInt pop <;> rw [hy] at hk <;>
        simp only [FP.mul, FP.infOfSign] at hk <;> (try split_ifs at hk) <;> simp [FP.toInt32] at hk
    | ninf =>
      exfalso
      rw [hd] at hk
      cases hy : fp.ofInt pop <;> rw [hy] at hk <;>
        simp only [FP.mul, FP.infOfSign] at hk <;> (try split_ifs at hk) <;> simp [FP.toInt32] at hk
  refine ⟨fun x => match fp.div (.fin x) S with | .fin q => q | _ => 0, ?_, ?_⟩
  · rw [← hok, List.map_map, List.map_map]
    congr 1
    apply List.map_congr_left
    intro x hxm
    obtain ⟨q, hq⟩ := hfin x hxm
    simp only [Function.comp_apply, hq]
  · have hcase : (∃ s : ℚ, 0 < s ∧ ∀ x ∈ xs, fp.div (.fin x) S = fp.rnd (x / s)) ∨ ∀ x ∈ xs, fp.div (.fin x) S = .fin 0 := by
      cases hSc : S with
      | fin s =>
        rcases xs with _ | ⟨x0, xs'⟩
        · right; simp
        have hs0 : 0 ≤ s := by
          refine foldl_add_nonneg h (x0 :: xs') (.fin 0) hx ?_ s ?_
          · intro a ha; injection ha with ha; exact ha.le
          · rw [← hSc, hS]; rfl
        rcases hs0.eq_or_lt with hs | hs
        · exfalso
          obtain ⟨q, hq⟩ := hfin x0 (by simp)
          rw [hSc, ← hs] at hq
          simp only [FP.div, if_pos] at hq
          unfold FP.infOfSign at hq
          split_ifs at hq
        · left
          refine ⟨s, hs, fun x _ => ?_⟩
          simp only [FP.div, if_neg hs.ne']
      | pinf => right; intro x _; rfl
      | ninf => right; intro x _; rfl
      | nan =>
        right
        intro x hxm
        obtain ⟨q, hq⟩ := hfin x hxm
        rw [hSc] at hq
        simp [FP.div] at hq
    rcases hcase with ⟨s, hs, hd⟩ | hd
    · have val : ∀ x ∈ xs, fp.rnd (x / s) = .fin (match fp.div (.fin x) S with | .fin q => q | _ => 0) := by
        intro x hxm
        obtain ⟨q, hq⟩ := hfin x hxm
        rw [hq, ← hd x hxm, hq]
      refine ⟨fun x hxm => h.mono _ _ _ _ (div_nonneg (hx x hxm) hs.le) (rnd_zero' h) (val x hxm), ?_⟩
      intro x hxm y hym hxy
      exact h.mono _ _ _ _ (by gcongr) (val x hxm) (val y hym)
    · refine ⟨fun x hxm => by simp only [hd x hxm]; exact le_rfl, ?_⟩
      intro x hxm y hym hxy
      simp only [hd x hxm, hd y hym]
      exact le_rfl

/-! ### Three numbers that come out in the wrong order -/

/-- two close numbers and what is left of 1 -/
def tri : List ℚ := [15 / 32 + 2 / 2 ^ 54, 15 / 32 + 3 / 2 ^ 54, 1 / 16 - 5 / 2 ^ 54]

theorem tri_sum (sqrt : Fl → Fl) : sumVec (numFl (FP.ieee sqrt)) (tri.map Fl.fin) = .fin 1 := by
  have g := FP.ieee_good sqrt
  have e0 : (FP.ieee sqrt).add (.fin 0) (.fin (15 / 32 + 2 / 2 ^ 54)) = .fin (15 / 32 + 2 / 2 ^ 54) := by
    show (FP.ieee sqrt).rnd (0 + (15 / 32 + 2 / 2 ^ 54)) = _
    have := g.dyadic (15 * 2 ^ 49 + 2) 54 (by norm_num) (by norm_num)
    norm_num at this ⊢
    exact this
  have e1 : (FP.ieee sqrt).add (.fin (15 / 32 + 2 / 2 ^ 54)) (.fin (15 / 32 + 3 / 2 ^ 54)) = .fin (15 / 16 + 4 / 2 ^ 54) := by
    show FP.rndIeee (15 / 32 + 2 / 2 ^ 54 + (15 / 32 + 3 / 2 ^ 54)) = _
    have ht := rne_tie (n := 15 * 2 ^ 49 + 2) (by norm_num)
    rw [rnd_val' (e := -1) (n := 15 * 2 ^ 49 + 2)]
    · norm_num
    · norm_num
    · norm_num
    · norm_num
    · norm_num
    · rw [← ht]
      congr 1
      norm_num
  have e2 : (FP.ieee sqrt).add (.fin (15 / 16 + 4 / 2 ^ 54)) (.fin (1 / 16 - 5 / 2 ^ 54)) = .fin 1 := by
    show FP.rndIeee (15 / 16 + 4 / 2 ^ 54 + (1 / 16 - 5 / 2 ^ 54)) = _
    rw [rnd_val' (e := -1) (n := 2 ^ 53)]
    · norm_num
    · norm_num
    · norm_num
    · norm_num
    · norm_num
    · have e : ((15 / 16 + 4 / 2 ^ 54 + (1 / 16 - 5 / 2 ^ 54) : ℚ)) / 2 ^ ((-1 : ℤ) - 52) = ((2 ^ 53 - 1 : Int) : ℚ) + 1 / 2 := by
        norm_num
      rw [e]
      unfold FP.rne
      have hf : ⌊((2 ^ 53 - 1 : Int) : ℚ) + 1 / 2⌋ = 2 ^ 53 - 1 := by
        rw [Int.floor_eq_iff]; constructor <;> linarith
      simp only [hf]
      rw [if_neg (by linarith), if_neg (by linarith), if_neg (by norm_num)]
      norm_num
  show (FP.ieee sqrt).add ((FP.ieee sqrt).add ((FP.ieee sqrt).add (.fin 0) (.fin (15 / 32 + 2 / 2 ^ 54)))
    (.fin (15 / 32 + 3 / 2 ^ 54))) (.fin (1 / 16 - 5 / 2 ^ 54)) = _
  rw [e0, e1, e2]

theorem tri_exact (sqrt : Fl → Fl) : ∀ x ∈ tri, (FP.ieee sqrt).rnd x = .fin x := by
  have g := FP.ieee_good sqrt
  intro x hx
  unfold tri at hx
  simp only [List.mem_cons, List.not_mem_nil, or_false] at hx
  rcases hx with rfl | rfl | rfl
  · have := g.dyadic (15 * 2 ^ 49 + 2) 54 (by norm_num) (by norm_num)
    norm_num at this ⊢
    exact this
  · have := g.dyadic (15 * 2 ^ 49 + 3) 54 (by norm_num) (by norm_num)
    norm_num at this ⊢
    exact this
  · have := g.dyadic (2 ^ 50 - 5) 54 (by norm_num) (by norm_num)
    norm_num at this ⊢
    exact this

theorem tri_run (sqrt : Fl → Fl) : ∃ e, oneD (FP.ieee sqrt) (tri.map Fl.fin) 3 = .ok ([2, 1, 0], e) := by
  have g := FP.ieee_good sqrt
  have hof : (FP.ieee sqrt).ofInt 3 = .fin 3 := by
    have := rnd_int g (z := 3) (by norm_num)
    exact_mod_cast this
  have m1 : (FP.ieee sqrt).mul (.fin (15 / 32 + 2 / 2 ^ 54)) (.fin 3) = .fin (45 / 32 + 2 / 2 ^ 52) := by
    show FP.rndIeee ((15 / 32 + 2 / 2 ^ 54) * 3) = _
    rw [rnd_val' (e := 0) (n := 45 * 2 ^ 47 + 2)]
    · norm_num
    · norm_num
    · norm_num
    · norm_num
    · norm_num
    · have e : ((15 / 32 + 2 / 2 ^ 54) * 3 : ℚ) / 2 ^ ((0 : ℤ) - 52) = ((45 * 2 ^ 47 + 1 : Int) : ℚ) + 1 / 2 := by
        norm_num
      rw [e]
      unfold FP.rne
      have hf : ⌊((45 * 2 ^ 47 + 1 : Int) : ℚ) + 1 / 2⌋ = 45 * 2 ^ 47 + 1 := by
        rw [Int.floor_eq_iff]; constructor <;> linarith
      simp only [hf]
      rw [if_neg (by linarith), if_neg (by linarith), if_neg (by norm_num)]
      norm_num
  have m2 : (FP.ieee sqrt).mul (.fin (15 / 32 + 3 / 2 ^ 54)) (.fin 3) = .fin (45 / 32 + 2 / 2 ^ 52) := by
    show FP.rndIeee ((15 / 32 + 3 / 2 ^ 54) * 3) = _
    rw [rnd_val (e := 0) (n := 45 * 2 ^ 47 + 2)] <;> norm_num [abs_lt]
  have m3 : (FP.ieee sqrt).mul (.fin (1 / 16 - 5 / 2 ^ 54)) (.fin 3) = .fin (3 / 16 - 15 / 2 ^ 54) := by
    show (FP.ieee sqrt).rnd ((1 / 16 - 5 / 2 ^ 54) * 3) = _
    have := g.dyadic (3 * 2 ^ 50 - 15) 54 (by norm_num) (by norm_num)
    norm_num at this ⊢
    exact this
  have o0 : (FP.ieee sqrt).ofInt 0 = .fin 0 := by
    have := rnd_int g (z := 0) (by norm_num)
    exact_mod_cast this
  have o1 : (FP.ieee sqrt).ofInt 1 = .fin 1 := by
    have := rnd_int g (z := 1) (by norm_num)
    exact_mod_cast this
  have s1 : (FP.ieee sqrt).sub (.fin (45 / 32 + 2 / 2 ^ 52)) (.fin 1) = .fin (13 / 32 + 2 / 2 ^ 52) := by
    show (FP.ieee sqrt).rnd (45 / 32 + 2 / 2 ^ 52 + -1) = _
    have := g.dyadic (13 * 2 ^ 47 + 2) 52 (by norm_num) (by norm_num)
    norm_num at this ⊢
    exact this
  have s3 : (FP.ieee sqrt).sub (.fin (3 / 16 - 15 / 2 ^ 54)) (.fin 0) = .fin (3 / 16 - 15 / 2 ^ 54) := by
    show (FP.ieee sqrt).rnd (3 / 16 - 15 / 2 ^ 54 + -0) = _
    have := g.dyadic (3 * 2 ^ 50 - 15) 54 (by norm_num) (by norm_num)
    norm_num at this ⊢
    exact this
  have hdiv : ∀ x ∈ tri, (FP.ieee sqrt).div (.fin x) (.fin 1) = .fin x := by
    intro x hx
    show (if (1 : ℚ) = 0 then FP.infOfSign x else (FP.ieee sqrt).rnd (x / 1)) = _
    rw [if_neg one_ne_zero, div_one]
    exact tri_exact sqrt x hx
  have hmap : (tri.map Fl.fin).map (fun x => (FP.ieee sqrt).div x (.fin 1)) = tri.map Fl.fin := by
    rw [List.map_map]
    exact List.map_congr_left hdiv
  have st1 : ∀ x, (FP.ieee sqrt).mul (.fin x) (.fin 3) = .fin (45 / 32 + 2 / 2 ^ 52) →
      start (FP.ieee sqrt) 3 (.fin x) = .ok (1, .fin (13 / 32 + 2 / 2 ^ 52)) := by
    intro x hx
    unfold start
    rw [hof, hx, toInt32_nonneg (by norm_num) (by norm_num)]
    have : ⌊(45 / 32 + 2 / 2 ^ 52 : ℚ)⌋ = 1 := by rw [Int.floor_eq_iff]; norm_num
    rw [this, Out.ok_bind, o1, s1]
    rfl
  have st3 : start (FP.ieee sqrt) 3 (.fin (1 / 16 - 5 / 2 ^ 54)) = .ok (0, .fin (3 / 16 - 15 / 2 ^ 54)) := by
    unfold start
    rw [hof, m3, toInt32_nonneg (by norm_num) (by norm_num)]
    have : ⌊(3 / 16 - 15 / 2 ^ 54 : ℚ)⌋ = 0 := by rw [Int.floor_eq_iff]; norm_num
    rw [this, Out.ok_bind, o0, s3]
    rfl
  have hM : (tri.map Fl.fin).mapM (start (FP.ieee sqrt) 3) =
      .ok [(1, .fin (13 / 32 + 2 / 2 ^ 52)), (1, .fin (13 / 32 + 2 / 2 ^ 52)), (0, .fin (3 / 16 - 15 / 2 ^ 54))] := by
    unfold tri
    simp only [List.map_cons, List.map_nil, List.mapM_cons, List.mapM_nil, st1 _ m1, st1 _ m2, st3, Out.ok_bind]
    rfl
  have hmax : maxElement [.fin (13 / 32 + 2 / 2 ^ 52), .fin (13 / 32 + 2 / 2 ^ 52), .fin (3 / 16 - 15 / 2 ^ 54)] = 0 := by
    show maxFrom [.fin (13 / 32 + 2 / 2 ^ 52), .fin (3 / 16 - 15 / 2 ^ 54)] 1 0 (.fin (13 / 32 + 2 / 2 ^ 52)) = 0
    rw [maxFrom, if_neg (by simp [FP.lt]), maxFrom, if_neg (by simp only [FP.lt, decide_eq_true_eq]; norm_num), maxFrom]
  unfold oneD
  rw [if_neg (by norm_num), tri_sum, hmap]
  unfold marginal
  rw [hM, Out.ok_bind]
  simp only [List.map_cons, List.map_nil]
  have t1 : total [1, 1, 0] = .ok 2 := by decide
  have t2 : total [2, 1, 0] = .ok 3 := by decide
  rw [t1, Out.ok_bind]
  rw [loop_step (s' := ⟨[2, 1, 0], [(FP.ieee sqrt).sub (.fin (13 / 32 + 2 / 2 ^ 52)) (.fin 1), .fin (13 / 32 + 2 / 2 ^ 52),
    .fin (3 / 16 - 15 / 2 ^ 54)], 3⟩) (by decide) (by
      unfold bump
      simp only [hmax]
      show (int32 (1 + 1) >>= fun k' => _) = _
      rw [int32_ok (by norm_num) (by norm_num), Out.ok_bind]
      show (total [2, 1, 0] >>= fun k' => _) = _
      rw [t2]
      rfl)]
  rw [loop_exit (by simp)]
  exact ⟨_, rfl⟩

end Integerise
end HL

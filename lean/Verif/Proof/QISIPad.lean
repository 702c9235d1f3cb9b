import Verif.Proof.IPFPad
import Verif.Proof.QISISolve
import Verif.Proof.QISIDisjoint

/-
Empty categories do not change what `qisi` draws.
-/

namespace HL
open QISI
variable {fp : FP} {e : Nat → Nat → Nat} {s s' : List Nat}

/-! ### Picking from weights with names -/

/-- `pick` from named weights -/
def pickNamed (fp : FP) (r : Fl) : Fl → List (Nat × Fl) → Option Nat
  | _, [] => none
  | run, x :: l => if FP.lt r (fp.add run x.2) then some x.1 else pickNamed fp r (fp.add run x.2) l

theorem pickNamed_filter (q : Nat × Fl → Bool) (r : Fl) : ∀ (l : List (Nat × Fl)) (run : Fl), AccFl fp run → fp.Good →
    FP.lt r run = false → (∀ x ∈ l, q x = false → x.2 = .fin 0) → pickNamed fp r run (l.filter q) = pickNamed fp r run l
  | [], _, _, _, _, _ => rfl
  | x :: l, run, ha, hfp, hr, h => by
    have h' : ∀ x ∈ l, q x = false → x.2 = .fin 0 := fun y hy => h y (by simp [hy])
    by_cases hq : q x = true
    · rw [List.filter_cons_of_pos hq]
      unfold pickNamed
      by_cases hl : FP.lt r (fp.add run x.2) = true
      · rw [if_pos hl, if_pos hl]
      · rw [if_neg hl, if_neg hl]
        exact pickNamed_filter q r l _ (accFl_add hfp _ _) hfp (by simpa using hl) h'
    · have hz := h x (by simp) (by simpa using hq)
      rw [List.filter_cons_of_neg hq, pickNamed_filter q r l run ha hfp hr h']
      conv => rhs; unfold pickNamed
      rw [hz, show fp.add run (.fin 0) = run from ha, hr]
      simp

/-- the names are the positions -/
theorem pickLoop_named (r : Fl) (w : Nat → Fl) (nm : Nat → Nat) : ∀ (l : Nat) (run : Fl) (k : Nat),
    (∀ i, pickLoop (numFl fp) r run k ((List.range' k l).map w) = .ok i →
      pickNamed fp r run ((List.range' k l).map (fun j => (nm j, w j))) = some (nm i)) ∧
    ∀ m, pickNamed fp r run ((List.range' k l).map (fun j => (nm j, w j))) = some m →
      ∃ i, m = nm i ∧ pickLoop (numFl fp) r run k ((List.range' k l).map w) = .ok i ∧ i < k + l
  | 0, run, k => by
    constructor
    · intro i hi
      cases hi
    · intro m hm
      cases hm
  | l + 1, run, k => by
    rw [List.range'_succ, List.map_cons, List.map_cons]
    unfold pickLoop pickNamed
    rw [show (numFl fp).toFl ((numFl fp).add run (w k)) = fp.add run (w k) from rfl,
      show (numFl fp).add run (w k) = fp.add run (w k) from rfl]
    simp only []
    by_cases hl : FP.lt r (fp.add run (w k)) = true
    · rw [if_pos hl, if_pos hl]
      constructor
      · intro i hi
        injection hi with hi
        rw [hi]
      · intro m hm
        injection hm with hm
        exact ⟨k, hm.symm, rfl, by omega⟩
    · rw [if_neg hl, if_neg hl]
      obtain ⟨h1, h2⟩ := pickLoop_named r w nm l (fp.add run (w k)) (k + 1)
      refine ⟨h1, fun m hm => ?_⟩
      obtain ⟨i, g1, g2, g3⟩ := h2 m hm
      exact ⟨i, g1, g2, by omega⟩

open Classical in
theorem range_pad {em : Nat → Nat} {n n' : Nat} (hm : ∀ i j, i < j → j < n → em i < em j) (hb : ∀ i < n, em i < n') :
    (List.range n').filter (fun k => decide (∃ i, i < n ∧ em i = k)) = (List.range n).map em := by
  have h1 : ((List.range n').filter (fun k => decide (∃ i, i < n ∧ em i = k))).Pairwise (· < ·) :=
    List.pairwise_lt_range.filter _
  have h2 : ((List.range n).map em).Pairwise (· < ·) := by
    rw [List.pairwise_map]
    exact List.pairwise_lt_range.imp_of_mem (fun _ hb h => hm _ _ h (List.mem_range.mp hb))
  refine List.Perm.eq_of_pairwise ?_ h1 h2 ?_
  · intro a b _ _ hab hba
    omega
  · rw [List.perm_ext_iff_of_nodup (h1.imp (fun h => by omega)) (h2.imp (fun h => by omega))]
    intro k
    simp only [List.mem_filter, List.mem_range, decide_eq_true_eq, List.mem_map]
    constructor
    · rintro ⟨-, i, hi, rfl⟩; exact ⟨i, hi, rfl⟩
    · rintro ⟨i, hi, rfl⟩; exact ⟨hb i hi, i, hi, rfl⟩

/-- weights of zero put in make no difference to what is picked -/
theorem pick_padF (hfp : fp.Good) (hs : SignOK fp) {w w' : Nat → Fl} {em : Nat → Nat} {n n' : Nat}
    (hm : ∀ i j, i < j → j < n → em i < em j) (hb : ∀ i < n, em i < n') (hw : ∀ i < n, w' (em i) = w i)
    (hz : ∀ k < n', (∀ i < n, em i ≠ k) → w' k = .fin 0) (hn : ∀ i < n, NonNegNan (w i)) {r : Fl} (hr : NonNegNan r) :
    (∀ i, pick fp (numFl fp) ((List.range n).map w) r = .ok i → pick fp (numFl fp) ((List.range n').map w') r = .ok (em i)) ∧
    ∀ k, pick fp (numFl fp) ((List.range n').map w') r = .ok k →
      ∃ i, k = em i ∧ i < n ∧ pick fp (numFl fp) ((List.range n).map w) r = .ok i := by
  classical
  have hL : (List.range n).map (fun i => (em i, w i)) =
      ((List.range n').map (fun k => (k, w' k))).filter (fun x => decide (∃ i, i < n ∧ em i = x.1)) := by
    rw [List.filter_map]
    show _ = ((List.range n').filter (fun k => decide (∃ i, i < n ∧ em i = k))).map _
    rw [range_pad hm hb, List.map_map]
    apply List.map_congr_left
    intro i hi
    simp only [Function.comp]
    rw [hw i (List.mem_range.mp hi)]
  have hsum : ((List.range n').map w').foldl (fun acc x => fp.add acc x) (.fin 0) =
      ((List.range n).map w).foldl (fun acc x => fp.add acc x) (.fin 0) := by
    apply fold_pad hfp
    have h1 : (List.range n).map w = ((List.range n').filter (fun k => decide (∃ i, i < n ∧ em i = k))).map w' := by
      rw [range_pad hm hb, List.map_map]
      apply List.map_congr_left
      intro i hi
      exact (hw i (List.mem_range.mp hi)).symm
    rw [h1]
    apply Ins.filter_map
    intro k hk hq
    rw [decide_eq_false_iff_not] at hq
    exact hz k (List.mem_range.mp hk) (fun i hi h => hq ⟨i, hi, h⟩)
  set t := fp.mul r (((List.range n).map w).foldl (fun acc x => fp.add acc x) (.fin 0)) with ht
  have ep : pick fp (numFl fp) ((List.range n).map w) r = pickLoop (numFl fp) t (.fin 0) 0 ((List.range n).map w) := rfl
  have ep' : pick fp (numFl fp) ((List.range n').map w') r = pickLoop (numFl fp) t (.fin 0) 0 ((List.range n').map w') := by
    unfold pick
    rw [show ((List.range n').map w').foldl (fun acc x => fp.add acc ((numFl fp).toFl x)) (.fin 0) =
      ((List.range n').map w').foldl (fun acc x => fp.add acc x) (.fin 0) from rfl, hsum]
    rfl
  have hlt : FP.lt t (.fin 0) = false := by
    have hm : NonNegNan t := mul_nonNeg hs.nonneg hr (foldl_nn hs _ _ (Or.inr rfl) (by
      intro y hy
      obtain ⟨i, hi, rfl⟩ := List.mem_map.mp hy
      exact hn i (List.mem_range.mp hi)))
    rw [nonNegNan_cases] at hm
    rcases hm with hm | hm | ⟨q, hq, hm⟩ <;> rw [hm] <;> simp [FP.lt]
    exact hq
  have hnamed : pickNamed fp t (.fin 0) ((List.range n).map (fun i => (em i, w i))) =
      pickNamed fp t (.fin 0) ((List.range n').map (fun k => (k, w' k))) := by
    rw [hL]
    refine pickNamed_filter _ t _ _ (accFl_fin (rnd_zero hfp)) hfp hlt ?_
    intro x hx hq
    obtain ⟨k, hk, rfl⟩ := List.mem_map.mp hx
    rw [decide_eq_false_iff_not] at hq
    exact hz k (List.mem_range.mp hk) (fun i hi h => hq ⟨i, hi, h⟩)
  have h1 := pickLoop_named (fp := fp) t w em n (.fin 0) 0
  have h2 := pickLoop_named (fp := fp) t w' id n' (.fin 0) 0
  rw [← List.range_eq_range'] at h1 h2
  simp only [id_eq] at h2
  rw [ep, ep']
  constructor
  · intro i hi
    have h3 := h1.1 i hi
    rw [hnamed] at h3
    obtain ⟨k, hk, h4, -⟩ := h2.2 _ h3
    rw [hk]
    exact h4
  · intro k hk
    have h3 := h2.1 k hk
    rw [← hnamed] at h3
    obtain ⟨i, hi, h4, h5⟩ := h1.2 _ h3
    exact ⟨i, hi, by omega, h4⟩

/-! ### Drawing -/

theorem foldl_zero (hfp : fp.Good) {β : Type} (f : β → Fl) : ∀ (l : List β), (∀ v ∈ l, f v = .fin 0) →
    l.foldl (fun acc v => fp.add acc (f v)) (.fin 0) = .fin 0
  | [], _ => rfl
  | v :: l, h => by
    rw [List.foldl_cons, h v (by simp), show fp.add (.fin 0) (.fin 0) = .fin 0 from accFl_fin (rnd_zero hfp)]
    exact foldl_zero hfp f l (fun w hw => h w (by simp [hw]))

theorem drawn_pad (hfp : fp.Good) (hs : SignOK fp) (he : Places e s s') {seq : List U32} (ds : List Nat) :
    ds ≠ [] → (∀ c ∈ ds, c < s.length) → ∀ {g g' : List Int → Fl}, PadOf e s s' ds g g' →
    (∀ j, InRange (projSizes ds s) j → NonNegNan (g j)) →
    (∀ v, Drawn fp seq (projSizes ds s) g v → Drawn fp seq (projSizes ds s') g' (place e ds v)) ∧
    ∀ v', Drawn fp seq (projSizes ds s') g' v' → ∃ v, v' = place e ds v ∧ Drawn fp seq (projSizes ds s) g v := by
  induction ds using List.reverseRecOn with
  | nil => intro h; exact absurd rfl h
  | append_singleton ds d ih =>
    intro _ hd g g' h hn
    have hdd : d < s.length := hd d (by simp)
    have hmono := fun i j hij hj => he.mono d hdd i j hij hj
    have hb := fun i hi => he.bound d hdd i hi
    by_cases hds : ds = []
    · subst hds
      have e1 : ∀ s : List Nat, projSizes ([] ++ [d]) s = [s.getD d 0] := fun s => rfl
      have h0 : ∀ {t : List Nat}, InRange (projSizes [] t) [] := .nil
      have hw : ∀ i < s.getD d 0, g' [((e d i : Nat) : Int)] = g [(i : Int)] := fun i hi => (pad_snoc he hd h hi).1 [] h0
      have hz : ∀ k < s'.getD d 0, (∀ i < s.getD d 0, e d i ≠ k) → g' [(k : Int)] = .fin 0 :=
        fun k hk hno => pad_snoc_zero h hk hno h0
      have key := pick_padF hfp hs (w := fun j : Nat => g [(j : Int)]) (w' := fun j : Nat => g' [(j : Int)]) hmono hb hw hz
        (fun i hi => hn _ (by rw [e1]; exact .cons ⟨by positivity, by exact_mod_cast hi⟩ .nil))
        (variate_nonNeg hs (seq.getD 0 0))
      rw [e1, e1]
      constructor
      · intro v hv
        obtain ⟨i, rfl, hi, hp⟩ := drawn_one hv rfl
        exact .one _ _ _ (hb i hi) (key.1 i hp)
      · intro v' hv'
        obtain ⟨k, rfl, hk, hp⟩ := drawn_one hv' rfl
        obtain ⟨i, rfl, hi, hp'⟩ := key.2 k hp
        exact ⟨[(i : Int)], rfl, .one _ _ _ hi hp'⟩
    · have hd' : ∀ c ∈ ds, c < s.length := fun c hc => hd c (by simp [hc])
      have hl : ∀ t, projSizes ds t ≠ [] := by
        intro t ht
        have := projSizes_length ds t
        rw [ht] at this
        exact hds (List.eq_nil_of_length_eq_zero this.symm)
      have hlast : ∀ i < s.getD d 0, ∀ j, InRange (projSizes ds s) j → InRange (projSizes (ds ++ [d]) s) (j ++ [(i : Int)]) := by
        intro i hi j hj
        rw [projSizes_snoc]
        exact inRange_snoc hj (by positivity) (by exact_mod_cast hi)
      have hw : ∀ i < s.getD d 0, (allIdx (projSizes ds s')).foldl (fun acc v => fp.add acc (g' (v ++ [((e d i : Nat) : Int)]))) (.fin 0) =
          (allIdx (projSizes ds s)).foldl (fun acc v => fp.add acc (g (v ++ [(i : Int)]))) (.fin 0) := by
        intro i hi
        have h1 := ins_pad he hd' (pad_snoc he hd h hi) (fun _ => true)
        simp only [List.filter_true] at h1
        have h2 := fold_pad hfp h1
        rw [List.foldl_map, List.foldl_map] at h2
        exact h2
      have hz : ∀ k < s'.getD d 0, (∀ i < s.getD d 0, e d i ≠ k) →
          (allIdx (projSizes ds s')).foldl (fun acc v => fp.add acc (g' (v ++ [(k : Int)]))) (.fin 0) = .fin 0 :=
        fun k hk hno => foldl_zero hfp _ _ (fun v hv => pad_snoc_zero h hk hno (mem_allIdx.mp hv))
      have hlen : (projSizes ds s').length = (projSizes ds s).length := by rw [projSizes_length, projSizes_length]
      have key := pick_padF hfp hs
        (w := fun j : Nat => (allIdx (projSizes ds s)).foldl (fun acc v => fp.add acc (g (v ++ [(j : Int)]))) (.fin 0))
        (w' := fun j : Nat => (allIdx (projSizes ds s')).foldl (fun acc v => fp.add acc (g' (v ++ [(j : Int)]))) (.fin 0)) hmono hb hw hz
        (fun i hi => by
          have := foldl_nn hs ((allIdx (projSizes ds s)).map (fun v => g (v ++ [(i : Int)]))) (.fin 0) (Or.inr rfl) (by
            intro y hy
            obtain ⟨v, hv, rfl⟩ := List.mem_map.mp hy
            exact hn _ (hlast i hi v (mem_allIdx.mp hv)))
          rw [List.foldl_map] at this
          exact this)
        (variate_nonNeg hs (seq.getD (projSizes ds s).length 0))
      have ih' := fun i hi => ih hds hd' (pad_snoc he hd h (i := i) hi) (fun j hj => hn _ (hlast i hi j hj))
      rw [projSizes_snoc, projSizes_snoc]
      constructor
      · intro v hv
        obtain ⟨i, w, rfl, hi, hp, hw'⟩ := drawn_inv hv rfl (hl s)
        have hwl : w.length = ds.length := by rw [inRange_length hw'.inRange, projSizes_length]
        rw [place_snoc hwl]
        refine .snoc _ _ _ _ _ (hl s') (hb i hi) ?_ ((ih' i hi).1 w hw')
        rw [hlen]
        exact key.1 i hp
      · intro v' hv'
        obtain ⟨k, w', rfl, hk, hp, hw'⟩ := drawn_inv hv' rfl (hl s')
        rw [hlen] at hp
        obtain ⟨i, rfl, hi, hp'⟩ := key.2 k hp
        obtain ⟨w, rfl, hw⟩ := (ih' i hi).2 w' hw'
        have hwl : w.length = ds.length := by rw [inRange_length hw.inRange, projSizes_length]
        exact ⟨w ++ [(i : Int)], by rw [place_snoc hwl]; rfl, .snoc _ _ _ _ _ (hl s) hi hp' hw⟩

theorem drawn_padF (hfp : fp.Good) (hs : SignOK fp) (he : Places e s s') (hg : GoodShape s) {seq : List U32} {a a' : List Int → Fl}
    (h : PadF e s s' a a') (hn : ∀ v, InRange s v → NonNegNan (a v)) :
    (∀ v, Drawn fp seq s a v → Drawn fp seq s' a' (embIdx e v)) ∧
    ∀ v', Drawn fp seq s' a' v' → ∃ v, v' = embIdx e v ∧ Drawn fp seq s a v := by
  have key := drawn_pad hfp hs he (seq := seq) (List.range s.length) (by simpa using hg.1) (by simp) h (by rw [projSizes_all]; exact hn)
  rw [projSizes_all, projSizes_all' he] at key
  constructor
  · intro v hv
    rw [emb_eq_place hv.inRange]
    exact key.1 v hv
  · intro v' hv'
    obtain ⟨v, rfl, hv⟩ := key.2 v' hv'
    exact ⟨v, (emb_eq_place hv.inRange).symm, hv⟩

end HL

import Verif.Proof.MicroNew

/-! `MappedIndex` over positions that repeat only dimensions of size one. -/

namespace HL

theorem loose_of_nodup {s ds : List Nat} (h : ds.Nodup) : Loose s ds :=
  h.imp (fun hne he => absurd he hne)

/-- the values read at such positions come from a function of the position -/
theorem loose_fun {s : List Nat} : ∀ {ds : List Nat} {u : List Int}, Loose s ds → InRange (projSizes ds s) u →
    ∃ f : Nat → Int, u = ds.map f ∧ ∀ d ∈ ds, 0 ≤ f d ∧ f d < (s.getD d 0 : Nat)
  | [], [], _, _ => ⟨fun _ => 0, rfl, by simp⟩
  | [], _ :: _, _, h => by cases h
  | _ :: _, [], _, h => by cases h
  | d :: ds, x :: u, hl, h => by
    obtain ⟨hx, hu⟩ := List.forall₂_cons.mp h
    have hx : 0 ≤ x ∧ x < (s.getD d 0 : Nat) := hx
    obtain ⟨h1, h2⟩ := List.pairwise_cons.mp hl
    obtain ⟨f, rfl, hf⟩ := loose_fun (ds := ds) h2 hu
    by_cases hm : d ∈ ds
    · have h3 := h1 d hm rfl
      have h4 := hf d hm
      rw [h3] at h4 hx
      refine ⟨f, ?_, ?_⟩
      · rw [List.map_cons]
        congr 1
        have := hx.1
        have := hx.2
        omega
      · intro e he
        rcases List.mem_cons.mp he with rfl | he
        · exact hf e hm
        · exact hf e he
    · refine ⟨Function.update f d x, ?_, ?_⟩
      · rw [List.map_cons, Function.update_self]
        congr 1
        apply List.map_congr_left
        intro e he
        rw [Function.update_of_ne]
        rintro rfl
        exact hm he
      · intro e he
        rcases List.mem_cons.mp he with rfl | he
        · rw [Function.update_self]; exact hx
        · have hne : e ≠ d := fun hc => hm (hc ▸ he)
          rw [Function.update_of_ne hne]; exact hf e he

theorem map_writeAt' {s ds : List Nat} {u idx : List Int} (hl : Loose s ds) (hu : InRange (projSizes ds s) u)
    (hlt : ∀ d ∈ ds, d < idx.length) : ds.map (fun p => (writeAt ds u idx).getD p 0) = u := by
  obtain ⟨f, rfl, -⟩ := loose_fun hl hu
  exact List.map_congr_left (fun d hd => writeAt_getD_map f hd (hlt d hd))

theorem odo_inRange : ∀ {s : List Nat} {v : List Int}, InRange s v → InRange s (odo s v).1
  | [], [], _ => List.Forall₂.nil
  | [], _ :: _, h => by cases h
  | _ :: _, [], h => by cases h
  | n :: s, x :: v, h => by
    obtain ⟨hx, hv⟩ := List.forall₂_cons.mp h
    have ih := odo_inRange hv
    simp only [odo]
    have h1 := hx.1
    have h2 := hx.2
    split
    · split
      · exact List.Forall₂.cons ⟨by omega, by omega⟩ ih
      · exact List.Forall₂.cons ⟨le_rfl, by omega⟩ ih
    · exact List.Forall₂.cons hx ih

theorem writeAt_snoc' : ∀ {ps : List Nat} {vs idx : List Int} {p : Nat} {x : Int}, ps.length = vs.length →
    writeAt (ps ++ [p]) (vs ++ [x]) idx = (writeAt ps vs idx).set p x
  | [], [], idx, p, x, _ => rfl
  | q :: ps, v :: vs, idx, p, x, hl => by
    simp only [List.cons_append, writeAt]
    exact writeAt_snoc' (by simpa using hl)

theorem set_getD_self {l : List Int} {p : Nat} {x : Int} (hp : p < l.length) (h : l.getD p 0 = x) : l.set p x = l := by
  subst h
  rw [List.getD_eq_getElem?_getD]
  simp [hp]

theorem inRange_take {s : List Nat} {v : List Int} (h : InRange s v) (k : Nat) : InRange (s.take k) (v.take k) :=
  List.forall₂_take k h

theorem mapped_incrLoop' {s pos : List Nat} {base : List Int} (hl : Loose s pos)
    (hlt : ∀ p ∈ pos, p < base.length) :
    ∀ (k : Nat) (v : List Int) (e : Bool) (idx : List Int), k ≤ pos.length → InRange (projSizes (pos.take k) s) v →
      idx.length = base.length →
      MappedIndex.incrLoop pos (projSizes pos s) k (writeAt (pos.take k) v idx) e =
        (writeAt (pos.take k) (odo (projSizes (pos.take k) s) v).1 idx,
          if 0 < k then e || (odo (projSizes (pos.take k) s) v).2 else e)
  | 0, v, e, idx, _, hv, _ => by
    simp [MappedIndex.incrLoop]
  | k + 1, v, e, idx, hk, hv, hidx => by
    obtain ⟨w, x, rfl⟩ : ∃ w x, v = w ++ [x] := by
      have hv' := inRange_length hv
      have hne : v ≠ [] := by intro h; simp [h, projSizes] at hv'; omega
      exact ⟨v.dropLast, v.getLast hne, (List.dropLast_append_getLast hne).symm⟩
    have hp : pos.take (k + 1) = pos.take k ++ [pos.getD k 0] := by
      rw [List.take_add_one]
      congr 1
      rw [List.getD_eq_getElem?_getD, List.getElem?_eq_getElem (by omega)]
      rfl
    have hsz0 : (projSizes pos s).getD k 0 = s.getD (pos.getD k 0) 0 := by
      simp [projSizes, List.getD_eq_getElem?_getD, show k < pos.length by omega]
    have hsz : projSizes (pos.take (k + 1)) s = projSizes (pos.take k) s ++ [(projSizes pos s).getD k 0] := by
      rw [hp, hsz0]; simp [projSizes]
    have hw : InRange (projSizes (pos.take k) s) w ∧ InRange [(projSizes pos s).getD k 0] [x] := by
      rw [hsz] at hv
      have hlen : (projSizes (pos.take k) s).length = w.length := by
        have := inRange_length hv
        simp [projSizes] at this ⊢
        omega
      have h1 := List.forall₂_take (projSizes (pos.take k) s).length hv
      have h2 := List.forall₂_drop (projSizes (pos.take k) s).length hv
      rw [List.take_left] at h1
      rw [List.drop_left] at h2
      rw [hlen, List.take_left] at h1
      rw [hlen, List.drop_left] at h2
      exact ⟨h1, h2⟩
    obtain ⟨hw, hx⟩ := hw
    have hx := (List.forall₂_cons.mp hx).1
    have hwl : w.length = k := by have := inRange_length hw; simpa [projSizes, Nat.min_eq_left (show k ≤ pos.length by omega)] using this
    set p := pos.getD k 0 with hpdef
    have hpl : p < idx.length := by
      rw [hidx]; apply hlt
      rw [hpdef, List.getD_eq_getElem?_getD, List.getElem?_eq_getElem (by omega)]
      exact List.getElem_mem _
    have hlen1 : (pos.take k).length = w.length := by simp; omega
    have hol : (odo (projSizes (pos.take k) s) w).1.length = k := by
      have := odo_length (s := projSizes (pos.take k) s) (v := w) (by simp [projSizes]; omega)
      rw [this]; simp [projSizes]; omega
    have hll : Loose s (pos.take (k + 1)) := hl.sublist (List.take_sublist _ _)
    rw [hp] at hll
    obtain ⟨hl1, -, hl2⟩ := List.pairwise_append.mp hll
    rw [hsz, hp, writeAt_snoc' hlen1, odo_snoc _ _ _ _ (by simp [projSizes]; omega)]
    unfold MappedIndex.incrLoop
    simp only [← hpdef]
    have e1 : ((writeAt (pos.take k) w idx).set p x).getD p 0 = x :=
      getD_set_self (by simpa using hpl)
    rw [e1, List.set_set, getD_set_self (by simpa using hpl)]
    by_cases hx1 : x + 1 ≠ ((projSizes pos s).getD k 0 : Int)
    · simp only [hx1, if_true, ne_eq, not_false_eq_true]
      rw [writeAt_snoc' hlen1]
      simp
    · simp only [hx1, if_false]
      rw [List.set_set]
      have hfin : ∀ e', MappedIndex.incrLoop pos (projSizes pos s) k ((writeAt (pos.take k) w idx).set p 0) e' =
          ((writeAt (pos.take k) (odo (projSizes (pos.take k) s) w).1 idx).set p 0,
          if 0 < k then e' || (odo (projSizes (pos.take k) s) w).2 else e') := by
        intro e'
        by_cases hpm : p ∈ pos.take k
        · have h1 : s.getD p 0 = 1 := hl2 p hpm p (by simp) rfl
          have hz : ∀ u, InRange (projSizes (pos.take k) s) u → (writeAt (pos.take k) u idx).set p 0 = writeAt (pos.take k) u idx := by
            intro u hu
            obtain ⟨f, rfl, hf⟩ := loose_fun hl1 hu
            apply set_getD_self (by simpa using hpl)
            rw [writeAt_getD_map f hpm hpl]
            have := hf p hpm
            rw [h1] at this
            omega
          rw [hz w hw, hz _ (odo_inRange hw)]
          exact mapped_incrLoop' hl hlt k w e' idx (by omega) hw hidx
        · rw [← writeAt_set_comm hpm, ← writeAt_set_comm hpm]
          exact mapped_incrLoop' hl hlt k w e' (idx.set p 0) (by omega) hw (by simpa using hidx)
      rw [hfin, writeAt_snoc' (by simp; omega)]
      by_cases hk0 : k = 0
      · subst hk0
        have : w = [] := by simpa using hwl
        subst this
        simp [odo, projSizes]
      · have : 0 < k := by omega
        simp [hk0, this]

theorem mapped_incr' {s pos : List Nat} {base : List Int} (hl : Loose s pos)
    (hlt : ∀ p ∈ pos, p < base.length) (hne : pos ≠ [])
    {v : List Int} (hv : InRange (projSizes pos s) v) (e : Bool) :
    MappedIndex.incrLoop pos (projSizes pos s) pos.length (writeAt pos v base) e =
      (writeAt pos (odo (projSizes pos s) v).1 base, e || (odo (projSizes pos s) v).2) := by
  have := mapped_incrLoop' hl hlt pos.length v e base le_rfl (by simpa using hv) rfl
  have hpos : 0 < pos.length := List.length_pos_iff.mpr hne
  simpa [hpos] using this

theorem loop_mapped' {σ : Type} {s pos : List Nat} {base : List Int}
    (hl : Loose s pos) (hlt : ∀ p ∈ pos, p < base.length)
    (hne : pos ≠ []) (hpos : ∀ n ∈ projSizes pos s, 0 < n)
    (body : σ → MappedIndex → List Int → Out (σ × List Int)) (f : σ → List Int → Out σ)
    (hbody : ∀ a v, v ∈ allIdx (projSizes pos s) →
      body a ⟨pos, projSizes pos s, false⟩ (writeAt pos v base) =
        (f a v >>= fun s' => Out.ok (s', writeAt pos v base))) (a : σ) :
    loop (fun (t : MappedIndex × List Int × σ) => !t.1.atEnd)
      (fun t => do
        let s' ← body t.2.2 t.1 t.2.1
        let n := t.1.incr s'.2
        pure (n.1, n.2, s'.1)) (⟨pos, projSizes pos s, false⟩, writeAt pos (zerosI pos.length) base, a) =
      ((allIdx (projSizes pos s)).foldlM f a >>= fun s' =>
        Out.ok (⟨pos, projSizes pos s, true⟩, writeAt pos (zerosI pos.length) base, s')) := by
  obtain ⟨r, hr⟩ := allIdx_head hpos
  have hs : (projSizes pos s).length = pos.length := by simp [projSizes]
  have hloop := loop_path (s := projSizes pos s) (τ := MappedIndex × List Int × σ) (σ := σ)
    (cond := fun t => !t.1.atEnd)
    (body := fun t => do
        let s' ← body t.2.2 t.1 t.2.1
        let n := t.1.incr s'.2
        pure (n.1, n.2, s'.1))
    (st := fun v e x => (⟨pos, projSizes pos s, e⟩, writeAt pos v base, x)) (f := f)
    (fun _ _ _ => rfl) (z := zerosI (projSizes pos s).length) (allIdx (projSizes pos s))
    (by
      intro v hv x
      simp only [hbody x v hv, bind_assoc, Out.ok_bind, MappedIndex.incr,
        mapped_incr' hl hlt hne (mem_allIdx.mp hv), Bool.false_or, Out.pure_eq])
    (path_allIdx hpos) a
  rw [hr, List.headD_cons, hs] at hloop
  rw [hloop, hr, hs]

end HL

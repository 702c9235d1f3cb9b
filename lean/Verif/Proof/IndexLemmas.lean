import Verif.Spec
import Mathlib.Data.List.Nodup
import Mathlib.Data.List.Range

/-
The odometers of Index.cpp: each `operator++` steps through the row-major enumeration.
-/

namespace HL

/-! ### The row-major enumeration -/

theorem mem_allIdx {s : List Nat} {v : List Int} : v ∈ allIdx s ↔ InRange s v := by
  induction s generalizing v with
  | nil => simp [allIdx, InRange, eq_comm]
  | cons n s ih =>
    simp only [allIdx, List.mem_flatMap, List.mem_range, List.mem_map]
    unfold InRange at *
    constructor
    · rintro ⟨i, hi, w, hw, rfl⟩
      exact List.Forall₂.cons ⟨by omega, by omega⟩ (ih.mp hw)
    · intro h
      cases h with
      | cons h1 h2 =>
        rename_i i w
        refine ⟨i.toNat, by omega, w, ih.mpr h2, ?_⟩
        congr 1; omega

theorem length_allIdx (s : List Nat) : (allIdx s).length = prodSizes s := by
  induction s with
  | nil => rfl
  | cons n s ih =>
    simp only [allIdx, List.length_flatMap, List.length_map, prodSizes, ih]
    simp

theorem allIdx_sorted (s : List Nat) : (allIdx s).Pairwise (List.Lex (· < ·)) := by
  induction s with
  | nil => simp [allIdx]
  | cons n s ih =>
    rw [allIdx, List.pairwise_flatMap]
    constructor
    · intro i _
      rw [List.pairwise_map]
      exact ih.imp (fun h => List.Lex.cons h)
    · apply List.pairwise_lt_range.imp
      intro a b hab x hx y hy
      simp only [List.mem_map] at hx hy
      obtain ⟨x', _, rfl⟩ := hx
      obtain ⟨y', _, rfl⟩ := hy
      exact List.Lex.rel (by exact_mod_cast hab)

theorem lex_irrefl (v : List Int) : ¬ List.Lex (· < ·) v v := by
  induction v with
  | nil => intro h; cases h
  | cons a v ih =>
    intro h
    cases h with
    | cons h => exact ih h
    | rel h => exact lt_irrefl _ h

theorem nodup_allIdx (s : List Nat) : (allIdx s).Nodup := by
  apply (allIdx_sorted s).imp
  intro a b h hab
  subst hab
  exact lex_irrefl _ h

theorem inRange_length {s : List Nat} {v : List Int} (h : InRange s v) : v.length = s.length :=
  (List.Forall₂.length_eq h).symm

theorem mem_cells {s : List Nat} {v : List Int} : v ∈ cells s ↔ InRange s v := by
  simp [cells, mem_allIdx]

theorem inRange_getD {s : List Nat} {v : List Int} (h : InRange s v) {d : Nat} (hd : d < s.length) :
    0 ≤ v.getD d 0 ∧ v.getD d 0 < (s.getD d 0 : Nat) := by
  have hl := inRange_length h
  have := (List.forall₂_iff_get.mp h).2 d hd (by omega)
  simpa [List.getD_eq_getElem?_getD, hd, hl] using this

/-! ### The odometer -/

def zerosI (n : Nat) : List Int := List.replicate n 0

/-- Row-major successor of a list of digits; the flag is the carry out of the most significant one. -/
def odo : List Nat → List Int → List Int × Bool
  | n :: s, v :: vs =>
    let r := odo s vs
    if r.2 then (if v + 1 ≠ n then ((v + 1) :: r.1, false) else (0 :: r.1, true))
    else (v :: r.1, false)
  | _, _ => ([], true)

theorem odo_length : ∀ {s : List Nat} {v : List Int}, v.length = s.length → (odo s v).1.length = s.length
  | [], [], _ => rfl
  | n :: s, x :: v, h => by
    have ih := odo_length (s := s) (v := v) (by simpa using h)
    simp only [odo]
    split
    · split <;> simp [ih]
    · simp [ih]

theorem odo_snoc : ∀ (s : List Nat) (v : List Int) (n : Nat) (x : Int), v.length = s.length →
    odo (s ++ [n]) (v ++ [x]) =
      if x + 1 ≠ n then (v ++ [x + 1], false) else ((odo s v).1 ++ [0], (odo s v).2)
  | [], [], n, x, _ => by simp [odo]
  | m :: s, y :: v, n, x, h => by
    have ih := odo_snoc s v n x (by simpa using h)
    simp only [List.cons_append, odo, ih]
    split
    · simp
    · split <;> rename_i h2 <;> simp only [] at h2 ⊢
      · split <;> rfl
      · rfl

/-- A list of digit vectors, each the successor of the previous one; `t` is what `odo` gives on the
last one. -/
def Path (s : List Nat) : List (List Int) → List Int × Bool → Prop
  | [], _ => False
  | [v], t => odo s v = t
  | v :: w :: r, t => odo s v = (w, false) ∧ Path s (w :: r) t

theorem path_append {s : List Nat} {w : List Int} {r : List (List Int)} {t : List Int × Bool} :
    ∀ {l : List (List Int)}, Path s l (w, false) → Path s (w :: r) t → Path s (l ++ w :: r) t
  | [], h, _ => h.elim
  | [v], h, h2 => ⟨h, h2⟩
  | v :: x :: l, h, h2 => ⟨h.1, path_append (l := x :: l) h.2 h2⟩

theorem path_map_cons {n : Nat} {s : List Nat} (i : Int) :
    ∀ {l : List (List Int)} {z : List Int}, Path s l (z, true) →
      Path (n :: s) (l.map (i :: ·)) (if i + 1 ≠ n then ((i + 1) :: z, false) else (0 :: z, true))
  | [], _, h => h.elim
  | [v], z, h => by
    simp only [Path] at h
    simp [Path, odo, h]
  | v :: x :: l, z, h => by
    refine ⟨?_, path_map_cons (l := x :: l) i h.2⟩
    simp [odo, h.1]

theorem allIdx_head {s : List Nat} (h : ∀ n ∈ s, 0 < n) :
    ∃ r, allIdx s = zerosI s.length :: r := by
  induction s with
  | nil => exact ⟨[], rfl⟩
  | cons n s ih =>
    obtain ⟨r, hr⟩ := ih (fun m hm => h m (by simp [hm]))
    have hn : 0 < n := h n (by simp)
    obtain ⟨m, rfl⟩ : ∃ m, n = m + 1 := ⟨n - 1, by omega⟩
    simp only [allIdx, List.range_succ_eq_map, List.flatMap_cons, hr]
    exact ⟨_, rfl⟩

theorem path_blocks {n : Nat} {s : List Nat} (hs : ∀ m ∈ s, 0 < m)
    (hp : Path s (allIdx s) (zerosI s.length, true)) :
    ∀ (k i : Nat), i + (k + 1) = n →
      Path (n :: s) ((List.range' i (k + 1)).flatMap fun (j : Nat) => (allIdx s).map ((j : Int) :: ·))
        (0 :: zerosI s.length, true)
  | 0, i, hi => by
    have := path_map_cons (n := n) (i : Int) hp
    have h2 : (i : Int) + 1 = n := by omega
    simpa [h2, List.range'] using this
  | k + 1, i, hi => by
    have h1 := path_map_cons (n := n) (i : Int) hp
    have h2 : (i : Int) + 1 ≠ n := by omega
    simp only [h2, ne_eq, not_false_eq_true, if_true] at h1
    have ih := path_blocks (n := n) hs hp k (i + 1) (by omega)
    rw [List.range'_succ, List.flatMap_cons]
    obtain ⟨r, hr⟩ := allIdx_head hs
    have h3 : ∃ r', (List.range' (i + 1) (k + 1)).flatMap (fun (j : Nat) => (allIdx s).map ((j : Int) :: ·))
        = (((i : Int) + 1) :: zerosI s.length) :: r' := by
      rw [List.range'_succ, List.flatMap_cons, hr]
      push_cast
      exact ⟨_, rfl⟩
    obtain ⟨r', hr'⟩ := h3
    rw [hr'] at ih ⊢
    exact path_append h1 ih

theorem path_allIdx {s : List Nat} (h : ∀ n ∈ s, 0 < n) :
    Path s (allIdx s) (zerosI s.length, true) := by
  induction s with
  | nil => simp [Path, allIdx, odo, zerosI]
  | cons n s ih =>
    have hs : ∀ m ∈ s, 0 < m := fun m hm => h m (by simp [hm])
    have hn : 0 < n := h n (by simp)
    obtain ⟨m, rfl⟩ : ∃ m, n = m + 1 := ⟨n - 1, by omega⟩
    have := path_blocks (n := m + 1) hs (ih hs) m 0 (by omega)
    rw [allIdx, List.range_eq_range']
    exact this

/-! ### Loops along a path -/

/-- A `for` loop whose state carries the digit vector `v` in the form `st v x` visits exactly the
vectors of the path. -/
theorem loop_path {s : List Nat} {τ σ : Type} {cond : τ → Bool} {body : τ → Out τ}
    (st : List Int → Bool → σ → τ) (f : σ → List Int → Out σ)
    (hc : ∀ v e x, cond (st v e x) = !e)
    {z : List Int}
    (L : List (List Int))
    (hb : ∀ v ∈ L, ∀ x, body (st v false x) =
      (f x v >>= fun x' => Out.ok (st (odo s v).1 (odo s v).2 x'))) :
    Path s L (z, true) → ∀ x,
      loop cond body (st (L.headD []) false x) =
        (L.foldlM f x >>= fun x' => Out.ok (st z true x')) := by
  induction L with
  | nil => intro h; exact h.elim
  | cons v r ih =>
    intro hp x
    rw [loop_unfold]
    simp only [List.headD_cons, hc, Bool.not_false, if_true, List.foldlM_cons]
    rw [hb v (by simp), bind_assoc, bind_assoc]
    cases hf : f x v with
    | ok x' =>
      simp only [Out.ok_bind]
      cases r with
      | nil =>
        simp only [Path] at hp
        rw [hp, loop_exit (by rw [hc]; rfl)]
        rfl
      | cons w r =>
        rw [hp.1]
        exact ih (fun v hv => hb v (by simp [hv])) hp.2 x'
    | thrown e => rfl
    | ub u => rfl
    | diverges => rfl

/-! ### Writing several positions of an index vector -/

/-- Overwrite the positions `ps` of `idx` by the values `vs`. -/
def writeAt : List Nat → List Int → List Int → List Int
  | p :: ps, v :: vs, idx => writeAt ps vs (idx.set p v)
  | _, _, idx => idx

@[simp] theorem writeAt_nil_left (vs idx : List Int) : writeAt [] vs idx = idx := by
  unfold writeAt; rfl

@[simp] theorem writeAt_nil_right (ps : List Nat) (idx : List Int) : writeAt ps [] idx = idx := by
  cases ps <;> rfl

@[simp] theorem length_writeAt : ∀ (ps : List Nat) (vs idx : List Int),
    (writeAt ps vs idx).length = idx.length
  | [], _, _ => by simp
  | _ :: _, [], _ => by simp
  | p :: ps, v :: vs, idx => by
    simp only [writeAt]; rw [length_writeAt ps vs]; simp

theorem writeAt_set_comm {p : Nat} {x : Int} : ∀ {ps : List Nat} {vs idx : List Int}, p ∉ ps →
    writeAt ps vs (idx.set p x) = (writeAt ps vs idx).set p x
  | [], _, _, _ => by simp
  | _ :: _, [], _, _ => by simp
  | q :: ps, v :: vs, idx, h => by
    simp only [writeAt]
    rw [List.set_comm _ _ (by simp at h; exact fun hh => h.1 (by omega))]
    exact writeAt_set_comm (by simp at h; exact h.2)

theorem writeAt_snoc : ∀ {ps : List Nat} {vs idx : List Int} {p : Nat} {x : Int},
    ps.length = vs.length → p ∉ ps →
    writeAt (ps ++ [p]) (vs ++ [x]) idx = (writeAt ps vs idx).set p x
  | [], [], idx, p, x, _, _ => rfl
  | q :: ps, v :: vs, idx, p, x, hl, hp => by
    simp only [List.cons_append, writeAt]
    exact writeAt_snoc (by simpa using hl) (by simp at hp; exact hp.2)

theorem getD_set_self {l : List Int} {p : Nat} {x : Int} (h : p < l.length) :
    (l.set p x).getD p 0 = x := by
  simp [List.getD_eq_getElem?_getD, h]

theorem getD_set_ne {l : List Int} {p q : Nat} {x : Int} (h : p ≠ q) :
    (l.set p x).getD q 0 = l.getD q 0 := by
  simp [List.getD_eq_getElem?_getD, List.getElem?_set_ne h]

theorem writeAt_getD_not_mem {p : Nat} : ∀ {ps : List Nat} {vs idx : List Int}, p ∉ ps →
    (writeAt ps vs idx).getD p 0 = idx.getD p 0
  | [], _, _, _ => by simp
  | _ :: _, [], _, _ => by simp
  | q :: ps, v :: vs, idx, h => by
    simp only [List.mem_cons, not_or] at h
    simp only [writeAt]
    rw [writeAt_getD_not_mem h.2, getD_set_ne (fun hh => h.1 hh.symm)]

theorem map_writeAt : ∀ {ps : List Nat} {vs idx : List Int}, ps.Nodup → ps.length = vs.length →
    (∀ p ∈ ps, p < idx.length) → ps.map (fun p => (writeAt ps vs idx).getD p 0) = vs
  | [], [], _, _, _, _ => rfl
  | p :: ps, v :: vs, idx, hn, hl, hlt => by
    have hn' := List.nodup_cons.mp hn
    simp only [List.map_cons, writeAt]
    congr 1
    · rw [writeAt_getD_not_mem hn'.1, getD_set_self (hlt p (by simp))]
    · exact map_writeAt hn'.2 (by simpa using hl)
        (fun q hq => by simpa using hlt q (by simp [hq]))

theorem writeAt_writeAt : ∀ {ps : List Nat} {vs ws idx : List Int}, ps.length = vs.length →
    ps.length = ws.length → ps.Nodup → writeAt ps ws (writeAt ps vs idx) = writeAt ps ws idx
  | [], [], [], _, _, _, _ => rfl
  | p :: ps, v :: vs, w :: ws, idx, hl, hl2, hn => by
    have hn' := List.nodup_cons.mp hn
    simp only [writeAt]
    rw [← writeAt_set_comm hn'.1, writeAt_writeAt (by simpa using hl) (by simpa using hl2) hn'.2]
    simp

theorem writeAt_self : ∀ {ps : List Nat} {idx : List Int}, (∀ p ∈ ps, p < idx.length) →
    writeAt ps (ps.map (fun p => idx.getD p 0)) idx = idx
  | [], _, _ => by simp
  | p :: ps, idx, h => by
    simp only [List.map_cons, writeAt]
    have : idx.set p (idx.getD p 0) = idx := by
      have hp := h p (by simp)
      rw [List.getD_eq_getElem?_getD]
      simp [hp]
    rw [this]
    exact writeAt_self (fun q hq => h q (by simp [hq]))

theorem writeAt_range : ∀ (v : List Int) (pre idx : List Int), idx.length = v.length →
    writeAt (List.range' pre.length v.length) v (pre ++ idx) = pre ++ v
  | [], pre, idx, h => by simp at h; simp [h]
  | x :: v, pre, [], h => by simp at h
  | x :: v, pre, y :: idx, h => by
    have ih := writeAt_range v (pre ++ [x]) idx (by simpa using h)
    simp only [List.length_cons, List.range'_succ, writeAt]
    simpa using ih

/-! ### `operator++` as the odometer -/

/-- `MappedIndex::operator++` on distinct positions is the odometer on the mapped digits. -/
theorem mapped_incrLoop {pos sizes : List Nat} {base : List Int} (hn : pos.Nodup)
    (hlt : ∀ p ∈ pos, p < base.length) (hs : sizes.length = pos.length) :
    ∀ (k : Nat) (v : List Int) (e : Bool) (idx : List Int), k ≤ pos.length → v.length = k →
      idx.length = base.length →
      MappedIndex.incrLoop pos sizes k (writeAt (pos.take k) v idx) e =
        (writeAt (pos.take k) (odo (sizes.take k) v).1 idx,
          if 0 < k then e || (odo (sizes.take k) v).2 else e)
  | 0, v, e, idx, _, hv, _ => by
    simp [MappedIndex.incrLoop]
  | k + 1, v, e, idx, hk, hv, hidx => by
    obtain ⟨w, x, rfl⟩ : ∃ w x, v = w ++ [x] := by
      have hne : v ≠ [] := by intro h; simp [h] at hv
      exact ⟨v.dropLast, v.getLast hne, (List.dropLast_append_getLast hne).symm⟩
    have hw : w.length = k := by simpa using hv
    have hp : pos.take (k + 1) = pos.take k ++ [pos.getD k 0] := by
      rw [List.take_add_one]
      congr 1
      rw [List.getD_eq_getElem?_getD, List.getElem?_eq_getElem (by omega)]
      rfl
    have hsz : sizes.take (k + 1) = sizes.take k ++ [sizes.getD k 0] := by
      rw [List.take_add_one]
      congr 1
      rw [List.getD_eq_getElem?_getD, List.getElem?_eq_getElem (by omega)]
      rfl
    set p := pos.getD k 0 with hpdef
    have hpm : p ∉ pos.take k := by
      have h1 : (pos.take (k + 1)).Nodup := hn.sublist (List.take_sublist _ _)
      rw [hp] at h1
      have := (List.nodup_append.mp h1).2.2
      intro hmem
      exact this p hmem p (by simp) rfl
    have hpl : p < idx.length := by
      rw [hidx]; apply hlt
      rw [hpdef, List.getD_eq_getElem?_getD, List.getElem?_eq_getElem (by omega)]
      exact List.getElem_mem _
    have hlen1 : (pos.take k).length = w.length := by simp; omega
    rw [hp, hsz, writeAt_snoc hlen1 hpm, odo_snoc _ _ _ _ (by simp; omega)]
    unfold MappedIndex.incrLoop
    simp only [← hpdef]
    have e1 : ((writeAt (pos.take k) w idx).set p x).getD p 0 = x :=
      getD_set_self (by simpa using hpl)
    rw [e1, List.set_set, getD_set_self (by simpa using hpl)]
    by_cases hx : x + 1 ≠ (sizes.getD k 0 : Int)
    · simp only [hx, if_true, ne_eq, not_false_eq_true]
      rw [writeAt_snoc hlen1 hpm]
      simp
    · simp only [hx, if_false]
      rw [List.set_set, ← writeAt_set_comm hpm]
      rw [mapped_incrLoop hn hlt hs k w _ (idx.set p 0) (by omega) hw (by simpa using hidx)]
      have hol : (odo (sizes.take k) w).1.length = k := by
        have := odo_length (s := sizes.take k) (v := w) (by simp; omega)
        simp at this; omega
      rw [writeAt_snoc (by simp; omega) hpm, writeAt_set_comm hpm]
      by_cases hk0 : k = 0
      · subst hk0
        have : w = [] := by simpa using hw
        subst this
        simp [odo]
      · have : 0 < k := by omega
        simp [hk0, this]

theorem index_incrLoop_eq (sizes : List Nat) (n : Nat) : ∀ (k : Nat) (idx : List Int) (e : Bool), k ≤ n →
    Index.incrLoop sizes k idx e = MappedIndex.incrLoop (List.range n) sizes k idx e
  | 0, _, _, _ => rfl
  | k + 1, idx, e, hk => by
    have : (List.range n).getD k 0 = k := by
      rw [List.getD_eq_getElem?_getD, List.getElem?_range (by omega)]; rfl
    simp only [Index.incrLoop, MappedIndex.incrLoop, this]
    split
    · rfl
    · exact index_incrLoop_eq sizes n k _ _ (by omega)

theorem fixed_incrLoop_eq (pos sizes : List Nat) : ∀ (k : Nat) (idx : List Int) (e : Bool),
    FixedIndex.incrLoop pos sizes k idx e = MappedIndex.incrLoop pos sizes k idx e
  | 0, _, _ => rfl
  | k + 1, idx, e => by
    simp only [FixedIndex.incrLoop, MappedIndex.incrLoop]
    split
    · rfl
    · exact fixed_incrLoop_eq pos sizes k _ _

theorem transposed_incrLoop_eq (sizes : List Nat) : ∀ (k : Nat) (idx : List Int) (e : Bool),
    k ≤ sizes.length →
    TransposedIndex.incrLoop sizes k idx e =
      MappedIndex.incrLoop (List.range sizes.length).reverse sizes.reverse k idx e
  | 0, _, _, _ => rfl
  | k + 1, idx, e, hk => by
    have h1 : (List.range sizes.length).reverse.getD k 0 = sizes.length - (k + 1) := by
      rw [List.getD_eq_getElem?_getD, List.getElem?_reverse (by simp; omega)]
      rw [List.getElem?_range (by simp; omega)]
      simp; omega
    have h2 : sizes.reverse.getD k 0 = sizes.getD (sizes.length - (k + 1)) 0 := by
      rw [List.getD_eq_getElem?_getD, List.getElem?_reverse (by omega), List.getD_eq_getElem?_getD]
      congr 2; omega
    have h3 : (sizes.length - (k + 1) = sizes.length - 1) ↔ k = 0 := by omega
    simp only [TransposedIndex.incrLoop, MappedIndex.incrLoop, h1, h2, h3]
    split
    · rfl
    · exact transposed_incrLoop_eq sizes k _ _ (by omega)

theorem mapped_incr {pos sizes : List Nat} {base : List Int} (hn : pos.Nodup)
    (hlt : ∀ p ∈ pos, p < base.length) (hs : sizes.length = pos.length) (hne : pos ≠ [])
    {v : List Int} (hv : v.length = pos.length) (e : Bool) :
    MappedIndex.incrLoop pos sizes pos.length (writeAt pos v base) e =
      (writeAt pos (odo sizes v).1 base, e || (odo sizes v).2) := by
  have := mapped_incrLoop hn hlt hs pos.length v e base le_rfl hv rfl
  have hpos : 0 < pos.length := List.length_pos_iff.mpr hne
  simpa [List.take_of_length_le hs.le, hpos] using this

theorem index_incr {sizes : List Nat} (hne : sizes ≠ []) {v : List Int}
    (hv : v.length = sizes.length) (e : Bool) :
    Index.incrLoop sizes sizes.length v e = ((odo sizes v).1, e || (odo sizes v).2) := by
  rw [index_incrLoop_eq sizes sizes.length _ _ _ le_rfl]
  have h := mapped_incr (pos := List.range sizes.length) (sizes := sizes) (base := v)
    List.nodup_range (by intro p hp; simp at hp; omega) (by simp)
    (by intro h; simp at h; exact hne h) (v := v) (by simpa using hv) e
  have w1 : ∀ u : List Int, u.length = sizes.length → writeAt (List.range sizes.length) u v = u := by
    intro u hu
    have := writeAt_range u [] v (by omega)
    simpa [List.range_eq_range', hu] using this
  rw [w1 v hv, w1 _ (odo_length hv)] at h
  simpa using h

theorem writeAt_reverse : ∀ {ps : List Nat} {vs idx : List Int}, ps.Nodup → ps.length = vs.length →
    writeAt ps.reverse vs.reverse idx = writeAt ps vs idx
  | [], [], _, _, _ => rfl
  | p :: ps, v :: vs, idx, hn, hl => by
    have hn' := List.nodup_cons.mp hn
    have hl' : ps.length = vs.length := by simpa using hl
    simp only [List.reverse_cons, writeAt]
    rw [writeAt_snoc (by simpa using hl') (by simpa using hn'.1), writeAt_reverse hn'.2 hl',
      writeAt_set_comm hn'.1]

theorem transposed_incr {sizes : List Nat} (hne : sizes ≠ []) {v : List Int}
    (hv : v.length = sizes.length) (e : Bool) :
    TransposedIndex.incrLoop sizes sizes.length v e =
      ((odo sizes.reverse v.reverse).1.reverse, e || (odo sizes.reverse v.reverse).2) := by
  rw [transposed_incrLoop_eq sizes _ _ _ le_rfl]
  have h := mapped_incr (pos := (List.range sizes.length).reverse) (sizes := sizes.reverse) (base := v)
    (by rw [List.nodup_reverse]; exact List.nodup_range) (by intro p hp; simp at hp; omega) (by simp)
    (by intro h; simp at h; exact hne h) (v := v.reverse) (by simpa using hv) e
  have w1 : ∀ u : List Int, u.length = sizes.length →
      writeAt (List.range sizes.length).reverse u.reverse v = u := by
    intro u hu
    rw [writeAt_reverse List.nodup_range (by simpa using hu.symm)]
    have := writeAt_range u [] v (by omega)
    simpa [List.range_eq_range', hu] using this
  have hol : (odo sizes.reverse v.reverse).1.length = sizes.length := by
    have := odo_length (s := sizes.reverse) (v := v.reverse) (by simpa using hv)
    simpa using this
  have w2 := w1 (odo sizes.reverse v.reverse).1.reverse (by simpa using hol)
  rw [List.reverse_reverse] at w2
  rw [w1 v hv, w2] at h
  simpa using h

/-! ### The loops -/

theorem index_new {sizes : List Nat} (h : sizes ≠ []) :
    Index.new sizes = .ok { sizes := sizes, idx := zerosI sizes.length, atEnd := false } := by
  cases sizes with
  | nil => exact absurd rfl h
  | cons => rfl

/-- A loop over `Index` is a fold over the row-major enumeration. -/
theorem forIndex_eq {σ : Type} {sizes : List Nat} (hg : GoodShape sizes)
    (body : σ → List Int → Out σ) (s : σ) :
    forIndex sizes body s = (allIdx sizes).foldlM body s := by
  unfold forIndex
  rw [index_new hg.1]
  simp only [Out.ok_bind]
  obtain ⟨r, hr⟩ := allIdx_head hg.2
  have hloop := loop_path (s := sizes) (τ := Index × σ) (σ := σ)
    (cond := fun t => !t.1.atEnd)
    (body := fun t => do
      let s' ← body t.2 t.1.idx
      pure (t.1.incr, s'))
    (st := fun v e x => ({ sizes := sizes, idx := v, atEnd := e }, x)) (f := body)
    (fun _ _ _ => rfl) (z := zerosI sizes.length) (allIdx sizes)
    (by
      intro v hv x
      have hl := inRange_length (mem_allIdx.mp hv)
      simp only [Index.incr, index_incr hg.1 hl, Out.pure_eq, Bool.false_or])
    (path_allIdx hg.2) s
  rw [hr, List.headD_cons] at hloop
  rw [hloop, ← hr]
  simp only [bind_assoc, Out.ok_bind, Out.pure_eq]
  cases List.foldlM body s (allIdx sizes) <;> rfl

/-- A loop over `TransposedIndex` is a fold over the column-major enumeration. -/
theorem forTransposed_eq {σ : Type} {sizes : List Nat} (hg : GoodShape sizes)
    (body : σ → List Int → Out σ) (s : σ) :
    forTransposed sizes body s = ((allIdx sizes.reverse).map List.reverse).foldlM body s := by
  unfold forTransposed
  rw [index_new hg.1]
  simp only [Out.ok_bind]
  have hpos : ∀ n ∈ sizes.reverse, 0 < n := fun n hn => hg.2 n (by simpa using hn)
  obtain ⟨r, hr⟩ := allIdx_head hpos
  have hloop := loop_path (s := sizes.reverse) (τ := Index × σ) (σ := σ)
    (cond := fun t => !t.1.atEnd)
    (body := fun t => do
      let s' ← body t.2 t.1.idx
      pure (TransposedIndex.incr t.1, s'))
    (st := fun v e x => ({ sizes := sizes, idx := v.reverse, atEnd := e }, x))
    (f := fun x v => body x v.reverse)
    (fun _ _ _ => rfl) (z := zerosI sizes.reverse.length) (allIdx sizes.reverse)
    (by
      intro v hv x
      have hl := inRange_length (mem_allIdx.mp hv)
      simp only [TransposedIndex.incr]
      rw [transposed_incr hg.1 (v := v.reverse) (by simpa using hl)]
      simp)
    (path_allIdx hpos) s
  rw [hr, List.headD_cons] at hloop
  have hz : (zerosI sizes.reverse.length).reverse = zerosI sizes.length := by simp [zerosI]
  rw [hz] at hloop
  rw [hloop, ← hr, List.foldlM_map]
  simp only [bind_assoc, Out.ok_bind, Out.pure_eq]
  cases List.foldlM (fun x v => body x v.reverse) s (allIdx sizes.reverse) <;> rfl

/-- A loop over `MappedIndex` with distinct positions whose body leaves the main index where it was
is a fold over the row-major enumeration of the mapped sizes. -/
theorem loop_mapped {σ : Type} {pos sizes : List Nat} {base : List Int}
    (hn : pos.Nodup) (hlt : ∀ p ∈ pos, p < base.length) (hs : sizes.length = pos.length)
    (hne : pos ≠ []) (hpos : ∀ n ∈ sizes, 0 < n)
    (body : σ → MappedIndex → List Int → Out (σ × List Int)) (f : σ → List Int → Out σ)
    (hbody : ∀ s v, v ∈ allIdx sizes →
      body s ⟨pos, sizes, false⟩ (writeAt pos v base) =
        (f s v >>= fun s' => Out.ok (s', writeAt pos v base))) (s : σ) :
    loop (fun (t : MappedIndex × List Int × σ) => !t.1.atEnd)
      (fun t => do
        let s' ← body t.2.2 t.1 t.2.1
        let n := t.1.incr s'.2
        pure (n.1, n.2, s'.1)) (⟨pos, sizes, false⟩, writeAt pos (zerosI pos.length) base, s) =
      ((allIdx sizes).foldlM f s >>= fun s' =>
        Out.ok (⟨pos, sizes, true⟩, writeAt pos (zerosI pos.length) base, s')) := by
  obtain ⟨r, hr⟩ := allIdx_head hpos
  have hloop := loop_path (s := sizes) (τ := MappedIndex × List Int × σ) (σ := σ)
    (cond := fun t => !t.1.atEnd)
    (body := fun t => do
        let s' ← body t.2.2 t.1 t.2.1
        let n := t.1.incr s'.2
        pure (n.1, n.2, s'.1))
    (st := fun v e x => (⟨pos, sizes, e⟩, writeAt pos v base, x)) (f := f)
    (fun _ _ _ => rfl) (z := zerosI sizes.length) (allIdx sizes)
    (by
      intro v hv x
      have hl := inRange_length (mem_allIdx.mp hv)
      simp only [hbody x v hv, bind_assoc, Out.ok_bind, MappedIndex.incr,
        mapped_incr hn hlt hs hne (v := v) (by omega), Bool.false_or, Out.pure_eq])
    (path_allIdx hpos) s
  rw [hr, List.headD_cons, hs] at hloop
  rw [hloop, hr, hs]

end HL

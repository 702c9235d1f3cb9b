import Verif.Model.SobolMem
import Verif.Proof.SobolLemmas

/-
The generator in memory behaves as the generator of `Model/Sobol.lean`.
-/

namespace HL.SMem

theorem bind_ok {α β : Type} {x : M α} {f : α → M β} {h h' : Mem} {a : α} (hx : x h = .ok (a, h')) : (x >>= f) h = f a h' := by
  show (x h >>= fun p => f p.1 p.2) = _
  rw [hx]; rfl

theorem forM_ok {α : Type} {f : α → M Unit} {a : α} {l : List α} {h h' : Mem} (e : f a h = .ok ((), h')) :
    (a :: l).forM f h = l.forM f h' := bind_ok e

theorem pure_run {α : Type} (a : α) (h : Mem) : (pure a : M α) h = .ok (a, h) := rfl

theorem lift_ok {α : Type} {x : Out α} {a : α} (hx : x = .ok a) (h : Mem) : lift x h = .ok (a, h) := by
  subst hx; rfl

theorem set_range_map {α : Type} (n k : Nat) (T : Nat → α) (v : α) :
    ((List.range n).map T).set k v = (List.range n).map (Function.update T k v) := by
  apply List.ext_getElem
  · simp
  · intro i h1 h2
    rw [List.getElem_set]
    simp only [List.getElem_map, List.getElem_range]
    by_cases h : k = i
    · subst h; simp
    · rw [if_neg h, Function.update_of_ne (Ne.symm h)]

/-- a live block of words given by a function -/
def WordsAt (h : Mem) (k n : Nat) (T : Nat → Option U32) : Prop := h[k]? = some ⟨.words ((List.range n).map T), true⟩

/-- a live `SobolData` -/
def DataIn (h : Mem) (k : Nat) (f : Fields) : Prop := h[k]? = some ⟨.data f, true⟩

/-- the two memories have the same blocks, and the same contents except in the blocks of `F` -/
def Agree (F : List Nat) (h h' : Mem) : Prop := h'.length = h.length ∧ ∀ k, k ∉ F → h'[k]? = h[k]?

theorem Agree.refl (F : List Nat) (h : Mem) : Agree F h h := ⟨rfl, fun _ _ => rfl⟩

theorem Agree.trans {F : List Nat} {h h' h'' : Mem} (a : Agree F h h') (b : Agree F h' h'') : Agree F h h'' :=
  ⟨b.1.trans a.1, fun k hk => (b.2 k hk).trans (a.2 k hk)⟩

theorem Agree.mono {F G : List Nat} {h h' : Mem} (a : Agree F h h') (hs : F ⊆ G) : Agree G h h' :=
  ⟨a.1, fun k hk => a.2 k (fun c => hk (hs c))⟩

theorem agree_set {F : List Nat} {h : Mem} {k : Nat} (hk : k ∈ F) (b : Block) : Agree F h (h.set k b) :=
  ⟨by simp, fun j hj => List.getElem?_set_ne (fun e => hj (by rw [← e]; exact hk))⟩

theorem WordsAt.agree {F : List Nat} {h h' : Mem} {k n : Nat} {T : Nat → Option U32} (w : WordsAt h k n T) (a : Agree F h h')
    (hk : k ∉ F) : WordsAt h' k n T := by
  unfold WordsAt; rw [a.2 k hk]; exact w

theorem DataIn.agree {F : List Nat} {h h' : Mem} {k : Nat} {f : Fields} (w : DataIn h k f) (a : Agree F h h')
    (hk : k ∉ F) : DataIn h' k f := by
  unfold DataIn; rw [a.2 k hk]; exact w

theorem lt_of_some {h : Mem} {k : Nat} {b : Block} (e : h[k]? = some b) : k < h.length := by
  obtain ⟨h1, -⟩ := List.getElem?_eq_some_iff.mp e
  exact h1

theorem loadW_ok {h : Mem} {k n i : Nat} {T : Nat → Option U32} {v : U32} (w : WordsAt h k n T) (hi : i < n) (hT : T i = some v) :
    loadW k i h = .ok (v, h) := by
  unfold WordsAt at w
  simp only [loadW, w]
  simp [hi, hT]

theorem storeW_ok {h : Mem} {k n i : Nat} {T : Nat → Option U32} (v : U32) (w : WordsAt h k n T) (hi : i < n) :
    ∃ h', storeW k i v h = .ok ((), h') ∧ WordsAt h' k n (Function.update T i (some v)) ∧ Agree [k] h h' := by
  have hk := lt_of_some w
  unfold WordsAt at w
  refine ⟨h.set k ⟨.words (((List.range n).map T).set i (some v)), true⟩, ?_, ?_, agree_set (by simp) _⟩
  · simp only [storeW, w]
    simp [hi]
  · unfold WordsAt
    rw [List.getElem?_set_self hk, set_range_map]

theorem loadS_ok {h : Mem} {k : Nat} {f : Fields} (w : DataIn h k f) : loadS k h = .ok (f, h) := by
  unfold DataIn at w
  simp only [loadS, w]

theorem modifyS_ok {h : Mem} {k : Nat} {f : Fields} (g : Fields → Fields) (w : DataIn h k f) :
    ∃ h', modifyS k g h = .ok ((), h') ∧ DataIn h' k (g f) ∧ Agree [k] h h' := by
  have hk := lt_of_some w
  unfold DataIn at w
  refine ⟨h.set k ⟨.data (g f), true⟩, by simp only [modifyS, w], ?_, agree_set (by simp) _⟩
  unfold DataIn
  rw [List.getElem?_set_self hk]

/-! ### the table of direction numbers -/

theorem row_ok {h : Mem} {s j md o : Nat} {f : Fields} (w : DataIn h s f) (hr : f.m[j]? = some (some (md, o))) :
    row s j h = .ok ((md, o), h) := by
  unfold row
  rw [bind_ok (loadS_ok w), hr]; rfl

theorem loadM_ok {h : Mem} {s j i md o n : Nat} {f : Fields} {T : Nat → Option U32} {v : U32} (w : DataIn h s f)
    (hr : f.m[j]? = some (some (md, o))) (t : WordsAt h md n T) (hi : o + i < n) (hT : T (o + i) = some v) :
    loadM s j i h = .ok (v, h) := by
  unfold loadM
  rw [bind_ok (row_ok w hr)]
  exact loadW_ok t hi hT

theorem storeM_ok {h : Mem} {s j i md o n : Nat} {f : Fields} {T : Nat → Option U32} (v : U32) (w : DataIn h s f)
    (hr : f.m[j]? = some (some (md, o))) (t : WordsAt h md n T) (hi : o + i < n) :
    ∃ h', storeM s j i v h = .ok ((), h') ∧ WordsAt h' md n (Function.update T (o + i) (some v)) ∧ Agree [md] h h' := by
  obtain ⟨h', h1, h2, h3⟩ := storeW_ok v t hi
  refine ⟨h', ?_, h2, h3⟩
  unfold storeM
  rw [bind_ok (row_ok w hr)]
  exact h1

/-- all row pointers are set -/
def Rows (f : Fields) (md dim : Nat) : Prop := ∀ j < 32, f.m[j]? = some (some (md, j * dim))

/-- memory in which the table is being filled -/
structure Tab (h : Mem) (s md dim : Nat) (f : Fields) (T : Nat → Option U32) : Prop where
  ne : s ≠ md
  data : DataIn h s f
  rows : Rows f md dim
  words : WordsAt h md (dim * 32) T

theorem pos_lt {dim i j : Nat} (hi : i < dim) (hj : j < 32) : j * dim + i < dim * 32 := by
  have : j * dim ≤ 31 * dim := Nat.mul_le_mul_right _ (by omega)
  omega

theorem pos_inj {dim i j i' j' : Nat} (hi : i < dim) (hi' : i' < dim) (h : j * dim + i = j' * dim + i') : j = j' ∧ i = i' := by
  have hd : 0 < dim := by omega
  have h1 : (j * dim + i) / dim = j := by
    rw [Nat.mul_comm, Nat.mul_add_div hd, Nat.div_eq_of_lt hi, Nat.add_zero]
  have h2 : (j' * dim + i') / dim = j' := by
    rw [Nat.mul_comm, Nat.mul_add_div hd, Nat.div_eq_of_lt hi', Nat.add_zero]
  have : j = j' := by rw [← h1, ← h2, h]
  subst this
  exact ⟨rfl, by omega⟩

theorem Tab.load {h : Mem} {s md dim : Nat} {f : Fields} {T : Nat → Option U32} (t : Tab h s md dim f T) {i j : Nat} (hi : i < dim)
    (hj : j < 32) {v : U32} (hT : T (j * dim + i) = some v) : loadM s j i h = .ok (v, h) :=
  loadM_ok t.data (t.rows j hj) t.words (pos_lt hi hj) hT

theorem Tab.store {h : Mem} {s md dim : Nat} {f : Fields} {T : Nat → Option U32} (t : Tab h s md dim f T) {i j : Nat} (hi : i < dim)
    (hj : j < 32) (v : U32) : ∃ h', storeM s j i v h = .ok ((), h') ∧ Tab h' s md dim f (Function.update T (j * dim + i) (some v)) ∧
      Agree [md] h h' := by
  obtain ⟨h', h1, h2, h3⟩ := storeM_ok v t.data (t.rows j hj) t.words (pos_lt hi hj)
  exact ⟨h', h1, ⟨t.ne, t.data.agree h3 (by simpa using t.ne), t.rows, h2⟩, h3⟩

/-- `T'` differs from `T` in column `i` only -/
def ColOnly (dim i : Nat) (T T' : Nat → Option U32) : Prop := ∀ j i', i' < dim → i' ≠ i → T' (j * dim + i') = T (j * dim + i')

theorem ColOnly.refl (dim i : Nat) (T : Nat → Option U32) : ColOnly dim i T T := fun _ _ _ _ => rfl

theorem ColOnly.trans {dim i : Nat} {T T' T'' : Nat → Option U32} (a : ColOnly dim i T T') (b : ColOnly dim i T' T'') :
    ColOnly dim i T T'' := fun j i' h1 h2 => (b j i' h1 h2).trans (a j i' h1 h2)

theorem colOnly_update {dim i j : Nat} (hi : i < dim) (T : Nat → Option U32) (v : Option U32) :
    ColOnly dim i T (Function.update T (j * dim + i) v) := by
  intro j' i' h1 h2
  rw [Function.update_of_ne]
  intro e
  exact h2 (pos_inj h1 hi e).2

theorem fillInner_ok {s md dim i : Nat} {f : Fields} {col : List U32} {d : Nat} (hi : i < dim) (hlen : col.length < 32)
    (hd : d ≤ col.length) : ∀ (r k a : Nat) (acc v : U32) (h : Mem) (T : Nat → Option U32), Tab h s md dim f T → k + r ≤ d →
    (∀ j < col.length, T (j * dim + i) = col[j]?) → T (col.length * dim + i) = some acc →
    sobolInner col (col.length - d) d r k a acc = .ok v →
    ∃ h' T', fillInner s i col.length d r k a h = .ok ((), h') ∧ Tab h' s md dim f T' ∧ Agree [md] h h' ∧ ColOnly dim i T T' ∧
      (∀ j < col.length, T' (j * dim + i) = col[j]?) ∧ T' (col.length * dim + i) = some v
  | 0, k, a, acc, v, h, T, t, hk, hT, hacc, hv => by
    simp only [sobolInner, Out.ok.injEq] at hv
    subst hv
    exact ⟨h, T, rfl, t, Agree.refl _ _, ColOnly.refl _ _ _, hT, hacc⟩
  | r + 1, k, a, acc, v, h, T, t, hk, hT, hacc, hv => by
    have hlt : col.length - d + k < col.length := by omega
    unfold sobolInner at hv
    rw [List.getElem?_eq_getElem hlt] at hv
    simp only at hv
    obtain ⟨w, hw, hv⟩ := Out.bind_eq_ok.mp hv
    have hl := t.load hi (show col.length - d + k < 32 by omega) (v := col[col.length - d + k])
      (by rw [hT _ hlt, List.getElem?_eq_getElem hlt])
    have hl2 := t.load hi hlen hacc
    obtain ⟨h1, e1, t1, a1⟩ := t.store hi hlen (acc ^^^ w)
    obtain ⟨h', T', e2, t2, a2, c2, g2, g3⟩ := fillInner_ok hi hlen hd r (k + 1) (a / 2) (acc ^^^ w) v h1 _ t1 (by omega)
      (by
        intro j hj
        rw [Function.update_of_ne (fun e => by have := (pos_inj hi hi e).1; omega)]
        exact hT j hj)
      (by simp) hv
    refine ⟨h', T', ?_, t2, a1.trans a2, (colOnly_update hi _ _).trans c2, g2, g3⟩
    unfold fillInner
    rw [bind_ok hl, bind_ok (lift_ok hw h), bind_ok hl2, bind_ok e1]
    exact e2

theorem fill_ok {s md dim i : Nat} {f : Fields} {a d : Nat} (hi : i < dim) : ∀ (r : Nat) (col v : List U32) (h : Mem)
    (T : Nat → Option U32), Tab h s md dim f T → col.length + r ≤ 32 → (∀ j < col.length, T (j * dim + i) = col[j]?) →
    sobolFill a d r col = .ok v →
    ∃ h' T', fill s i a d r col.length h = .ok ((), h') ∧ Tab h' s md dim f T' ∧ Agree [md] h h' ∧ ColOnly dim i T T' ∧
      (∀ j < v.length, T' (j * dim + i) = v[j]?)
  | 0, col, v, h, T, t, _, hT, hv => by
    simp only [sobolFill, Out.ok.injEq] at hv
    subst hv
    exact ⟨h, T, rfl, t, Agree.refl _ _, ColOnly.refl _ _ _, hT⟩
  | r + 1, col, v, h, T, t, hlen, hT, hv => by
    unfold sobolFill at hv
    by_cases hd : col.length < d
    · rw [if_pos hd] at hv; cases hv
    rw [if_neg hd] at hv
    cases hc : col[col.length - d]? with
    | none => rw [hc] at hv; cases hv
    | some c =>
      rw [hc] at hv
      simp only at hv
      obtain ⟨mj, hm, hv⟩ := Out.bind_eq_ok.mp hv
      have hlt : col.length - d < col.length := (List.getElem?_eq_some_iff.mp hc).1
      have hl := t.load hi (show col.length - d < 32 by omega) (v := c) (by rw [hT _ hlt, hc])
      obtain ⟨h1, e1, t1, a1⟩ := t.store hi (show col.length < 32 by omega) c
      obtain ⟨h2, T2, e2, t2, a2, c2, g2, g3⟩ := fillInner_ok hi (by omega) (by omega) d 0 a c mj h1 _ t1 (by omega)
        (by
          intro j hj
          rw [Function.update_of_ne (fun e => by have := (pos_inj hi hi e).1; omega)]
          exact hT j hj)
        (by simp) hm
      obtain ⟨h', T', e3, t3, a3, c3, g4⟩ := fill_ok hi r (col ++ [mj]) v h2 T2 t2 (by simp; omega)
        (by
          intro j hj
          rw [List.length_append, List.length_singleton] at hj
          by_cases hjl : j < col.length
          · rw [g2 j hjl, List.getElem?_append_left hjl]
          · have : j = col.length := by omega
            subst this
            rw [g3]; simp)
        hv
      refine ⟨h', T', ?_, t3, a1.trans (a2.trans a3), (colOnly_update hi _ _).trans (c2.trans c3), g4⟩
      unfold fill
      rw [bind_ok hl, bind_ok e1, bind_ok e2]
      rw [List.length_append, List.length_singleton] at e3
      exact e3

theorem mapM_range_cons {β : Type} (f : Nat → Out β) (k n : Nat) :
    (List.range' k (n + 1)).mapM f = (do let b ← f k; let bs ← (List.range' (k + 1) n).mapM f; pure (b :: bs)) := by
  rw [List.range'_succ, List.mapM_cons]

theorem minits_ok {s md dim i : Nat} {f : Fields} (hi : i + 1 < dim) : ∀ (d k : Nat) (v : List U32) (h : Mem) (T : Nat → Option U32),
    Tab h s md dim f T → k + d ≤ 32 → (List.range' k d).mapM (minitAt i) = .ok v →
    ∃ h' T', (List.range' k d).forM (initEntry s i) h = .ok ((), h') ∧ Tab h' s md dim f T' ∧ Agree [md] h h' ∧ ColOnly dim (i + 1) T T' ∧
      v.length = d ∧ (∀ j < k, T' (j * dim + (i + 1)) = T (j * dim + (i + 1))) ∧ (∀ j < d, T' ((k + j) * dim + (i + 1)) = v[j]?)
  | 0, k, v, h, T, t, _, hv => by
    simp only [List.range'_zero, List.mapM_nil, Out.pure_eq, Out.ok.injEq] at hv
    subst hv
    exact ⟨h, T, rfl, t, Agree.refl _ _, ColOnly.refl _ _ _, rfl, fun _ _ => rfl, fun j hj => absurd hj (by omega)⟩
  | d + 1, k, v, h, T, t, hk, hv => by
    rw [mapM_range_cons] at hv
    obtain ⟨b, hb, hv⟩ := Out.bind_eq_ok.mp hv
    obtain ⟨bs, hbs, hv⟩ := Out.bind_eq_ok.mp hv
    simp only [Out.pure_eq, Out.ok.injEq] at hv
    subst hv
    obtain ⟨h1, e1, t1, a1⟩ := t.store hi (show k < 32 by omega) b
    obtain ⟨h', T', e2, t2, a2, c2, g1, g2, g3⟩ := minits_ok hi d (k + 1) bs h1 _ t1 (by omega) hbs
    refine ⟨h', T', ?_, t2, a1.trans a2, (colOnly_update hi _ _).trans c2, by simp [g1], ?_, ?_⟩
    · rw [List.range'_succ, forM_ok (h' := h1) (by unfold initEntry; rw [bind_ok (lift_ok hb h)]; exact e1)]
      exact e2
    · intro j hj
      rw [g2 j (by omega), Function.update_of_ne (fun e => by have := (pos_inj hi hi e).1; omega)]
    · intro j hj
      cases j with
      | zero => rw [Nat.add_zero, g2 k (by omega)]; simp
      | succ j =>
        have := g3 j (by omega)
        rw [show k + (j + 1) = k + 1 + j by omega, this]; simp

theorem column_ok {s md dim i : Nat} {f : Fields} (hi : i + 1 < dim) {m : List U32} (hm : sobolColumn (i + 1) = .ok m) {h : Mem}
    {T : Nat → Option U32} (t : Tab h s md dim f T) :
    ∃ h' T', column s i h = .ok ((), h') ∧ Tab h' s md dim f T' ∧ Agree [md] h h' ∧ ColOnly dim (i + 1) T T' ∧
      (∀ j < m.length, T' (j * dim + (i + 1)) = m[j]?) := by
  simp only [sobolColumn] at hm
  unfold column
  cases ha : sobolA[i]? with
  | none => rw [ha] at hm; cases hm
  | some a =>
    rw [ha] at hm
    simp only at hm ⊢
    have haok := sobolA_ok a (List.mem_of_getElem? ha)
    have ha0 : a ≠ 0 := by omega
    rw [if_neg ha0] at hm ⊢
    obtain ⟨v, hv, hm⟩ := Out.bind_eq_ok.mp hm
    have hd : bitLen 32 a - 1 ≤ 32 := by
      rw [bitLen_eq 32 a (by omega) (by omega)]
      have : a.log2 < 32 := (Nat.log2_lt ha0).mpr (by omega)
      omega
    rw [List.range_eq_range'] at hv ⊢
    obtain ⟨h1, T1, e1, t1, a1, c1, g1, -, g3⟩ := minits_ok hi _ 0 v h T t (by omega) hv
    rw [← g1] at e1 hm hd g3 ⊢
    obtain ⟨h', T', e2, t2, a2, c2, g4⟩ := fill_ok (a := a) (d := v.length) hi (32 - v.length) v m h1 T1 t1 (by omega)
      (by intro j hj; have := g3 j hj; rwa [Nat.zero_add] at this) hm
    refine ⟨h', T', ?_, t2, a1.trans a2, c1.trans c2, g4⟩
    rw [bind_ok e1]
    exact e2

theorem columns_ok {s md dim : Nat} {f : Fields} (hdim : dim ≤ 1111) : ∀ (r k : Nat) (h : Mem) (T : Nat → Option U32),
    Tab h s md dim f T → k + 1 + r = dim → (∀ i ≤ k, ∀ m, sobolColumn i = .ok m → ∀ j < 32, T (j * dim + i) = m[j]?) →
    ∃ h' T', (List.range' k r).forM (column s) h = .ok ((), h') ∧ Tab h' s md dim f T' ∧ Agree [md] h h' ∧
      (∀ i < dim, ∀ m, sobolColumn i = .ok m → ∀ j < 32, T' (j * dim + i) = m[j]?)
  | 0, k, h, T, t, hk, hT => ⟨h, T, rfl, t, Agree.refl _ _, fun i hi => hT i (by omega)⟩
  | r + 1, k, h, T, t, hk, hT => by
    obtain ⟨m, hm, hlen, -⟩ := sobolColumn_eq (i := k + 1) (by omega)
    obtain ⟨h1, T1, e1, t1, a1, c1, g1⟩ := column_ok (by omega) hm t
    obtain ⟨h', T', e2, t2, a2, g2⟩ := columns_ok hdim r (k + 1) h1 T1 t1 (by omega) (by
      intro i hi m' hm' j hj
      by_cases he : i = k + 1
      · subst he
        rw [hm] at hm'
        cases hm'
        exact g1 j (by omega)
      · rw [c1 j i (by omega) he]
        exact hT i (by omega) m' hm' j hj)
    refine ⟨h', T', ?_, t2, a1.trans a2, g2⟩
    rw [List.range'_succ, forM_ok e1]
    exact e2

theorem initRows_ok {s md dim : Nat} (hdim : 0 < dim) (hne : s ≠ md) : ∀ (r k : Nat) (h : Mem) (f : Fields) (T : Nat → Option U32),
    k + r = 32 → DataIn h s f → WordsAt h md (dim * 32) T → f.m.length = 32 → (∀ j < k, f.m[j]? = some (some (md, j * dim))) →
    (∀ j < k, T (j * dim) = some 1) →
    ∃ h' f' T', (List.range' k r).forM (initRow s md dim) h = .ok ((), h') ∧ Tab h' s md dim f' T' ∧ Agree [s, md] h h' ∧ (∀ j < 32, T' (j * dim) = some 1) ∧
      f'.mdata = f.mdata
  | 0, k, h, f, T, hk, hf, hw, _, hr, hT =>
    ⟨h, f, T, rfl, ⟨hne, hf, fun j hj => hr j (by omega), hw⟩, Agree.refl _ _, fun j hj => hT j (by omega), rfl⟩
  | r + 1, k, h, f, T, hk, hf, hw, hl, hr, hT => by
    obtain ⟨h1, e1, f1, a1⟩ := modifyS_ok (fun f => { f with m := f.m.set k (some (md, k * dim)) }) hf
    have w1 := hw.agree a1 (by simpa using Ne.symm hne)
    have hrow : ({ f with m := f.m.set k (some (md, k * dim)) } : Fields).m[k]? = some (some (md, k * dim)) := by
      simp only
      rw [List.getElem?_set_self (by omega)]
    obtain ⟨h2, e2, w2, a2⟩ := storeM_ok (i := 0) 1 f1 hrow w1 (pos_lt hdim (by omega))
    have f2 := f1.agree a2 (by simpa using hne)
    obtain ⟨h', f', T', e3, t3, a3, g1, g2⟩ := initRows_ok hdim hne r (k + 1) h2 _ _ (by omega) f2 w2 (by simpa using hl)
      (by
        intro j hj
        simp only
        by_cases he : j = k
        · subst he; rw [List.getElem?_set_self (by omega)]
        · rw [List.getElem?_set_ne (Ne.symm he)]; exact hr j (by omega))
      (by
        intro j hj
        by_cases he : j = k
        · subst he; simp
        · rw [Function.update_of_ne]
          · exact hT j (by omega)
          · intro e
            have := pos_inj (i := 0) (i' := 0) hdim hdim (by simpa using e)
            omega)
    refine ⟨h', f', T', ?_, t3, (a1.mono (by simp)).trans ((a2.mono (by simp)).trans a3), g1, g2⟩
    rw [List.range'_succ, forM_ok (h' := h2) (by unfold initRow; rw [bind_ok e1]; exact e2)]
    exact e3

/-! ### a generator in memory -/

/-- the four blocks of a generator -/
structure Foot where
  s : Nat
  md : Nat
  x : Nat
  b : Nat

def Foot.list (F : Foot) : List Nat := [F.s, F.md, F.x, F.b]

/-- the members of a complete `SobolData` -/
structure Full (f : Fields) (F : Foot) (dim n : Nat) : Prop where
  sdim : f.sdim = some dim
  mdata : f.mdata = some (some F.md)
  rows : Rows f F.md dim
  x : f.x = some (some F.x)
  b : f.b = some (some F.b)
  n : f.n = some n

/-- a generator in memory, with the contents of its arrays -/
structure RepF (h : Mem) (F : Foot) (dim n : Nat) (T X B : Nat → Option U32) : Prop where
  nd : F.list.Nodup
  data : ∃ f, DataIn h F.s f ∧ Full f F dim n
  words : WordsAt h F.md (dim * 32) T
  wx : WordsAt h F.x dim X
  wb : WordsAt h F.b dim B

theorem Foot.ne {F : Foot} (h : F.list.Nodup) : F.s ≠ F.md ∧ F.s ≠ F.x ∧ F.s ≠ F.b ∧ F.md ≠ F.x ∧ F.md ≠ F.b ∧ F.x ≠ F.b := by
  simp only [Foot.list, List.nodup_cons, List.mem_cons, List.not_mem_nil, or_false, not_or] at h
  exact ⟨h.1.1, h.1.2.1, h.1.2.2, h.2.1.1, h.2.1.2, h.2.2.1⟩

section
variable {h : Mem} {F : Foot} {dim n : Nat} {T X B : Nat → Option U32}

theorem RepF.loadM (r : RepF h F dim n T X B) {i j : Nat} (hi : i < dim) (hj : j < 32) {v : U32} (hT : T (j * dim + i) = some v) :
    SMem.loadM F.s j i h = .ok (v, h) := by
  obtain ⟨f, hf, hF⟩ := r.data
  exact loadM_ok hf (hF.rows j hj) r.words (pos_lt hi hj) hT

theorem RepF.loadX (r : RepF h F dim n T X B) {i : Nat} (hi : i < dim) {v : U32} (hX : X i = some v) :
    SMem.loadX F.s i h = .ok (v, h) := by
  obtain ⟨f, hf, hF⟩ := r.data
  unfold SMem.loadX
  rw [bind_ok (loadS_ok hf), hF.x]
  exact loadW_ok r.wx hi hX

theorem RepF.loadB (r : RepF h F dim n T X B) {i : Nat} (hi : i < dim) {v : U32} (hB : B i = some v) :
    SMem.loadB F.s i h = .ok (v, h) := by
  obtain ⟨f, hf, hF⟩ := r.data
  unfold SMem.loadB
  rw [bind_ok (loadS_ok hf), hF.b]
  exact loadW_ok r.wb hi hB

theorem RepF.storeX (r : RepF h F dim n T X B) {i : Nat} (hi : i < dim) (v : U32) :
    ∃ h', SMem.storeX F.s i v h = .ok ((), h') ∧ RepF h' F dim n T (Function.update X i (some v)) B ∧ Agree F.list h h' := by
  obtain ⟨f, hf, hF⟩ := r.data
  obtain ⟨h', h1, h2, h3⟩ := storeW_ok v r.wx hi
  obtain ⟨n1, n2, n3, n4, n5, n6⟩ := Foot.ne r.nd
  refine ⟨h', ?_, ⟨r.nd, ⟨f, hf.agree h3 (by simpa using n2), hF⟩, r.words.agree h3 (by simpa using n4), h2,
    r.wb.agree h3 (by simpa using Ne.symm n6)⟩, h3.mono (by simp [Foot.list])⟩
  unfold SMem.storeX
  rw [bind_ok (loadS_ok hf), hF.x]
  exact h1

theorem RepF.storeB (r : RepF h F dim n T X B) {i : Nat} (hi : i < dim) (v : U32) :
    ∃ h', SMem.storeB F.s i v h = .ok ((), h') ∧ RepF h' F dim n T X (Function.update B i (some v)) ∧ Agree F.list h h' := by
  obtain ⟨f, hf, hF⟩ := r.data
  obtain ⟨h', h1, h2, h3⟩ := storeW_ok v r.wb hi
  obtain ⟨n1, n2, n3, n4, n5, n6⟩ := Foot.ne r.nd
  refine ⟨h', ?_, ⟨r.nd, ⟨f, hf.agree h3 (by simpa using n3), hF⟩, r.words.agree h3 (by simpa using n5),
    r.wx.agree h3 (by simpa using n6), h2⟩, h3.mono (by simp [Foot.list])⟩
  unfold SMem.storeB
  rw [bind_ok (loadS_ok hf), hF.b]
  exact h1

/-- one coordinate in memory -/
structure CoordIn (dim : Nat) (T X B : Nat → Option U32) (i : Nat) (c : SCoord) : Prop where
  len : c.m.length = 32
  b : c.b ≤ 31
  t : ∀ j < 32, T (j * dim + i) = c.m[j]?
  x : X i = some c.x
  bb : B i = some (BitVec.ofNat 32 c.b)

theorem genCoord_ok (r : RepF h F dim n T X B) {i c : Nat} (hi : i < dim) (hc : c < 32) {co co' : SCoord} {o : U32}
    (ci : CoordIn dim T X B i co) (hg : HL.genCoord c co = .ok (co', o)) {out : List U32} (ho : i < out.length) :
    ∃ h', genCoord F.s c out i h = .ok (out.set i o, h') ∧
      RepF h' F dim n T (Function.update X i (some co'.x)) (Function.update B i (some (BitVec.ofNat 32 co'.b))) ∧ Agree F.list h h' ∧
      co'.m = co.m ∧ co'.b ≤ 31 := by
  have hclt : c < co.m.length := by rw [ci.len]; exact hc
  have hbn : (BitVec.ofNat 32 co.b).toNat = co.b := by
    rw [BitVec.toNat_ofNat]; exact Nat.mod_eq_of_lt (by have := ci.b; omega)
  have hT : T (c * dim + i) = some co.m[c] := by rw [ci.t c hc, List.getElem?_eq_getElem hclt]
  unfold HL.genCoord at hg
  rw [List.getElem?_eq_getElem hclt] at hg
  simp only at hg
  unfold genCoord
  rw [bind_ok (r.loadB hi ci.bb), hbn]
  by_cases hcb : c ≤ co.b
  · rw [if_pos hcb] at hg ⊢
    obtain ⟨t, ht, hg⟩ := Out.bind_eq_ok.mp hg
    obtain ⟨o', hoo, hg⟩ := Out.bind_eq_ok.mp hg
    simp only [Out.pure_eq, Out.ok.injEq, Prod.mk.injEq] at hg
    obtain ⟨rfl, rfl⟩ := hg
    obtain ⟨h1, e1, r1, a1⟩ := r.storeX hi (co.x ^^^ t)
    refine ⟨h1, ?_, ?_, a1, rfl, ci.b⟩
    · rw [bind_ok (r.loadM hi hc hT), bind_ok (lift_ok ht _), bind_ok (r.loadX hi ci.x), bind_ok e1,
        bind_ok (r1.loadX hi (v := co.x ^^^ t) (by simp)),
        bind_ok (lift_ok hoo _)]
      unfold setOut; rw [if_pos ho]; rfl
    · have : Function.update B i (some (BitVec.ofNat 32 co.b)) = B := by
        rw [← ci.bb]; exact Function.update_eq_self _ _
      simp only [this]
      exact r1
  · rw [if_neg hcb] at hg ⊢
    obtain ⟨t, ht, hg⟩ := Out.bind_eq_ok.mp hg
    obtain ⟨o', hoo, hg⟩ := Out.bind_eq_ok.mp hg
    simp only [Out.pure_eq, Out.ok.injEq, Prod.mk.injEq] at hg
    obtain ⟨rfl, rfl⟩ := hg
    obtain ⟨h1, e1, r1, a1⟩ := r.storeX hi (t ^^^ co.m[c])
    obtain ⟨h2, e2, r2, a2⟩ := r1.storeB hi (BitVec.ofNat 32 c)
    refine ⟨h2, ?_, r2, a1.trans a2, rfl, by simp only; omega⟩
    rw [bind_ok (r.loadX hi ci.x), bind_ok (lift_ok ht _), bind_ok (r.loadM hi hc hT), bind_ok e1, bind_ok e2,
      bind_ok (r2.loadX hi (v := t ^^^ co.m[c]) (by simp)), bind_ok (lift_ok hoo _)]
    unfold setOut; rw [if_pos ho]; rfl

end

theorem genLoop_ok {F : Foot} {dim n c : Nat} {T : Nat → Option U32} (hc : c < 32) : ∀ (cs : List SCoord) (rs : List (SCoord × U32))
    (k : Nat) (h : Mem) (X B : Nat → Option U32) (out : List U32), RepF h F dim n T X B → k + cs.length = dim → out.length = dim →
    (∀ i co, cs[i]? = some co → CoordIn dim T X B (k + i) co) → cs.mapM (HL.genCoord c) = .ok rs →
    ∃ h' X' B' out', (List.range' k cs.length).foldlM (genCoord F.s c) out h = .ok (out', h') ∧ RepF h' F dim n T X' B' ∧
      Agree F.list h h' ∧ out'.length = dim ∧ rs.length = cs.length ∧ (∀ i < k, X' i = X i ∧ B' i = B i ∧ out'[i]? = out[i]?) ∧
      (∀ i p, rs[i]? = some p → CoordIn dim T X' B' (k + i) p.1 ∧ out'[k + i]? = some p.2)
  | [], rs, k, h, X, B, out, r, _, ho, _, hm => by
    simp only [List.mapM_nil, Out.pure_eq, Out.ok.injEq] at hm
    subst hm
    exact ⟨h, X, B, out, rfl, r, Agree.refl _ _, ho, rfl, fun _ _ => ⟨rfl, rfl, rfl⟩, fun i p hp => by simp at hp⟩
  | co :: cs, rs, k, h, X, B, out, r, hk, ho, hci, hm => by
    rw [List.mapM_cons] at hm
    obtain ⟨p, hp, hm⟩ := Out.bind_eq_ok.mp hm
    obtain ⟨ps, hps, hm⟩ := Out.bind_eq_ok.mp hm
    simp only [Out.pure_eq, Out.ok.injEq] at hm
    subst hm
    rw [List.length_cons] at hk
    have ci : CoordIn dim T X B k co := hci 0 co rfl
    obtain ⟨h1, e1, r1, a1, g1, g2⟩ := genCoord_ok r (show k < dim by omega) hc ci hp (out := out) (by omega)
    obtain ⟨h', X', B', out', e2, r2, a2, l2, l3, o2, i2⟩ := genLoop_ok hc cs ps (k + 1) h1 _ _ (out.set k p.2) r1 (by omega)
      (by simpa using ho) (by
        intro i co2 hi
        have := hci (i + 1) co2 (by simpa using hi)
        rw [show k + 1 + i = k + (i + 1) by omega]
        exact ⟨this.len, this.b, this.t, by rw [Function.update_of_ne (by omega)]; exact this.x,
          by rw [Function.update_of_ne (by omega)]; exact this.bb⟩) hps
    refine ⟨h', X', B', out', ?_, r2, a1.trans a2, l2, by simp [l3], ?_, ?_⟩
    · rw [List.length_cons, List.range'_succ, List.foldlM_cons, bind_ok e1]
      exact e2
    · intro i hi
      obtain ⟨q1, q2, q3⟩ := o2 i (by omega)
      refine ⟨?_, ?_, ?_⟩
      · rw [q1, Function.update_of_ne (by omega)]
      · rw [q2, Function.update_of_ne (by omega)]
      · rw [q3, List.getElem?_set_ne (by omega)]
    · intro i p' hp'
      cases i with
      | zero =>
        simp only [List.getElem?_cons_zero, Option.some.injEq] at hp'
        subst hp'
        obtain ⟨q1, q2, q3⟩ := o2 k (by omega)
        rw [Nat.add_zero]
        refine ⟨⟨by rw [g1]; exact ci.len, g2, by rw [g1]; exact ci.t, by rw [q1]; simp, by rw [q2]; simp⟩, ?_⟩
        rw [q3, List.getElem?_set_self (by omega)]
      | succ i =>
        have := i2 i p' (by simpa using hp')
        rw [show k + (i + 1) = k + 1 + i by omega]
        exact this

/-- the generator `sd` is in memory, in the blocks `F` -/
def Rep (h : Mem) (F : Foot) (sd : SobolData) : Prop :=
  ∃ T X B, RepF h F sd.coords.length sd.n T X B ∧ ∀ i co, sd.coords[i]? = some co → CoordIn sd.coords.length T X B i co

theorem Rep.agree {h h' : Mem} {F : Foot} {sd : SobolData} (r : Rep h F sd) (ha : ∀ k ∈ F.list, h'[k]? = h[k]?) : Rep h' F sd := by
  obtain ⟨T, X, B, ⟨r1, ⟨f, hf, hF⟩, r3, r4, r5⟩, hc⟩ := r
  refine ⟨T, X, B, ⟨r1, ⟨f, ?_, hF⟩, ?_, ?_, ?_⟩, hc⟩
  · unfold DataIn; rw [ha _ (by simp [Foot.list])]; exact hf
  all_goals unfold WordsAt; rw [ha _ (by simp [Foot.list])]; assumption

/-- `sobol_gen` in memory does what it does on values. -/
theorem gen_ok {h : Mem} {F : Foot} {sd sd' : SobolData} (r : Rep h F sd) {out out' : List U32} {flag : Bool}
    (ho : out.length = sd.coords.length) (hg : sobolGen sd out = .ok (sd', out', flag)) :
    ∃ h', gen (some F.s) out h = .ok ((flag, out'), h') ∧ Rep h' F sd' ∧ Agree F.list h h' ∧ out'.length = sd'.coords.length ∧
      sd'.coords.length = sd.coords.length := by
  obtain ⟨T, X, B, r, hc⟩ := r
  obtain ⟨f, hf, hF⟩ := r.data
  unfold sobolGen at hg
  unfold gen
  rw [bind_ok (show deref (some F.s) h = .ok (F.s, h) from rfl), bind_ok (loadS_ok hf), hF.n,
    bind_ok (show need (some sd.n) h = .ok (sd.n, h) from rfl)]
  by_cases hn : sd.n = 2 ^ 32 - 1
  · rw [if_pos hn] at hg ⊢
    simp only [Out.ok.injEq, Prod.mk.injEq] at hg
    obtain ⟨rfl, rfl, rfl⟩ := hg
    exact ⟨h, rfl, ⟨T, X, B, r, hc⟩, Agree.refl _ _, ho, rfl⟩
  · rw [if_neg hn] at hg ⊢
    obtain ⟨c, hcz, hg⟩ := Out.bind_eq_ok.mp hg
    obtain ⟨rs, hrs, hg⟩ := Out.bind_eq_ok.mp hg
    simp only [Out.pure_eq, Out.ok.injEq, Prod.mk.injEq] at hg
    obtain ⟨rfl, rfl, rfl⟩ := hg
    have hc32 : c < 32 := by
      unfold rightzero32 at hcz
      split at hcz
      · cases hcz
      · rename_i hz
        cases hcz
        exact (ctz_spec 32 (2 ^ 32 - 1 - sd.n) (by omega) (by omega)).1
    obtain ⟨h1, e1, f1, a1⟩ := modifyS_ok (fun f => { f with n := some ((sd.n + 1) % 2 ^ 32) }) hf
    obtain ⟨n1, n2, n3, n4, n5, n6⟩ := Foot.ne r.nd
    have hF1 : Full { f with n := some ((sd.n + 1) % 2 ^ 32) } F sd.coords.length ((sd.n + 1) % 2 ^ 32) :=
      ⟨hF.sdim, hF.mdata, hF.rows, hF.x, hF.b, rfl⟩
    have r1 : RepF h1 F sd.coords.length ((sd.n + 1) % 2 ^ 32) T X B :=
      ⟨r.nd, ⟨_, f1, hF1⟩, r.words.agree a1 (by simpa using Ne.symm n1), r.wx.agree a1 (by simpa using Ne.symm n2),
        r.wb.agree a1 (by simpa using Ne.symm n3)⟩
    obtain ⟨h2, X', B', out', e2, r2, a2, l2, l3, -, i2⟩ := genLoop_ok hc32 sd.coords rs 0 h1 X B out r1 (by simp) ho
      (by intro i co hi; rw [Nat.zero_add]; exact hc i co hi) hrs
    have hout : out' = rs.map Prod.snd := by
      apply List.ext_getElem?
      intro i
      by_cases hi : i < rs.length
      · obtain ⟨-, h4⟩ := i2 i rs[i] (List.getElem?_eq_getElem hi)
        rw [Nat.zero_add] at h4
        rw [h4, List.getElem?_map, List.getElem?_eq_getElem hi]; rfl
      · rw [List.getElem?_eq_none (by omega), List.getElem?_eq_none (by simp; omega)]
    subst hout
    refine ⟨h2, ?_, ?_, (a1.mono (by simp [Foot.list])).trans a2, by simp, by simp [l3]⟩
    · rw [bind_ok (lift_ok hcz _), bind_ok e1, bind_ok (loadS_ok f1)]
      rw [show (({ f with n := some ((sd.n + 1) % 2 ^ 32) } : Fields).sdim) = some sd.coords.length from hF.sdim]
      rw [bind_ok (show need (some sd.coords.length) h1 = .ok (sd.coords.length, h1) from rfl), List.range_eq_range', bind_ok e2]
      rfl
    · have hl : (rs.map Prod.fst).length = sd.coords.length := by simp [l3]
      refine ⟨T, X', B', ?_, ?_⟩
      · simp only [hl]; exact r2
      · intro i co hi
        simp only [hl]
        simp only [List.getElem?_map, Option.map_eq_some_iff] at hi
        obtain ⟨p, hp, rfl⟩ := hi
        have := (i2 i p hp).1
        rwa [Nat.zero_add] at this

theorem genTimes_sim {F : Foot} : ∀ (k : Nat) {h : Mem} {sd sd' : SobolData} {out out' : List U32}, Rep h F sd →
    out.length = sd.coords.length → HL.genTimes k sd out = .ok (sd', out') →
    ∃ h', genTimes (some F.s) k out h = .ok (out', h') ∧ Rep h' F sd' ∧ Agree F.list h h' ∧ out'.length = sd'.coords.length ∧
      sd'.coords.length = sd.coords.length
  | 0, h, sd, sd', out, out', r, ho, hg => by
    simp only [HL.genTimes, Out.ok.injEq, Prod.mk.injEq] at hg
    obtain ⟨rfl, rfl⟩ := hg
    exact ⟨h, rfl, r, Agree.refl _ _, ho, rfl⟩
  | k + 1, h, sd, sd', out, out', r, ho, hg => by
    unfold HL.genTimes at hg
    obtain ⟨⟨sd1, out1, fl⟩, h1, hg⟩ := Out.bind_eq_ok.mp hg
    obtain ⟨m1, e1, r1, a1, o1, d1⟩ := gen_ok r ho h1
    obtain ⟨m2, e2, r2, a2, o2, d2⟩ := genTimes_sim k r1 o1 hg
    refine ⟨m2, ?_, r2, a1.trans a2, o2, d2.trans d1⟩
    unfold genTimes
    rw [bind_ok e1]
    exact e2

/-! ### creation and destruction -/

theorem malloc_ok {ok : Bool} (hok : ok = true) (c : Content) (h : Mem) : malloc ok c h = .ok (some h.length, h ++ [⟨c, true⟩]) := by
  subst hok; rfl

theorem malloc_fail {ok : Bool} (hok : ok = false) (c : Content) (h : Mem) : malloc ok c h = .ok (none, h) := by
  subst hok; rfl

theorem DataIn.append {h : Mem} {k : Nat} {f : Fields} (w : DataIn h k f) (t : Mem) : DataIn (h ++ t) k f := by
  unfold DataIn; rw [List.getElem?_append_left (lt_of_some w)]; exact w

theorem WordsAt.append {h : Mem} {k n : Nat} {T : Nat → Option U32} (w : WordsAt h k n T) (t : Mem) : WordsAt (h ++ t) k n T := by
  unfold WordsAt; rw [List.getElem?_append_left (lt_of_some w)]; exact w

theorem words_new (h : Mem) (n : Nat) : WordsAt (h ++ [⟨.words (List.replicate n none), true⟩]) h.length n (fun _ => none) := by
  unfold WordsAt
  rw [List.getElem?_concat_length]
  congr 3
  apply List.ext_getElem <;> simp

theorem free_ok {h : Mem} {k : Nat} {c : Content} (hk : h[k]? = some ⟨c, true⟩) :
    free (some k) h = .ok ((), h.set k ⟨c, false⟩) := by
  simp only [free, hk, if_true]

theorem freeMember_ok {h : Mem} {s k : Nat} {f : Fields} {g : Fields → Option (Option Nat)} {c : Content} (w : DataIn h s f)
    (hg : g f = some (some k)) (hk : h[k]? = some ⟨c, true⟩) : freeMember s g h = .ok ((), h.set k ⟨c, false⟩) := by
  unfold freeMember
  rw [bind_ok (loadS_ok w), hg]
  exact free_ok hk

/-- SobolImpl.cpp:127-158: the whole table. -/
theorem table_ok' {s md dim : Nat} (h1 : 1 ≤ dim) (h2 : dim ≤ 1111) (hne : s ≠ md) {h : Mem} {f : Fields} {T : Nat → Option U32}
    (hf : DataIn h s f) (hw : WordsAt h md (dim * 32) T) (hl : f.m.length = 32) :
    ∃ ha hb f' T', (List.range 32).forM (initRow s md dim) h = .ok ((), ha) ∧ (List.range (dim - 1)).forM (column s) ha = .ok ((), hb) ∧
      Tab hb s md dim f' T' ∧ Agree [s, md] h hb ∧ f'.mdata = f.mdata ∧
      (∀ i < dim, ∀ m, sobolColumn i = .ok m → ∀ j < 32, T' (j * dim + i) = m[j]?) := by
  obtain ⟨ha, f1, T1, e1, t1, a1, g1, g2⟩ := initRows_ok (by omega) hne 32 0 h f T rfl hf hw hl (fun j hj => absurd hj (by omega))
    (fun j hj => absurd hj (by omega))
  obtain ⟨hb, T2, e2, t2, a2, g3⟩ := columns_ok h2 (dim - 1) 0 ha T1 t1 (by omega) (by
    intro i hi m hm j hj
    have : i = 0 := by omega
    subst this
    simp only [sobolColumn, Out.ok.injEq] at hm
    subst hm
    rw [Nat.add_zero, g1 j hj, List.getElem?_replicate_of_lt hj])
  refine ⟨ha, hb, f1, T2, ?_, ?_, t2, a1.trans (a2.mono (by simp)), g2, g3⟩
  · rw [List.range_eq_range']; exact e1
  · rw [List.range_eq_range']; exact e2

theorem clear_ok {F : Foot} {dim : Nat} {T : Nat → Option U32} {f : Fields} : ∀ (r k : Nat) (h : Mem) (X B : Nat → Option U32),
    F.list.Nodup → DataIn h F.s f → WordsAt h F.md (dim * 32) T → WordsAt h F.x dim X → WordsAt h F.b dim B →
    f.x = some (some F.x) → f.b = some (some F.b) → k + r = dim → (∀ i < k, X i = some 0 ∧ B i = some 0) →
    ∃ h' X' B', (List.range' k r).forM (clear F.s) h = .ok ((), h') ∧ DataIn h' F.s f ∧ WordsAt h' F.md (dim * 32) T ∧
      WordsAt h' F.x dim X' ∧ WordsAt h' F.b dim B' ∧ Agree [F.x, F.b] h h' ∧ (∀ i < dim, X' i = some 0 ∧ B' i = some 0)
  | 0, k, h, X, B, _, hf, hm, hx, hb, _, _, hk, hXB =>
    ⟨h, X, B, rfl, hf, hm, hx, hb, Agree.refl _ _, fun i hi => hXB i (by omega)⟩
  | r + 1, k, h, X, B, hnd, hf, hm, hx, hb, fx, fb, hk, hXB => by
    obtain ⟨n1, n2, n3, n4, n5, n6⟩ := Foot.ne hnd
    obtain ⟨h1, e1, x1, a1⟩ := storeW_ok 0 hx (show k < dim by omega)
    have f1 := hf.agree a1 (by simpa using n2)
    have m1 := hm.agree a1 (by simpa using n4)
    have b1 := hb.agree a1 (by simpa using Ne.symm n6)
    obtain ⟨h2, e2, b2, a2⟩ := storeW_ok 0 b1 (show k < dim by omega)
    have f2 := f1.agree a2 (by simpa using n3)
    have m2 := m1.agree a2 (by simpa using n5)
    have x2 := x1.agree a2 (by simpa using n6)
    obtain ⟨h', X', B', e3, q1, q2, q3, q4, a3, q5⟩ := clear_ok r (k + 1) h2 _ _ hnd f2 m2 x2 b2 fx fb (by omega) (by
      intro i hi
      by_cases he : i = k
      · subst he; simp
      · rw [Function.update_of_ne he, Function.update_of_ne he]; exact hXB i (by omega))
    refine ⟨h', X', B', ?_, q1, q2, q3, q4, (a1.mono (by simp)).trans ((a2.mono (by simp)).trans a3), q5⟩
    rw [List.range'_succ, forM_ok (h' := h2) ?_]
    · exact e3
    · have w1 : storeX F.s k 0 h = .ok ((), h1) := by
        unfold storeX
        rw [bind_ok (loadS_ok hf), fx]
        exact e1
      have w2 : storeB F.s k 0 h1 = .ok ((), h2) := by
        unfold storeB
        rw [bind_ok (loadS_ok f1), fb]
        exact e2
      unfold clear
      rw [bind_ok w1]
      exact w2

/-- the blocks the next generator will get -/
def newFoot (h : Mem) : Foot := ⟨h.length, h.length + 1, h.length + 2, h.length + 3⟩

theorem newFoot_nodup (h : Mem) : (newFoot h).list.Nodup := by
  simp [newFoot, Foot.list]

/-- Up to the allocation of `x`: if the first two allocations succeed. -/
theorem stage_ok {ok : Nat → Bool} {dim : Nat} (h1 : 1 ≤ dim) (h2 : dim ≤ 1111) (o0 : ok 0 = true) (o1 : ok 1 = true) (h : Mem) :
    ∃ hb f T, Tab hb h.length (h.length + 1) dim f T ∧ hb.length = h.length + 2 ∧ (∀ k < h.length, hb[k]? = h[k]?) ∧
      f.mdata = some (some (h.length + 1)) ∧
      (∀ i < dim, ∀ m, sobolColumn i = .ok m → ∀ j < 32, T (j * dim + i) = m[j]?) ∧
      create ok dim h = (initRest ok h.length dim >>= created h.length) hb := by
  have hd : ¬ (dim = 0 ∨ 1111 < dim) := by omega
  have d0 : DataIn (h ++ [⟨.data unwritten, true⟩]) h.length unwritten := by
    unfold DataIn; rw [List.getElem?_concat_length]
  have l0 : (h ++ [(⟨.data unwritten, true⟩ : Block)]).length = h.length + 1 := by simp
  have w1 := words_new (h ++ [⟨.data unwritten, true⟩]) (dim * 32)
  rw [l0] at w1
  have d1 := d0.append [⟨.words (List.replicate (dim * 32) none), true⟩]
  obtain ⟨h2', e2, d2, a2⟩ := modifyS_ok (fun f => { f with mdata := some (some (h.length + 1)) }) d1
  have w2 := w1.agree a2 (by simp)
  obtain ⟨ha, hb, f, T, e3, e4, t, a4, g1, g2⟩ := table_ok' h1 h2 (show h.length ≠ h.length + 1 by omega) d2 w2 (by simp [unwritten])
  refine ⟨hb, f, T, t, ?_, ?_, g1, g2, ?_⟩
  · rw [a4.1, a2.1]; simp
  · intro k hk
    rw [a4.2 k (by simp; omega), a2.2 k (by simp; omega), List.getElem?_append_left (by simp; omega),
      List.getElem?_append_left hk]
  · unfold create
    rw [bind_ok (malloc_ok o0 _ h)]
    show (init ok h.length dim >>= created h.length) _ = _
    have : init ok h.length dim (h ++ [⟨.data unwritten, true⟩]) = initRest ok h.length dim hb := by
      unfold init
      rw [if_neg hd, bind_ok (malloc_ok o1 _ _), l0, bind_ok e2]
      show (_ >>= fun _ => _ >>= fun _ => initRest ok h.length dim) h2' = _
      rw [bind_ok e3, bind_ok e4]
    show (init ok h.length dim _ >>= fun p => created h.length p.1 p.2) = (initRest ok h.length dim _ >>= fun p => created h.length p.1 p.2)
    rw [this]

/-- every block from number `n` on has been freed -/
def DeadFrom (n : Nat) (h : Mem) : Prop := ∀ k, n ≤ k → ∀ b, h[k]? = some b → b.live = false

/-- `nlopt_sobol_create` when all allocations succeed. -/
theorem create_ok {ok : Nat → Bool} {dim : Nat} (h1 : 1 ≤ dim) (h2 : dim ≤ 1111) (hok : ∀ k < 4, ok k = true) (h : Mem)
    {sd : SobolData} (hsd : sobolCreate dim = .ok (some sd)) :
    ∃ h', create ok dim h = .ok (some h.length, h') ∧ Rep h' (newFoot h) sd ∧ h'.length = h.length + 4 ∧
      (∀ k < h.length, h'[k]? = h[k]?) := by
  obtain ⟨hb, f, T, t, lb, kb, g1, g2, e⟩ := stage_ok h1 h2 (hok 0 (by omega)) (hok 1 (by omega)) h
  obtain ⟨n1, n2, n3, n4, n5, n6⟩ := Foot.ne (newFoot_nodup h)
  -- x
  have wx := words_new hb dim
  rw [lb] at wx
  obtain ⟨hc, ec, dc, ac⟩ := modifyS_ok (fun f => { f with x := some (some (h.length + 2)) })
    (t.data.append [⟨.words (List.replicate dim none), true⟩])
  have wx' := wx.agree ac (by simp)
  have wm' := (t.words.append [⟨.words (List.replicate dim none), true⟩]).agree ac (by simp)
  have lc : hc.length = h.length + 3 := by rw [ac.1, List.length_append, lb]; rfl
  -- b
  have wb := words_new hc dim
  rw [lc] at wb
  obtain ⟨hd, ed, dd, ad⟩ := modifyS_ok (fun f => { f with b := some (some (h.length + 3)) })
    (dc.append [⟨.words (List.replicate dim none), true⟩])
  have wb' := wb.agree ad (by simp)
  have wx'' := (wx'.append [⟨.words (List.replicate dim none), true⟩]).agree ad (by simp)
  have wm'' := (wm'.append [⟨.words (List.replicate dim none), true⟩]).agree ad (by simp)
  have ld : hd.length = h.length + 4 := by rw [ad.1, List.length_append, lc]; rfl
  obtain ⟨he, X, B, ee, de, me, xe, be, ae, ge⟩ := clear_ok (F := newFoot h) dim 0 hd _ _ (newFoot_nodup h) dd wm'' wx'' wb' rfl rfl
    (by omega) (fun i hi => absurd hi (by omega))
  obtain ⟨hf, ef, df, af⟩ := modifyS_ok (fun f => { f with n := some 0 }) de
  obtain ⟨hg, eg, dg, ag⟩ := modifyS_ok (fun f => { f with sdim := some dim }) df
  have afg : Agree [(newFoot h).s] he hg := af.trans ag
  refine ⟨hg, ?_, ?_, ?_, ?_⟩
  · have hr : initRest ok h.length dim hb = .ok (true, hg) := by
      unfold initRest
      rw [bind_ok (malloc_ok (hok 2 (by omega)) _ hb), lb, bind_ok ec]
      show (malloc (ok 3) _ >>= _) hc = _
      rw [bind_ok (malloc_ok (hok 3 (by omega)) _ hc), lc, bind_ok ed]
      show ((List.range dim).forM (clear (newFoot h).s) >>= fun _ => modifyS (newFoot h).s _ >>= fun _ =>
        modifyS (newFoot h).s _ >>= fun _ => pure true) hd = _
      rw [List.range_eq_range', bind_ok ee, bind_ok ef, bind_ok eg]
      rfl
    rw [e, bind_ok hr]
    rfl
  · have hcols : ∃ cols, (List.range dim).mapM sobolColumn = .ok cols ∧
        sd = { coords := cols.map (fun m => { m := m, x := 0, b := 0 }), n := 0 } := by
      unfold sobolCreate at hsd
      rw [if_neg (by omega)] at hsd
      obtain ⟨cols, hc, hsd⟩ := Out.bind_eq_ok.mp hsd
      simp only [Out.pure_eq, Out.ok.injEq, Option.some.injEq] at hsd
      exact ⟨cols, hc, hsd.symm⟩
    obtain ⟨cols, hcols, rfl⟩ := hcols
    have hidx : ∀ (l : List Nat) (cols : List (List U32)), l.mapM sobolColumn = .ok cols → cols.length = l.length ∧
        ∀ (i : Nat) (m : List U32), cols[i]? = some m → ∃ k : Nat, l[i]? = some k ∧ sobolColumn k = .ok m := by
      intro l
      induction l with
      | nil =>
        intro cols hc
        simp only [List.mapM_nil, Out.pure_eq, Out.ok.injEq] at hc
        subst hc
        exact ⟨rfl, fun i m hm => by simp at hm⟩
      | cons a l ih =>
        intro cols hc
        rw [List.mapM_cons] at hc
        obtain ⟨m, hm, hc⟩ := Out.bind_eq_ok.mp hc
        obtain ⟨ms, hms, hc⟩ := Out.bind_eq_ok.mp hc
        simp only [Out.pure_eq, Out.ok.injEq] at hc
        subst hc
        obtain ⟨i1, i2⟩ := ih ms hms
        refine ⟨by simp [i1], fun i m' hm' => ?_⟩
        cases i with
        | zero =>
          simp only [List.getElem?_cons_zero, Option.some.injEq] at hm'
          subst hm'
          exact ⟨a, rfl, hm⟩
        | succ i => exact i2 i m' (by simpa using hm')
    obtain ⟨lcols, hidx⟩ := hidx _ _ hcols
    have hlen : (cols.map (fun m => ({ m := m, x := 0, b := 0 } : SCoord))).length = dim := by simp [lcols]
    refine ⟨T, X, B, ?_, ?_⟩
    · simp only [hlen]
      refine ⟨newFoot_nodup h, ⟨_, dg, ⟨rfl, g1, ?_, rfl, rfl, rfl⟩⟩, ?_, ?_, ?_⟩
      · exact t.rows
      · exact me.agree afg (by simpa using Ne.symm n1)
      · exact xe.agree afg (by simpa using Ne.symm n2)
      · exact be.agree afg (by simpa using Ne.symm n3)
    · intro i co hi
      simp only [hlen]
      simp only [List.getElem?_map, Option.map_eq_some_iff] at hi
      obtain ⟨m, hm, rfl⟩ := hi
      obtain ⟨k, hk, hcol⟩ := hidx i m hm
      have hil : i < dim := by have := (List.getElem?_eq_some_iff.mp hm).1; rw [lcols] at this; simpa using this
      have : k = i := by
        rw [List.getElem?_range hil] at hk
        simpa using hk.symm
      subst this
      obtain ⟨col, c1, c2, -⟩ := sobolColumn_eq (i := k) (by omega)
      rw [c1] at hcol
      cases hcol
      exact ⟨c2, by simp, g2 k hil m c1, (ge k hil).1, by rw [(ge k hil).2]; rfl⟩
  · rw [afg.1, ae.1, ld]
  · intro k hk
    rw [afg.2 k (by simp [newFoot]; omega), ae.2 k (by simp [newFoot]; omega), ad.2 k (by simp; omega),
      List.getElem?_append_left (by omega), ac.2 k (by simp; omega), List.getElem?_append_left (by omega), kb k hk]

theorem deadFrom_set {n : Nat} {h : Mem} {c : Content} {k : Nat} (hk : ∀ j, n ≤ j → j ≠ k → ∀ b, h[j]? = some b → b.live = false) :
    DeadFrom n (h.set k ⟨c, false⟩) := by
  intro j hj b hb
  by_cases he : j = k
  · subst he
    rw [List.getElem?_set_self'] at hb
    cases hc : h[j]? with
    | none => rw [hc] at hb; cases hb
    | some b' => rw [hc] at hb; cases hb; rfl
  · rw [List.getElem?_set_ne (Ne.symm he)] at hb
    exact hk j hj he b hb

/-- `nlopt_sobol_create` when an allocation fails: null, and what it had allocated has been freed. -/
theorem create_fail {ok : Nat → Bool} {dim : Nat} (h1 : 1 ≤ dim) (h2 : dim ≤ 1111) (hok : ∃ k < 4, ok k = false) (h : Mem) :
    ∃ h', create ok dim h = .ok (none, h') ∧ DeadFrom h.length h' ∧ h.length ≤ h'.length ∧ (∀ k < h.length, h'[k]? = h[k]?) := by
  have hd : ¬ (dim = 0 ∨ 1111 < dim) := by omega
  cases o0 : ok 0 with
  | false =>
    refine ⟨h, ?_, ?_, le_rfl, fun _ _ => rfl⟩
    · unfold create
      rw [bind_ok (malloc_fail o0 _ h)]; rfl
    · intro k hk b hb
      rw [List.getElem?_eq_none hk] at hb; cases hb
  | true =>
    cases o1 : ok 1 with
    | false =>
      have d0 : DataIn (h ++ [⟨.data unwritten, true⟩]) h.length unwritten := by
        unfold DataIn; rw [List.getElem?_concat_length]
      obtain ⟨ha, ea, da, aa⟩ := modifyS_ok (fun f => { f with mdata := some none }) d0
      have la : ha.length = h.length + 1 := by rw [aa.1]; simp
      refine ⟨_, ?_, deadFrom_set (c := .data { unwritten with mdata := some none }) (h := ha) (k := h.length) ?_, ?_, ?_⟩
      · have hi : init ok h.length dim (h ++ [⟨.data unwritten, true⟩]) = .ok (false, ha) := by
          unfold init
          rw [if_neg hd, bind_ok (malloc_fail o1 _ _), bind_ok ea]; rfl
        unfold create
        rw [bind_ok (malloc_ok o0 _ h)]
        show (init ok h.length dim >>= created h.length) _ = _
        rw [bind_ok hi]
        show (free (some h.length) >>= fun _ => pure none) ha = _
        rw [bind_ok (free_ok da)]; rfl
      · intro j hj hne b hb
        rw [List.getElem?_eq_none (by omega)] at hb; cases hb
      · simp [la]
      · intro k hk
        rw [List.getElem?_set_ne (by omega), aa.2 k (by simp; omega), List.getElem?_append_left hk]
    | true =>
      obtain ⟨hb, f, T, t, lb, kb, g1, g2, e⟩ := stage_ok h1 h2 o0 o1 h
      cases o2 : ok 2 with
      | false =>
        obtain ⟨hc, ec, dc, ac⟩ := modifyS_ok (fun f => { f with x := some none }) t.data
        have wm := t.words.agree ac (by simp)
        have lc : hc.length = h.length + 2 := by rw [ac.1, lb]
        have hr : initRest ok h.length dim hb = .ok (false, hc.set (h.length + 1) ⟨.words ((List.range (dim * 32)).map T), false⟩) := by
          unfold initRest
          rw [bind_ok (malloc_fail o2 _ hb), bind_ok ec]
          show (freeMember h.length Fields.mdata >>= fun _ => pure false) hc = _
          rw [bind_ok (freeMember_ok dc g1 wm)]; rfl
        have hs : (hc.set (h.length + 1) ⟨.words ((List.range (dim * 32)).map T), false⟩)[h.length]? =
            some ⟨.data { f with x := some none }, true⟩ := by
          rw [List.getElem?_set_ne (by omega)]; exact dc
        refine ⟨_, ?_, deadFrom_set (c := .data { f with x := some none }) (k := h.length)
          (h := hc.set (h.length + 1) ⟨.words ((List.range (dim * 32)).map T), false⟩) ?_, ?_, ?_⟩
        · rw [e, bind_ok hr]
          show (free (some h.length) >>= fun _ => pure none) _ = _
          rw [bind_ok (free_ok hs)]; rfl
        · intro j hj hne b hb
          by_cases he : j = h.length + 1
          · subst he
            rw [List.getElem?_set_self (by omega)] at hb
            cases hb; rfl
          · rw [List.getElem?_set_ne (Ne.symm he), List.getElem?_eq_none (by omega)] at hb; cases hb
        · simp [lc]
        · intro k hk
          rw [List.getElem?_set_ne (by omega), List.getElem?_set_ne (by omega), ac.2 k (by simp; omega), kb k hk]
      | true =>
        have o3 : ok 3 = false := by
          obtain ⟨k, hk, hf⟩ := hok
          have : k = 3 := by
            rcases (show k = 0 ∨ k = 1 ∨ k = 2 ∨ k = 3 by omega) with rfl | rfl | rfl | rfl
            · rw [o0] at hf; cases hf
            · rw [o1] at hf; cases hf
            · rw [o2] at hf; cases hf
            · rfl
          rw [← this]; exact hf
        have wx := words_new hb dim
        rw [lb] at wx
        obtain ⟨hc, ec, dc, ac⟩ := modifyS_ok (fun f => { f with x := some (some (h.length + 2)) })
          (t.data.append [⟨.words (List.replicate dim none), true⟩])
        have wx' := wx.agree ac (by simp)
        have wm' := (t.words.append [⟨.words (List.replicate dim none), true⟩]).agree ac (by simp)
        have lc : hc.length = h.length + 3 := by rw [ac.1, List.length_append, lb]; rfl
        obtain ⟨hd', ed, dd, ad⟩ := modifyS_ok (fun f => { f with b := some none }) dc
        have wx2 := wx'.agree ad (by simp)
        have wm2 := wm'.agree ad (by simp)
        have ld : hd'.length = h.length + 3 := by rw [ad.1, lc]
        obtain ⟨fd, dd, fx, fm⟩ : ∃ fd, DataIn hd' h.length fd ∧ fd.x = some (some (h.length + 2)) ∧
          fd.mdata = some (some (h.length + 1)) := ⟨_, dd, rfl, g1⟩
        -- free x
        set A : Mem := hd'.set (h.length + 2) ⟨.words ((List.range dim).map fun _ => none), false⟩ with hA
        have dA : DataIn A h.length fd := dd.agree (F := [h.length + 2]) (agree_set (by simp) _) (by simp)
        have mA : WordsAt A (h.length + 1) (dim * 32) T := wm2.agree (F := [h.length + 2]) (agree_set (by simp) _) (by simp)
        set A' : Mem := A.set (h.length + 1) ⟨.words ((List.range (dim * 32)).map T), false⟩ with hA'
        have dA' : DataIn A' h.length fd := dA.agree (F := [h.length + 1]) (agree_set (by simp) _) (by simp)
        have lA : A.length = h.length + 3 := by simp [hA, ld]
        have lA' : A'.length = h.length + 3 := by simp [hA', lA]
        have hr : initRest ok h.length dim hb = .ok (false, A') := by
          unfold initRest
          rw [bind_ok (malloc_ok o2 _ hb), lb, bind_ok ec]
          show (malloc (ok 3) _ >>= _) hc = _
          rw [bind_ok (malloc_fail o3 _ hc), bind_ok ed]
          show (freeMember h.length Fields.x >>= fun _ => freeMember h.length Fields.mdata >>= fun _ => pure false) hd' = _
          rw [bind_ok (freeMember_ok dd fx wx2), bind_ok (freeMember_ok dA fm mA)]; rfl
        refine ⟨_, ?_, deadFrom_set (c := .data fd) (k := h.length) (h := A') ?_, ?_, ?_⟩
        · rw [e, bind_ok hr]
          show (free (some h.length) >>= fun _ => pure none) _ = _
          rw [bind_ok (free_ok dA')]; rfl
        · intro j hj hne b hb
          by_cases he : j = h.length + 1
          · subst he
            rw [hA', List.getElem?_set_self (by omega)] at hb
            cases hb; rfl
          · rw [hA', List.getElem?_set_ne (Ne.symm he)] at hb
            by_cases he2 : j = h.length + 2
            · subst he2
              rw [hA, List.getElem?_set_self (by omega)] at hb
              cases hb; rfl
            · rw [List.getElem?_eq_none (by omega)] at hb; cases hb
        · simp [lA']
        · intro k hk
          rw [List.getElem?_set_ne (by omega), hA', List.getElem?_set_ne (by omega), hA, List.getElem?_set_ne (by omega),
            ad.2 k (by simp; omega), ac.2 k (by simp; omega), List.getElem?_append_left (by omega), kb k hk]

/-- `nlopt_sobol_destroy` frees the four blocks and nothing else. -/
theorem destroy_ok {h : Mem} {F : Foot} {sd : SobolData} (r : Rep h F sd) :
    ∃ h', destroy (some F.s) h = .ok ((), h') ∧ Agree F.list h h' ∧ ∀ k ∈ F.list, ∀ b, h'[k]? = some b → b.live = false := by
  obtain ⟨T, X, B, ⟨nd, ⟨f, hf, hF⟩, hm, hx, hb⟩, -⟩ := r
  obtain ⟨n1, n2, n3, n4, n5, n6⟩ := Foot.ne nd
  have l1 := lt_of_some hf
  have l2 := lt_of_some hm
  have l3 := lt_of_some hx
  have l4 := lt_of_some hb
  set A : Mem := h.set F.md ⟨.words ((List.range (sd.coords.length * 32)).map T), false⟩ with hA
  have aA : Agree [F.md] h A := agree_set (by simp) _
  have fA := hf.agree aA (by simpa using n1)
  have xA := hx.agree aA (by simpa using Ne.symm n4)
  have bA := hb.agree aA (by simpa using Ne.symm n5)
  set A2 : Mem := A.set F.x ⟨.words ((List.range sd.coords.length).map X), false⟩ with hA2
  have aA2 : Agree [F.x] A A2 := agree_set (by simp) _
  have fA2 := fA.agree aA2 (by simpa using n2)
  have bA2 := bA.agree aA2 (by simpa using Ne.symm n6)
  set A3 : Mem := A2.set F.b ⟨.words ((List.range sd.coords.length).map B), false⟩ with hA3
  have aA3 : Agree [F.b] A2 A3 := agree_set (by simp) _
  have fA3 := fA2.agree aA3 (by simpa using n3)
  refine ⟨A3.set F.s ⟨.data f, false⟩, ?_, ?_, ?_⟩
  · unfold destroy
    show (freeMember F.s Fields.mdata >>= fun _ => freeMember F.s Fields.x >>= fun _ => freeMember F.s Fields.b >>= fun _ => free (some F.s)) h = _
    rw [bind_ok (freeMember_ok hf hF.mdata hm), bind_ok (freeMember_ok fA hF.x xA), bind_ok (freeMember_ok fA2 hF.b bA2)]
    exact free_ok fA3
  · exact (aA.mono (by simp [Foot.list])).trans ((aA2.mono (by simp [Foot.list])).trans ((aA3.mono (by simp [Foot.list])).trans
      (agree_set (by simp [Foot.list]) _)))
  · intro k hk b hb'
    simp only [Foot.list, List.mem_cons, List.not_mem_nil, or_false] at hk
    rcases hk with rfl | rfl | rfl | rfl
    · rw [List.getElem?_set_self (by simp [hA3, hA2, hA, l1])] at hb'
      cases hb'; rfl
    · rw [List.getElem?_set_ne n1, hA3, List.getElem?_set_ne (Ne.symm n5), hA2, List.getElem?_set_ne (Ne.symm n4), hA,
        List.getElem?_set_self l2] at hb'
      cases hb'; rfl
    · rw [List.getElem?_set_ne n2, hA3, List.getElem?_set_ne (Ne.symm n6), hA2, List.getElem?_set_self (by simp [hA, l3])] at hb'
      cases hb'; rfl
    · rw [List.getElem?_set_ne n3, hA3, List.getElem?_set_self (by simp [hA2, hA, l4])] at hb'
      cases hb'; rfl

end HL.SMem

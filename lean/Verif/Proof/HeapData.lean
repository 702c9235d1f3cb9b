import Verif.HeapDataSpec
import Mathlib.Tactic.Common

namespace HL.HeapData

open Mem (Op Res Block)
open Heap (Obj)
open Val (Arr)

variable {α : Type}

/-! ### Offsets -/

theorem computeOffsets_cases : ∀ (s : List Nat) (m : Nat),
    (∃ o, NDArray.computeOffsets m s = .ok o ∧ o.length = s.length ∧ prodSizes s ≠ 0) ∨
      NDArray.computeOffsets m s = .ub .divZero
  | [], m => .inl ⟨[], rfl, rfl, by simp [prodSizes]⟩
  | n :: s, m => by
    unfold NDArray.computeOffsets
    by_cases hn : n = 0
    · right; simp [hn]
    · rcases computeOffsets_cases s (m / n) with ⟨o, h1, h2, h3⟩ | h1
      · exact .inl ⟨m / n :: o, by simp [hn, h1], by simp [h2], by simp [prodSizes, hn, h3]⟩
      · right; simp [hn, h1]

/-! ### The relation -/

/-- Whose a block is: an array's or the caller's. -/
inductive Tag
  | arr (i : Nat)
  | ptr (k : Nat)
  deriving DecidableEq

/-- The object has this shape. -/
structure Shape (o : Obj) (sizes offsets : List Nat) (storage : Nat) : Prop where
  alive : o.alive = true
  dim : o.dim = offsets.length
  sizes : o.sizes = sizes
  offsets : o.offsets = offsets
  storage : o.storage = storage

/-- The object stands for the array. -/
def ArrRel (tag : Nat → Tag) (h : List (Block α)) (ptrs : List (Option Nat)) (i : Nat) (o : Obj) : Arr α → Prop
  | .gone => o.alive = true → o.owned = false
  | .own a => Shape o a.sizes a.offsets a.storageSize ∧ o.owned = true ∧
      ((o.data = none ∧ a.data = [] ∧ a.storageSize = 0) ∨
        ∃ q, o.data = some q ∧ tag q = .arr i ∧ h[q]? = some ⟨a.data, true⟩)
  | .view sz off st k => Shape o sz off st ∧ o.owned = false ∧ st ≠ 0 ∧ ptrs[k]? = some o.data

/-- The pointer stands for the caller's block. -/
def PtrRel (tag : Nat → Tag) (h : List (Block α)) (k : Nat) (p : Option Nat) (b : Option (List (Option α))) : Prop :=
  ∃ q, p = some q ∧ tag q = .ptr k ∧
    match b with
    | some cells => h[q]? = some ⟨cells, true⟩
    | none => ∃ cells, h[q]? = some ⟨cells, false⟩

structure Rel (tag : Nat → Tag) (c : Mem.St α) (v : Val.St α) : Prop where
  len : c.objs.length = v.arrs.length
  plen : c.ptrs.length = v.blocks.length
  arr : ∀ i o x, c.objs[i]? = some o → v.arrs[i]? = some x → ArrRel tag c.heap c.ptrs i o x
  ptr : ∀ k p b, c.ptrs[k]? = some p → v.blocks[k]? = some b → PtrRel tag c.heap k p b

theorem rel_init : Rel (α := α) (fun _ => .ptr 0) Mem.init Val.init := by
  constructor <;> simp [Mem.init, Val.init]

/-- Blocks other than those tagged `t` are kept. -/
def Keeps (t : Tag) (tag tag' : Nat → Tag) (h h' : List (Block α)) : Prop :=
  ∀ q b, h[q]? = some b → tag q ≠ t → h'[q]? = some b ∧ tag' q = tag q

theorem arr_frame {t : Tag} {tag tag' : Nat → Tag} {h h' : List (Block α)} {ptrs ptrs' : List (Option Nat)} {i : Nat} {o : Obj}
    {x : Arr α} (hk : Keeps t tag tag' h h') (hp : ∀ (k : Nat) (p : Option Nat), ptrs[k]? = some p → ptrs'[k]? = some p)
    (hi : t ≠ .arr i) (H : ArrRel tag h ptrs i o x) : ArrRel tag' h' ptrs' i o x := by
  cases x with
  | gone => exact H
  | own a =>
    obtain ⟨h1, h2, h3⟩ := H
    refine ⟨h1, h2, h3.imp id ?_⟩
    rintro ⟨q, h4, h5, h6⟩
    obtain ⟨h7, h8⟩ := hk q _ h6 (by rw [h5]; exact Ne.symm hi)
    exact ⟨q, h4, by rw [h8, h5], h7⟩
  | view sz off st k =>
    obtain ⟨h1, h2, h3, h4⟩ := H
    exact ⟨h1, h2, h3, hp _ _ h4⟩

theorem ptr_frame {t : Tag} {tag tag' : Nat → Tag} {h h' : List (Block α)} {k : Nat} {p : Option Nat}
    {b : Option (List (Option α))} (hk : Keeps t tag tag' h h')
    (hi : t ≠ .ptr k) (H : PtrRel tag h k p b) : PtrRel tag' h' k p b := by
  obtain ⟨q, h1, h2, h3⟩ := H
  cases b with
  | some cells =>
    obtain ⟨h7, h8⟩ := hk q _ h3 (by rw [h2]; exact Ne.symm hi)
    exact ⟨q, h1, by rw [h8, h2], h7⟩
  | none =>
    obtain ⟨cells, h3⟩ := h3
    obtain ⟨h7, h8⟩ := hk q _ h3 (by rw [h2]; exact Ne.symm hi)
    exact ⟨q, h1, by rw [h8, h2], cells, h7⟩

theorem keeps_refl (t : Tag) (tag : Nat → Tag) (h : List (Block α)) : Keeps t tag tag h h := fun _ _ hb _ => ⟨hb, rfl⟩

theorem keeps_trans {t : Tag} {tag tag' tag'' : Nat → Tag} {h h' h'' : List (Block α)} (H : Keeps t tag tag' h h')
    (H' : Keeps t tag' tag'' h' h'') : Keeps t tag tag'' h h'' := by
  intro q b hb ht
  obtain ⟨h1, h2⟩ := H q b hb ht
  obtain ⟨h3, h4⟩ := H' q b h1 (by rw [h2]; exact ht)
  exact ⟨h3, h4.trans h2⟩

theorem keeps_set {tag : Nat → Tag} {h : List (Block α)} {q : Nat} (b : Block α) :
    Keeps (tag q) tag tag h (h.set q b) := by
  intro r b' hb ht
  have : q ≠ r := by rintro rfl; exact ht rfl
  exact ⟨by rw [List.getElem?_set_ne this]; exact hb, rfl⟩

/-- The tags after block `q` has gone to `t`. -/
def retag (tag : Nat → Tag) (q : Nat) (t : Tag) : Nat → Tag := fun r => if r = q then t else tag r

theorem keeps_append (t : Tag) {tag : Nat → Tag} {h : List (Block α)} (b : Block α) (t' : Tag) :
    Keeps t tag (retag tag h.length t') h (h ++ [b]) := by
  intro r b' hb _
  have hr : r < h.length := (List.getElem?_eq_some_iff.mp hb).1
  exact ⟨by rw [List.getElem?_append_left hr]; exact hb, by simp [retag, Nat.ne_of_lt hr]⟩

theorem keeps_retag {tag : Nat → Tag} {h : List (Block α)} (q : Nat) (t' : Tag) : Keeps (tag q) tag (retag tag q t') h h := by
  intro r b' hb ht
  have : r ≠ q := by rintro rfl; exact ht rfl
  exact ⟨hb, by simp [retag, this]⟩

/-! ### Rebuilding the relation -/

/-- One array has changed. -/
theorem rel_set {tag tag' : Nat → Tag} {c : Mem.St α} {v : Val.St α} (R : Rel tag c v) {i : Nat} {h' : List (Block α)} {o : Obj}
    {x : Arr α} (hk : Keeps (.arr i) tag tag' c.heap h') (H : ArrRel tag' h' c.ptrs i o x) :
    Rel tag' ⟨h', c.objs.set i o, c.ptrs⟩ ⟨v.arrs.set i x, v.blocks⟩ := by
  refine ⟨by simp [R.len], R.plen, ?_, ?_⟩
  · intro j o' x' h1 h2
    by_cases hij : i = j
    · subst hij
      have h1' := h1; have h2' := h2
      rw [List.getElem?_set] at h1' h2'
      simp only [if_true] at h1' h2'
      split at h1' <;> simp_all
    · simp only [List.getElem?_set_ne hij] at h1 h2
      exact arr_frame hk (fun _ _ h => h) (by simpa using hij) (R.arr j o' x' h1 h2)
  · intro k p b h1 h2
    exact ptr_frame hk (by simp) (R.ptr k p b h1 h2)

/-- One array has been added. -/
theorem rel_push {tag tag' : Nat → Tag} {c : Mem.St α} {v : Val.St α} (R : Rel tag c v) {h' : List (Block α)} {o : Obj}
    {x : Arr α} (hk : Keeps (.arr c.objs.length) tag tag' c.heap h') (H : ArrRel tag' h' c.ptrs c.objs.length o x) :
    Rel tag' ⟨h', c.objs ++ [o], c.ptrs⟩ ⟨v.arrs ++ [x], v.blocks⟩ := by
  refine ⟨by simp [R.len], R.plen, ?_, ?_⟩
  · intro j o' x' h1 h2
    dsimp only at h1 h2
    rcases Nat.lt_trichotomy j c.objs.length with hj | hj | hj
    · rw [List.getElem?_append_left hj] at h1
      rw [List.getElem?_append_left (R.len ▸ hj)] at h2
      exact arr_frame hk (fun _ _ h => h) (by simp; omega) (R.arr j o' x' h1 h2)
    · subst hj
      have h2' : (v.arrs ++ [x])[v.arrs.length]? = some x' := R.len ▸ h2
      simp at h1 h2'
      subst h1 h2'
      exact H
    · exfalso
      have := (List.getElem?_eq_some_iff.mp h1).1
      simp at this
      omega
  · intro k p b h1 h2
    exact ptr_frame hk (by simp) (R.ptr k p b h1 h2)

/-- One of the caller's blocks has changed. -/
theorem rel_block {tag : Nat → Tag} {c : Mem.St α} {v : Val.St α} (R : Rel tag c v) {k : Nat} {h' : List (Block α)}
    {b : Option (List (Option α))} (hk : Keeps (.ptr k) tag tag c.heap h')
    (H : ∀ p, c.ptrs[k]? = some p → PtrRel tag h' k p b) :
    Rel tag ⟨h', c.objs, c.ptrs⟩ ⟨v.arrs, v.blocks.set k b⟩ := by
  refine ⟨R.len, by simp [R.plen], ?_, ?_⟩
  · intro j o' x' h1 h2
    exact arr_frame hk (fun _ _ h => h) (by simp) (R.arr j o' x' h1 h2)
  · intro l p b' h1 h2
    by_cases hkl : k = l
    · subst hkl
      have h2' := h2
      rw [List.getElem?_set] at h2'
      simp only [if_true] at h2'
      split at h2' <;> simp_all
    · simp only [List.getElem?_set_ne hkl] at h2
      exact ptr_frame hk (by simpa using hkl) (R.ptr l p b' h1 h2)

/-! ### Going through pointers -/

theorem deref_live {h : List (Block α)} {q : Nat} {cells : List (Option α)} (hq : h[q]? = some ⟨cells, true⟩) :
    Mem.deref h (some q) = .ok (q, cells) := by
  simp [Mem.deref, hq]

theorem lookup {β γ : Type} {l : List β} {m : List γ} (hlen : l.length = m.length) {i : Nat} {x : γ} (h : m[i]? = some x) :
    ∃ y, l[i]? = some y := by
  have := (List.getElem?_eq_some_iff.mp h).1
  exact ⟨l[i], by simp [hlen, this]⟩

/-- Two outcomes: both undefined, or both defined with the same result and related states. -/
def Sim (a : Out (Mem.St α × Res α)) (b : Out (Val.St α × Res α)) : Prop :=
  (∃ u u', a = .ub u ∧ b = .ub u') ∨ ∃ c v r tag, a = .ok (c, r) ∧ b = .ok (v, r) ∧ Rel tag c v

theorem sim_ok {c : Mem.St α} {v : Val.St α} {r : Res α} {tag : Nat → Tag} (R : Rel tag c v) :
    Sim (.ok (c, r)) (.ok (v, r)) := .inr ⟨c, v, r, tag, rfl, rfl, R⟩

theorem sim_ub {u u' : UB} : Sim (α := α) (.ub u) (.ub u') := .inl ⟨u, u', rfl, rfl⟩

theorem offset_cases : ∀ (os : List Nat) (idx : List Int),
    (∃ o, NDArray.offset os idx = .ok o) ∨ NDArray.offset os idx = .ub .oob
  | [], _ => .inl ⟨0, rfl⟩
  | _ :: _, [] => .inr rfl
  | o :: os, i :: is => by
    rcases offset_cases os is with ⟨r, h⟩ | h
    · exact .inl ⟨_, by simp [NDArray.offset, h]; rfl⟩
    · right; simp [NDArray.offset, h]

theorem offset_shape {o : Obj} {sz off : List Nat} {st : Nat} (h : Shape o sz off st) (idx : List Int) :
    Mem.offset o idx = NDArray.offset off idx := by
  unfold Mem.offset
  rw [h.offsets, h.dim]
  simp

/-- What an array that can be used looks like from both sides: its elements are in a live block, in the caller's deleted
block, or there are none. -/
theorem contents_cases {tag : Nat → Tag} {c : Mem.St α} {v : Val.St α} (R : Rel tag c v) {i : Nat} {o : Obj} {x : Arr α}
    (ho : c.objs[i]? = some o) (hx : v.arrs[i]? = some x) (hg : x ≠ .gone) :
    (∃ a q, Val.contents v x = .ok a ∧ Shape o a.sizes a.offsets a.storageSize ∧ o.data = some q ∧
        c.heap[q]? = some ⟨a.data, true⟩ ∧
        ∀ cells, Rel tag ⟨c.heap.set q ⟨cells, true⟩, c.objs, c.ptrs⟩ (Val.update v i { a with data := cells } x)) ∨
      (∃ a, x = .own a ∧ Shape o a.sizes a.offsets a.storageSize ∧ o.data = none ∧ a.data = [] ∧ a.storageSize = 0) ∨
      (∃ sz off st k q u, x = .view sz off st k ∧ Shape o sz off st ∧ st ≠ 0 ∧ Val.contents v x = .ub u ∧ o.data = some q ∧
        ∃ cells, c.heap[q]? = some ⟨cells, false⟩) := by
  have H := R.arr i o x ho hx
  cases x with
  | gone => exact absurd rfl hg
  | own a =>
    obtain ⟨h1, h2, h3 | ⟨q, h4, h5, h6⟩⟩ := H
    · exact .inr (.inl ⟨a, rfl, h1, h3.1, h3.2.1, h3.2.2⟩)
    · refine .inl ⟨a, q, rfl, h1, h4, h6, ?_⟩
      intro cells
      have hset : c.objs.set i o = c.objs := by
        obtain ⟨hlt, he⟩ := List.getElem?_eq_some_iff.mp ho
        rw [← he]; simp
      have := rel_set R (i := i) (o := o) (x := .own { a with data := cells }) (h' := c.heap.set q ⟨cells, true⟩)
        (tag' := tag) (by rw [← h5]; exact keeps_set _)
        ⟨⟨h1.alive, h1.dim, h1.sizes, h1.offsets, h1.storage⟩, h2,
          .inr ⟨q, h4, h5, by rw [List.getElem?_set_self (List.getElem?_eq_some_iff.mp h6).1]⟩⟩
      rw [hset] at this
      exact this
  | view sz off st k =>
    obtain ⟨h1, h2, h3, h4⟩ := H
    have hk : k < v.blocks.length := by rw [← R.plen]; exact (List.getElem?_eq_some_iff.mp h4).1
    have hb : v.blocks[k]? = some v.blocks[k] := by simp [hk]
    obtain ⟨q, h5, h6, h7⟩ := R.ptr k _ _ h4 hb
    cases hbk : v.blocks[k] with
    | some cells =>
      rw [hbk] at h7 hb
      refine .inl ⟨⟨sz, off, st, cells⟩, q, by simp [Val.contents, hb], h1, h5, h7, ?_⟩
      intro cells'
      refine rel_block R (by rw [← h6]; exact keeps_set _) ?_
      intro p hp
      rw [h4] at hp
      cases hp
      exact ⟨q, h5, h6, by rw [List.getElem?_set_self (List.getElem?_eq_some_iff.mp h7).1]⟩
    | none =>
      rw [hbk] at h7 hb
      exact .inr (.inr ⟨sz, off, st, k, q, _, rfl, h1, h3, by simp [Val.contents, hb]; rfl, h5, h7⟩)

/-! ### The operations -/

theorem usable {tag : Nat → Tag} {c : Mem.St α} {v : Val.St α} (R : Rel tag c v) {i : Nat} (hu : Val.Usable v i) :
    ∃ o x, c.objs[i]? = some o ∧ v.arrs[i]? = some x ∧ x ≠ .gone ∧ o.alive = true := by
  obtain ⟨x, hx, hg⟩ := hu
  obtain ⟨o, ho⟩ := lookup R.len hx
  refine ⟨o, x, ho, hx, hg, ?_⟩
  have H := R.arr i o x ho hx
  cases x with
  | gone => exact absurd rfl hg
  | own a => exact H.1.alive
  | view => exact H.1.alive

theorem sim_read {tag : Nat → Tag} {c : Mem.St α} {v : Val.St α} (R : Rel tag c v) {i : Nat} (idx : List Int)
    (hu : Val.Usable v i) : Sim (Mem.step c (.read i idx)) (Val.step v (.read i idx)) := by
  obtain ⟨o, x, ho, hx, hg, hal⟩ := usable R hu
  simp only [Mem.step, Val.step, ho, hx, hal, if_true]
  rcases contents_cases R ho hx hg with ⟨a, q, h1, h2, h3, h4, -⟩ | ⟨a, rfl, h2, h3, h4, h5⟩ | ⟨sz, off, st, k, q, u, rfl, h2, -, h3, h4, cells, h5⟩
  · rw [h1, offset_shape h2]
    simp only [Out.ok_bind, NDArray.get]
    rcases offset_cases a.offsets idx with ⟨p, hp⟩ | hp
    · rw [hp]
      simp only [Out.ok_bind, Mem.load, h3, deref_live h4]
      by_cases hb : 0 ≤ p ∧ p < a.data.length
      · simp only [hb, and_self, if_true]
        cases a.data.getD p.toNat none with
        | none => exact sim_ub
        | some y => exact sim_ok R
      · simp only [hb, if_false]
        exact sim_ub
    · rw [hp]; exact sim_ub
  · rw [offset_shape h2]
    simp only [Val.contents, Out.ok_bind, NDArray.get]
    rcases offset_cases a.offsets idx with ⟨p, hp⟩ | hp
    · rw [hp]
      have : ¬ (0 ≤ p ∧ p < a.data.length) := by rw [h4]; simp only [List.length_nil]; omega
      simp only [Out.ok_bind, Mem.load, h3, Mem.deref, this, if_false]
      exact sim_ub
    · rw [hp]; exact sim_ub
  · rw [h3, offset_shape h2]
    rcases offset_cases off idx with ⟨p, hp⟩ | hp
    · rw [hp]
      simp only [Out.ok_bind, Mem.load, h4, Mem.deref, h5]
      exact sim_ub
    · rw [hp]; exact sim_ub

theorem sim_write {tag : Nat → Tag} {c : Mem.St α} {v : Val.St α} (R : Rel tag c v) {i : Nat} (idx : List Int) (y : α)
    (hu : Val.Usable v i) : Sim (Mem.step c (.write i idx y)) (Val.step v (.write i idx y)) := by
  obtain ⟨o, x, ho, hx, hg, hal⟩ := usable R hu
  simp only [Mem.step, Val.step, ho, hx, hal, if_true]
  rcases contents_cases R ho hx hg with ⟨a, q, h1, h2, h3, h4, h5⟩ | ⟨a, rfl, h2, h3, h4, h5⟩ | ⟨sz, off, st, k, q, u, rfl, h2, -, h3, h4, cells, h5⟩
  · rw [h1, offset_shape h2]
    simp only [Out.ok_bind, NDArray.set]
    rcases offset_cases a.offsets idx with ⟨p, hp⟩ | hp
    · rw [hp]
      simp only [Out.ok_bind, Mem.store, h3, deref_live h4]
      by_cases hb : 0 ≤ p ∧ p < a.data.length
      · simp only [hb, and_self, if_true]
        exact sim_ok (h5 _)
      · simp only [hb, if_false]
        exact sim_ub
    · rw [hp]; exact sim_ub
  · rw [offset_shape h2]
    simp only [Val.contents, Out.ok_bind, NDArray.set]
    rcases offset_cases a.offsets idx with ⟨p, hp⟩ | hp
    · rw [hp]
      have : ¬ (0 ≤ p ∧ p < a.data.length) := by rw [h4]; simp only [List.length_nil]; omega
      simp only [Out.ok_bind, Mem.store, h3, Mem.deref, this, if_false]
      exact sim_ub
    · rw [hp]; exact sim_ub
  · rw [h3, offset_shape h2]
    rcases offset_cases off idx with ⟨p, hp⟩ | hp
    · rw [hp]
      simp only [Out.ok_bind, Mem.store, h4, Mem.deref, h5]
      exact sim_ub
    · rw [hp]; exact sim_ub

theorem sim_assign {tag : Nat → Tag} {c : Mem.St α} {v : Val.St α} (R : Rel tag c v) {i : Nat} (y : α)
    (hu : Val.Usable v i) : Sim (Mem.step c (.assign i y)) (Val.step v (.assign i y)) := by
  obtain ⟨o, x, ho, hx, hg, hal⟩ := usable R hu
  simp only [Mem.step, Val.step, ho, hx, hal, if_true]
  rcases contents_cases R ho hx hg with ⟨a, q, h1, h2, h3, h4, h5⟩ | ⟨a, rfl, h2, h3, h4, h5⟩ | ⟨sz, off, st, k, q, u, rfl, h2, hst, h3, h4, cells, h5⟩
  · rw [h1]
    simp only [Out.ok_bind, NDArray.assign, Mem.fill, h2.storage, h3, deref_live h4]
    by_cases hz : a.storageSize = 0
    · simp only [hz, if_true, Nat.zero_le, List.replicate_zero, List.nil_append, List.drop_zero]
      have := h5 a.data
      rw [show c.heap.set q ⟨a.data, true⟩ = c.heap from by
        obtain ⟨hlt, he⟩ := List.getElem?_eq_some_iff.mp h4
        rw [← he]; simp] at this
      simp only [hz] at this
      exact sim_ok this
    · simp only [hz, if_false]
      by_cases hb : a.storageSize ≤ a.data.length
      · simp only [hb, if_true]
        exact sim_ok (h5 _)
      · simp only [hb, if_false]
        exact sim_ub
  · simp only [Val.contents, Out.ok_bind, NDArray.assign, Mem.fill, h2.storage, h5, if_true, Nat.zero_le, List.replicate_zero,
      List.nil_append, List.drop_zero]
    have hset : v.arrs.set i (.own a) = v.arrs := by
      obtain ⟨hlt, he⟩ := List.getElem?_eq_some_iff.mp hx
      rw [← he]; simp
    have : Val.update v i a (.own a) = v := by simp [Val.update, hset]
    refine sim_ok (tag := tag) ?_
    rw [show ({ sizes := a.sizes, offsets := a.offsets, storageSize := 0, data := a.data } : NDArray α) = a from by
      rw [← h5]] 
    rw [this]
    exact R
  · simp only [h3, Mem.fill, h2.storage, hst, if_false, h4, Mem.deref, h5]
    exact sim_ub

/-- The elements of an owning array. -/
def Holds (tag : Nat → Tag) (h : List (Block α)) (i : Nat) (o : Obj) (a : NDArray α) : Prop :=
  (o.data = none ∧ a.data = [] ∧ a.storageSize = 0) ∨ ∃ q, o.data = some q ∧ tag q = .arr i ∧ h[q]? = some ⟨a.data, true⟩

theorem deallocate_holds {tag : Nat → Tag} {h : List (Block α)} {i : Nat} {o : Obj} {a : NDArray α} (H : Holds tag h i o a) :
    ∃ h', Mem.deallocate h o.data = .ok h' ∧ Keeps (.arr i) tag tag h h' := by
  rcases H with ⟨h1, -⟩ | ⟨q, h1, h2, h3⟩
  · exact ⟨h, by rw [h1]; rfl, keeps_refl _ _ _⟩
  · refine ⟨h.set q ⟨a.data, false⟩, by simp [Mem.deallocate, h1, h3], ?_⟩
    rw [← h2]
    exact keeps_set _

theorem resize_sim {tag : Nat → Tag} {h : List (Block α)} (ptrs : List (Option Nat)) {i : Nat} {o : Obj} {a : NDArray α}
    (hal : o.alive = true) (how : o.owned = true) (hst : o.storage = a.storageSize) (H : Holds tag h i o a) (sizes : List Nat) :
    (∃ u u', Mem.resize h o sizes = .ub u ∧ a.resize sizes = .ub u') ∨
      ∃ h' o' a' tag', Mem.resize h o sizes = .ok (h', o', .done) ∧ a.resize sizes = .ok a' ∧
        Keeps (.arr i) tag tag' h h' ∧ ArrRel tag' h' ptrs i o' (.own a') ∧ a'.storageSize ≠ 0 ∧ a'.storageSize = prodSizes sizes := by
  match sizes with
  | [] => exact .inl ⟨_, _, by simp [Mem.resize, how]; rfl, rfl⟩
  | n :: s =>
    by_cases hgrow : prodSizes (n :: s) > a.storageSize
    · obtain ⟨h1, hd, hk⟩ := deallocate_holds H
      rcases computeOffsets_cases (n :: s) (prodSizes (n :: s)) with ⟨off, h2, h3, h4⟩ | h2
      · refine .inr ⟨h1 ++ [⟨List.replicate (prodSizes (n :: s)) none, true⟩],
          { o with dim := (n :: s).length, sizes := n :: s, storage := prodSizes (n :: s), data := some h1.length, offsets := off },
          ⟨n :: s, off, prodSizes (n :: s), List.replicate (prodSizes (n :: s)) none⟩, retag tag h1.length (.arr i), ?_, ?_, keeps_trans hk (keeps_append (.arr i) _ (.arr i)), ?_, h4, rfl⟩
        rotate_left
        · simp only [NDArray.resize, h2, Out.ok_bind, hgrow, if_true]
          rfl
        rotate_left
        · simp only [Mem.resize, how, if_true, hst, hgrow, hd, Out.ok_bind, h2, Mem.allocate]
          rfl
        · refine ⟨⟨hal, by simp [h3], rfl, rfl, rfl⟩, how, .inr ⟨h1.length, rfl, by simp [retag], by simp⟩⟩
      · exact .inl ⟨_, _, by simp only [Mem.resize, how, if_true, hst, hgrow, hd, Out.ok_bind, h2, Mem.allocate]; rfl,
          by simp only [NDArray.resize, h2]; rfl⟩
    · rcases computeOffsets_cases (n :: s) (prodSizes (n :: s)) with ⟨off, h2, h3, h4⟩ | h2
      · refine .inr ⟨h, { o with dim := (n :: s).length, sizes := n :: s, storage := prodSizes (n :: s), offsets := off },
          ⟨n :: s, off, prodSizes (n :: s), a.data⟩, tag, ?_, ?_, keeps_refl _ _ _, ?_, h4, rfl⟩
        rotate_left
        · simp only [NDArray.resize, h2, Out.ok_bind, hgrow, if_false]
          rfl
        rotate_left
        · simp only [Mem.resize, how, if_true, hst, hgrow, if_false, Out.ok_bind, h2]
          rfl
        · refine ⟨⟨hal, by simp [h3], rfl, rfl, rfl⟩, how, ?_⟩
          rcases H with ⟨-, -, h5⟩ | H
          · omega
          · exact .inr H
      · exact .inl ⟨_, _, by simp only [Mem.resize, how, if_true, hst, hgrow, if_false, h2]; rfl,
          by simp only [NDArray.resize, h2]; rfl⟩

theorem sim_new {tag : Nat → Tag} {c : Mem.St α} {v : Val.St α} (R : Rel tag c v) (sizes : List Nat) :
    Sim (Mem.step c (.new sizes)) (Val.step v (.new sizes)) := by
  rcases resize_sim (tag := tag) (h := c.heap) c.ptrs (i := c.objs.length)
    (o := { Heap.empty with dim := sizes.length, sizes := sizes }) (a := (NDArray.empty : NDArray α)) rfl rfl rfl
    (.inl ⟨rfl, rfl, rfl⟩) sizes with ⟨u, u', h1, h2⟩ | ⟨h', o', a', tag', h1, h2, h3, h4, -, -⟩
  · simp only [Mem.step, Val.step, h1, NDArray.new, h2]
    exact sim_ub
  · simp only [Mem.step, Val.step, h1, NDArray.new, h2, Out.ok_bind]
    exact sim_ok (rel_push R h3 h4)

theorem sim_resize {tag : Nat → Tag} {c : Mem.St α} {v : Val.St α} (R : Rel tag c v) {i : Nat} (sizes : List Nat)
    (hu : Val.Usable v i) : Sim (Mem.step c (.resize i sizes)) (Val.step v (.resize i sizes)) := by
  obtain ⟨o, x, ho, hx, hg, hal⟩ := usable R hu
  simp only [Mem.step, Val.step, ho, hx, hal, if_true]
  have H := R.arr i o x ho hx
  cases x with
  | gone => exact absurd rfl hg
  | own a =>
    obtain ⟨h1, h2, h3⟩ := H
    rcases resize_sim c.ptrs hal h2 h1.storage h3 sizes with ⟨u, u', h1, h2⟩ | ⟨h', o', a', tag', h1, h2, h3, h4, -, -⟩
    · simp only [h1, h2]; exact sim_ub
    · simp only [h1, h2]; exact sim_ok (rel_set R h3 h4)
  | view sz off st k =>
    obtain ⟨h1, h2, h3⟩ := H
    have hset : c.objs.set i o = c.objs := by
      obtain ⟨hlt, he⟩ := List.getElem?_eq_some_iff.mp ho
      rw [← he]; simp
    simp only [Mem.resize, h2, Bool.false_eq_true, if_false, Out.ok_bind, hset]
    exact sim_ok R

theorem sim_wrap {tag : Nat → Tag} {c : Mem.St α} {v : Val.St α} (R : Rel tag c v) (sizes : List Nat) {k : Nat}
    (hk : k < v.blocks.length) : Sim (Mem.step c (.wrap sizes k)) (Val.step v (.wrap sizes k)) := by
  have hk' : k < c.ptrs.length := R.plen ▸ hk
  have hp : c.ptrs[k]? = some c.ptrs[k] := by simp [hk']
  simp only [Mem.step, Val.step, hp]
  match sizes with
  | [] => exact sim_ub
  | n :: s =>
    simp only [Mem.wrapObj, NDArray.wrap]
    rcases computeOffsets_cases (n :: s) (prodSizes (n :: s)) with ⟨off, h2, h3, h4⟩ | h2
    · rw [h2]
      simp only [Out.ok_bind]
      exact sim_ok (rel_push R (keeps_refl _ _ _) ⟨⟨rfl, by simp [h3], rfl, rfl, rfl⟩, rfl, h4, hp⟩)
    · rw [h2]; exact sim_ub

theorem sim_new0 {tag : Nat → Tag} {c : Mem.St α} {v : Val.St α} (R : Rel tag c v) :
    Sim (Mem.step c .new0) (Val.step v .new0) :=
  sim_ok (rel_push R (keeps_refl _ _ _) ⟨⟨rfl, rfl, rfl, rfl, rfl⟩, rfl, .inl ⟨rfl, rfl, rfl⟩⟩)

theorem sim_move {tag : Nat → Tag} {c : Mem.St α} {v : Val.St α} (R : Rel tag c v) {i : Nat} (hu : Val.Usable v i) :
    Sim (Mem.step c (.move i)) (Val.step v (.move i)) := by
  obtain ⟨o, x, ho, hx, hg, hal⟩ := usable R hu
  simp only [Mem.step, Val.step, ho, hx, hal, if_true]
  have H := R.arr i o x ho hx
  have key : ∃ tag', Keeps (.arr i) tag tag' c.heap c.heap ∧ ArrRel tag' c.heap c.ptrs c.objs.length o x := by
    cases x with
    | gone => exact absurd rfl hg
    | own a =>
      obtain ⟨h1, h2, h3 | ⟨q, h3, h4, h5⟩⟩ := H
      · exact ⟨tag, keeps_refl _ _ _, h1, h2, .inl h3⟩
      · refine ⟨retag tag q (.arr c.objs.length), by rw [← h4]; exact keeps_retag _ _, h1, h2, .inr ⟨q, h3, by simp [retag], h5⟩⟩
    | view sz off st k => exact ⟨tag, keeps_refl _ _ _, H⟩
  obtain ⟨tag', h1, h2⟩ := key
  have R1 : Rel tag' ⟨c.heap, c.objs.set i (Heap.moveFrom o), c.ptrs⟩ ⟨v.arrs.set i .gone, v.blocks⟩ :=
    rel_set R h1 (fun _ => rfl)
  have R2 := rel_push R1 (o := o) (x := x) (keeps_refl _ tag' _) (by simpa using h2)
  exact sim_ok R2

theorem sim_destroy {tag : Nat → Tag} {c : Mem.St α} {v : Val.St α} (R : Rel tag c v) (i : Nat) :
    Sim (Mem.step c (.destroy i)) (Val.step v (.destroy i)) := by
  simp only [Mem.step, Val.step]
  cases hx : v.arrs[i]? with
  | none =>
    have h1 : v.arrs.length ≤ i := List.getElem?_eq_none_iff.mp hx
    have h2 : c.objs[i]? = none := List.getElem?_eq_none_iff.mpr (R.len ▸ h1)
    rw [h2, List.set_eq_of_length_le h1]
    exact sim_ok R
  | some x =>
    obtain ⟨o, ho⟩ := lookup R.len hx
    simp only [ho]
    have H := R.arr i o x ho hx
    by_cases hal : o.alive = true
    · simp only [hal, if_true, Mem.destroy]
      by_cases how : o.owned = true
      · cases x with
        | gone => exact absurd (H hal) (by simp [how])
        | own a =>
          obtain ⟨h', h1, h2⟩ := deallocate_holds H.2.2
          simp only [how, if_true, h1, Out.ok_bind]
          exact sim_ok (rel_set R h2 (x := .gone) (by intro h; simp at h))
        | view => exact absurd H.2.1 (by simp [how])
      · simp only [how, if_false, Out.ok_bind, Bool.false_eq_true]
        exact sim_ok (rel_set R (keeps_refl _ _ _) (x := .gone) (by intro h; simp at h))
    · simp only [hal, Bool.false_eq_true, if_false]
      have hset : c.objs.set i o = c.objs := by
        obtain ⟨hlt, he⟩ := List.getElem?_eq_some_iff.mp ho
        rw [← he]; simp
      have := rel_set R (i := i) (keeps_refl _ tag _) (x := .gone) (o := o) (by intro h; exact absurd h hal)
      rw [hset] at this
      exact sim_ok this

theorem sim_release {tag : Nat → Tag} {c : Mem.St α} {v : Val.St α} (R : Rel tag c v) {i : Nat} (hu : Val.Usable v i)
    (hs : ∀ a, v.arrs[i]? = some (.own a) → a.storageSize ≠ 0) :
    Sim (Mem.step c (.release i)) (Val.step v (.release i)) := by
  obtain ⟨o, x, ho, hx, hg, hal⟩ := usable R hu
  have H := R.arr i o x ho hx
  cases x with
  | gone => exact absurd rfl hg
  | own a =>
    obtain ⟨h1, h2, h3 | ⟨q, h3, h4, h5⟩⟩ := H
    · exact absurd h3.2.2 (hs a hx)
    · simp only [Mem.step, Val.step, ho, hx, hal, h2, and_self, if_true, h3]
      have hk : Keeps (.arr i) tag (retag tag q (.ptr c.ptrs.length)) c.heap c.heap := by rw [← h4]; exact keeps_retag _ _
      refine sim_ok (tag := retag tag q (.ptr c.ptrs.length)) ?_
      have hext : ∀ (k : Nat) (p : Option Nat), c.ptrs[k]? = some p → (c.ptrs ++ [some q])[k]? = some p := by
        intro k p h
        rw [List.getElem?_append_left (List.getElem?_eq_some_iff.mp h).1]; exact h
      refine ⟨by simp [R.len], by simp [R.plen], ?_, ?_⟩
      · intro j o' x' h6 h7
        by_cases hij : i = j
        · subst hij
          have hi := (List.getElem?_eq_some_iff.mp ho).1
          have hi' := (List.getElem?_eq_some_iff.mp hx).1
          simp only [List.getElem?_set_self hi, List.getElem?_set_self hi', Option.some.injEq] at h6 h7
          subst h6 h7
          exact ⟨⟨rfl, h1.dim, h1.sizes, h1.offsets, h1.storage⟩, rfl, hs a hx, by simp [← R.plen]⟩
        · simp only [List.getElem?_set_ne hij] at h6 h7
          exact arr_frame hk hext (by simpa using hij) (R.arr j o' x' h6 h7)
      · intro k p b h6 h7
        dsimp only at h6 h7
        rcases Nat.lt_trichotomy k c.ptrs.length with hj | hj | hj
        · rw [List.getElem?_append_left hj] at h6
          rw [List.getElem?_append_left (R.plen ▸ hj)] at h7
          exact ptr_frame hk (by simp) (R.ptr k p b h6 h7)
        · subst hj
          have h7' : (v.blocks ++ [some a.data])[v.blocks.length]? = some b := R.plen ▸ h7
          simp at h6 h7'
          subst h6 h7'
          exact ⟨q, rfl, by simp [retag], h5⟩
        · exfalso
          have := (List.getElem?_eq_some_iff.mp h6).1
          simp at this
          omega
  | view sz off st k =>
    simp only [Mem.step, Val.step, ho, hx, H.2.1, Bool.false_eq_true, and_false, if_false]
    exact sim_ok R

theorem sim_callerNew {tag : Nat → Tag} {c : Mem.St α} {v : Val.St α} (R : Rel tag c v) (n : Nat) :
    Sim (Mem.step c (.callerNew n)) (Val.step v (.callerNew n)) := by
  simp only [Mem.step, Val.step, Mem.allocate]
  have hk := keeps_append (.ptr c.ptrs.length) (tag := tag) (h := c.heap) (⟨List.replicate n none, true⟩ : Block α) (.ptr c.ptrs.length)
  refine sim_ok (tag := retag tag c.heap.length (.ptr c.ptrs.length)) ⟨R.len, by simp [R.plen], ?_, ?_⟩
  · intro j o' x' h6 h7
    refine arr_frame hk ?_ (by simp) (R.arr j o' x' h6 h7)
    intro k p h
    dsimp only
    rw [List.getElem?_append_left (List.getElem?_eq_some_iff.mp h).1]; exact h
  · intro k p b h6 h7
    dsimp only at h6 h7
    rcases Nat.lt_trichotomy k c.ptrs.length with hj | hj | hj
    · rw [List.getElem?_append_left hj] at h6
      rw [List.getElem?_append_left (R.plen ▸ hj)] at h7
      exact ptr_frame hk (by simp; omega) (R.ptr k p b h6 h7)
    · subst hj
      have h7' : (v.blocks ++ [some (List.replicate n none)])[v.blocks.length]? = some b := R.plen ▸ h7
      simp at h6 h7'
      subst h6 h7'
      exact ⟨c.heap.length, rfl, by simp [retag], by simp⟩
    · exfalso
      have := (List.getElem?_eq_some_iff.mp h6).1
      simp at this
      omega

theorem sim_callerRead {tag : Nat → Tag} {c : Mem.St α} {v : Val.St α} (R : Rel tag c v) {k : Nat} (o : Nat)
    (hk : k < v.blocks.length) : Sim (Mem.step c (.callerRead k o)) (Val.step v (.callerRead k o)) := by
  have hk' : k < c.ptrs.length := R.plen ▸ hk
  have hp : c.ptrs[k]? = some c.ptrs[k] := by simp [hk']
  have hb : v.blocks[k]? = some v.blocks[k] := by simp [hk]
  obtain ⟨q, h1, h2, h3⟩ := R.ptr k _ _ hp hb
  simp only [Mem.step, Val.step, hp, hb, h1]
  cases hc : v.blocks[k] with
  | some cells =>
    rw [hc] at h3
    simp only [Mem.load, deref_live h3, Out.ok_bind]
    by_cases ho : o < cells.length
    · have : (0 : Int) ≤ (o : Int) ∧ (o : Int) < cells.length := by omega
      simp only [this, and_self, if_true, Int.toNat_natCast, List.getD_eq_getElem?_getD, List.getElem?_eq_getElem ho, Option.getD_some]
      cases cells[o] with
      | none => exact sim_ub
      | some y => exact sim_ok R
    · have : ¬ ((0 : Int) ≤ (o : Int) ∧ (o : Int) < cells.length) := by omega
      simp only [this, if_false, List.getElem?_eq_none (Nat.le_of_not_lt ho)]
      exact sim_ub
  | none =>
    rw [hc] at h3
    obtain ⟨cells, h3⟩ := h3
    simp only [Mem.load, Mem.deref, h3]
    exact sim_ub

theorem sim_callerWrite {tag : Nat → Tag} {c : Mem.St α} {v : Val.St α} (R : Rel tag c v) {k : Nat} (o : Nat) (y : α)
    (hk : k < v.blocks.length) : Sim (Mem.step c (.callerWrite k o y)) (Val.step v (.callerWrite k o y)) := by
  have hk' : k < c.ptrs.length := R.plen ▸ hk
  have hp : c.ptrs[k]? = some c.ptrs[k] := by simp [hk']
  have hb : v.blocks[k]? = some v.blocks[k] := by simp [hk]
  obtain ⟨q, h1, h2, h3⟩ := R.ptr k _ _ hp hb
  simp only [Mem.step, Val.step, hp, hb, h1]
  cases hc : v.blocks[k] with
  | some cells =>
    rw [hc] at h3
    simp only [Mem.store, deref_live h3, Out.ok_bind]
    by_cases ho : o < cells.length
    · have : (0 : Int) ≤ (o : Int) ∧ (o : Int) < cells.length := by omega
      simp only [this, and_self, if_true, Int.toNat_natCast, ho]
      refine sim_ok (rel_block R (by rw [← h2]; exact keeps_set _) ?_)
      intro p hp'
      rw [hp] at hp'
      cases hp'
      exact ⟨q, h1, h2, by rw [List.getElem?_set_self (List.getElem?_eq_some_iff.mp h3).1]⟩
    · have : ¬ ((0 : Int) ≤ (o : Int) ∧ (o : Int) < cells.length) := by omega
      simp only [this, if_false, ho]
      exact sim_ub
  | none =>
    rw [hc] at h3
    obtain ⟨cells, h3⟩ := h3
    simp only [Mem.store, Mem.deref, h3]
    exact sim_ub

theorem sim_callerDelete {tag : Nat → Tag} {c : Mem.St α} {v : Val.St α} (R : Rel tag c v) {k : Nat}
    (hk : k < v.blocks.length) : Sim (Mem.step c (.callerDelete k)) (Val.step v (.callerDelete k)) := by
  have hk' : k < c.ptrs.length := R.plen ▸ hk
  have hp : c.ptrs[k]? = some c.ptrs[k] := by simp [hk']
  have hb : v.blocks[k]? = some v.blocks[k] := by simp [hk]
  obtain ⟨q, h1, h2, h3⟩ := R.ptr k _ _ hp hb
  simp only [Mem.step, Val.step, hp, hb, h1]
  cases hc : v.blocks[k] with
  | some cells =>
    rw [hc] at h3
    simp only [Mem.deallocate, h3, Out.ok_bind, if_true]
    refine sim_ok (rel_block R (by rw [← h2]; exact keeps_set _) ?_)
    intro p hp'
    rw [hp] at hp'
    cases hp'
    exact ⟨q, h1, h2, cells, by rw [List.getElem?_set_self (List.getElem?_eq_some_iff.mp h3).1]⟩
  | none =>
    rw [hc] at h3
    obtain ⟨cells, h3⟩ := h3
    simp only [Mem.deallocate, h3]
    exact sim_ub

theorem readAll_cases (cells : List (Option α)) (n : Nat) :
    (∃ xs, Mem.readAll cells n = .ok xs) ∨ ∃ u, Mem.readAll cells n = .ub u := by
  unfold Mem.readAll
  split
  · have : ∀ l : List (Option α), (∃ xs, (l.mapM (fun x : Option α => match x with
        | some x => (Out.ok x : Out α)
        | none => .ub .uninit) : Out (List α)) = .ok xs) ∨ ∃ u, (l.mapM (fun x : Option α => match x with
        | some x => (Out.ok x : Out α)
        | none => .ub .uninit) : Out (List α)) = .ub u := by
      intro l
      induction l with
      | nil => exact .inl ⟨[], rfl⟩
      | cons x l ih =>
        rw [List.mapM_cons]
        cases x with
        | none => exact .inr ⟨_, rfl⟩
        | some x =>
          simp only [Out.ok_bind]
          rcases ih with ⟨xs, h⟩ | ⟨u, h⟩
          · rw [h]; exact .inl ⟨_, rfl⟩
          · rw [h]; exact .inr ⟨_, rfl⟩
    exact this _
  · exact .inr ⟨_, rfl⟩

theorem readAll_length {cells : List (Option α)} {n : Nat} {xs : List α} (h : Mem.readAll cells n = .ok xs) : xs.length = n := by
  unfold Mem.readAll at h
  split at h
  · rename_i hn
    have : ∀ (l : List (Option α)) (xs : List α), (l.mapM (fun x : Option α => match x with
        | some x => (Out.ok x : Out α)
        | none => .ub .uninit) : Out (List α)) = .ok xs → xs.length = l.length := by
      intro l
      induction l with
      | nil => intro xs h; cases h; rfl
      | cons x l ih =>
        intro xs h
        rw [List.mapM_cons] at h
        obtain ⟨y, -, h⟩ := Out.bind_eq_ok.mp h
        obtain ⟨ys, h1, h⟩ := Out.bind_eq_ok.mp h
        cases h
        simp [ih ys h1]
    rw [this _ _ h]
    simp [hn]
  · cases h

theorem sim_copy {tag : Nat → Tag} {c : Mem.St α} {v : Val.St α} (R : Rel tag c v) {i j : Nat} (hu : Val.Usable v i)
    (hw : Val.Usable v j) (hij : i ≠ j) : Sim (Mem.step c (.copy i j)) (Val.step v (.copy i j)) := by
  obtain ⟨o, x, ho, hx, hg, hal⟩ := usable R hu
  obtain ⟨o', y, ho', hy, hg', hal'⟩ := usable R hw
  have H := R.arr j o' y ho' hy
  cases y with
  | gone => exact absurd rfl hg'
  | view sz off st k =>
    obtain ⟨h1, h2, h3⟩ := H
    have hset : c.objs.set j o' = c.objs := by
      obtain ⟨hlt, he⟩ := List.getElem?_eq_some_iff.mp ho'
      rw [← he]; simp
    simp only [Mem.step, Val.step, ho, ho', hx, hy, hal, hal', and_self, if_true, Mem.resize, h2, Bool.false_eq_true, if_false,
      Out.ok_bind, hset]
    exact sim_ok R
  | own b =>
    simp only [Mem.step, Val.step, ho, ho', hx, hy, hal, hal', and_self, if_true]
    obtain ⟨g1, g2, g3⟩ := H
    have hsz : (∃ a, Val.contents v x = .ok a ∧ Shape o a.sizes a.offsets a.storageSize) ∨ (∃ u, Val.contents v x = .ub u) := by
      rcases contents_cases R ho hx hg with ⟨a, q, h1, h2, -⟩ | ⟨a, rfl, h2, -⟩ | ⟨sz, off, st, k, q, u, rfl, -, -, h3, -⟩
      · exact .inl ⟨a, h1, h2⟩
      · exact .inl ⟨a, rfl, h2⟩
      · exact .inr ⟨u, h3⟩
    rcases resize_sim c.ptrs hal' g2 g1.storage g3 o.sizes with ⟨u, u', h1, h2⟩ | ⟨h', b₁, b', tag', h1, h2, h3, h4, h5, -⟩
    · rw [h1]
      rcases hsz with ⟨a, ha, hs⟩ | ⟨u, ha⟩
      · rw [ha]
        rw [hs.sizes] at h2
        simp only [Out.ok_bind, NDArray.copy, h2]
        exact sim_ub
      · rw [ha]; exact sim_ub
    · rw [h1]
      simp only [Out.ok_bind]
      have R' : Rel tag' ⟨h', c.objs.set j b₁, c.ptrs⟩ ⟨v.arrs.set j (.own b'), v.blocks⟩ := rel_set R h3 h4
      have ho2 : (c.objs.set j b₁)[i]? = some o := by rw [List.getElem?_set_ne (Ne.symm hij)]; exact ho
      have hx2 : (v.arrs.set j (.own b'))[i]? = some x := by rw [List.getElem?_set_ne (Ne.symm hij)]; exact hx
      have hcont : Val.contents ⟨v.arrs.set j (.own b'), v.blocks⟩ x = Val.contents v x := by cases x <;> rfl
      have hoj : (c.objs.set j b₁)[j]? = some b₁ := List.getElem?_set_self (List.getElem?_eq_some_iff.mp ho').1
      have hxj : (v.arrs.set j (.own b'))[j]? = some (.own b') := List.getElem?_set_self (List.getElem?_eq_some_iff.mp hy).1
      have hfin : ∀ d : NDArray α, (Val.update ⟨v.arrs.set j (.own b'), v.blocks⟩ j d (.own b')) = ⟨v.arrs.set j (.own d), v.blocks⟩ := by
        intro d; simp [Val.update]
      -- the destination
      rcases contents_cases R' hoj hxj (by simp) with ⟨a2, q2, k1, k2, k3, k4, k5⟩ | ⟨a2, k1, -, -, -, k2⟩ | ⟨_, _, _, _, _, _, k1, _⟩
      rotate_left
      · cases k1; exact absurd k2 h5
      · cases k1
      cases k1
      -- the source
      rcases contents_cases R' ho2 hx2 hg with ⟨a, q, e1, e2, e3, e4, -⟩ | ⟨a, rfl, e2, -, e4, e5⟩ | ⟨sz, off, st, k, q, u, rfl, e2, est, e3, e4, cells, e5⟩
      · rw [hcont] at e1
        rw [e1]
        have h2' := h2
        rw [e2.sizes] at h2'
        simp only [Out.ok_bind, NDArray.copy, h2']
        have hra : a.readAll = Mem.readAll a.data a.storageSize := rfl
        rw [hra]
        unfold Mem.copyRange
        rw [e2.storage, e3, k3]
        by_cases hz : a.storageSize = 0
        · have hr0 : Mem.readAll a.data a.storageSize = .ok [] := by
            rw [hz]; simp [Mem.readAll, List.mapM_nil]
          rw [hr0]
          have hset : h'.set q2 ⟨b'.data, true⟩ = h' := by
            obtain ⟨hlt, he⟩ := List.getElem?_eq_some_iff.mp k4
            rw [← he]; simp
          simp only [hz, if_true, Out.ok_bind, NDArray.copyIn, List.length_nil, Nat.zero_le, List.map_nil, List.nil_append, List.drop_zero]
          have := k5 b'.data
          rw [hfin, hset] at this
          exact sim_ok this
        · simp only [hz, if_false, deref_live e4, Out.ok_bind]
          rcases readAll_cases a.data a.storageSize with ⟨xs, hxs⟩ | ⟨u, hu'⟩
          · rw [hxs]
            have hl := readAll_length hxs
            simp only [Out.ok_bind, deref_live k4, NDArray.copyIn, hl]
            by_cases hb : a.storageSize ≤ b'.data.length
            · simp only [hb, if_true, Out.ok_bind]
              have := k5 (xs.map some ++ b'.data.drop a.storageSize)
              rw [hfin] at this
              exact sim_ok this
            · simp only [hb, if_false]
              exact sim_ub
          · rw [hu']; exact sim_ub
      · have h2' := h2
        rw [e2.sizes] at h2'
        have hr0 : a.readAll = .ok [] := by
          simp [NDArray.readAll, e5]
        have hset : h'.set q2 ⟨b'.data, true⟩ = h' := by
          obtain ⟨hlt, he⟩ := List.getElem?_eq_some_iff.mp k4
          rw [← he]; simp
        simp only [Val.contents, Out.ok_bind, NDArray.copy, h2', hr0, Mem.copyRange, e2.storage, e5, if_true, NDArray.copyIn,
          List.length_nil, Nat.zero_le, List.map_nil, List.nil_append, List.drop_zero]
        have := k5 b'.data
        rw [hfin, hset] at this
        exact sim_ok this
      · rw [hcont] at e3
        rw [e3]
        unfold Mem.copyRange
        simp only [e2.storage, est, if_false, e4, Mem.deref, e5]
        exact sim_ub

theorem sim_step {tag : Nat → Tag} {c : Mem.St α} {v : Val.St α} (R : Rel tag c v) {op : Op α} (ha : Val.Allowed v op) :
    Sim (Mem.step c op) (Val.step v op) := by
  cases op with
  | new0 => exact sim_new0 R
  | new sizes => exact sim_new R sizes
  | wrap sizes k => exact sim_wrap R sizes ha
  | move i => exact sim_move R ha
  | resize i sizes => exact sim_resize R sizes ha
  | release i => exact sim_release R ha.1 ha.2
  | destroy i => exact sim_destroy R i
  | read i idx => exact sim_read R idx ha
  | write i idx x => exact sim_write R idx x ha
  | assign i x => exact sim_assign R x ha
  | copy i j => exact sim_copy R ha.1 ha.2.1 ha.2.2
  | callerNew n => exact sim_callerNew R n
  | callerRead k o => exact sim_callerRead R o ha
  | callerWrite k o x => exact sim_callerWrite R o x ha
  | callerDelete k => exact sim_callerDelete R ha

theorem sim_run : ∀ (ops : List (Op α)) {tag : Nat → Tag} {c : Mem.St α} {v : Val.St α}, Rel tag c v → Val.Proper v ops →
    (∃ u u', Mem.run c ops = .ub u ∧ Val.run v ops = .ub u') ∨
      ∃ c' v' rs tag', Mem.run c ops = .ok (c', rs) ∧ Val.run v ops = .ok (v', rs) ∧ Rel tag' c' v'
  | [], tag, c, v, R, _ => .inr ⟨c, v, [], tag, rfl, rfl, R⟩
  | op :: ops, tag, c, v, R, hp => by
    obtain ⟨ha, hp⟩ := hp
    rcases sim_step R ha with ⟨u, u', h1, h2⟩ | ⟨c', v', r, tag', h1, h2, R'⟩
    · exact .inl ⟨u, u', by simp [Mem.run, h1], by simp [Val.run, h2]⟩
    · rcases sim_run ops R' (hp v' r h2) with ⟨u, u', h3, h4⟩ | ⟨c'', v'', rs, tag'', h3, h4, R''⟩
      · exact .inl ⟨u, u', by simp [Mem.run, h1, h3], by simp [Val.run, h2, h4]⟩
      · exact .inr ⟨c'', v'', r :: rs, tag'', by simp [Mem.run, h1, h3], by simp [Val.run, h2, h4], R''⟩

end HL.HeapData
